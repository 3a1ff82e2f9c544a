import Verif.Spec.Arc2Warc
import Verif.Spec.Salvage
/-
  What arc2warc should write for files with any contents, in terms of what a program that reads the same files gets.
-/
namespace Warc.Spec
open _root_.Warc.Stream
open Arc2Warc (Cfg St)

/-- what a program that reads a file of ARC and WARC records notes about a record: its class, `record.version`, `record.headers`,
`record.raw_headers` (joined) and `record.content` -/
structure Piece where
  cls : Cls
  version : Bytes
  headers : List Header
  raw : Bytes
  content : Option Bytes × Option Bytes
  deriving DecidableEq

/--
```
for record in stream:
    pieces.append((record.__class__, record.version, record.headers, b"".join(record.raw_headers), record.content))
```
and whether this loop ended without an exception.  Fuel bounds the number of rounds. -/
def pieces : Nat → Stream → List Piece × Bool
  | 0, _ => ([], false)
  | fuel + 1, s =>
    match readRecord false s with
    | .ok e s' =>
      match e.rcd with
      | none => ([], e.errors.isEmpty)
      | some r =>
        match World.content ⟨s', r, []⟩ with
        | .ok c w =>
          let q := pieces fuel w.strm
          (⟨r.cls, r.version, r.headers, r.rawHeaders.flatten, c⟩ :: q.1, q.2)
        | _ => ([], false)
    | _ => ([], false)

/-- the date of a data record: `YYYYmmddHHMMSS`, or else `YYYYmmdd`; if it is empty, the current time is used -/
inductive Dated (g : Cfg) (st : St) (date : Bytes) : Bytes → St → Prop
  | long (t : DateTime) (h : Strptime.full date = .ok t) (hne : date ≠ []) : Dated g st date (warcDatetimeStr t) st
  | short (t : DateTime) (h1 : Strptime.full date = .error .valueError) (h2 : Strptime.short date = .ok t) (hne : date ≠ []) :
      Dated g st date (warcDatetimeStr t) st
  | now (h : date = []) : Dated g st date (warcDatetimeStr (g.now st.ticks)) ⟨st.warcinfoId, st.ticks + 1⟩

/-- the date of the metadata record made from a filedesc record -/
inductive MetaDated (date info : Bytes) : Bytes → Prop
  | long (t : DateTime) (h : 14 ≤ date.length) (ht : Strptime.full (date.take 14) = .ok t) : MetaDated date info (warcDatetimeStr t)
  | short (t : DateTime) (hne : date ≠ []) (h : date.length < 14) (ht : Strptime.short (date.take 8) = .ok t) :
      MetaDated date info (warcDatetimeStr t)
  | now (h : date = []) : MetaDated date info info

/-- the file name for the warcinfo record: none, if there is none or it is empty -/
inductive Filename (g : Cfg) : Option Bytes → Prop
  | none (h : g.outputFilename = .none ∨ g.outputFilename = some (.bytes []) ∨ g.outputFilename = some (.str "")) : Filename g .none
  | some (f : Bytes) (hne : f ≠ []) (h : g.outputFilename = .some (.bytes f)) : Filename g (.some f)

/-- What should be written for a record, and the state of the transformer afterwards. -/
inductive Becomes (c : Codec) (g : Cfg) (st : St) : Piece → List R → St → Prop
  | warc (p : Piece) (body : Bytes) (hc : p.cls = .warc) (hb : p.content.2 = some body) :
      Becomes c g st p [⟨p.version, p.headers, body⟩] st
  | data (p : Piece) (st' : St) (body url date wdate ctype type ctype' infoId : Bytes) (hc : p.cls = .arc)
      (hurl : firstValue (b! "URL") p.headers = some url)
      (hdate : firstValue (b! "Archive-date") p.headers = some date)
      (hwdate : Dated g st date wdate st')
      (hb : p.content = (some ctype, some body))
      (htype : Typed c g url (arcType ctype) body type ctype')
      (hinfo : st.warcinfoId = some infoId) :
      Becomes c g st p [dataRecord (idOf g (url ++ date)) url infoId (keptIp p.headers) wdate type ctype' body] st'
  | filedesc (p : Piece) (body url date wdate : Bytes) (filename : Option Bytes) (hc : p.cls = .arcHeader)
      (hurl : firstValue (b! "URL") p.headers = some url)
      (hdate : firstValue (b! "Archive-date") p.headers = some date)
      (hwdate : MetaDated date (warcDatetimeStr (g.now st.ticks)) wdate)
      (hb : p.content.2 = some body)
      (hname : Filename g filename) :
      Becomes c g st p
        [infoRecord (idOf g (url ++ warcDatetimeStr (g.now st.ticks))) (warcDatetimeStr (g.now st.ticks)) filename g.warcinfoFields,
         filedescRecord (idOf g (url ++ warcDatetimeStr (g.now st.ticks))) (idOf g (url ++ date ++ b! "-meta")) (withoutScheme url) wdate
           (p.raw ++ body)]
        ⟨some (idOf g (url ++ warcDatetimeStr (g.now st.ticks))), st.ticks + 1⟩

/-- the same for a list of records -/
inductive BecomesAll (c : Codec) (g : Cfg) : St → List Piece → List R → St → Prop
  | nil (st : St) : BecomesAll c g st [] [] st
  | cons {st st1 st2 : St} {p : Piece} {ps : List Piece} {rs rs' : List R} :
      Becomes c g st p rs st1 → BecomesAll c g st1 ps rs' st2 → BecomesAll c g st (p :: ps) (rs ++ rs') st2

/-- the pieces are all the records of the file, and the file ends normally -/
def Pieces (c : Codec) (fs : FS) (name : Bytes) (ps : List Piece) : Prop :=
  ∃ t fuel, openName c fs .mixed none name = .ok t ∧ pieces fuel t = (ps, true)

/-- What may be left of a record when writing it raised: nothing (always so when compressing); if it is a WARC record, a first part of it;
otherwise the first lines of a new record, up to the header value that is not bytes.  `next` is the record: its version, its headers, and
everything that can be read behind them. -/
inductive Begun (g : Cfg) (gzip : Bool) (next : Option R) : Bytes → Prop
  | nothing : Begun g gzip next []
  | copied (r : R) (p : Bytes) (hn : next = some r) (hg : gzip = false) (h : PartOf r p) : Begun g gzip next p
  | data (r : R) (url date : Bytes) (hn : next = some r) (hg : gzip = false) (hurl : firstValue (b! "URL") r.headers = some url)
      (hdate : firstValue (b! "Archive-date") r.headers = some date) :
      Begun g gzip next (b! "WARC/1.0\r\nWARC-Record-ID: " ++ idOf g (url ++ date) ++ b! "\r\nWARC-Target-URI: " ++ url ++
        b! "\r\nWARC-Warcinfo-ID: ")
  | filedesc (r : R) (url : Bytes) (k : Nat) (hn : next = some r) (hg : gzip = false) (hurl : firstValue (b! "URL") r.headers = some url) :
      Begun g gzip next (b! "WARC/1.0\r\nWARC-Type: warcinfo\r\nWARC-Record-ID: " ++ idOf g (url ++ warcDatetimeStr (g.now k)) ++
        b! "\r\nWARC-Date: " ++ warcDatetimeStr (g.now k) ++ b! "\r\nWARC-Filename: ")

/-- `ps` are the first records of the file, `next` is the one after them -/
def FirstPieces (c : Codec) (fs : FS) (name : Bytes) (ps : List Piece) (next : Option R) : Prop :=
  ∃ t fuel, openName c fs .mixed none name = .ok t ∧ ps <+: (pieces fuel t).1 ∧ next = (met false fuel t)[ps.length]?

end Warc.Spec
