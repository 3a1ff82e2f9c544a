import Verif.Spec.Arc
import Verif.Spec.Dates
import Verif.Spec.Tools
import Verif.Spec.Clean
import Verif.Model.Arc2Warc
/-
  What arc2warc should write.
-/
namespace Warc.Spec
open Arc2Warc (Cfg St)

/-- one of the prefixes is a prefix of the (lower case) URL; it and the ones before it are bytes -/
def Listed (prefixes : List PyStr) (url : Bytes) : Prop :=
  ∃ before b after, prefixes = before ++ PyStr.bytes b :: after ∧ (∀ p ∈ before, ∃ x, p = .bytes x) ∧ b <+: lower url

/-- all the prefixes are bytes, none of them is a prefix of the (lower case) URL -/
def NotListed (prefixes : List PyStr) (url : Bytes) : Prop :=
  ∀ p ∈ prefixes, ∃ b, p = .bytes b ∧ ¬ b <+: lower url

/-- the HTTP parser takes the bytes for exactly one complete response -/
def IsResponse (c : Codec) (body : Bytes) : Prop :=
  ∃ m, Http.feedResponse c body (Http.Msg.response (.str "") []) = .ok [] m ∧ m.close.complete = true

/-- the HTTP parser returns, but finds that the bytes are not exactly one complete response -/
def NotResponse (c : Codec) (body : Bytes) : Prop :=
  ∃ l m, Http.feedResponse c body (Http.Msg.response (.str "") []) = .ok l m ∧ (l ≠ [] ∨ m.close.complete = false)

/-- how the WARC type and the content type are chosen, given the URL, the content type in the ARC file and the content -/
inductive Typed (c : Codec) (g : Cfg) (url ctype body : Bytes) : Bytes → Bytes → Prop
  | resource : Listed g.resources url → Typed c g url ctype body (b! "resource") ctype
  | response : NotListed g.resources url → Listed g.responses url → Typed c g url ctype body (b! "response") ctype
  | http : NotListed g.resources url → NotListed g.responses url → b! "http" <+: lower url → IsResponse c body →
      Typed c g url ctype body (b! "response") (b! "application/http;msgtype=response")
  | notHttp : NotListed g.resources url → NotListed g.responses url → b! "http" <+: lower url → NotResponse c body →
      Typed c g url ctype body (b! "resource") ctype
  | other : NotListed g.resources url → NotListed g.responses url → ¬ b! "http" <+: lower url →
      Typed c g url ctype body (b! "response") ctype

/-- the IP address to be kept: none if it is missing, empty or 0.0.0.0 -/
def keptIp (hs : List Header) : List Header :=
  match firstValue (b! "IP-address") hs with
  | none => []
  | some ip => if ip = [] ∨ strip ip = b! "0.0.0.0" then [] else [(b! "WARC-IP-Address", strip ip)]

/-- the content type of an ARC record; a blank one becomes `application/octet-stream` -/
def arcType (t : Bytes) : Bytes := if strip t = [] then b! "application/octet-stream" else t

/-- the WARC record for a data record of an ARC file -/
def dataRecord (id url infoId : Bytes) (ip : List Header) (date type ctype body : Bytes) : R :=
  ⟨b! "WARC/1.0",
   [(b! "WARC-Record-ID", id), (b! "WARC-Target-URI", url), (b! "WARC-Warcinfo-ID", infoId)] ++ ip ++
   [(b! "WARC-Date", date), (b! "WARC-Type", type), (b! "Content-Type", ctype), (b! "Content-Length", decimal body.length)],
   body⟩

/-- the warcinfo record -/
def infoRecord (id date : Bytes) (filename : Option Bytes) (fields : Bytes) : R :=
  ⟨b! "WARC/1.0",
   [(b! "WARC-Type", b! "warcinfo"), (b! "WARC-Record-ID", id), (b! "WARC-Date", date)] ++
   (filename.map fun f => (b! "WARC-Filename", f)).toList ++
   [(b! "Content-Type", b! "application/warc-fields"), (b! "Content-Length", decimal fields.length)],
   fields⟩

/-- the metadata record that keeps the text of the filedesc record -/
def filedescRecord (infoId id url date text : Bytes) : R :=
  ⟨b! "WARC/1.0",
   [(b! "WARC-Type", b! "metadata"), (b! "WARC-Concurrent-To", infoId), (b! "WARC-Record-ID", id), (b! "WARC-Target-URI", url),
    (b! "WARC-Date", date), (b! "WARC-Warcinfo-ID", infoId), (b! "Content-Type", b! "application/arc"),
    (b! "Content-Length", decimal text.length)],
   text⟩

/-- an id made from a text -/
def idOf (g : Cfg) (text : Bytes) : Bytes := warcUuid g.sha1 text

/-- a URL without a leading `filedesc://` -/
def withoutScheme (url : Bytes) : Bytes := if b! "filedesc://" <+: url then url.drop 11 else url

/-- the output file name: none, or bytes that are not empty -/
def FilenameOk (g : Cfg) (filename : Option Bytes) : Prop :=
  g.outputFilename = filename.map PyStr.bytes ∧ filename ≠ some []

/-- What should be written for one item, when the given field names are in force; and the state of the transformer
afterwards. A WARC record is copied. -/
inductive Converts (c : Codec) (g : Cfg) (st : St) (names : List Bytes) : ArcItem → List R → St → Prop
  | warc (r : R) : Converts c g st names (.warc r) [r] st
  | data (values : List Bytes) (body T url date wdate ctype type ctype' infoId : Bytes)
      (hurl : firstValue (b! "URL") (names.zip values) = some url)
      (hdate : firstValue (b! "Archive-date") (names.zip values) = some date)
      (hwdate : ArcDate date wdate)
      (hctype : firstValue (b! "Content-type") (names.zip values) = some ctype)
      (htype : Typed c g url (arcType ctype) body type ctype')
      (hinfo : st.warcinfoId = some infoId) :
      Converts c g st names (.data values body T)
        [dataRecord (idOf g (url ++ date)) url infoId (keptIp (names.zip values)) wdate type ctype' body] st
  | filedesc (values : List Bytes) (version : Bytes) (ns : List Bytes) (body T url date wdate : Bytes) (filename : Option Bytes)
      (hurl : firstValue (b! "URL") (ns.zip values) = some url)
      (hdate : firstValue (b! "Archive-date") (ns.zip values) = some date)
      (hwdate : ArcDate date wdate)
      (hname : FilenameOk g filename) :
      Converts c g st names (.filedesc values version ns body T)
        [infoRecord (idOf g (url ++ warcDatetimeStr (g.now st.ticks))) (warcDatetimeStr (g.now st.ticks)) filename g.warcinfoFields,
         filedescRecord (idOf g (url ++ warcDatetimeStr (g.now st.ticks))) (idOf g (url ++ date ++ b! "-meta")) (withoutScheme url) wdate
           (arcLine values ++ ArcItem.preamble version ns ++ body)]
        ⟨some (idOf g (url ++ warcDatetimeStr (g.now st.ticks))), st.ticks + 1⟩

/-- the same for a list of items -/
inductive ConvertsAll (c : Codec) (g : Cfg) : St → List Bytes → List ArcItem → List R → St → Prop
  | nil (st : St) (names : List Bytes) : ConvertsAll c g st names [] [] st
  | cons {st st1 st2 : St} {names : List Bytes} {it : ArcItem} {its : List ArcItem} {rs rs' : List R} :
      Converts c g st names it rs st1 → ConvertsAll c g st1 (it.names names) its rs' st2 →
      ConvertsAll c g st names (it :: its) (rs ++ rs') st2

/-- a file that holds ARC and WARC records -/
structure MixedFile where
  name : Bytes
  compressed : Bool
  items : List ArcItem

/-- the file system holds the file: uncompressed and not named `.gz`, or compressed in any division into gzip members -/
def MixedFile.Stored (f : MixedFile) (c : Codec) (fs : FS) : Prop :=
  ArcItem.AllOk true [] f.items ∧
  if f.compressed then
    ∃ ms : List Bytes, ms.flatten = f.items.flatMap ArcItem.bytes ∧ fs f.name = some (ms.flatMap c.enc) ∧
      (ms ≠ [] ∨ b! ".gz" <:+ f.name)
  else fs f.name = some (f.items.flatMap ArcItem.bytes) ∧ ¬ b! ".gz" <:+ f.name ∧
    ¬ [0x1f, 0x8b] <+: f.items.flatMap ArcItem.bytes

/-- what should be written for several files: each one starts without field names, the transformer goes on -/
inductive ConvertsFiles (c : Codec) (g : Cfg) : St → List MixedFile → List R → St → Prop
  | nil (st : St) : ConvertsFiles c g st [] [] st
  | cons {st st1 st2 : St} {f : MixedFile} {fl : List MixedFile} {rs rs' : List R} :
      ConvertsAll c g st [] f.items rs st1 → ConvertsFiles c g st1 fl rs' st2 →
      ConvertsFiles c g st (f :: fl) (rs ++ rs') st2

/-- the records as written, compressed one by one or not -/
def written (c : Codec) (gzip : Bool) (rs : List R) : Bytes :=
  rs.flatMap fun r => if gzip then c.enc r.bytes else r.bytes

/-- a value that can stand in a header line -/
def OneLine (v : Bytes) : Prop := 10 ∉ v ∧ strip v = v

/-- no value in the header line has white space at its ends, not even the URL of a filedesc record without its scheme -/
def Tidy : ArcItem → Prop
  | .warc _ => True
  | .data values _ _ => ∀ v ∈ values, strip v = v
  | .filedesc values _ _ _ _ => ∀ v ∈ values, strip v = v ∧ strip (withoutScheme v) = withoutScheme v

/-- what is assumed about the settings: the clock gives valid times without a time zone, an output file name fits on a line -/
structure CfgOk (g : Cfg) : Prop where
  now : ∀ k, (g.now k).Valid ∧ (g.now k).offset = none
  filename : ∀ f, g.outputFilename = some (.bytes f) → OneLine f

/-- Records on which the conversion stops with an exception, and what was written of the record by then. -/
inductive Stops (c : Codec) (g : Cfg) (gzip : Bool) (st : St) (names : List Bytes) : ArcItem → Exc → Bytes → Prop
  /-- the output file name is a `str`: always so with the option `-o` -/
  | filename (values : List Bytes) (version : Bytes) (ns : List Bytes) (body T url date wdate : Bytes) (f : String)
      (hurl : firstValue (b! "URL") (ns.zip values) = some url)
      (hdate : firstValue (b! "Archive-date") (ns.zip values) = some date) (hwdate : ArcDate date wdate)
      (hf : g.outputFilename = some (.str f)) (hne : f ≠ "") :
      Stops c g gzip st names (.filedesc values version ns body T) .typeError
        (if gzip then [] else
          b! "WARC/1.0\r\nWARC-Type: warcinfo\r\nWARC-Record-ID: " ++ idOf g (url ++ warcDatetimeStr (g.now st.ticks)) ++
          b! "\r\nWARC-Date: " ++ warcDatetimeStr (g.now st.ticks) ++ b! "\r\nWARC-Filename: ")
  /-- a filedesc record without URL or without date -/
  | filedescField (values : List Bytes) (version : Bytes) (ns : List Bytes) (body T : Bytes)
      (h : firstValue (b! "URL") (ns.zip values) = none ∨ firstValue (b! "Archive-date") (ns.zip values) = none) :
      Stops c g gzip st names (.filedesc values version ns body T) .typeError []
  /-- a data record without URL or without date -/
  | field (values : List Bytes) (body T : Bytes)
      (h : firstValue (b! "URL") (names.zip values) = none ∨ firstValue (b! "Archive-date") (names.zip values) = none) :
      Stops c g gzip st names (.data values body T) .typeError []
  /-- a date that is neither in the long nor in the short format -/
  | date (values : List Bytes) (body T url date : Bytes)
      (hurl : firstValue (b! "URL") (names.zip values) = some url)
      (hdate : firstValue (b! "Archive-date") (names.zip values) = some date) (hne : date ≠ [])
      (h1 : Strptime.full date = .error .valueError) (h2 : Strptime.short date = .error .valueError) :
      Stops c g gzip st names (.data values body T) .valueError []
  /-- no content type -/
  | contentType (values : List Bytes) (body T url date wdate : Bytes)
      (hurl : firstValue (b! "URL") (names.zip values) = some url)
      (hdate : firstValue (b! "Archive-date") (names.zip values) = some date) (hwdate : ArcDate date wdate)
      (hctype : firstValue (b! "Content-type") (names.zip values) = none) :
      Stops c g gzip st names (.data values body T) .attributeError []
  /-- a prefix is a `str`: always so with the options `--resource` and `--response` -/
  | resource (values : List Bytes) (body T url date wdate ctype : Bytes) (p : String) (ps : List PyStr)
      (hurl : firstValue (b! "URL") (names.zip values) = some url)
      (hdate : firstValue (b! "Archive-date") (names.zip values) = some date) (hwdate : ArcDate date wdate)
      (hctype : firstValue (b! "Content-type") (names.zip values) = some ctype)
      (h : g.resources = .str p :: ps) :
      Stops c g gzip st names (.data values body T) .typeError []
  | response (values : List Bytes) (body T url date wdate ctype : Bytes) (p : String) (ps : List PyStr)
      (hurl : firstValue (b! "URL") (names.zip values) = some url)
      (hdate : firstValue (b! "Archive-date") (names.zip values) = some date) (hwdate : ArcDate date wdate)
      (hctype : firstValue (b! "Content-type") (names.zip values) = some ctype)
      (h1 : NotListed g.resources url) (h2 : g.responses = .str p :: ps) :
      Stops c g gzip st names (.data values body T) .typeError []
  /-- an `http` URL, and the HTTP parser raises on the content -/
  | http (values : List Bytes) (body T url date wdate ctype : Bytes) (e : Exc) (m : Http.Msg)
      (hurl : firstValue (b! "URL") (names.zip values) = some url)
      (hdate : firstValue (b! "Archive-date") (names.zip values) = some date) (hwdate : ArcDate date wdate)
      (hctype : firstValue (b! "Content-type") (names.zip values) = some ctype)
      (h1 : NotListed g.resources url) (h2 : NotListed g.responses url) (h3 : b! "http" <+: lower url)
      (h4 : Http.feedResponse c body (Http.Msg.response (.str "") []) = .raise e m) :
      Stops c g gzip st names (.data values body T) e []

/-- the text of the warcinfo records that the command writes -/
def infoText (host description operator publisher audience : Bytes) : Bytes :=
  b! "software: hanzo.arc2warc\r\nhostname: " ++ host ++ b! "\r\ndescription: " ++ description ++ b! "\r\noperator: " ++ operator ++
  b! "\r\npublisher: " ++ publisher ++ b! "\r\naudience: " ++ audience

/-- the field names in force after a list of items -/
def namesAfter (names : List Bytes) (its : List ArcItem) : List Bytes := its.foldl (fun n it => it.names n) names

/-- Text at which a mixed stream, with the given field names in force, cannot go on. -/
inductive Unreadable (names : List Bytes) : Bytes → Exc → Prop
  /-- a line that begins with `WARC` but not with a version, and five or more lines of junk -/
  | junk (line : Bytes) (junk : List Bytes) (more : Bytes) (hw : b! "WARC" <+: line) (hl : JunkLine line)
      (hjs : ∀ j ∈ junk, JunkLine j) (h5 : 5 ≤ junk.length) :
      Unreadable names (line ++ junk.flatten ++ more) (.generic "Errors while decoding")
  /-- a line that is neither WARC nor filedesc, before any filedesc record -/
  | noFiledesc (line more : Bytes) (hl : 10 ∉ line) (hv : ∃ c ∈ line, isWs c = false) (hw : ¬ b! "WARC" <+: line)
      (hf : ¬ b! "filedesc:" <+: line) (hn : names = []) :
      Unreadable names (line ++ [10] ++ more) (.generic "missing filedesc")
  /-- a header line with too few values -/
  | fewValues (line more : Bytes) (hl : 10 ∉ line) (hv : ∃ c ∈ line, isWs c = false) (hw : ¬ b! "WARC" <+: line)
      (hf : ¬ b! "filedesc:" <+: line) (hn : 1 + line.countP isWs < names.length) :
      Unreadable names (line ++ [10] ++ more) .typeError

end Warc.Spec
