import Verif.Spec.Arc2Warc
import Verif.Spec.ArcGrammar
import Verif.Spec.ToolHttp
/-
  What arc2warc writes, as a function of the bytes of its input files (property C111), record by record, in terms of what the bytes mean (`Spec.nextIn`, `Http.Grammar.meaning`).
-/
namespace Warc.Spec
open _root_.Warc.Stream
open Arc2Warc (Cfg St)

/-- what is done with a record -/
inductive Conv where
  /-- something is written and the run ends with an exception -/
  | stops (text : Bytes) (exc : Exc)
  | never
  /-- something is written and the next record is asked for; the content was read -/
  | goes (text : Bytes) (st : St)
  deriving DecidableEq

/-- the content: the rest of the file without an announced length and with the length -1, none (ValueError) with a length below, and else at most the announced number of bytes -/
def contentOf (length : Option Int) (behind : Bytes) : Except Exc Bytes :=
  match length with
  | none => .ok behind
  | some n => if n < -1 then .error .valueError else if n = -1 then .ok behind else .ok (behind.take n.toNat)

/-- is one of the prefixes in front of the URL? None if a text (not bytes) is met before the answer is known. -/
def listed (prefixes : List PyStr) (url : Bytes) : Option Bool :=
  match prefixes.find? (fun p => match p with | .bytes b => decide (b <+: lower url) | .str _ => true) with
  | none => some false
  | some (.bytes _) => some true
  | some (.str _) => none

/-- the kind of a record -/
inductive KindOf where
  | is (type ctype : Bytes)
  | fails (e : Exc)
  | never
  deriving DecidableEq

/-- the WARC type and the content type for a URL, a content type and a content -/
def kindFor (c : Codec) (g : Cfg) (url ctype body : Bytes) : KindOf :=
  match listed g.resources url, listed g.responses url with
  | none, _ => .fails .typeError
  | some true, _ => .is (b! "resource") ctype
  | some false, none => .fails .typeError
  | some false, some true => .is (b! "response") ctype
  | some false, some false =>
    if b! "http" <+: lower url then
      match Http.Grammar.meaning c lonely [] body with
      | .refused e => .fails e
      | .forever => .never
      | .seen s => if s.closes = true ∧ s.left = [] then .is (b! "response") (b! "application/http;msgtype=response") else .is (b! "resource") ctype
    else .is (b! "response") ctype

/-- the point in time that a date stands for: with the time of day or without it -/
def momentOf (date : Bytes) : Option DateTime :=
  match Strptime.full date with
  | .ok d => some d
  | .error _ => match Strptime.short date with
    | .ok d => some d
    | .error _ => none

/-- a record of an ARC file that is not a filedesc record; `content` is what asking for the content gives -/
def convertedData (c : Codec) (g : Cfg) (gzip : Bool) (st : St) (hs : List Header) (content : Except Exc Bytes) : Conv :=
  match firstValue (b! "URL") hs, firstValue (b! "Archive-date") hs with
  | some url, some date =>
    match (if date = [] then some (g.now st.ticks) else momentOf date), content, firstValue (b! "Content-type") hs with
    | none, _, _ => .stops [] .valueError
    | some _, .error e, _ => .stops [] e
    | some _, .ok _, none => .stops [] .attributeError
    | some d, .ok body, some t =>
      match kindFor c g url (arcType t) body with
      | .fails e => .stops [] e
      | .never => .never
      | .is type ctype =>
        match st.warcinfoId with
        | none => .stops (if gzip then [] else b! "WARC/1.0\r\nWARC-Record-ID: " ++ idOf g (url ++ date) ++ b! "\r\nWARC-Target-URI: " ++ url ++ b! "\r\nWARC-Warcinfo-ID: ") .typeError
        | some infoId =>
          .goes (written c gzip [dataRecord (idOf g (url ++ date)) url infoId (keptIp hs) (warcDatetimeStr d) type ctype body])
            (if date = [] then { st with ticks := st.ticks + 1 } else st)
  | _, _ => .stops [] .typeError

/-- the date of the record that keeps the text of the filedesc record: no date is replaced by the time of the conversion; of a long one the first 14 bytes count,
of a short one the first 8 -/
def metaMoment (now : DateTime) (date : Bytes) : Option DateTime :=
  if date = [] then some now
  else if 14 ≤ date.length then (Strptime.full (date.take 14)).toOption
  else (Strptime.short (date.take 8)).toOption

/-- a filedesc record, of which `raw` are the lines -/
def convertedFiledesc (c : Codec) (g : Cfg) (gzip : Bool) (st : St) (hs : List Header) (raw : List Bytes) (content : Except Exc Bytes) : Conv :=
  match firstValue (b! "URL") hs, firstValue (b! "Archive-date") hs with
  | some url, some date =>
    match metaMoment (g.now st.ticks) date, content with
    | none, _ => .stops [] .valueError
    | some _, .error e => .stops [] e
    | some d, .ok body =>
      let now := warcDatetimeStr (g.now st.ticks)
      let id := idOf g (url ++ now)
      let all (filename : Option Bytes) : Conv :=
        .goes (written c gzip [infoRecord id now filename g.warcinfoFields,
            filedescRecord id (idOf g (url ++ date ++ b! "-meta")) (withoutScheme url) (warcDatetimeStr d) (raw.flatten ++ body)]) ⟨some id, st.ticks + 1⟩
      match g.outputFilename with
      | none => all none
      | some (.bytes f) => if f = [] then all none else all (some f)
      | some (.str f) =>
        if f = "" then all none
        else .stops (if gzip then [] else b! "WARC/1.0\r\nWARC-Type: warcinfo\r\nWARC-Record-ID: " ++ id ++ b! "\r\nWARC-Date: " ++ now ++ b! "\r\nWARC-Filename: ") .typeError
  | _, _ => .stops [] .typeError

/-- a WARC record is copied -/
def convertedWarc (c : Codec) (gzip : Bool) (st : St) (version : Bytes) (hs : List Header) (behind : Bytes) : Conv :=
  match (if gzip then compressing c.enc ⟨none, version, hs, [], behind⟩ else copying ⟨none, version, hs, [], behind⟩) with
  | .stops text exc => .stops text exc
  | .goes text _ => .goes text st
  | .never => .never

/-- any record -/
def converted (c : Codec) (g : Cfg) (gzip : Bool) (st : St) (f : Located) (behind : Bytes) : Conv :=
  match f.cls with
  | .warc => convertedWarc c gzip st f.version f.headers behind
  | .arcHeader => convertedFiledesc c g gzip st f.headers f.raw (contentOf f.length behind)
  | .arc => convertedData c g gzip st f.headers (contentOf f.length behind)

/-- where the next record is looked for, counted from the end of the head -/
def Located.passed (f : Located) (behind : Bytes) : Nat :=
  match f.length with
  | none => behind.length
  | some n => if 0 ≤ n then n.toNat else behind.length

/-- a file, from some place on; and the state of the transformer at the end -/
def convertOn (c : Codec) (g : Cfg) (gzip : Bool) : Nat → St → List Bytes → Bytes → Output × St
  | 0, st, _, _ => (⟨[], .hangs⟩, st)
  | rounds + 1, st, names, data =>
    match nextIn true names data with
    | .stuck => (⟨[], .hangs⟩, st)
    | .raises e => (⟨[], .raised e⟩, st)
    | .nothing _ errors _ => (strictTail none errors, st)
    | .record f =>
      match converted c g gzip st f (data.drop f.size) with
      | .stops text exc => (⟨text, .raised exc⟩, st)
      | .never => (⟨[], .hangs⟩, st)
      | .goes text st' =>
        if (data.drop f.size).length < (f.length.getD 0).toNat then (⟨text, .raised (.generic "expected more bytes")⟩, st')
        else
          let rest := convertOn c g gzip rounds st' f.names ((data.drop f.size).drop (f.passed (data.drop f.size)))
          (Output.after text rest.1, rest.2)

/-- one file -/
def convertFile (c : Codec) (fs : FS) (g : Cfg) (gzip : Bool) (st : St) (name : Bytes) : Output × St :=
  match fs name with
  | none => (⟨[], .raised .osError⟩, st)
  | some stored =>
    let data := if Compressed name stored then (c.dec stored).1 else stored
    convertOn c g gzip (data.length + 2) st [] data

/-- a list of files: the field names are forgotten between files, the state of the transformer is not -/
def convertFiles (c : Codec) (fs : FS) (g : Cfg) (gzip : Bool) : St → List Bytes → Output × St
  | st, [] => (⟨[], .done⟩, st)
  | st, name :: names =>
    let a := convertFile c fs g gzip st name
    if a.1.stop = .done then
      let b := convertFiles c fs g gzip a.2 names
      (Output.after a.1.text b.1, b.2)
    else a

/-- the run `r`, with `out` written before, is what the output and the state at the end say -/
def RanTo (out : Bytes) (r : Res (Bytes × St) Unit) (o : Output × St) : Prop :=
  match o.1.stop with
  | .done => r = .ok () (out ++ o.1.text, o.2)
  | .raised e => ∃ st', r = .raise e (out ++ o.1.text, st')
  | .hangs => r = .hang

end Warc.Spec
