import Verif.Spec.ReadAll
import Verif.Spec.Filter
import Verif.Spec.Dump
/-
  What the command line tools write, as a function of the bytes of their input files: record by record, in terms of what the bytes mean (`Spec.next`), with
  no condition on the announced lengths.
-/
namespace Warc.Spec
open _root_.Warc.Stream

/-- what is known of a record when its head has been read, and the bytes behind the head, up to the end of the file -/
structure Head where
  offset : Option Nat
  version : Bytes
  headers : List Header
  errors : List Err
  behind : Bytes
  deriving DecidableEq

/-- what a tool does with a record -/
inductive Done where
  /-- it writes something and ends with an exception -/
  | stops (text : Bytes) (exc : Exc)
  /-- it writes something and asks for the next record, with the content read (as far as it was there) or not -/
  | goes (text : Bytes) (took : Bool)
  /-- it never comes to an end -/
  | never
  deriving DecidableEq

/-- what a tool has written and how it ended -/
structure Output where
  text : Bytes
  stop : End
  deriving DecidableEq

/-- first this, then, if it came to its end, the other -/
def Output.andThen (a b : Output) : Output := if a.stop = .done then ⟨a.text ++ b.text, b.stop⟩ else a

/-- with some text in front -/
def Output.after (text : Bytes) (o : Output) : Output := ⟨text ++ o.text, o.stop⟩

/-- the announced length -/
def Head.length (h : Head) : Int := declaredLength h.headers

/-- where the next record is looked for, counted from the end of the head: behind the announced bytes; with a negative length, wherever the reading has got to -/
def Head.skipped (h : Head) (took : Bool) : Nat :=
  if 0 ≤ h.length then h.length.toNat else if took then h.behind.length else 0

/-- A tool that goes through the records, with the bytes from position `pos` on; `act` says what is done with a record, `tail` what is done at the end. -/
def runOn (report : Nat → Option Nat) (act : Head → Done) (tail : Option Nat → List Err → Output) : Nat → Nat → Bytes → Output
  | 0, _, _ => ⟨[], .hangs⟩
  | rounds + 1, pos, data =>
    match next data with
    | .stuck => ⟨[], .hangs⟩
    | .unknown => ⟨[], .raised .typeError⟩
    | .none errors size => tail (report (pos + size)) errors
    | .record start version headers errors size =>
      match act ⟨report (pos + start), version, headers, errors, data.drop size⟩ with
      | .never => ⟨[], .hangs⟩
      | .stops text exc => ⟨text, .raised exc⟩
      | .goes text took =>
        Output.after text
          (if (data.drop size).length < (declaredLength headers).toNat then ⟨[], .raised (.generic "expected more bytes")⟩
          else runOn report act tail rounds
            (pos + size + Head.skipped ⟨report (pos + start), version, headers, errors, data.drop size⟩ took)
            ((data.drop size).drop (Head.skipped ⟨report (pos + start), version, headers, errors, data.drop size⟩ took)))

/-- `for record in stream`: errors behind the last record are an exception -/
def strictTail (_ : Option Nat) (errors : List Err) : Output :=
  if errors = [] then ⟨[], .done⟩ else ⟨[], .raised (.generic "Errors while decoding")⟩

/-- `for offset, record, errors in stream.read_records(...)`, where nothing is done without a record -/
def quietTail (_ : Option Nat) (_ : List Err) : Output := ⟨[], .done⟩

/-! ### what is done with a record -/

/-- the content: none (ValueError) with a length below -1, the rest of the file with -1, and else at most the announced number of bytes -/
def Head.payload (h : Head) : Option Bytes :=
  if h.length < -1 then none else if h.length = -1 then some h.behind else some (h.behind.take h.length.toNat)

/-- the record with some content -/
def Head.record (h : Head) (content : Bytes) : R := ⟨h.version, h.headers, content⟩

/-- something that needs the content -/
def Head.reading (h : Head) (f : Bytes → Done) : Done :=
  match h.payload with
  | none => .stops [] .valueError
  | some content => f content

/-- `warcindex`: the line for the record.  The content is read if there is no Content-Type header (or no Content-Length header); otherwise the first Content-Length counts, and it must
be a number. -/
def indexing (file : Bytes) (h : Head) : Done :=
  match firstValue (b! "Content-Type") h.headers, firstValue (b! "Content-Length") h.headers with
  | some _, some v => if (pyInt 10 v).isNone then .stops [] .valueError else .goes (indexLine file h.offset (h.record [])) false
  | _, _ => h.reading fun content => .goes (indexLine file h.offset (h.record content)) true

/-- `warc2warc`: the record is copied in pieces.  With a length of -1 the copy gets the rest of the file, but asking for more raises ValueError. -/
def copying (h : Head) : Done :=
  if h.length < -1 then .stops (headBytes h.version h.headers) .valueError
  else if h.length = -1 ∧ h.behind ≠ [] then .stops (headBytes h.version h.headers ++ h.behind) .valueError
  else .goes (h.record (h.behind.take h.length.toNat)).bytes true

/-- `warc2warc -Z`: each copy is compressed; of an incomplete one nothing is accounted for -/
def compressing (enc : Bytes → Bytes) (h : Head) : Done :=
  match copying h with
  | .stops _ exc => .stops [] exc
  | .goes text took => .goes (enc text) took
  | .never => .never

/-- does `warcfilter` read the content to decide? -/
def Mode.needsContent (m : Mode) (h : Head) : Bool :=
  m == .whole || (m == .contentType && (firstValue (b! "Content-Type") h.headers).isNone)

/-- `warcfilter`: a chosen record is copied; if its content was needed to decide, it is written with new Content-Type and Content-Length headers -/
def filtering (m : Mode) (search : Bytes → Bool) (invert : Bool) (h : Head) : Done :=
  if m.needsContent h then
    h.reading fun content => .goes (if m.selects search (h.record content) != invert then (h.record content).rewritten.bytes else []) true
  else if m.selects search (h.record []) != invert then copying h
  else .goes [] false

/-- `warcdump`: the block for the record, or a part of it and an exception -/
def dumping (file : Bytes) (h : Head) : Done :=
  match h.payload with
  | none => .stops (dumpHead file ⟨h.offset, h.version, h.headers, h.errors, (none, none)⟩) .valueError
  | some content =>
    match dumpBlock file ⟨h.offset, h.version, h.headers, h.errors, (none, some content)⟩ with
    | (text, some exc) => .stops text exc
    | (text, none) => .goes text true

/-- `warcdump` at the end of a file -/
def dumpTail (file : Bytes) (offset : Option Nat) (errors : List Err) : Output := ⟨tailNote file ⟨offset, none, errors⟩, .done⟩

/-- `warcextract`: the content -/
def extracting (h : Head) : Done := h.reading fun content => .goes content true

/-- the content in pieces, as `warcpayload` writes it -/
def pouring (h : Head) : Done :=
  if h.length < -1 then .stops [] .valueError
  else if h.length = -1 ∧ h.behind ≠ [] then .stops h.behind .valueError
  else .goes (h.behind.take h.length.toNat) true

/-- `warcpayload`, for a record that is not an HTTP response; a response record must have a Content-Type header, and the content is read to find that it has none -/
def payloading (h : Head) : Done :=
  if firstValue (b! "WARC-Type") h.headers = some (b! "response") ∧ firstValue (b! "Content-Type") h.headers = none then
    h.reading fun _ => .stops [] .attributeError
  else pouring h

/-- one record only, the one found in the bytes; without one, errors become a NameError -/
def onceOn (act : Head → Done) (data : Bytes) : Output :=
  match next data with
  | .stuck => ⟨[], .hangs⟩
  | .unknown => ⟨[], .raised .typeError⟩
  | .none errors _ => if errors = [] then ⟨[], .done⟩ else ⟨[], .raised .nameError⟩
  | .record _ version headers errors size =>
    match act ⟨none, version, headers, errors, data.drop size⟩ with
    | .stops text exc => ⟨text, .raised exc⟩
    | .goes text _ => ⟨text, .done⟩
    | .never => ⟨[], .hangs⟩

/-! ### files -/

/-- the file is taken for a compressed one: by its name or its first two bytes -/
def Compressed (name stored : Bytes) : Prop := b! ".gz" <:+ name ∨ stored.take 2 = [0x1f, 0x8b]

instance (name stored : Bytes) : Decidable (Compressed name stored) := by unfold Compressed; infer_instance

/-- A tool on one file: `act` and `tail` are given the name of the file.  Offsets are known in uncompressed files, to a tool that asks for them. -/
def onFileOutput (c : Codec) (fs : FS) (offs : Bool) (act : Bytes → Head → Done) (tail : Bytes → Option Nat → List Err → Output) (name : Bytes) : Output :=
  match fs name with
  | none => ⟨[], .raised .osError⟩
  | some stored =>
    if Compressed name stored then runOn (fun _ => none) (act name) (tail name) ((c.dec stored).1.length + 2) 0 (c.dec stored).1
    else runOn (fun p => if offs then some p else none) (act name) (tail name) (stored.length + 2) 0 stored

/-- A tool on a list of files. -/
def onFilesOutput (c : Codec) (fs : FS) (offs : Bool) (act : Bytes → Head → Done) (tail : Bytes → Option Nat → List Err → Output) : List Bytes → Output
  | [] => ⟨[], .done⟩
  | name :: names => (onFileOutput c fs offs act tail name).andThen (onFilesOutput c fs offs act tail names)

/-- compressed files decompress without an error -/
def Intact (c : Codec) (fs : FS) (names : List Bytes) : Prop :=
  ∀ name ∈ names, ∀ stored, fs name = some stored → Compressed name stored → (c.dec stored).2 = none

/-- the result of running a tool that finds `out` on its standard output -/
def Output.result (o : Output) (out : Bytes) : Res Bytes Unit :=
  match o.stop with
  | .done => .ok () (out ++ o.text)
  | .raised exc => .raise exc (out ++ o.text)
  | .hangs => .hang

end Warc.Spec
