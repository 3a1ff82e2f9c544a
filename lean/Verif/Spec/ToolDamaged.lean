import Verif.Spec.ToolRun
import Verif.Spec.GrammarDamaged
/-
  What the command line tools write for a compressed file that the decompressor fails on: as in C108, with the exception `e` of the decompressor wherever bytes are wanted that
  are not there.
-/
namespace Warc.Spec
open _root_.Warc.Stream

/-- the announced content is there completely -/
def Head.Whole (h : Head) : Prop := 0 ≤ h.length ∧ h.length.toNat ≤ h.behind.length

instance (h : Head) : Decidable h.Whole := by unfold Head.Whole; infer_instance

/-- the content, or the exception that asking for it gives -/
def Head.payloadDamaged (e : Exc) (h : Head) : Except Exc Bytes :=
  if h.length < -1 then .error .valueError else if h.Whole then .ok (h.behind.take h.length.toNat) else .error e

/-- something that needs the content -/
def Head.readingDamaged (e : Exc) (h : Head) (f : Bytes → Done) : Done :=
  match h.payloadDamaged e with
  | .error exc => .stops [] exc
  | .ok content => f content

/-- what is copied of an incomplete content: it is copied in pieces of 8192 bytes, and only complete pieces can be read -/
def Head.copied (h : Head) : Bytes := if h.length < 0 then [] else h.behind.take (h.behind.length / 8192 * 8192)

/-- `warcindex` -/
def indexingDamaged (e : Exc) (file : Bytes) (h : Head) : Done :=
  match firstValue (b! "Content-Type") h.headers, firstValue (b! "Content-Length") h.headers with
  | some _, some v => if (pyInt 10 v).isNone then .stops [] .valueError else .goes (indexLine file h.offset (h.record [])) false
  | _, _ => h.readingDamaged e fun content => .goes (indexLine file h.offset (h.record content)) true

/-- `warc2warc` -/
def copyingDamaged (e : Exc) (h : Head) : Done :=
  if h.Whole then .goes (h.record (h.behind.take h.length.toNat)).bytes true
  else .stops (headBytes h.version h.headers ++ h.copied) (if h.length < -1 then .valueError else e)

/-- `warc2warc -Z` -/
def compressingDamaged (e : Exc) (enc : Bytes → Bytes) (h : Head) : Done :=
  if h.Whole then .goes (enc (h.record (h.behind.take h.length.toNat)).bytes) true
  else .stops [] (if h.length < -1 then .valueError else e)

/-- `warcfilter` -/
def filteringDamaged (e : Exc) (m : Mode) (search : Bytes → Bool) (invert : Bool) (h : Head) : Done :=
  if m.needsContent h then
    h.readingDamaged e fun content => .goes (if m.selects search (h.record content) != invert then (h.record content).rewritten.bytes else []) true
  else if m.selects search (h.record []) != invert then copyingDamaged e h
  else .goes [] false

/-- `warcdump` -/
def dumpingDamaged (e : Exc) (file : Bytes) (h : Head) : Done :=
  match h.payloadDamaged e with
  | .error exc => .stops (dumpHead file ⟨h.offset, h.version, h.headers, h.errors, (none, none)⟩) exc
  | .ok content =>
    match dumpBlock file ⟨h.offset, h.version, h.headers, h.errors, (none, some content)⟩ with
    | (text, some exc) => .stops text exc
    | (text, none) => .goes text true

/-- A tool that goes through the records of damaged data; `act` and `tail` as for `runOn`. -/
def runDamaged (e : Exc) (act : Head → Done) (tail : Option Nat → List Err → Output) : Nat → Bytes → Output
  | 0, _ => ⟨[], .hangs⟩
  | rounds + 1, data =>
    match nextDamaged data with
    | none => ⟨[], .raised e⟩
    | some .stuck => ⟨[], .hangs⟩
    | some .unknown => ⟨[], .raised .typeError⟩
    | some (.none errors _) => tail none errors
    | some (.record _ version headers errors size) =>
      match act ⟨none, version, headers, errors, data.drop size⟩ with
      | .never => ⟨[], .hangs⟩
      | .stops text exc => ⟨text, .raised exc⟩
      | .goes text took =>
        Output.after text
          (if (data.drop size).length < (declaredLength headers).toNat then ⟨[], .raised e⟩
          else runDamaged e act tail rounds
            ((data.drop size).drop (Head.skipped ⟨none, version, headers, errors, data.drop size⟩ took)))

/-- A tool on any one file: `act` says what it does with a record of a file that can be read to its end, `actDamaged` what it does with one of a compressed file that cannot. -/
def onAnyFile (c : Codec) (fs : FS) (offs : Bool) (act : Bytes → Head → Done) (actDamaged : Exc → Bytes → Head → Done)
    (tail : Bytes → Option Nat → List Err → Output) (name : Bytes) : Output :=
  match fs name with
  | none => ⟨[], .raised .osError⟩
  | some stored =>
    if Compressed name stored then
      match (c.dec stored).2 with
      | none => runOn (fun _ => none) (act name) (tail name) ((c.dec stored).1.length + 2) 0 (c.dec stored).1
      | some e => runDamaged e (actDamaged e name) (tail name) ((c.dec stored).1.length + 2) (c.dec stored).1
    else runOn (fun p => if offs then some p else none) (act name) (tail name) (stored.length + 2) 0 stored

/-- A tool on any list of files. -/
def onAnyFiles (c : Codec) (fs : FS) (offs : Bool) (act : Bytes → Head → Done) (actDamaged : Exc → Bytes → Head → Done)
    (tail : Bytes → Option Nat → List Err → Output) : List Bytes → Output
  | [] => ⟨[], .done⟩
  | name :: names => (onAnyFile c fs offs act actDamaged tail name).andThen (onAnyFiles c fs offs act actDamaged tail names)

end Warc.Spec
