import Verif.Spec.ToolDamaged
/-
  What warcextract and warcpayload write for the record at any position of any file.
-/
namespace Warc.Spec
open _root_.Warc.Stream

/-- `warcextract`, in damaged data: the content, if it is there completely -/
def extractingDamaged (e : Exc) (h : Head) : Done := h.readingDamaged e fun content => .goes content true

/-- the content in pieces, as `warcpayload` writes it, in damaged data -/
def pouringDamaged (e : Exc) (h : Head) : Done :=
  if h.Whole then .goes (h.behind.take h.length.toNat) true
  else .stops h.copied (if h.length < -1 then .valueError else e)

/-- `warcpayload`, in damaged data, for a record that is not an HTTP response -/
def payloadingDamaged (e : Exc) (h : Head) : Done :=
  if firstValue (b! "WARC-Type") h.headers = some (b! "response") ∧ firstValue (b! "Content-Type") h.headers = none then
    h.readingDamaged e fun _ => .stops [] .attributeError
  else pouringDamaged e h

/-- one record only, the one found in damaged data -/
def onceDamaged (e : Exc) (act : Head → Done) (data : Bytes) : Output :=
  match nextDamaged data with
  | none => ⟨[], .raised e⟩
  | some .stuck => ⟨[], .hangs⟩
  | some .unknown => ⟨[], .raised .typeError⟩
  | some (.none errors _) => if errors = [] then ⟨[], .done⟩ else ⟨[], .raised .nameError⟩
  | some (.record _ version headers errors size) =>
    match act ⟨none, version, headers, errors, data.drop size⟩ with
    | .stops text exc => ⟨text, .raised exc⟩
    | .goes text _ => ⟨text, .done⟩
    | .never => ⟨[], .hangs⟩

/-- one record only, the one found in the stored bytes, taken as they are or decompressed -/
def onceStored (c : Codec) (compressed : Bool) (act : Head → Done) (actDamaged : Exc → Head → Done) (bytes : Bytes) : Output :=
  if compressed then
    match (c.dec bytes).2 with
    | none => onceOn act (c.dec bytes).1
    | some e => onceDamaged e (actDamaged e) (c.dec bytes).1
  else onceOn act bytes

end Warc.Spec
