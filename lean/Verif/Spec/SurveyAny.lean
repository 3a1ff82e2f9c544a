import Verif.Spec.Survey
import Verif.Spec.ReadAll
import Verif.Spec.ToolDamaged
/-
  How a program that goes through an archive and does not give up at a record whose content cannot be read (`Spec.survey`) ends, from the bytes (property C119).
-/
namespace Warc.Spec
open _root_.Warc.Stream

/-- Uncompressed or decompressed data, from some place on.  The content of a record with a length below -1 cannot be read, but the loop goes on behind its head; a content that is
cut short can be read, but the loop cannot go on. -/
def surveyOn : Nat → Bytes → End
  | 0, _ => .hangs
  | rounds + 1, data =>
    match next data with
    | .stuck => .hangs
    | .unknown => .raised .typeError
    | .none _ _ => .done
    | .record _ _ headers _ size =>
      if declaredLength headers < -1 then surveyOn rounds (data.drop size)
      else if declaredLength headers = -1 then .done
      else if (data.drop size).length < (declaredLength headers).toNat then .raised (.generic "expected more bytes")
      else surveyOn rounds ((data.drop size).drop (declaredLength headers).toNat)

/-- data behind which the decompressor raises `e` -/
def surveyDamaged (e : Exc) : Nat → Bytes → End
  | 0, _ => .hangs
  | rounds + 1, data =>
    match nextDamaged data with
    | none => .raised e
    | some .stuck => .hangs
    | some .unknown => .raised .typeError
    | some (.none _ _) => .done
    | some (.record _ _ headers _ size) =>
      if declaredLength headers < -1 then surveyDamaged e rounds (data.drop size)
      else if declaredLength headers = -1 ∨ (data.drop size).length < (declaredLength headers).toNat then .raised e
      else surveyDamaged e rounds ((data.drop size).drop (declaredLength headers).toNat)

/-- any file -/
def surveyFile (c : Codec) (fs : FS) (name : Bytes) : End :=
  match fs name with
  | none => .raised .osError
  | some stored =>
    if Compressed name stored then
      match (c.dec stored).2 with
      | none => surveyOn ((c.dec stored).1.length + 2) (c.dec stored).1
      | some e => surveyDamaged e ((c.dec stored).1.length + 2) (c.dec stored).1
    else surveyOn (stored.length + 2) stored

end Warc.Spec
