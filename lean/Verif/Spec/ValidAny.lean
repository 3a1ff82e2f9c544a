import Verif.Spec.ValidReport
import Verif.Spec.ToolDamaged
/-
  What warcvalid has to say about any file at all.
-/
namespace Warc.Spec
open _root_.Warc.Stream

/-- the first thing wrong in data behind which the decompressor raises an exception: there is always something, if the reading ends at all -/
def firstFlawDamaged : Nat → Bytes → Finding
  | 0, _ => .endless
  | rounds + 1, data =>
    match nextDamaged data with
    | some .stuck => .endless
    | some (.record _ _ headers errors size) =>
      if errors ≠ [] ∨ (data.drop size).length < (declaredLength headers).toNat then .raises
      else firstFlawDamaged rounds ((data.drop size).drop (declaredLength headers).toNat)
    | _ => .raises

/-- the finding about a file, whatever is in it, and whether it is there or not -/
def findingOf (c : Codec) (fs : FS) (name : Bytes) : Finding :=
  match fs name with
  | none => .raises
  | some stored =>
    if Compressed name stored then
      match (c.dec stored).2 with
      | none => (firstFlaw ((c.dec stored).1.length + 2) 0 (c.dec stored).1).compressed
      | some _ => firstFlawDamaged ((c.dec stored).1.length + 2) (c.dec stored).1
    else firstFlaw (stored.length + 2) 0 stored

end Warc.Spec
