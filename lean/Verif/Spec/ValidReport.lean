import Verif.Spec.Grammar
import Verif.Model.ValidReport
/-
  What warcvalid has to say about a file, in terms of what its bytes mean (`Spec.next`).
-/
namespace Warc.Spec
open _root_.Warc.Stream

inductive Finding where
  /-- nothing wrong up to the end -/
  | fine
  /-- the first flawed entry: its offset and what is wrong with it -/
  | flawed (offset : Nat) (errors : List Err)
  /-- the reading ends with an exception -/
  | raises
  /-- the reading never ends -/
  | endless
  deriving DecidableEq

/-- the first thing wrong in the bytes from position `pos` on -/
def firstFlaw : Nat → Nat → Bytes → Finding
  | 0, _, _ => .endless
  | rounds + 1, pos, data =>
    match next data with
    | .stuck => .endless
    | .unknown => .raises
    | .none errors size => if errors = [] then .fine else .flawed (pos + size) errors
    | .record start _ headers errors size =>
      if errors ≠ [] then .flawed (pos + start) errors
      else if (data.drop size).length < (declaredLength headers).toNat then .raises
      else firstFlaw rounds (pos + size + (declaredLength headers).toNat) ((data.drop size).drop (declaredLength headers).toNat)

/-- the messages about a list of files and the exit code: flawed files are reported by name and position and the next file is looked at; an exception, which has neither
name nor position, is the end -/
def messages : List (Bytes × Finding) → Option (List WarcValid.Msg × Int)
  | [] => some ([], 0)
  | (_, .fine) :: fs => messages fs
  | (name, .flawed o es) :: fs => (messages fs).map fun q => (.errorsAt name o es :: q.1, -1)
  | (_, .raises) :: _ => some ([.exception], -1)
  | (_, .endless) :: _ => none

/-- without offsets, the message about a flaw cannot be written, which is an exception of its own -/
def Finding.compressed : Finding → Finding
  | .flawed _ _ => .raises
  | f => f

end Warc.Spec
