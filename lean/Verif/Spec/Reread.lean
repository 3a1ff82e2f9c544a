import Verif.Spec.Scan
import Verif.Spec.Collect
import Verif.Spec.Tools
/-
  Going back to a record by its offset (property C80).
-/
namespace Warc.Spec
open _root_.Warc.Stream

/-- the errors that are about the record itself, not about what stands in front of it -/
def ownErrors (es : List Err) : List Err :=
  es.filter fun e => match e with
    | .ignoredLine _ => false
    | .badPrefix _ => false
    | _ => true

/-- the record as it is read when nothing stands in front of it -/
def _root_.Warc.Rec.alone (r : Rec) : Rec := { r with errors := ownErrors r.errors }

/-- a WARC stream on an uncompressed file, standing at position `o` and not inside a record -/
def warcAt (f : File) (o : Nat) : Stream := ⟨{ f with pos := o }, none, .plain, .warc⟩

end Warc.Spec
