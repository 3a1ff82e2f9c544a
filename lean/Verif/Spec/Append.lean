import Verif.Spec.Scan
import Verif.Spec.Collect
/-
  Files that grow (property C79).
-/
namespace Warc.Spec
open _root_.Warc.Stream

/-- the same stream object, in the same state, if the file had `more` behind its last byte -/
def longer (more : Bytes) (s : Stream) : Stream :=
  { s with fh := { s.fh with data := s.fh.data ++ more } }

/-- the two scans agree on every record that is followed by another one in the first scan -/
def AgreeButLast (short long : List Seen) : Prop :=
  ∀ j a b, short[j]? = some a → short[j + 1]? = some b → b.entry.rcd ≠ none → long[j]? = some a

end Warc.Spec
