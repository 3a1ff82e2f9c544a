import Verif.Spec.Collect
import Verif.Spec.Scan
import Verif.Spec.Payload
/-
  Programs that keep records and come back to them after the stream has moved on.
-/
namespace Warc.Spec
open _root_.Warc.Stream

/-- `records = [record for offset, record, errors in stream.read_records(limit=None) if record]`: the records and the stream behind them;
`none` if reading raises or does not end within `fuel` rounds -/
def readAll (offs : Bool) : Nat → Stream → Option (List Rec × Stream)
  | 0, _ => none
  | fuel + 1, s =>
    match readRecord offs s with
    | .ok e s' =>
      match e.rcd with
      | none => some ([], s')
      | some r => (readAll offs fuel s').map fun p => (r :: p.1, p.2)
    | _ => none

/-- `[record.content for record in records]` -/
def contentsOf : List Rec → Stream → Option (List (Option Bytes × Option Bytes))
  | [], _ => some []
  | r :: rs, s =>
    match World.content ⟨s, r, []⟩ with
    | .ok c w => (contentsOf rs w.strm).map (c :: ·)
    | _ => none

end Warc.Spec
