import Verif.Spec.Reads
import Verif.Model.Tools
import Verif.Model.Open
/-
  A program that goes through an archive and does not give up at a record whose content cannot be read.
-/
namespace Warc.Spec
open _root_.Warc.Stream

/--
```
for offset, record, errors in stream.read_records(limit=None):
    if record:
        try: record.content
        except Exception: pass
```
How the loop ends; fuel bounds the number of rounds. -/
def survey : Nat → Stream → End
  | 0, _ => .hangs
  | fuel + 1, s =>
    match readRecord true s with
    | .hang => .hangs
    | .raise e _ => .raised e
    | .ok e s' =>
      match e.rcd with
      | none => .done
      | some r =>
        match World.content ⟨s', r, []⟩ with
        | .hang => .hangs
        | .raise _ w => survey fuel w.strm
        | .ok _ w => survey fuel w.strm

/-- The file can be opened, and gone through to its end. -/
def GoesThrough (c : Codec) (fs : FS) (name : Bytes) : Prop :=
  ∃ s rounds, openName c fs .warc none name = .ok s ∧ survey rounds s = .done

/-- The file cannot be opened, or going through it ends with an exception. -/
def GivesUp (c : Codec) (fs : FS) (name : Bytes) : Prop :=
  (∃ e, openName c fs .warc none name = .error e) ∨ ∃ s rounds e, openName c fs .warc none name = .ok s ∧ survey rounds s = .raised e

end Warc.Spec
