import Verif.Spec.Reads
import Verif.Spec.Warc
/-
  Programs that scan an archive, possibly reading from the content files on the way, and what they
  should see.
-/
namespace Warc.Spec
open _root_.Warc.Stream

/-- what a scanning program sees of one entry: the entry of `read_records` and the results of the
calls it made on the record's `content_file` -/
structure Seen where
  entry : Entry
  reads : List Bytes
  deriving DecidableEq

/-- `for i, (offset, record, errors) in enumerate(stream.read_records(limit=None, offsets=offs))`,
where the loop body performs the calls `plan i` on the `content_file` of the `i`-th record.  Fuel
bounds the number of rounds; the result says what was seen and how the loop ended. -/
def scan (offs : Bool) (plan : Nat → List ReadOp) : Nat → Nat → Stream → List Seen × End
  | 0, _, _ => ([], .hangs)
  | fuel + 1, i, s =>
    match readRecord offs s with
    | .hang => ([], .hangs)
    | .raise e _ => ([], .raised e)
    | .ok e s' =>
      match e.rcd with
      | none => ([⟨e, []⟩], .done)
      | some _ =>
        match runOps (plan i) s' with
        | .hang => ([⟨e, []⟩], .hangs)
        | .raise ex _ => ([⟨e, []⟩], .raised ex)
        | .ok outs s'' =>
          let r := scan offs plan fuel (i + 1) s''
          (⟨e, outs⟩ :: r.1, r.2)

/-- a record together with the CR/LF bytes that follow it -/
abbrev RT := R × Bytes

/-- head and payload of the record -/
def R.core (r : R) : Bytes := headBytes r.version r.headers ++ r.body

/-- records, each followed by its own terminator bytes -/
def archiveT (rs : List RT) : Bytes := rs.flatMap fun r => r.1.core ++ r.2

/-- the records are well formed, the terminators are CR/LF lines -/
def OkT (rs : List RT) : Prop := ∀ r ∈ rs, r.1.Ok ∧ Terminator r.2

/-- what a scan should see of the records, the first of which starts at position `pos` and is
number `i` -/
def expect (report : Nat → Option Nat) (plan : Nat → List ReadOp) : Nat → Nat → List RT → List Seen
  | _, _, [] => []
  | i, pos, r :: rs =>
    ⟨⟨report pos, some (parsed r.1.version r.1.headers), []⟩, results (plan i) r.1.body⟩ ::
      expect report plan (i + 1) (pos + (r.1.core ++ r.2).length) rs

end Warc.Spec
