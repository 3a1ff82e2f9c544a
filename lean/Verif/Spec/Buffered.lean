import Verif.Model.Buffered
import Verif.Spec.Write
import Verif.Spec.Crash
/-
  What has reached the file, and several programs that write to the same file (properties C103, C104).
-/
namespace Warc.Spec

/-- the contents of the file: every `raw.write` appends (mode `'ab'`) -/
def onDisk (s : Sink) : Bytes := s.raw.flatten

/-- a program that has just opened the file -/
def opened : Sink := ⟨[], []⟩

/-- the bytes in calls -/
def given : List Call → Bytes
  | [] => []
  | .write b :: cs => b ++ given cs
  | .flush :: cs => given cs

/-- what `write_to` calls for a record with a content tuple -/
def Item.calls (it : Item) : List Call := recordCalls CRLF it.version it.headers (.tuple it.ctype (some it.body))

/-- `for record in records: record.write_to(out)` -/
def allCalls (its : List Item) : List Call := its.flatMap Item.calls

/-- of the calls `p`, which a program has made that wants to write `its`, the calls for `j` records are complete, and not for more -/
def Returned (its : List Item) (p : List Call) (j : Nat) : Prop :=
  j ≤ its.length ∧ allCalls (its.take j) <+: p ∧ ∀ i ≤ its.length, allCalls (its.take i) <+: p → i ≤ j

/-- the blocks of at most `n` bytes, all but the last of `n`, that make up `b` -/
def blocksOf (n : Nat) (b : Bytes) : List Bytes :=
  if _h : n = 0 ∨ b = [] then [] else b.take n :: blocksOf n (b.drop n)
termination_by b.length
decreasing_by
  have : 0 < b.length := List.length_pos_iff.2 (fun e => _h (Or.inr e))
  simp; omega

/-- the entries of several lists in one order that keeps the order of each list -/
inductive Merge {α : Type} : List (List α) → List α → Prop where
  | done (ls : List (List α)) : (∀ l ∈ ls, l = []) → Merge ls []
  | step (as bs : List (List α)) (x : α) (l zs : List α) : Merge (as ++ l :: bs) zs → Merge (as ++ (x :: l) :: bs) (x :: zs)

end Warc.Spec

namespace Warc

/-- everything the compressor gives for these calls, up to the last flush, and what is left for the end -/
def Deflater.front (d : Deflater) (cs : List Call) : d.State × Bytes :=
  cs.foldl (fun q c => match c with
    | .write b => ((d.step q.1 b).1, q.2 ++ (d.step q.1 b).2)
    | .flush => ((d.sync q.1).1, q.2 ++ (d.sync q.1).2)) (d.init, d.header)

/-- the member for these calls: what has been given when `flush` was called for the last time, and the rest -/
def Deflater.early (d : Deflater) (cs : List Call) : Bytes := (d.front (cs ++ [.flush])).2
def Deflater.late (d : Deflater) (cs : List Call) : Bytes := (d.fin (d.front (cs ++ [.flush])).1).flatten

end Warc
