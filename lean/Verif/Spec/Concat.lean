import Verif.Spec.Scan
import Verif.Spec.Collect
/-
  Files put behind other bytes (properties C81, C82).
-/
namespace Warc.Spec
open _root_.Warc.Stream

/-- the same stream object, in the same state, if the file had the bytes `X` in front -/
def behind (X : Bytes) (s : Stream) : Stream :=
  { s with fh := { s.fh with data := X ++ s.fh.data, pos := X.length + s.fh.pos } }

/-- the entry as reported `k` bytes further on -/
def _root_.Warc.Stream.Entry.later (k : Nat) (e : Entry) : Entry := { e with offset := e.offset.map (k + ·) }

/-- what a scan sees, as seen `k` bytes further on -/
def Seen.later (k : Nat) (x : Seen) : Seen := { x with entry := x.entry.later k }

/-- a stream like `s` that has just been opened on the contents `B` -/
def anew (B : Bytes) (s : Stream) : Stream := { s with fh := { s.fh with data := B, pos := 0 }, eoc := none }

/-- read `k` records and perform the planned calls on their content files: what was seen, and the stream afterwards;
`none` if there are fewer records or something raises -/
def readFirst (offs : Bool) (plan : Nat → List ReadOp) : Nat → Nat → Stream → Option (List Seen × Stream)
  | 0, _, s => some ([], s)
  | k + 1, i, s =>
    match readRecord offs s with
    | .ok ⟨o, some r, es⟩ s' =>
      match runOps (plan i) s' with
      | .ok outs s'' => (readFirst offs plan k (i + 1) s'').map fun p => (⟨⟨o, some r, es⟩, outs⟩ :: p.1, p.2)
      | _ => none
    | _ => none

end Warc.Spec
