import Verif.Model.ReadRecord
/-
  Sequences of calls on a record's `content_file`, and what they should return.
-/
namespace Warc.Spec

/-- one call on `record.content_file` with a non-negative size -/
inductive ReadOp where
  /-- `read()` / `read(n)` -/
  | read (n : Option Nat)
  /-- `readline()` / `readline(n)` -/
  | readline (n : Option Nat)
  /-- `readinto(buffer)` with a buffer of `n` bytes -/
  | readinto (n : Nat)
  deriving Repr, DecidableEq

/-- perform the call on the stream -/
def ReadOp.run : ReadOp → M Stream Bytes
  | .read n => Stream.read (n.map fun (k : Nat) => (k : Int))
  | .readline n => Stream.readline (n.map fun (k : Nat) => (k : Int))
  | .readinto n => Stream.readinto n

/-- perform several calls, collecting the results -/
def runOps : List ReadOp → M Stream (List Bytes)
  | [] => pure []
  | op :: ops => do
    let a ← op.run
    let as ← runOps ops
    pure (a :: as)

/-- a line: everything up to and including the first newline -/
def lineOf : Bytes → Bytes
  | [] => []
  | c :: cs => if c = 10 then [c] else c :: lineOf cs

/-- what the call returns on a file that contains exactly the bytes `p` from here on -/
def ReadOp.result : ReadOp → Bytes → Bytes
  | .read none, p => p
  | .read (some n), p => p.take n
  | .readline none, p => lineOf p
  | .readline (some n), p => (lineOf p).take n
  | .readinto n, p => p.take n

/-- results of several calls on a file that contains exactly the bytes `p` from here on -/
def results : List ReadOp → Bytes → List Bytes
  | [], _ => []
  | op :: ops, p => op.result p :: results ops (p.drop (op.result p).length)

/-- what is left unread after the calls -/
def leftover : List ReadOp → Bytes → Bytes
  | [], p => p
  | op :: ops, p => leftover ops (p.drop (op.result p).length)

end Warc.Spec
