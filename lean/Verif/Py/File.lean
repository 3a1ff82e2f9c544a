import Verif.Py.Exc
/-
  File handles opened for binary reading (`io.BytesIO`, `io.BufferedReader`,
  `gzip.GzipFile`): a byte string and a position.
-/
namespace Warc

/-- A readable binary file object. -/
structure File where
  /-- the whole contents (for a gzip reader: the decompressed contents) -/
  data : Bytes
  /-- current position -/
  pos : Nat
  /-- `true` for `BufferedReader`-like objects (real files, `GzipFile`), which reject
  `read(n)` for `n < -1` with `ValueError`; `false` for `BytesIO`, which treats every negative
  size as "all" -/
  strictNeg : Bool := false
  /-- the exception raised when a read has to go past the end of `data` (damaged or truncated
  gzip data); `none` for ordinary files, where the end of `data` is the end of file -/
  fault : Option Exc := none
  deriving Repr, DecidableEq

namespace File

/-- the bytes from the current position on -/
def rest (f : File) : Bytes := f.data.drop f.pos

/-- `f.tell()` -/
def tell (f : File) : Nat := f.pos

/-- move forward -/
def advance (f : File) (n : Nat) : File := { f with pos := f.pos + n }

/-- deliver the bytes `out` (a prefix of `rest`); `short` says that the caller wanted more than
the data available, in which case a faulty file raises (what had been fetched is lost) -/
def deliver (out : Bytes) (short : Bool) : M File Bytes := fun f =>
  match short, f.fault with
  | true, some e => .raise e (f.advance f.rest.length)
  | _, _ => .ok out (f.advance out.length)

/-- `f.read()` / `f.read(n)` -/
def read (n : Option Int) : M File Bytes := fun f =>
  match n with
  | none => deliver f.rest true f
  | some n =>
    if 0 ≤ n then
      deliver (f.rest.take n.toNat) (decide (f.rest.length < n.toNat)) f
    else if n = -1 ∨ f.strictNeg = false then deliver f.rest true f
    else .raise .valueError f

/-- the first line of a byte string, including its newline -/
def firstLine : Bytes → Bytes
  | [] => []
  | c :: cs => if c == 10 then [c] else c :: firstLine cs

/-- `f.readline()` / `f.readline(limit)`; a negative limit means no limit -/
def readline (limit : Option Int) : M File Bytes := fun f =>
  let line := firstLine f.rest
  match limit with
  | some k =>
    if 0 ≤ k then
      deliver (line.take k.toNat)
        (decide (line.getLast? ≠ some 10 ∧ line.length < k.toNat)) f
    else deliver line (decide (line.getLast? ≠ some 10)) f
  | none => deliver line (decide (line.getLast? ≠ some 10)) f

/-- `f.seek(off, whence)` for `whence` 0 (start), 1 (current), 2 (end).  An absolute negative
position raises; a relative position before the start is clamped (as `BytesIO` does). -/
def seek (off : Int) (whence : Nat) : M File Unit := fun f =>
  if whence = 0 then
    if 0 ≤ off then .ok () { f with pos := off.toNat } else .raise .valueError f
  else if whence = 1 then .ok () { f with pos := ((f.pos : Int) + off).toNat }
  else if whence = 2 then .ok () { f with pos := ((f.data.length : Int) + off).toNat }
  else .raise .valueError f

/-- a new in-memory file (`io.BytesIO(data)`) -/
def ofBytes (data : Bytes) : File := { data := data, pos := 0 }

/-- `open(name, 'rb')` on a file with the given contents -/
def openFile (data : Bytes) : File := { data := data, pos := 0, strictNeg := true }

end File
end Warc
