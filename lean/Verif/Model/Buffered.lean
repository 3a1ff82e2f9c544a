import Verif.Model.Record
/-
  The writer once more (/repo/hanzo/warctools/warc.py:76-127, record.py:167-185), now as the sequence of calls it makes on `out`, and what these
  calls do when `out` is a file as `open(name, 'ab')` gives it: an `io.BufferedWriter` on a raw file.
-/
namespace Warc

/-- a call on the object that is written to -/
inductive Call where
  | write (b : Bytes)
  | flush

/-- where the content comes from: a tuple, or the blocks that `content_file.read(8192)` returns until the empty one -/
inductive Supply where
  | tuple (ctype : Option Bytes) (buf : Option Bytes)
  | file (blocks : List Bytes)

def Supply.isFile : Supply → Bool
  | .tuple .. => false
  | .file _ => true

/-- the calls that write one header (/repo/hanzo/warctools/warc.py:90-93, 107-110, 115-118) -/
def headerCalls (nl : Bytes) (h : Header) : List Call := [.write h.1, .write (b! ": "), .write h.2, .write nl]

/-- the calls of the header loop (/repo/hanzo/warctools/warc.py:88-93) -/
def headersCalls (nl : Bytes) (hasFile : Bool) (hs : List Header) : List Call :=
  hs.flatMap fun h => if hasFile || !(h.1 == WH.CONTENT_TYPE || h.1 == WH.CONTENT_LENGTH) then headerCalls nl h else []

/-- the calls of `if content_type: …` (/repo/hanzo/warctools/warc.py:106-110) -/
def typeCalls (nl : Bytes) : Option Bytes → List Call
  | some t => if t = [] then [] else headerCalls nl (WH.CONTENT_TYPE, t)
  | none => []

/-- the calls behind the supplied headers (/repo/hanzo/warctools/warc.py:95-123) -/
def supplyCalls (nl : Bytes) : Supply → List Call
  | .file blocks => .write nl :: blocks.map .write
  | .tuple ctype buf =>
    typeCalls nl ctype ++
    headerCalls nl (WH.CONTENT_LENGTH, decimal (buf.getD []).length) ++
    [.write nl] ++ (if buf.getD [] = [] then [] else [.write (buf.getD [])])

/-- the calls that `WarcRecord._write_to(out, nl)` makes on `out` (/repo/hanzo/warctools/warc.py:76-127) -/
def recordCalls (nl version : Bytes) (hs : List Header) (x : Supply) : List Call :=
  [.write version, .write nl] ++ headersCalls nl x.isFile hs ++ supplyCalls nl x ++ [.write nl, .write nl, .flush]

/-- `io.BufferedWriter` (standard library): the calls `raw.write(b)` it has made, and what it holds back.  Simplifications: a `raw.write` takes everything
(regular files); there are no errors; the file is only written. -/
structure Sink where
  raw : List Bytes
  buf : Bytes

/-- `flush()` of `io.BufferedWriter` -/
def Sink.flush (s : Sink) : Sink := if s.buf = [] then s else ⟨s.raw ++ [s.buf], []⟩

/-- `write(b)` of `io.BufferedWriter` with a buffer of `size` bytes (8192): what fits is held back; otherwise what is held back goes out first, and `b` itself is held
back unless it is longer than the buffer -/
def Sink.write (size : Nat) (b : Bytes) (s : Sink) : Sink :=
  if b.length ≤ size - s.buf.length ∧ b.length < size then { s with buf := s.buf ++ b }
  else if size < b.length then ⟨s.flush.raw ++ [b], []⟩
  else ⟨s.flush.raw, b⟩

/-- one call -/
def Sink.call (size : Nat) (s : Sink) : Call → Sink
  | .write b => s.write size b
  | .flush => s.flush

/-- some calls -/
def Sink.run (size : Nat) (cs : List Call) (s : Sink) : Sink := cs.foldl (Sink.call size) s

/-- What `GzipFile` (standard library) makes of the calls on it: the header; what the compressor gives for a piece of data, for a sync flush, and at the end
(the end of the data, checksum, size: three calls) -/
structure Deflater where
  State : Type
  init : State
  header : Bytes
  step : State → Bytes → State × Bytes
  sync : State → State × Bytes
  fin : State → List Bytes

/-- a call on the `GzipFile`; `flush` also flushes the file below -/
def Deflater.call (d : Deflater) (size : Nat) (q : d.State × Sink) : Call → d.State × Sink
  | .write b => ((d.step q.1 b).1, q.2.write size (d.step q.1 b).2)
  | .flush => ((d.sync q.1).1, (q.2.write size (d.sync q.1).2).flush)

/-- `write_to(out, nl, gzip=True)` (/repo/hanzo/warctools/record.py:172-182): a new `GzipFile`, the calls of `_write_to` on it, `out.flush()`, `out.close()`.
Closing a `GzipFile` that was given a file neither closes nor flushes that file. -/
def gzipRecord (d : Deflater) (size : Nat) (cs : List Call) (s : Sink) : Sink :=
  let q := (cs ++ [Call.flush]).foldl (d.call size) (d.init, s.write size d.header)
  (d.fin q.1).foldl (fun t b => t.write size b) q.2

end Warc
