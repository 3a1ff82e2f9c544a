import Verif.Py.File
/-
  Model of the reading half of `RecordStream` (/repo/hanzo/warctools/stream.py:48-179).
-/
namespace Warc

/-- Mutable state of an `ArcParser` (/repo/hanzo/warctools/arc.py:77-87): the version word and
the field names taken from the latest filedesc record.  `version` starts as the integer `0`,
modelled as `none`. -/
structure ArcSt where
  version : Option Bytes
  headers : List Bytes
  deriving Repr, DecidableEq

/-- `ArcParser()` (/repo/hanzo/warctools/arc.py:77-87). -/
def ArcSt.init : ArcSt := ⟨none, []⟩

/-- The record parser attached to a stream: `WarcParser` (stateless,
/repo/hanzo/warctools/warc.py:176), `ArcParser` (arc.py:73) or `MixedParser`
(/repo/hanzo/warctools/mixed.py:12-15, which owns one of each). -/
inductive Parser where
  | warc
  | arc (st : ArcSt)
  | mixed (st : ArcSt)
  deriving Repr, DecidableEq

/-- Which stream class: `RecordStream`, `GzipRecordStream`, `GzipFileStream`
(/repo/hanzo/warctools/stream.py:48, 206, 237). -/
inductive Kind where
  | plain
  | gzipRecord
  | gzipFile
  deriving Repr, DecidableEq

/-- A `RecordStream` (/repo/hanzo/warctools/stream.py:52-58).  For the two gzip classes `fh` is
the decompressing file object. `eoc` is `bytes_to_eoc`; it is an integer because the parser
stores whatever `int(...)` returned, including negative numbers. -/
structure Stream where
  fh : File
  eoc : Option Int
  kind : Kind
  parser : Parser
  deriving Repr, DecidableEq

namespace Stream

/-- run a file operation on `self.fh` -/
def onFile {α : Type} (x : M File α) : M Stream α := fun s =>
  match x s.fh with
  | .ok a f => .ok a { s with fh := f }
  | .raise e f => .raise e { s with fh := f }
  | .hang => .hang

/-- `if self.bytes_to_eoc is not None: self.bytes_to_eoc -= n`
(/repo/hanzo/warctools/stream.py:129-130, 177-178) -/
def consume (n : Nat) : M Stream Unit :=
  M.modify fun s => { s with eoc := s.eoc.map (· - (n : Int)) }

/-- `RecordStream._read` (/repo/hanzo/warctools/stream.py:122-132). -/
def rawRead (count : Option Int) : M Stream Bytes := do
  let result ← onFile (File.read count)
  consume result.length
  pure result

/-- The size computation shared by `read` and `readline`
(/repo/hanzo/warctools/stream.py:140-147 and 163-170). -/
def limitOf (eoc count : Option Int) : Option Int :=
  match eoc, count with
  | some e, some c => some (min c e)
  | some e, none => some e
  | none, some c => some c
  | none, none => none

/-- `RecordStream.read` (/repo/hanzo/warctools/stream.py:134-149). -/
def read (count : Option Int) : M Stream Bytes := do
  let s ← M.get
  rawRead (limitOf s.eoc count)

/-- `RecordStream.readinto(b)` for a buffer of `n` bytes: returns the bytes stored at the start of
the buffer (their number is the return value). /repo/hanzo/warctools/stream.py:152-155. -/
def readinto (n : Nat) : M Stream Bytes := read (some n)

/-- `RecordStream.readline` (/repo/hanzo/warctools/stream.py:157-179). -/
def readline (maxlen : Option Int) : M Stream Bytes := do
  let s ← M.get
  let result ← onFile (File.readline (limitOf s.eoc maxlen))
  consume result.length
  pure result

/-- `CHUNK_SIZE` (/repo/hanzo/warctools/stream.py:181). -/
def CHUNK_SIZE : Int := 8192

/-- The loop of `_skip_to_eoc` (/repo/hanzo/warctools/stream.py:116-120). -/
def skipLoop : Nat → M Stream Unit
  | 0 => M.diverge
  | fuel + 1 => do
    let s ← M.get
    match s.eoc with
    | some e =>
      if 0 < e then
        let readSize := min CHUNK_SIZE e
        let buf ← rawRead (some readSize)
        if (buf.length : Int) < readSize then
          M.throw (.generic "expected more bytes")
        else skipLoop fuel
      else pure ()
    | none => M.throw .typeError

/-- `RecordStream._skip_to_eoc` (/repo/hanzo/warctools/stream.py:112-120).  Every round of the loop
reads at least one byte or raises, so the remaining file length bounds the rounds. -/
def skipToEoc : M Stream Unit := do
  let s ← M.get
  match s.eoc with
  | none => M.throw (.generic "bytes_to_eoc is unset, cannot skip to end")
  | some _ => skipLoop (s.fh.rest.length + 2)

/-- `RecordStream.seek` (/repo/hanzo/warctools/stream.py:60-62): only moves the file, leaving
`bytes_to_eoc` alone. -/
def seek (off : Int) (whence : Nat := 0) : M Stream Unit := onFile (File.seek off whence)

end Stream
end Warc
