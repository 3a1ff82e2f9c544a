import Verif.Model.Tools
import Verif.Model.UnpackRun
/-
  The branches of the tools that read `sys.stdin` when no file is named, on Python 3, where `sys.stdin` is a text file:
  warcdump (/repo/hanzo/warcdump.py:28-29), warcextract (/repo/hanzo/warcextract.py:33-36), warc2warc
  (/repo/hanzo/warc2warc.py:71-75), warcfilter (/repo/hanzo/warcfilter.py:65-67) and warcunpack_ia (/repo/warcunpack_ia.py:57-61).

  `WarcRecord.open_archive(file_handle=sys.stdin, gzip=None)` makes a `RecordStream` without touching the file
  (/repo/hanzo/warctools/stream.py:8-45: the class is given and `gzip` is not 'auto').
-/
namespace Warc
namespace Stdin
open _root_.Warc.Stream

/-- A text file: the lines that are still to come, `none` standing for bytes that cannot be decoded; whether `tell` works
(it does not on a pipe); `bytes_to_eoc` of the stream around it; and what was written to stdout. -/
structure Console where
  lines : List (Option String)
  seekable : Bool
  eoc : Option Int
  out : Bytes
  deriving Repr, DecidableEq

/-- `fh.readline()` of a text file: the next line, `''` at the end of the file; UnicodeDecodeError (a ValueError) -/
def readline : M Console PyStr := fun t =>
  match t.lines with
  | [] => .ok (.str "") t
  | some l :: ls => .ok (.str l) { t with lines := ls }
  | none :: _ => .raise .valueError t

/-- `fh.tell()`: some number, or io.UnsupportedOperation (an OSError) -/
def tell : M Console Nat := fun t => if t.seekable then .ok 0 t else .raise .osError t

/-- `re.match(br'^[\r\n]+$', line)`: a bytes pattern cannot be used on text -/
def isBlank : PyStr → M Console Bool
  | .bytes b => pure (rxTest blankLineRx b)
  | .str _ => M.throw .typeError

/-- `RecordStream._read_record(offsets)` (/repo/hanzo/warctools/stream.py:88-102).  `parse` stands for the parser, for which
nothing is assumed; `skip` for `_skip_to_eoc`. -/
def blankLoop (offsets : Bool) : Nat → M Console (Option Nat × PyStr)
  | 0 => M.diverge
  | fuel + 1 => do
    let offset ← if offsets then do let n ← tell; pure (some n) else pure none
    let line ← readline
    if (← isBlank line) then blankLoop offsets fuel else pure (offset, line)

/-- see `blankLoop` -/
def readRecord (skip : M Console Unit) (parse : Option Nat → PyStr → M Console Entry) (offsets : Bool) : M Console Entry := do
  let t ← M.get
  if t.eoc.isSome then skip
  M.modify fun t => { t with eoc := none }
  let (offset, line) ← blankLoop offsets (t.lines.length + 2)
  parse offset line

variable (skip : M Console Unit) (parse : Option Nat → PyStr → M Console Entry)

/-- `for record in fh: body` (/repo/hanzo/warctools/stream.py:77-86) -/
def forEach (body : Rec → M Console Unit) : Nat → M Console Unit
  | 0 => M.diverge
  | fuel + 1 => do
    let e ← readRecord skip parse false
    match e.rcd with
    | some r => do
      body r
      forEach body fuel
    | none => if e.errors = [] then pure () else M.throw (.generic "Errors while decoding")

/-- `for (offset, record, errors) in fh.read_records(limit, offsets): body` (/repo/hanzo/warctools/stream.py:64-75) -/
def forRecords (offsets : Bool) (body : Entry → M Console Unit) : Nat → Option Nat → M Console Unit
  | 0, _ => M.diverge
  | fuel + 1, limit =>
    if limit = some 0 then pure ()
    else do
      let e ← readRecord skip parse offsets
      body e
      if e.rcd.isNone then pure ()
      else forRecords offsets body fuel (limit.map (· - 1))

/-- `warc2warc` and `warcfilter pattern` without file names: `body` is `process` resp. the body of `filter_archive`
(/repo/hanzo/warc2warc.py:71-75, warcfilter.py:65-67, 76-120) -/
def copyMain (body : Rec → M Console Unit) (fuel : Nat) : M Console Unit := forEach skip parse body fuel

/-- `warcdump` without file names (/repo/hanzo/warcdump.py:28-29, 40-52) -/
def dumpMain (body : Entry → M Console Unit) (fuel : Nat) : M Console Unit := forRecords skip parse false body fuel none

/-- `warcextract` without file names (/repo/hanzo/warcextract.py:33-36, 52-60) -/
def extractMain (body : Entry → M Console Unit) (fuel : Nat) : M Console Unit := forRecords skip parse false body fuel (some 1)

/-- `unpack_records('<stdin>', fh, ...)` of `warcunpack_ia` without file names (/repo/warcunpack_ia.py:57-61, 78-127) -/
def unpackMain (body : Entry → M Console Unit) (fuel : Nat) : M Console Unit := forRecords skip parse true body fuel none

end Stdin
end Warc
