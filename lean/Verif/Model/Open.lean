import Verif.Model.ReadRecord
/-
  Model of format detection and opening:
  /repo/hanzo/warctools/archive_detect.py and open_record_stream (/repo/hanzo/warctools/stream.py:8-45),
  and of the gzip library as seen by the record classes.
-/
namespace Warc

open Rx

/-- The gzip library: `enc b` is the complete member that `GzipFile(mode='ab')` writes for the
bytes `b`; `dec raw` describes what `GzipFile(fileobj=...)` delivers for a raw file: the
decompressed bytes it can deliver, and the exception it raises when more is wanted (`none`: end of
file).  The compression algorithm itself is a parameter of the model. -/
structure Codec where
  enc : Bytes → Bytes
  dec : Bytes → Bytes × Option Exc

/-- The record classes that can be passed to `open_record_stream`. -/
inductive RecClass where
  | warc | arc | mixed
  deriving Repr, DecidableEq

/-- `make_parser` of the classes (/repo/hanzo/warctools/warc.py:139-141, arc.py:42-44,
mixed.py:7-9). -/
def RecClass.makeParser : RecClass → Parser
  | .warc => .warc
  | .arc => .arc ArcSt.init
  | .mixed => .mixed ArcSt.init

/-- The `gzip` argument. -/
inductive GzMode where
  | auto | record | file | off
  deriving Repr, DecidableEq

/-- A `GzipFile(fileobj=f)` opened for reading at the current position of `f`. -/
def gzipFileOf (c : Codec) (f : File) : File :=
  { data := (c.dec f.rest).1, pos := 0, strictNeg := true, fault := (c.dec f.rest).2 }

namespace Detect

/-- `is_gzip_file` (/repo/hanzo/warctools/archive_detect.py:5-8). -/
def isGzipFile : M File Bool := do
  let signature ← File.read (some 2)
  File.seek (-(signature.length : Int)) 1
  pure (signature == [0x1f, 0x8b])

/-- `blank_rx` (/repo/hanzo/warctools/warc.py:284): `^$`. -/
def blankRx : Rx := seqs [bos, dollar]

/-- `^filedesc://` (/repo/hanzo/warctools/arc.py:197). -/
def filedescRx : Rx := seqs [bos, str (b! "filedesc://")]

/-- The loop over the registered types (/repo/hanzo/warctools/archive_detect.py:19-24); the order is
that of the imports in /repo/hanzo/warctools/__init__.py:1-4 (warc registers two patterns, then
arc one). -/
def classify (line : Bytes) : Option RecClass :=
  if rxTest versionRx line then some .warc
  else if rxTest blankRx line then some .warc
  else if rxTest filedescRx line then some .arc
  else none

/-- `guess_record_type` (/repo/hanzo/warctools/archive_detect.py:10-24).  Simplification: where
reading compressed data raises, the position left behind in the raw file is shown unchanged. -/
def guessRecordType (c : Codec) : M File (Option RecClass) := fun f =>
  let offset := f.tell
  match isGzipFile f with
  | .hang => .hang
  | .raise e f' => .raise e f'
  | .ok true f1 =>
    match File.readline none (gzipFileOf c f1) with
    | .ok line _ => (do File.seek offset 0; pure (classify line) : M File (Option RecClass)) f1
    | .raise e _ => .raise e f1
    | .hang => .hang
  | .ok false f1 =>
    (do let line ← File.readline none
        File.seek offset 0
        pure (classify line) : M File (Option RecClass)) f1

end Detect

/-- `open_record_stream` for an already opened file (/repo/hanzo/warctools/stream.py:23-45).
`nameGz` says that a file name was given and ends in `.gz`. -/
def openRecordStream (c : Codec) (cls : Option RecClass) (nameGz : Bool) (gz : GzMode) :
    M File Stream := do
  let cls ← match cls with
    | some k => pure (some k)
    | none => Detect.guessRecordType c
  match cls with
  | none => M.throw (.generic "Failed to guess compression")
  | some k =>
    let gz ← match gz with
      | .auto =>
        if nameGz then pure GzMode.record
        else do
          let b ← Detect.isGzipFile
          pure (if b then GzMode.record else GzMode.off)
      | g => pure g
    let f ← M.get
    match gz with
    | .record => pure ⟨gzipFileOf c f, none, .gzipRecord, k.makeParser⟩
    | .file => pure ⟨gzipFileOf c f, none, .gzipFile, k.makeParser⟩
    | _ => pure ⟨f, none, .plain, k.makeParser⟩

/-- `cls.open_archive(filename=..., gzip=..., offset=...)` for a local file with the given contents
(/repo/hanzo/warctools/record.py:189-196, stream.py:14-22); `cls = none` is `ArchiveRecord`. -/
def openArchive (c : Codec) (cls : Option RecClass) (nameGz : Bool) (gz : GzMode)
    (offset : Option Nat) (contents : Bytes) : Except Exc Stream :=
  let r := (do
    match offset with
    | some o => File.seek o 0
    | none => pure ()
    openRecordStream c cls nameGz gz : M File Stream) (File.openFile contents)
  match r with
  | .ok s _ => .ok s
  | .raise e _ => .error e
  | .hang => .error (.generic "hang")

end Warc
