import Verif.Model.Record
/-
  The writer again (/repo/hanzo/warctools/warc.py:76-127, record.py:167-185, stream.py:104-106), now with the `write` method of the
  output as a parameter: an ordinary file, a device that becomes full, or a `RecordStream`.  With an ordinary file it is the
  writer of `Model/Record.lean` (`writeToVia_write`).
-/
namespace Warc
namespace World

/-- the `write` method of the object that is written to -/
abbrev Put := Bytes → M World Unit

/-- writing one header (/repo/hanzo/warctools/warc.py:90-93, 107-110, 115-118) -/
def writeHeaderVia (put : Put) (nl : Bytes) (h : Header) : M World Unit := do
  put h.1
  put (b! ": ")
  put h.2
  put nl

/-- the header loop (/repo/hanzo/warctools/warc.py:88-93) -/
def writeHeadersVia (put : Put) (nl : Bytes) (hasFile : Bool) : List Header → M World Unit
  | [] => pure ()
  | h :: rest => do
    if hasFile || !(h.1 == WH.CONTENT_TYPE || h.1 == WH.CONTENT_LENGTH) then
      writeHeaderVia put nl h
    writeHeadersVia put nl hasFile rest

/-- the copy loop (/repo/hanzo/warctools/warc.py:97-100) -/
def copyLoopVia (put : Put) : Nat → M World Unit
  | 0 => M.diverge
  | fuel + 1 => do
    let buf ← cfileRead (some 8192)
    if buf = [] then pure ()
    else do
      put buf
      copyLoopVia put fuel

/-- `if content_type: …` (/repo/hanzo/warctools/warc.py:106-110) -/
def writeTypeVia (put : Put) (nl : Bytes) : Option Bytes → M World Unit
  | some t => if t = [] then pure () else writeHeaderVia put nl (WH.CONTENT_TYPE, t)
  | none => pure ()

/-- the part behind the supplied headers, with a content tuple (/repo/hanzo/warctools/warc.py:102-123) -/
def writeTupleVia (put : Put) (nl : Bytes) : M World Unit := do
  let c ← content
  writeTypeVia put nl c.1
  writeHeaderVia put nl (WH.CONTENT_LENGTH, decimal (c.2.getD []).length)
  put nl
  if c.2.getD [] = [] then pure () else put (c.2.getD [])

/-- the part behind the headers, with a content file (/repo/hanzo/warctools/warc.py:95-100) -/
def writeFileVia (put : Put) (nl : Bytes) (fuel : Nat) : M World Unit := do
  put nl
  copyLoopVia put fuel

/-- `WarcRecord._write_to` (/repo/hanzo/warctools/warc.py:76-127) and `ArcRecord._write_to` (arc.py:38-40) -/
def writeBodyVia (put : Put) (nl : Bytes) : M World Unit := fun w =>
  match w.rcd.cls with
  | .warc => (do
      put w.rcd.version
      put nl
      writeHeadersVia put nl (hasCfile w.rcd) w.rcd.headers
      if hasCfile w.rcd then writeFileVia put nl (cfileRemaining w + 2) else writeTupleVia put nl
      put nl
      put nl : M World Unit) w
  | _ => .ok () w

/-- `ArchiveRecord.write_to(out, newline)` (/repo/hanzo/warctools/record.py:167-185) without gzip -/
def writeToVia (put : Put) (nl : Bytes) : M World Unit := fun w =>
  match w.rcd.cfile with
  | .unset => .raise .attributeError w
  | _ =>
    if hasCfile w.rcd && !w.rcd.cfileValid then
      .raise (.generic "cannot write record because content_file has already been used") w
    else
      match writeBodyVia put nl w with
      | .ok () w' =>
        .ok () (if hasCfile w'.rcd then { w' with rcd := { w'.rcd with cfileValid := false } } else w')
      | .raise e w' => .raise e w'
      | .hang => .hang

/-- The `write` method of a device that has room for `room` bytes in all: it takes what fits and raises OSError if that is not
everything.  Simplification: writes are not buffered, so the exception is raised by the call that meets the end. -/
def limited (room : Nat) : Put := fun b w =>
  if w.out.length + b.length ≤ room then .ok () { w with out := w.out ++ b }
  else .raise .osError { w with out := (w.out ++ b).take room }

/-- `RecordStream.write(record)` (/repo/hanzo/warctools/stream.py:104-106): `record.write_to(self)`.  The writer calls
`self.write(b)` with `bytes` objects, and that is this same method again: `b.write_to` raises AttributeError. -/
def streamWrite : M World Unit := writeToVia (fun _ => M.throw .attributeError) [13, 10]

end World
end Warc
