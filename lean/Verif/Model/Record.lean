import Verif.Model.Stream
/-
  Model of archive records: /repo/hanzo/warctools/record.py (ArchiveRecord),
  the constructor and writer of /repo/hanzo/warctools/warc.py (WarcRecord) and the
  record classes of /repo/hanzo/warctools/arc.py.
-/
namespace Warc

/-- A header is a pair (name, value), `record.headers` is a list of them
(/repo/hanzo/warctools/record.py:34-36). -/
abbrev Header := Bytes × Bytes

/-- Entries of the `errors` lists (/repo/hanzo/warctools/warc.py:203-205, 219, 229, 239, 250, 264,
271; arc.py:187, 192). -/
inductive Err where
  /-- `('ignored line', line)` -/
  | ignoredLine (line : Bytes)
  /-- `('too many errors, giving up hope',)` -/
  | tooMany
  /-- `('incorrect newline in version', nl)` -/
  | badNlVersion (nl : Bytes)
  /-- `('bad prefix on WARC version header', prefix)` -/
  | badPrefix (pre : Bytes)
  /-- `('incorrect newline in header', nl)` -/
  | badNlHeader (nl : Bytes)
  /-- `('incorrect newline in follow header', line, nl)` -/
  | badNlFollow (line nl : Bytes)
  /-- `('invalid header', name, value)` -/
  | invalidHeader (name value : Bytes)
  deriving Repr, DecidableEq

/-- The record classes `WarcRecord`, `ArcRecord`, `ArcRecordHeader`. -/
inductive Cls where
  | warc | arc | arcHeader
  deriving Repr, DecidableEq

/-- The `content_file` of a record: attribute never assigned (an `ArcRecord` that was not
produced by the parser, arc.py:31-32), `None`, the stream the record was read from, or some other
file object. -/
inductive CFile where
  | unset
  | none
  | stream
  | file (f : File)
  deriving Repr, DecidableEq

/-- An archive record (/repo/hanzo/warctools/record.py:40-43, 84-87; warc.py:53-70; arc.py:49-53).
`content` is `_content`: `None` or a pair (type or None, buffer or None). -/
structure Rec where
  cls : Cls
  version : Bytes
  headers : List Header
  errors : List Err
  content : Option (Option Bytes × Option Bytes)
  cfile : CFile
  cfileValid : Bool
  rawHeaders : List Bytes := []
  deriving Repr, DecidableEq

/-! Header name constants: /repo/hanzo/warctools/warc.py:13-30 and arc.py:14-25. -/
namespace WH
def DATE : Bytes := b! "WARC-Date"
def TYPE : Bytes := b! "WARC-Type"
def ID : Bytes := b! "WARC-Record-ID"
def CONCURRENT_TO : Bytes := b! "WARC-Concurrent-To"
def REFERS_TO : Bytes := b! "WARC-Refers-To"
def CONTENT_LENGTH : Bytes := b! "Content-Length"
def CONTENT_TYPE : Bytes := b! "Content-Type"
def URL : Bytes := b! "WARC-Target-URI"
def IP_ADDRESS : Bytes := b! "WARC-IP-Address"
def FILENAME : Bytes := b! "WARC-Filename"
def WARCINFO_ID : Bytes := b! "WARC-Warcinfo-ID"
end WH

namespace AH
def URL : Bytes := b! "URL"
def IP : Bytes := b! "IP-address"
def DATE : Bytes := b! "Archive-date"
def CONTENT_TYPE : Bytes := b! "Content-type"
def CONTENT_LENGTH : Bytes := b! "Archive-length"
end AH

/-! WARC record type values: /repo/hanzo/warctools/warc.py:41-47. -/
namespace WT
def RESPONSE : Bytes := b! "response"
def RESOURCE : Bytes := b! "resource"
def REQUEST : Bytes := b! "request"
def METADATA : Bytes := b! "metadata"
def CONVERSION : Bytes := b! "conversion"
def WARCINFO : Bytes := b! "warcinfo"
end WT

/-- The class attribute `CONTENT_TYPE` of each record class. -/
def Cls.contentTypeName : Cls → Bytes
  | .warc => WH.CONTENT_TYPE
  | _ => AH.CONTENT_TYPE

/-- The class attribute `CONTENT_LENGTH` of each record class. -/
def Cls.contentLengthName : Cls → Bytes
  | .warc => WH.CONTENT_LENGTH
  | _ => AH.CONTENT_LENGTH

/-- The class attribute `DATE`. -/
def Cls.dateName : Cls → Bytes
  | .warc => WH.DATE
  | _ => AH.DATE

/-- The class attribute `URL`. -/
def Cls.urlName : Cls → Bytes
  | .warc => WH.URL
  | _ => AH.URL

/-- The loop of `get_header` (/repo/hanzo/warctools/record.py:132-137). -/
def lookupHeader (name : Bytes) : List Header → Option Bytes
  | [] => none
  | (k, v) :: rest => if lower name = lower k then some v else lookupHeader name rest

namespace Rec

/-- `ArchiveRecord.get_header` (/repo/hanzo/warctools/record.py:132-137). -/
def getHeader (r : Rec) (name : Bytes) : Option Bytes := lookupHeader name r.headers

/-- `ArchiveRecord.set_header` (/repo/hanzo/warctools/record.py:139-141): removes the headers whose
name is *identical* (case sensitive) and appends the new pair. -/
def setHeader (r : Rec) (name value : Bytes) : Rec :=
  { r with headers := r.headers.filter (fun h => h.1 != name) ++ [(name, value)] }

/-- `record.type` (/repo/hanzo/warctools/record.py:54-56, arc.py:34-36, 55-57). -/
def type (r : Rec) : Option Bytes :=
  match r.cls with
  | .warc => r.getHeader WH.TYPE
  | .arc => some (b! "response")
  | .arcHeader => some (b! "filedesc")

/-- `record.date` (/repo/hanzo/warctools/record.py:47-49). -/
def date (r : Rec) : Option Bytes := r.getHeader r.cls.dateName

/-- `record.url` (/repo/hanzo/warctools/record.py:128-130). -/
def url (r : Rec) : Option Bytes := r.getHeader r.cls.urlName

/-- `record.id` (/repo/hanzo/warctools/warc.py:72-74). -/
def id (r : Rec) : Option Bytes := r.getHeader WH.ID

/-- `WarcRecord(version, headers, content)` with a content tuple
(/repo/hanzo/warctools/warc.py:53-70). -/
def mkWarc (version : Bytes) (headers : List Header) (ctype : Option Bytes)
    (buf : Option Bytes) : Rec :=
  { cls := .warc, version := version, headers := headers, errors := [],
    content := some (ctype, buf), cfile := .none, cfileValid := false }

/-- `WarcRecord(version, headers, content_file=fh)` (/repo/hanzo/warctools/warc.py:53-70,
record.py:84-87). -/
def mkWarcFile (version : Bytes) (headers : List Header) (fh : File) : Rec :=
  { cls := .warc, version := version, headers := headers, errors := [],
    content := .none, cfile := .file fh, cfileValid := true }

end Rec

/-- What a program that handles one record of one stream can touch: the stream, the record and
the bytes written to the output so far. -/
structure World where
  strm : Stream
  rcd : Rec
  out : Bytes
  deriving Repr, DecidableEq

namespace World

/-- run a stream operation -/
def onStream {α : Type} (x : M Stream α) : M World α := fun w =>
  match x w.strm with
  | .ok a s => .ok a { w with strm := s }
  | .raise e s => .raise e { w with strm := s }
  | .hang => .hang

/-- `self.content_file.read(n)`; `None.read` and a missing attribute raise `AttributeError`. -/
def cfileRead (n : Option Int) : M World Bytes := fun w =>
  match w.rcd.cfile with
  | .stream => onStream (Stream.read n) w
  | .file f =>
    match File.read n f with
    | .ok a f' => .ok a { w with rcd := { w.rcd with cfile := .file f' } }
    | .raise e f' => .raise e { w with rcd := { w.rcd with cfile := .file f' } }
    | .hang => .hang
  | .none => .raise .attributeError w
  | .unset => .raise .attributeError w

/-- `self.content_file = None` (/repo/hanzo/warctools/record.py:84-87) -/
def clearCfile (w : World) : World :=
  { w with rcd := { w.rcd with cfile := .none, cfileValid := false } }

/-- `record.content` (/repo/hanzo/warctools/record.py:89-102): the first access reads the content
file and always drops it (`finally`), later accesses return the stored pair. -/
def content : M World (Option Bytes × Option Bytes) := fun w =>
  match w.rcd.content with
  | some c => .ok c w
  | none =>
    let ctype := w.rcd.getHeader w.rcd.cls.contentTypeName
    match cfileRead none w with
    | .ok buf w' =>
      .ok (ctype, some buf)
        (clearCfile { w' with rcd := { w'.rcd with content := some (ctype, some buf) } })
    | .raise e w' => .raise e (clearCfile w')
    | .hang => .hang

/-- `record.content_type` (/repo/hanzo/warctools/record.py:104-114; the earlier definition at
58-60 is overridden by it). -/
def contentType : M World (Option Bytes) := fun w =>
  match w.rcd.content with
  | some c => .ok c.1 w
  | none =>
    match w.rcd.getHeader w.rcd.cls.contentTypeName with
    | some t => .ok (some t) w
    | none =>
      match content w with
      | .ok c w' => .ok c.1 w'
      | .raise e w' => .raise e w'
      | .hang => .hang

/-- `len(self.content[1])`; `len(None)` raises `TypeError` -/
def lenContent : M World Int := do
  let c ← content
  match c.2 with
  | some b => pure b.length
  | none => M.throw .typeError

/-- `record.content_length` (/repo/hanzo/warctools/record.py:116-126). -/
def contentLength : M World Int := fun w =>
  match w.rcd.content with
  | some _ => lenContent w
  | none =>
    match w.rcd.getHeader w.rcd.cls.contentLengthName with
    | some v =>
      match pyInt 10 v with
      | some n => .ok n w
      | none => .raise .valueError w
    | none => lenContent w

/-- `out.write(b)` -/
def write (b : Bytes) : M World Unit := M.modify fun w => { w with out := w.out ++ b }

/-- `out.write(k); out.write(b": "); out.write(v); out.write(nl)`
(/repo/hanzo/warctools/warc.py:90-93, 107-110, 115-118) -/
def writeHeader (nl : Bytes) (h : Header) : M World Unit := do
  write h.1
  write (b! ": ")
  write h.2
  write nl

/-- The header loop of `_write_to` (/repo/hanzo/warctools/warc.py:88-93); the flag is
`self.content_file is not None`. -/
def writeHeaders (nl : Bytes) (hasFile : Bool) : List Header → M World Unit
  | [] => pure ()
  | h :: rest => do
    if hasFile || !(h.1 == WH.CONTENT_TYPE || h.1 == WH.CONTENT_LENGTH) then
      writeHeader nl h
    writeHeaders nl hasFile rest

/-- The copy loop of `_write_to` (/repo/hanzo/warctools/warc.py:97-100). -/
def copyLoop : Nat → M World Unit
  | 0 => M.diverge
  | fuel + 1 => do
    let buf ← cfileRead (some 8192)
    if buf = [] then pure ()
    else do
      write buf
      copyLoop fuel

/-- number of bytes left in the file behind `content_file` (bounds the copy loop) -/
def cfileRemaining (w : World) : Nat :=
  match w.rcd.cfile with
  | .stream => w.strm.fh.rest.length
  | .file f => f.rest.length
  | _ => 0

/-- is `self.content_file` (when assigned at all) different from `None`? -/
def hasCfile (r : Rec) : Bool :=
  match r.cfile with
  | .stream => true
  | .file _ => true
  | _ => false

/-- `WarcRecord._write_to` (/repo/hanzo/warctools/warc.py:76-127); `ArcRecord._write_to` does
nothing (arc.py:38-40). -/
def writeBody (nl : Bytes) : M World Unit := fun w =>
  match w.rcd.cls with
  | .warc => (do
      write w.rcd.version
      write nl
      writeHeaders nl (hasCfile w.rcd) w.rcd.headers
      if hasCfile w.rcd then do
        write nl
        copyLoop (cfileRemaining w + 2)
      else do
        let (ctype, buf) ← content
        match ctype with
        | some t => if t = [] then pure () else writeHeader nl (WH.CONTENT_TYPE, t)
        | none => pure ()
        let buf := buf.getD []
        writeHeader nl (WH.CONTENT_LENGTH, decimal buf.length)
        write nl
        if buf = [] then pure () else write buf
      write nl
      write nl : M World Unit) w
  | _ => .ok () w

/-- `ArchiveRecord.write_to(out, newline, gzip=False)` (/repo/hanzo/warctools/record.py:167-185):
check that the content file was not used, write, mark it used. -/
def writeTo (nl : Bytes) : M World Unit := fun w =>
  match w.rcd.cfile with
  | .unset => .raise .attributeError w
  | _ =>
    if hasCfile w.rcd && !w.rcd.cfileValid then
      .raise (.generic "cannot write record because content_file has already been used") w
    else
      match writeBody nl w with
      | .ok () w' =>
        .ok () (if hasCfile w'.rcd then { w' with rcd := { w'.rcd with cfileValid := false } } else w')
      | .raise e w' => .raise e w'
      | .hang => .hang

/-- `ArchiveRecord.write_to(out, newline, gzip=True)` (/repo/hanzo/warctools/record.py:172-182): the
same bytes are written through a new `GzipFile`, which is closed afterwards, so one complete gzip
member `enc bytes` is appended.  Simplification: when writing raises half way, the partial member
left in the output is not modelled here (the output is shown unchanged); see Model/Interrupted.lean and
property C121 for it. -/
def writeToGz (enc : Bytes → Bytes) (nl : Bytes) : M World Unit := fun w =>
  match writeTo nl { w with out := [] } with
  | .ok () w' => .ok () { w' with out := w.out ++ enc w'.out }
  | .raise e w' => .raise e { w' with out := w.out }
  | .hang => .hang

end World
end Warc
