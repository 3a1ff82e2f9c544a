import Verif.Model.HttpMessage
/-
  Model of the command line tools that read WARC files: warcvalid, warcindex, warcfilter, warc2warc,
  warcextract, warcpayload (/repo/hanzo/*.py).

  Not modelled here: option parsing (Model/Cli), messages on stderr, s3 names (expand_files, /repo/hanzo/warctools/__init__.py:8-14,
  is the identity on other names).  The branches that read `sys.stdin` are in Model/Stdin.
-/
namespace Warc
open _root_.Warc.Stream

/-- The file system: contents of the files that can be opened. File names are given as the bytes of
their UTF-8 encoding. -/
abbrev FS := Bytes → Option Bytes

/-- What a tool holds while it reads one archive: the stream and the bytes written to stdout. -/
structure Tool where
  strm : Stream
  out : Bytes
  deriving Repr, DecidableEq

namespace Tool

/-- run a stream operation -/
def onStream {α : Type} (x : M Stream α) : M Tool α := fun t =>
  match x t.strm with
  | .ok a s => .ok a { t with strm := s }
  | .raise e s => .raise e { t with strm := s }
  | .hang => .hang

/-- run code that handles the record `r` just read from the stream; the record object is dropped
afterwards -/
def withRecord {α : Type} (r : Rec) (x : M World α) : M Tool α := fun t =>
  match x ⟨t.strm, r, t.out⟩ with
  | .ok a w => .ok a ⟨w.strm, w.out⟩
  | .raise e w => .raise e ⟨w.strm, w.out⟩
  | .hang => .hang

/-- `for record in fh: body` (`__iter__`, /repo/hanzo/warctools/stream.py:77-86).  Every record takes at least
one byte, so fuel `rest + 2` is never used up (theorem `forEach_fuel`). -/
def forEach (body : M World Unit) : Nat → M Tool Unit
  | 0 => M.diverge
  | fuel + 1 => do
    let e ← onStream (readRecord false)
    match e.rcd with
    | some r => do
      withRecord r body
      forEach body fuel
    | none => if e.errors = [] then pure () else M.throw (.generic "Errors while decoding")

/-- `for (offset, record, errors) in fh.read_records(limit, offsets): body`
(/repo/hanzo/warctools/stream.py:64-75) where the body does something only if there is a record. -/
def forRecords (offsets : Bool) (body : Option Nat → M World Unit) : Nat → Option Nat → M Tool Unit :=
  Stream.forRecords onStream offsets fun e =>
    match e.rcd with
    | some r => withRecord r (body e.offset)
    | none => pure ()

/-- rounds allowed for a loop over the records of a stream -/
def rounds (t : Tool) : Nat := t.strm.fh.rest.length + 2

/-- `for record in fh: body` -/
def each (body : M World Unit) : M Tool Unit := fun t => forEach body (rounds t) t

/-- `for ... in fh.read_records(limit, offsets): if record: body` -/
def eachEntry (offsets : Bool) (limit : Option Nat) (body : Option Nat → M World Unit) : M Tool Unit :=
  fun t => forRecords offsets body (rounds t) limit t

end Tool

/-- `name.endswith('.gz')` (/repo/hanzo/warctools/stream.py:32) -/
def nameGz (name : Bytes) : Bool := endsWith name (b! ".gz")

/-- `cls.open_archive(name, gzip="auto", offset=offset)` (/repo/hanzo/warctools/record.py:189-196,
stream.py:14-45). -/
def openName (c : Codec) (fs : FS) (cls : RecClass) (offset : Option Nat) (name : Bytes) : Except Exc Stream :=
  match fs name with
  | none => .error .osError
  | some contents => openArchive c (some cls) (nameGz name) .auto offset contents

/-- Run a loop over one named archive; the state is what was written to stdout. -/
def onArchive (c : Codec) (fs : FS) (cls : RecClass) (offset : Option Nat) (name : Bytes) (loop : M Tool Unit) :
    M Bytes Unit := fun out =>
  match openName c fs cls offset name with
  | .error e => .raise e out
  | .ok s =>
    match loop ⟨s, out⟩ with
    | .ok () t => .ok () t.out
    | .raise e t => .raise e t.out
    | .hang => .hang

/-- `for name in expand_files(input_files): ...` -/
def forFiles (f : Bytes → M Bytes Unit) : List Bytes → M Bytes Unit
  | [] => pure ()
  | name :: names => do
    f name
    forFiles f names

/-! ### warcvalid -/
namespace WarcValid

/-- How the loop over one file ended. -/
inductive Verdict where
  /-- the loop ran to the end of the file -/
  | clean
  /-- errors were found: `correct=False; break` -/
  | broken
  /-- an exception came out -/
  | raised
  /-- it never ends -/
  | hangs
  deriving Repr, DecidableEq

/-- The loop over the entries of one file (/repo/hanzo/warcvalid.py:38-51).  Printing the message about
errors formats the offset with `%d`, which raises TypeError when it is None. -/
def checkEntries : Nat → M Stream Verdict
  | 0 => M.diverge
  | fuel + 1 => do
    let e ← readRecord true
    if e.errors ≠ [] then
      if e.offset = none then M.throw .typeError else pure .broken
    else match e.rcd with
      | none => pure .clean
      | some r =>
        if r.errors ≠ [] then
          if e.offset = none then M.throw .typeError else pure .broken
        else checkEntries fuel

/-- One file (/repo/hanzo/warcvalid.py:36-51), exceptions being caught at line 54. -/
def checkFile (c : Codec) (fs : FS) (name : Bytes) : Verdict :=
  match openName c fs .warc none name with
  | .error _ => .raised
  | .ok s =>
    match checkEntries (s.fh.rest.length + 2) s with
    | .ok v _ => v
    | .raise _ _ => .raised
    | .hang => .hangs

/-- The loop over the files and the exit code (/repo/hanzo/warcvalid.py:32-63): `some 0`, `some (-1)`, or
`none` when the tool does not terminate. An exception ends the loop over the files, a broken file does
not. -/
def run (c : Codec) (fs : FS) : Bool → List Bytes → Option Int
  | correct, [] => some (if correct then 0 else -1)
  | correct, name :: names =>
    match checkFile c fs name with
    | .clean => run c fs correct names
    | .broken => run c fs false names
    | .raised => some (-1)
    | .hangs => none

/-- `warcvalid name ...`: the value returned by `main` -/
def main (c : Codec) (fs : FS) (names : List Bytes) : Option Int := run c fs true names

end WarcValid

/-! ### warcindex -/
namespace WarcIndex

/-- `x or b'-'` -/
def orDash : Option Bytes → Bytes
  | none => b! "-"
  | some v => if v = [] then b! "-" else v

/-- `str(offset).encode('utf-8')` -/
def offsetText : Option Nat → Bytes
  | none => b! "None"
  | some n => decimal n

/-- the first line (/repo/hanzo/warcindex.py:36) -/
def heading : Bytes :=
  b! "#WARC filename offset warc-type warc-subject-uri warc-record-id content-type content-length\n"

/-- The line for one record (/repo/hanzo/warcindex.py:43-50).  `content_type` and `content_length` may read
the content. -/
def indexRecord (name : Bytes) (offset : Option Nat) : M World Unit := do
  let w ← M.get
  let ctype ← World.contentType
  let len ← World.contentLength
  World.write (join [32] [name, offsetText offset, orDash w.rcd.type, orDash w.rcd.url, orDash w.rcd.id,
    orDash ctype, decimalInt len] ++ [10])

/-- `warcindex name ...` (/repo/hanzo/warcindex.py:24-61): what is written to stdout. -/
def main (c : Codec) (fs : FS) (names : List Bytes) : M Bytes Unit := do
  M.modify (· ++ heading)
  forFiles (fun name => onArchive c fs .warc none name (Tool.eachEntry true none (indexRecord name))) names

end WarcIndex

/-! ### warcfilter -/
namespace WarcFilter

/-- The options that choose what is searched (/repo/hanzo/warcfilter.py:16-26). -/
structure Opts where
  url : Bool := false
  type : Bool := false
  contentType : Bool := false
  httpContentType : Bool := false
  warcDate : Bool := false
  invert : Bool := false
  deriving Repr, DecidableEq

/-- `bool(x and pattern.search(x)) ^ invert`; `search` is the compiled pattern -/
def hit (search : Bytes → Bool) (invert : Bool) (x : Option Bytes) : Bool :=
  (match x with
    | none => false
    | some v => v ≠ [] && search v) ^^ invert

/-- lift a computation on an HTTP message that is local to a function -/
def local' {α : Type} (m : Http.Msg) (x : M Http.Msg α) : M World (α × Http.Msg) := fun w =>
  match x m with
  | .ok a m' => .ok (a, m') w
  | .raise e _ => .raise e w
  | .hang => .hang

/-- `record.content[1]` when it is handed to `feed`; a missing buffer raises -/
def contentBytes : M World Bytes := do
  let (_, buf) ← World.content
  match buf with
  | some b => pure b
  | none => M.throw .typeError

/-- `ResponseMessage(RequestMessage())`: the request has no method yet -/
def newResponse (ignore : List PyStr) : Http.Msg := Http.Msg.response (.str "") ignore

/-- `parse_http_response` (/repo/hanzo/warcfilter.py:28-47), returning the mime type.  The module does not
import `logging`, so the warnings raise NameError. -/
def parseHttpResponse (c : Codec) : M World (Option Bytes) := do
  let text ← contentBytes
  let (remainder, m) ← local' (newResponse []) (Http.feedResponse c text)
  let m := m.close
  if remainder ≠ [] ∨ m.complete = false then M.throw .nameError
  else
    match (m.header.headers.filter fun h => lower h.1 == b! "content-type") with
    | [] => pure none
    | h :: _ => pure ((splitAll 59 h.2).head?)

/-- `for name, value in record.headers: if pattern.search(value): found = True` -/
def inHeaders (search : Bytes → Bool) (hs : List Header) : Bool := hs.any fun h => search h.2

/-- write the record if the test succeeded -/
def writeIf (b : Bool) : M World Unit := if b then World.writeTo CRLF else pure ()

/-- The loop body of `filter_archive` (/repo/hanzo/warcfilter.py:81-120). -/
def filterRecord (c : Codec) (search : Bytes → Bool) (o : Opts) : M World Unit := do
  let w ← M.get
  if o.url then writeIf (hit search o.invert w.rcd.url)
  else if o.type then writeIf (hit search o.invert w.rcd.type)
  else if o.contentType then do
    let ctype ← World.contentType
    writeIf (hit search o.invert ctype)
  else if o.httpContentType then do
    if w.rcd.type = some WT.RESPONSE then
      match ← World.contentType with
      | none => M.throw .attributeError
      | some t =>
        if startsWith t (b! "application/http") then do
          let mime ← parseHttpResponse c
          writeIf (hit search o.invert mime)
        else pure ()
    else pure ()
  else if o.warcDate then writeIf (hit search o.invert w.rcd.date)
  else do
    let (_, buf) ← World.content
    let found ← if inHeaders search w.rcd.headers then pure true
      else match buf with
        | some b => pure (search b)
        | none => M.throw .typeError
    writeIf (found ^^ o.invert)

/-- `warcfilter [options] pattern name ...` (/repo/hanzo/warcfilter.py:49-77). -/
def main (c : Codec) (fs : FS) (search : Bytes → Bool) (o : Opts) (names : List Bytes) : M Bytes Unit :=
  forFiles (fun name => onArchive c fs .warc none name (Tool.each (filterRecord c search o))) names

end WarcFilter

/-! ### warc2warc -/
namespace Warc2Warc

/-- The options (/repo/hanzo/warc2warc.py:19-30). -/
structure Opts where
  gzip : Bool := false
  decode : Bool := false
  wgetFix : Bool := false
  deriving Repr, DecidableEq

/-- `ResponseMessage.CONTENT_TYPE` (/repo/hanzo/httptools/messaging.py:636) -/
def responseType : Bytes := b! "application/http;msgtype=response"
/-- `RequestMessage.CONTENT_TYPE` (/repo/hanzo/httptools/messaging.py:628) -/
def requestType : Bytes := b! "application/http;msgtype=request"

/-- `WGET_IGNORE_HEADERS if options.wget_workaround else ()` (/repo/hanzo/warc2warc.py:33, 36) -/
def ignoreHeaders (o : Opts) : List PyStr := if o.wgetFix then [.str "Transfer-Encoding"] else []

/-- what follows the choice of the message class (/repo/hanzo/warc2warc.py:50-62): feed, close, and if the
message is complete decode it; assigning `record.content`, a property without setter, raises
AttributeError. -/
def decodeWith (z : Http.Zlib) (m : Http.Msg) (feed : Bytes → M Http.Msg Bytes) (content : Option Bytes) :
    M World Unit :=
  match content with
  | none => M.throw .typeError
  | some text => do
    let (leftover, m) ← WarcFilter.local' m (feed text)
    let m := m.close
    if leftover = [] ∧ m.complete = true then
      match m.getDecoded z with
      | .error e => M.throw e
      | .ok _ => M.throw .attributeError
    else pure ()

/-- The part of `process` under `if options.decode_http` (/repo/hanzo/warc2warc.py:37-62). -/
def decodeRecord (c : Codec) (z : Http.Zlib) (o : Opts) : M World Unit := do
  let w ← M.get
  if w.rcd.type = some WT.RESPONSE then do
    let (ctype, content) ← World.content
    if ctype = some responseType then
      decodeWith z (WarcFilter.newResponse (ignoreHeaders o)) (Http.feedResponse c) content
    else if ctype = some requestType then
      decodeWith z (Http.Msg.request (ignoreHeaders o)) (Http.feed c) content
    else pure ()
  else pure ()

/-- `process` (/repo/hanzo/warc2warc.py:35-64). -/
def process (c : Codec) (z : Http.Zlib) (o : Opts) : M World Unit := do
  if o.decode then decodeRecord c z o
  if o.gzip then World.writeToGz c.enc CRLF else World.writeTo CRLF

/-- `warc2warc [options] name ...` (/repo/hanzo/warc2warc.py:66-88). -/
def main (c : Codec) (z : Http.Zlib) (fs : FS) (o : Opts) (names : List Bytes) : M Bytes Unit :=
  forFiles (fun name => onArchive c fs .warc none name (Tool.each (process c z o))) names

end Warc2Warc

/-! ### warcextract and warcpayload -/
namespace WarcExtract

/-- `dump_record` (/repo/hanzo/warcextract.py:52-60) for the first entry; with errors the undefined name
`name` raises NameError. -/
def dumpRecord : M Tool Unit := do
  let e ← Tool.onStream (readRecord false)
  match e.rcd with
  | some r => Tool.withRecord r do
      let b ← WarcFilter.contentBytes
      World.write b
  | none => if e.errors ≠ [] then M.throw .nameError else pure ()

/-- `fh.seek(offset)` on a stream from which nothing was read yet (/repo/hanzo/warcextract.py:46;
/repo/hanzo/warctools/stream.py:60-62, 231-235).  A `GzipRecordStream` moves the raw file; its `GzipFile`
has not read anything yet (opening only peeks at the raw file and moves back), so it will decompress from
the new position. -/
def seekFresh (c : Codec) (contents : Bytes) (offset : Nat) : M Stream Unit := fun s =>
  match s.kind with
  | .plain => Stream.seek offset 0 s
  | _ => .ok () { s with fh := gzipFileOf c { File.openFile contents with pos := offset } }

/-- `warcextract name offset` (/repo/hanzo/warcextract.py:36-47). -/
def main (c : Codec) (fs : FS) (name : Bytes) (offset : Nat) : M Bytes Unit :=
  onArchive c fs .warc none name do
    Tool.onStream (seekFresh c ((fs name).getD []) offset)
    dumpRecord

end WarcExtract

namespace WarcPayload

/-- The copy loop (/repo/hanzo/warcpayload.py:55-58) is the loop `World.copyLoop`. For HTTP responses the
payload is read through `http.client`: the parameter `http` here, the model of the library in `WarcPayload.tool` (Model/HttpClient). -/
def dumpPayload (http : M World Unit) : M World Unit := do
  let w ← M.get
  if w.rcd.type = some WT.RESPONSE then
    match ← World.contentType with
    | none => M.throw .attributeError
    | some t =>
      if startsWith t (b! "application/http") then http
      else do
        let w ← M.get
        World.copyLoop (World.cfileRemaining w + 2)
  else World.copyLoop (World.cfileRemaining w + 2)

/-- `dump_payload_from_stream` (/repo/hanzo/warcpayload.py:39-63) -/
def dumpStream (http : M World Unit) : M Tool Unit := do
  let e ← Tool.onStream (readRecord false)
  match e.rcd with
  | some r => Tool.withRecord r (dumpPayload http)
  | none => if e.errors ≠ [] then M.throw .nameError else pure ()

/-- `warcpayload name:offset` (/repo/hanzo/warcpayload.py:22-37). -/
def main (c : Codec) (fs : FS) (http : M World Unit) (name : Bytes) (offset : Nat) : M Bytes Unit :=
  onArchive c fs .warc (some offset) name (dumpStream http)

end WarcPayload
end Warc
