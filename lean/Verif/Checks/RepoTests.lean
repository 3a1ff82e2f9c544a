import Verif.Model.Tools
import Verif.Spec.Toy
/-
  The unit tests of the repository, run on the model (/repo/hanzo/warctools/tests/test_warctools.py,
  /repo/hanzo/httptools/tests/parse_test.py).  These are checks of the model against the expectations of the authors of the
  code, not properties: the expected values are those of the tests.

  Differences: compressed members are those of the toy codec instead of the two gzip members in the tests; the tests expect the offset of
  the member in a compressed archive, which the code provides only on Python < 3.5 (see C25), so here the offset is None.
-/
namespace Warc.Checks
open Warc _root_.Warc.Stream Spec

/-- class, type, content type, content length, content of a record -/
structure Looked where
  cls : Cls
  type : Option Bytes
  ctype : Option Bytes
  len : Int
  content : Option Bytes
  deriving DecidableEq

/-- what the read tests look at -/
structure Seen where
  offset : Option Nat
  rcd : Option Looked
  errors : List Err
  deriving DecidableEq

/-- `record.type, record.content_type, record.content_length, record.content[1]` (test_warctools.py:62-67) -/
def look : M World Looked := do
  let w ← M.get
  let t ← World.contentType
  let n ← World.contentLength
  let c ← World.content
  pure ⟨w.rcd.cls, w.rcd.type, t, n, c.2⟩

/-- `for (offset, record, errors) in fh.read_records(limit=None, offsets=True): …`; none if anything raises or does not end -/
def runChecks : Nat → Stream → Option (List Seen)
  | 0, _ => none
  | fuel + 1, s =>
    match readRecord true s with
    | .ok e s' =>
      match e.rcd with
      | none => some [⟨e.offset, none, e.errors⟩]
      | some r =>
        match look ⟨s', r, []⟩ with
        | .ok x w => (runChecks fuel w.strm).map (⟨e.offset, some x, e.errors⟩ :: ·)
        | _ => none
    | _ => none

/-- `warctools.ArchiveRecord.open_archive(file_handle=fin)` and the loop -/
def readAll (contents : Bytes) : Option (List Seen) :=
  match openArchive toy none false .auto none contents with
  | .ok s => runChecks 10 s
  | .error _ => none

/-- the terminators of `runTest` -/
def terminators : List Bytes :=
  [b! "\n", b! "\r\n\r\n", b! "\r\n", b! "\n\r\n", b! "\n\n\r\n", b! "\r\n\n", b! "\r\n\r\n\r\n", b! "\n\n\n\n\n\n\n\n\n\n\n\n\n\n\n\n", b! "\n\n", b! "\n\n\n",
   b! "\n\n\n\n", b! "\r\n\n\r\n\n", b! "\r\r\r\r\r\r\n", b! "\r\r\r\r\r\r\n\n", b! "\r\r\r\r\r\r\n\n\n"]

/-! ### ArcRecordTerminatorTest -/

def arc1 : Bytes := b! "filedesc://ArcRecordTerminatorTest.arc 0.0.0.0 20131113000000 text/plain 115\n1 0 InternetArchive\nURL IP-address Archive-date Content-type Archive-length\nHere is some funky arc header content!\n"
def http1 : Bytes := b! "HTTP/1.1 200 OK\r\nContent-Type: text/plain\r\nContent-Length: 12\r\n\r\n01234567890\r\n"
def arc2 : Bytes := b! "http://example.org/ 192.168.1.1 20131113000000 text/plain 78\n" ++ http1

def arcSeen (o1 o2 o3 : Option Nat) : List Seen :=
  [⟨o1, some ⟨.arcHeader, some (b! "filedesc"), some (b! "text/plain"), 115, some (b! "Here is some funky arc header content!\n")⟩, []⟩,
   ⟨o2, some ⟨.arc, some (b! "response"), some (b! "text/plain"), 78, some http1⟩, []⟩, ⟨o3, none, []⟩]

example : ∀ t ∈ terminators, readAll (arc1 ++ t ++ arc2 ++ t) =
    some (arcSeen (some 0) (some (arc1.length + t.length)) (some (arc1.length + arc2.length + 2 * t.length))) := by decide +kernel

example : readAll (toy.enc (arc1 ++ b! "\n") ++ toy.enc (arc2 ++ b! "\n")) = some (arcSeen none none none) := by decide +kernel

/-! ### WarcRecordTerminatorTest -/

def warc1 : Bytes := b! "WARC/1.0\r\nWARC-Record-ID: <urn:uuid:00000000-0000-0000-0000-000000000000>\r\nWARC-Type: warcinfo\r\nContent-Type: application/warc-fields\r\nContent-Length: 30\r\n\r\nformat: WARC File Format 1.0\r\n"
def warc2 : Bytes := b! "WARC/1.0\r\nWARC-Type: response\r\nWARC-Record-ID: <urn:uuid:00000000-0000-0000-0000-000000000001>\r\nWARC-Target-URI: http://example.org/\r\nContent-Type: application/http;msgtype=response\r\nContent-Length: 78\r\n\r\n" ++ http1

def warcSeen (o1 o2 o3 : Option Nat) : List Seen :=
  [⟨o1, some ⟨.warc, some (b! "warcinfo"), some (b! "application/warc-fields"), 30, some (b! "format: WARC File Format 1.0\r\n")⟩, []⟩,
   ⟨o2, some ⟨.warc, some (b! "response"), some (b! "application/http;msgtype=response"), 78, some http1⟩, []⟩, ⟨o3, none, []⟩]

example : ∀ t ∈ terminators, readAll (warc1 ++ t ++ warc2 ++ t) =
    some (warcSeen (some 0) (some (warc1.length + t.length)) (some (warc1.length + warc2.length + 2 * t.length))) := by decide +kernel

example : readAll (toy.enc (warc1 ++ b! "\r\n\r\n") ++ toy.enc (warc2 ++ b! "\r\n\r\n")) = some (warcSeen none none none) := by decide +kernel

/-! ### WarcWritingTest -/

def written : List Header :=
  [(WH.TYPE, WT.RESPONSE), (WH.ID, b! "<urn:uuid:00000000-0000-0000-0000-000000000000>"), (WH.DATE, b! "2013-11-15T00:00:00Z"), (WH.URL, b! "http://example.org/"),
   (WH.CONTENT_TYPE, b! "application/http;msgtype=request")]

/-- `build_record_using_tuple` -/
def tupleRecord : Rec := Rec.mkWarc (b! "WARC/1.0") written (some (b! "application/http;msgtype=request")) (some (b! "Luke, I am your payload"))
/-- `build_record_using_stream` -/
def streamRecord : Rec := Rec.mkWarcFile (b! "WARC/1.0") (written ++ [(WH.CONTENT_LENGTH, b! "27")]) (File.ofBytes (b! "Shmuke, I gam four snayglob"))

def tupleText : Bytes := b! "WARC/1.0\r\nWARC-Type: response\r\nWARC-Record-ID: <urn:uuid:00000000-0000-0000-0000-000000000000>\r\nWARC-Date: 2013-11-15T00:00:00Z\r\nWARC-Target-URI: http://example.org/\r\nContent-Type: application/http;msgtype=request\r\nContent-Length: 23\r\n\r\nLuke, I am your payload\r\n\r\n"
def streamText : Bytes := b! "WARC/1.0\r\nWARC-Type: response\r\nWARC-Record-ID: <urn:uuid:00000000-0000-0000-0000-000000000000>\r\nWARC-Date: 2013-11-15T00:00:00Z\r\nWARC-Target-URI: http://example.org/\r\nContent-Type: application/http;msgtype=request\r\nContent-Length: 27\r\n\r\nShmuke, I gam four snayglob\r\n\r\n"

/-- write to a new file, and again to another new file: what the two files contain; none for an exception -/
def writeTwice (write : M World Unit) (r : Rec) : Option Bytes × Option Bytes :=
  match write ⟨Stream.mk' .plain (File.ofBytes []) .warc, r, []⟩ with
  | .ok () w =>
    (some w.out, match write { w with out := [] } with
      | .ok () w' => some w'.out
      | _ => none)
  | _ => (none, none)

/-- test_write_using_tuple -/
example : writeTwice (World.writeTo CRLF) tupleRecord = (some tupleText, some tupleText) := by decide +kernel
/-- test_write_using_tuple_gz -/
example : (writeTwice (World.writeToGz toy.enc CRLF) tupleRecord).1.map toy.dec = some (tupleText, none) := by decide +kernel
example : (writeTwice (World.writeToGz toy.enc CRLF) tupleRecord).2.map toy.dec = some (tupleText, none) := by decide +kernel
/-- test_write_using_stream -/
example : writeTwice (World.writeTo CRLF) streamRecord = (some streamText, none) := by decide +kernel
/-- test_write_using_stream_gz -/
example : (writeTwice (World.writeToGz toy.enc CRLF) streamRecord).1.map toy.dec = some (streamText, none) := by decide +kernel
example : (writeTwice (World.writeToGz toy.enc CRLF) streamRecord).2 = none := by decide +kernel

/-! ### parse_test.py -/
open Http

/-- `text = p.feed(t)` for several texts, each of which must leave nothing -/
def feeds (feed : Bytes → M Msg Bytes) : List Bytes → Msg → Option Msg
  | [], m => some m
  | t :: ts, m =>
    match feed t m with
    | .ok [] m' => feeds feed ts m'
    | _ => none

/-- the codec of the tests: `TestGzipped` has one real gzip member, which contains `text\n` -/
def member : Bytes := [0x1f, 0x8b, 8, 8, 71, 0xb2, 0xc5, 86, 0, 3, 116, 101, 115, 116, 0, 43, 73, 0xad, 40, 0xe1, 2, 0, 39, 0xda, 0xec, 55, 5, 0, 0, 0]
def codec : Codec := ⟨fun _ => member, fun raw =>
  if member.isPrefixOf raw then (b! "text\n", none) else if raw = [] then ([], none) else ([], some .osError)⟩
def noZlib : Zlib := ⟨fun _ => none, fun _ => none⟩

/-- `p.headers_complete(), p.complete(), p.get_decoded_message(), p.get_body()` -/
def state (m : Msg) : Bool × Bool × Option Bytes × Bytes :=
  (m.headersComplete, m.complete, (match m.getDecoded noZlib with | .ok b => some b | .error _ => none), m.getBody)

def req := feeds (feed codec)
def rsp := feeds (feedResponse codec)
/-- `p = RequestMessage(); …; p = ResponseMessage(p)` : the request of the response has this method -/
def response (request : Option Msg) : Msg := Msg.response ((request.map (·.header.method)).getD (.str "")) []

def getRequestLines : List Bytes := [b! "GET / HTTP/1.1", b! "Host: example.org", [], []]
def getRequest : Bytes := join CRLF getRequestLines
def getResponseLines : List Bytes := [b! "HTTP/1.1 200 OK", b! "Host: example.org", b! "Content-Length: 5", [], b! "tests"]
def getResponse : Bytes := join CRLF getResponseLines

/-- GetChar: one byte at a time -/
example : (req (getRequest.map fun c => [c]) (Msg.request [])).map state = some (true, true, some getRequest, []) := by decide +kernel
example : (rsp (getResponse.map fun c => [c]) (response (req [getRequest] (Msg.request [])))).map state = some (true, true, some getResponse, b! "tests") := by decide +kernel

/-- GetLines: one line at a time -/
def byLines (ls : List Bytes) : List Bytes := ls.dropLast.flatMap (fun l => [l, CRLF]) ++ [ls.getLastD []]
example : (req (byLines getRequestLines) (Msg.request [])).map state = some (true, true, some getRequest, []) := by decide +kernel
example : (rsp (byLines getResponseLines) (response (req (byLines getRequestLines) (Msg.request [])))).map state = some (true, true, some getResponse, b! "tests") := by decide +kernel
example : (rsp (byLines getResponseLines) (response (req (byLines getRequestLines) (Msg.request [])))).map (fun m => (m.header.code, m.header.version, m.header.phrase)) =
    some (200, .bytes (b! "HTTP/1.1"), .bytes (b! "OK")) := by decide +kernel

/-- HeadTest -/
def headRequest : Bytes := join CRLF [b! "HEAD / HTTP/1.1", b! "Host: example.org", [], []]
def headResponse : Bytes := join CRLF [b! "HTTP/1.1 200 OK", b! "Host: example.org", b! "Content-Length: 5", [], []]
example : (req [headRequest] (Msg.request [])).map state = some (true, true, some headRequest, []) := by decide +kernel
example : (rsp [headResponse] (response (req [headRequest] (Msg.request [])))).map state = some (true, true, some headResponse, []) := by decide +kernel
example : (rsp [headResponse] (response (req [headRequest] (Msg.request [])))).map (fun m => (m.header.code, m.header.version, m.header.phrase)) =
    some (200, .bytes (b! "HTTP/1.1"), .bytes (b! "OK")) := by decide +kernel

/-- PostTestChunked, PostTestChunkedEmpty -/
def postRequest : Bytes := join CRLF [b! "POST / HTTP/1.1", b! "Host: example.org", b! "Transfer-Encoding: chunked", [], b! "8", b! "abcdefgh", b! "0", [], []]
def postEmpty : Bytes := join CRLF [b! "POST / HTTP/1.1", b! "Host: example.org", b! "Transfer-Encoding: chunked", [], b! "0", [], []]
def postResponse : Bytes := join CRLF [b! "HTTP/1.1 100 Continue", b! "Host: example.org", [], b! "HTTP/1.0 204 No Content", b! "Date: now!", [], []]
example : (req [postRequest] (Msg.request [])).map (fun m => (m.complete, m.getBody)) = some (true, b! "abcdefgh") := by decide +kernel
example : (req [postEmpty] (Msg.request [])).map (fun m => (m.complete, m.getBody)) = some (true, []) := by decide +kernel
example : ∀ r ∈ [postRequest, postEmpty], (rsp [postResponse] (response (req [r] (Msg.request [])))).map (fun m => (m.complete, m.header.code, m.header.version, m.header.phrase)) =
    some (true, 204, .bytes (b! "HTTP/1.0"), .bytes (b! "No Content")) := by decide +kernel

/-- TestTwoPartStatus -/
def twoPartRequest : Bytes := join CRLF [b! "GET / HTTP/1.1", b! "Host: example.org",
  b! "Accept: text/html,application/xhtml+xml,application/xml;q=0.9,*/*;q=0.8", b! "Accept-Charset: ISO-8859-1,utf-8;q=0.7,*;q=0.3",
  b! "Accept-Encoding: gzip,deflate,sdch", b! "Accept-Language: en-US,en;q=0.8", b! "Connection: keep-alive", b! "Host: example.org",
  b! "User-Agent: Mozilla/5.0 (Macintosh; Intel Mac OS X 10_7_2) AppleWebKit/535.7 (KHTML, like Gecko) Chrome/16.0.912.77 Safari/535.7", [], []]
def twoPartResponse : Bytes := join CRLF [b! "HTTP/1.1 404", b! "Cache-Control: no-cache", b! "Content-Length: 0", b! "Content-Type:image/gif", b! "Pragma:no-cache",
  b! "nnCoection: close", [], []]
example : (req [twoPartRequest] (Msg.request [])).map (fun m => m.complete) = some true := by decide +kernel
example : (rsp [twoPartResponse] (response (req [twoPartRequest] (Msg.request [])))).map (fun m => (m.complete, m.header.code, m.header.version)) =
    some (true, 404, .bytes (b! "HTTP/1.1")) := by decide +kernel

/-- TestPseudoGzipped -/
def pseudo : Bytes := join CRLF [b! "HTTP/1.1 200 OK", b! "Host: example.org", b! "Content-Encoding: gzip", b! "Content-Length: 7", [], b! "text", []]
example : (rsp [pseudo] (response none)).map (fun m => (m.complete, m.header.code, m.header.version)) = some (true, 200, .bytes (b! "HTTP/1.1")) := by decide +kernel

/-- TestGzipped -/
def gzipped : Bytes := join CRLF [b! "HTTP/1.1 200 OK", b! "Host: example.org", b! "Content-Encoding: gzip", b! "Content-Length: 30", [], member]
example : (rsp [gzipped] (response none)).map (fun m => (m.complete, m.header.code, m.header.version)) = some (true, 200, .bytes (b! "HTTP/1.1")) := by decide +kernel

end Warc.Checks
