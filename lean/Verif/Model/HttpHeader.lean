import Verif.Model.Open
/-
  Model of the header classes of the HTTP parser: HTTPHeader, RequestHeader, ResponseHeader
  (/repo/hanzo/httptools/messaging.py:402-624) and of the parts of
  /repo/hanzo/httptools/semantics.py they use.
-/
namespace Warc

open Rx

/-- A Python value that may be `bytes` or `str` (several attributes start out as `str` and are later
replaced by `bytes`). -/
inductive PyStr where
  | bytes (b : Bytes)
  | str (s : String)
  deriving Repr, DecidableEq

/-- `x.lower()`; the letter case of a `str` is irrelevant here because a `str` is never equal to
`bytes` -/
def PyStr.lower : PyStr → PyStr
  | .bytes b => .bytes (Warc.lower b)
  | .str s => .str s

/-- used as an operand of `bytes + ...`: a `str` raises TypeError -/
def PyStr.asBytes : PyStr → Except Exc Bytes
  | .bytes b => .ok b
  | .str _ => .error .typeError

namespace Http

/-- `header.mode` (/repo/hanzo/httptools/messaging.py:410): how the body is delimited -/
inductive Framing where
  | close | length | chunked
  deriving Repr, DecidableEq

/-- a port number, or the bytes found after the colon in a Host header -/
inductive Port where
  | num (n : Int)
  | text (b : Bytes)
  deriving Repr, DecidableEq

/-- request or response header; a response header holds the request header, of which only the method
matters. Simplification: the request does not change while its response is being parsed. -/
inductive Side where
  | request
  | response (requestMethod : PyStr)
  deriving Repr, DecidableEq

/-- HTTPHeader, RequestHeader, ResponseHeader objects (/repo/hanzo/httptools/messaging.py:407-415,
515-523, 579-584). -/
structure Hdr where
  side : Side
  headers : List Header := []
  keepAlive : Bool := false
  mode : Framing := .close
  contentLength : Option Int := none
  encoding : Option Bytes := none
  trailers : List Header := []
  expectContinue : Bool := false
  ignore : List PyStr := []
  method : PyStr := .str ""
  targetUri : PyStr := .str ""
  version : PyStr := .str ""
  host : PyStr := .str ""
  scheme : PyStr := .str "http"
  port : Port := .num 80
  code : Int := 0
  phrase : PyStr := .str "Empty Response"
  deriving Repr, DecidableEq

/-- `RequestHeader(ignore_headers)` (/repo/hanzo/httptools/messaging.py:515-523). -/
def Hdr.request (ignore : List PyStr) : Hdr := { side := .request, ignore := ignore.map PyStr.lower }

/-- `ResponseHeader(request, ignore_headers)` (/repo/hanzo/httptools/messaging.py:579-584). -/
def Hdr.response (requestMethod : PyStr) (ignore : List PyStr) : Hdr :=
  { side := .response requestMethod, version := .bytes (b! "HTTP/1.1"), ignore := ignore.map PyStr.lower }

/-- `Codes.no_body` (/repo/hanzo/httptools/semantics.py:103-105). -/
def noBodyCode (code : Int) : Bool := (100 ≤ code && code < 200) || code == 204 || code == 304

/-- `Methods.no_body` (/repo/hanzo/httptools/semantics.py:18). -/
def noBodyMethod (m : PyStr) : Bool := m == .bytes (b! "HEAD")

/-- `has_body` (/repo/hanzo/httptools/messaging.py:570-571, 615-621). -/
def Hdr.hasBody (h : Hdr) : Bool :=
  match h.side with
  | .request => h.mode == .chunked || h.mode == .length
  | .response rm => !(noBodyMethod rm) && !(noBodyCode h.code)

/-- the lines that count as blank: `NEWLINES` (/repo/hanzo/httptools/messaging.py:24) -/
def isNewline (line : Bytes) : Bool := line == [13, 10] || line == [10]

/-- `url_rx` (/repo/hanzo/httptools/messaging.py:507-510). -/
def urlRx : Rx :=
  seqs [group .scheme (seqs [strI (b! "http"), opt (litI 115)]), str (b! "://"),
    group .authority (seqs [group .host (seqs [cls (fun c => c != 58 && c != 47), starG (fun c => c != 58 && c != 47)]),
      opt (seqs [lit 58, group .port (seqs [cls isDigit, starG isDigit])])]),
    group .path (starG isDot)]

/-- `add_header` (/repo/hanzo/httptools/messaging.py:453-454, 534-542). -/
def addHeader (name value : Bytes) : M Hdr Unit :=
  M.modify fun h =>
    let h := match h.side with
      | .request =>
        if lower name = b! "host" then
          match splitOnce 58 value with
          | some (a, b) => { h with host := .bytes a, port := .text b }
          | none => { h with host := .bytes value }
        else h
      | .response _ => h
    { h with headers := h.headers ++ [(name, value)] }

/-- One header in the loop that is run on the blank line (/repo/hanzo/httptools/messaging.py:463-491);
`name` and `value` are lower case. -/
def applyHeader (name value : Bytes) : M Hdr Unit := do
  let h ← M.get
  if h.ignore.contains (.bytes name) then pure ()
  else if name = b! "expect" then
    if contains value (b! "100-continue") then M.modify fun h => { h with expectContinue := true } else pure ()
  else if name = b! "content-length" then
    if h.mode = .close then
      match pyInt 10 value with
      | some n => M.modify fun h => { h with contentLength := some n, mode := .length }
      | none => M.throw .valueError
    else pure ()
  else if name = b! "transfer-encoding" then
    if contains value (b! "chunked") then M.modify fun h => { h with mode := .chunked } else pure ()
  else if name = b! "content-encoding" then M.modify fun h => { h with encoding := some value }
  else if name = b! "connection" then
    if contains value (b! "keep-alive") then M.modify fun h => { h with keepAlive := true }
    else if contains value (b! "close") then M.modify fun h => { h with keepAlive := false }
    else pure ()
  else pure ()

/-- The loop over the headers on the blank line (/repo/hanzo/httptools/messaging.py:463-491). -/
def applyHeaders : List Header → M Hdr Unit
  | [] => pure ()
  | (name, value) :: rest => do
    applyHeader (lower name) (lower value)
    applyHeaders rest

/-- does the line continue the previous one? (/repo/hanzo/httptools/messaging.py:440, 457) -/
def isFold (line : Bytes) : Bool := startsWith line [32] || startsWith line [9]

/-- `add_header_line` (/repo/hanzo/httptools/messaging.py:456-498). -/
def addHeaderLine (line : Bytes) : M Hdr Unit := do
  let h ← M.get
  if isFold line then
    match h.headers.getLast? with
    | none => M.throw .indexError
    | some (k, v) =>
      M.modify fun h => { h with headers := h.headers.dropLast }
      addHeader k (v ++ [32] ++ strip line)
  else if isNewline line then applyHeaders h.headers
  else match splitOnce 58 line with
    | none => M.throw .valueError
    | some (name, value) => addHeader (strip name) (strip value)

/-- `add_trailer_line` (/repo/hanzo/httptools/messaging.py:439-451). -/
def addTrailerLine (line : Bytes) : M Hdr Unit := do
  let h ← M.get
  if isFold line then
    match h.trailers.getLast? with
    | none => M.throw .indexError
    | some (k, v) =>
      M.modify fun h => { h with trailers := h.trailers.dropLast ++ [(k, v ++ [32] ++ strip line)] }
  else if isNewline line then pure ()
  else match splitOnce 58 line with
    | none => M.throw .valueError
    | some (name, value) =>
      M.modify fun h => { h with trailers := h.trailers ++ [(strip name, strip value)] }

/-- `RequestHeader.set_start_line` (/repo/hanzo/httptools/messaging.py:544-568).  The comparison of the
method with the `str` 'OPTIONS' is always false, so an absolute URL without a path gives the `str` '/';
the comparison of the version with the `str` 'HTTP/1.0' is always false. -/
def setRequestLine (line : Bytes) : M Hdr Unit := do
  match splitMax 32 2 (rstrip line) with
  | [method, target, version] =>
    M.modify fun h => { h with method := .bytes method, targetUri := .bytes target, version := .bytes version }
    if upper method = b! "CONNECT" then
      match splitAll 58 target with
      | [host, port] => M.modify fun h => { h with host := .bytes host, port := .text port }
      | _ => M.throw .valueError
    else
      match pmatch urlRx target with
      | none => pure ()
      | some mt =>
        let port : Int := match mt.group .port with
          | some p => if p = [] then 80 else (pyInt 10 p).getD 80
          | none => 80
        M.modify fun h => { h with
          targetUri := if mt.grp .path = [] then .str "/" else .bytes (mt.grp .path),
          host := .bytes (mt.grp .host), port := .num port, scheme := .bytes (mt.grp .scheme) }
  | _ => M.throw .valueError

/-- `ResponseHeader.set_start_line` (/repo/hanzo/httptools/messaging.py:606-613).  Simplification: when the
code is not a number, the `bytes` that the code leaves in `header.code` are not shown. -/
def setStatusLine (line : Bytes) : M Hdr Unit := do
  match splitMax 32 2 (rstrip line) with
  | version :: code :: more =>
    let phrase := match more with
      | p :: _ => p
      | [] => []
    M.modify fun h => { h with version := .bytes version, phrase := .bytes phrase }
    match pyInt 10 code with
    | none => M.throw .valueError
    | some n => M.modify fun h =>
        { h with code := n, keepAlive := if version = b! "HTTP/1.0" then false else h.keepAlive }
  | _ => M.throw .valueError

/-- `set_start_line` -/
def setStartLine (line : Bytes) : M Hdr Unit := do
  let h ← M.get
  match h.side with
  | .request => setRequestLine line
  | .response _ => setStatusLine line

/-- `body_is_chunked` (/repo/hanzo/httptools/messaging.py:500-501). -/
def Hdr.bodyIsChunked (h : Hdr) : Bool := h.mode == .chunked

/-- `body_length` (/repo/hanzo/httptools/messaging.py:503-505). -/
def Hdr.bodyLength (h : Hdr) : Option Int := if h.mode = .length then h.contentLength else none

/-- `STRIP_HEADERS` (/repo/hanzo/httptools/messaging.py:403-405). -/
def stripHeaders : List Bytes :=
  [b! "content-length", b! "transfer-encoding", b! "content-encoding", b! "te", b! "expect", b! "trailer"]

/-- one line of `write_headers` -/
def writeHeader (h : Header) : Bytes := h.1 ++ b! ": " ++ h.2 ++ CRLF

/-- `write_headers` (/repo/hanzo/httptools/messaging.py:431-437): the bytes appended. -/
def Hdr.writeHeaders (h : Hdr) (strip : List Bytes) : Bytes :=
  ((h.headers ++ h.trailers).filter (fun x => !(strip.contains (lower x.1)))).flatMap writeHeader

/-- `write_decoded_start` (/repo/hanzo/httptools/messaging.py:573-574, 623-624). -/
def Hdr.decodedStart (h : Hdr) : Except Exc Bytes :=
  match h.side with
  | .request => do
    let m ← h.method.asBytes
    let t ← h.targetUri.asBytes
    let v ← h.version.asBytes
    .ok (m ++ [32] ++ t ++ [32] ++ v ++ CRLF)
  | .response _ => do
    let v ← h.version.asBytes
    let p ← h.phrase.asBytes
    .ok (v ++ [32] ++ decimalInt h.code ++ [32] ++ p ++ CRLF)

/-- `write_decoded` (/repo/hanzo/httptools/messaging.py:423-426): the bytes appended. -/
def Hdr.writeDecoded (h : Hdr) : Except Exc Bytes := do
  let s ← h.decodedStart
  .ok (s ++ h.writeHeaders (if h.hasBody then stripHeaders else []))

end Http
end Warc
