import Verif.Spec.Http
/-
  HTTP messages as text: start line, header fields, chunks; and what the header fields say about the body.
-/
namespace Warc.Http

/-- header fields as text -/
def fieldText (f : Header) : Bytes := f.1 ++ b! ": " ++ f.2 ++ CRLF

def fields (hs : List Header) : Bytes := hs.flatMap fieldText

/-- names without colon, names and values on one line and without outer white space -/
structure FieldOk (f : Header) : Prop where
  nameColon : 58 ∉ f.1
  nameLine : 10 ∉ f.1
  nameStrip : strip f.1 = f.1
  valueLine : 10 ∉ f.2
  valueStrip : strip f.2 = f.2

def FieldsOk (hs : List Header) : Prop := ∀ f ∈ hs, FieldOk f

/-- a start line -/
inductive Start where
  | request (method target version : Bytes)
  | response (version : Bytes) (code : Nat) (phrase : Bytes)

def Start.text : Start → Bytes
  | .request m t v => m ++ [32] ++ t ++ [32] ++ v ++ CRLF
  | .response v c p => v ++ [32] ++ decimal c ++ [32] ++ p ++ CRLF

/-- method, target and protocol version contain no space and fit on a line; CONNECT needs host:port -/
def Start.Ok : Start → Prop
  | .request m t v => (32 ∉ m ∧ 10 ∉ m ∧ m ≠ []) ∧ (32 ∉ t ∧ 10 ∉ t) ∧ (10 ∉ v ∧ v ≠ [] ∧ rstrip v = v) ∧
      (upper m = b! "CONNECT" → ∃ host port, t = host ++ 58 :: port ∧ 58 ∉ host ∧ 58 ∉ port)
  | .response v _ p => (32 ∉ v ∧ 10 ∉ v) ∧ (10 ∉ p ∧ rstrip p = p)

/-- the request target is not an absolute URL (it does not begin with the letter h), so that it is kept as it is -/
def Start.plain : Start → Prop
  | .request _ t _ => ∀ c, t.head? = some c → lowerByte c ≠ 104
  | .response .. => True

/-- the field name is on the list given to the constructor -/
def ignored (ignore : List PyStr) (name : Bytes) : Bool := (ignore.map PyStr.lower).contains (.bytes (lower name))

/-- a field that announces a chunked body -/
def saysChunked (ignore : List PyStr) (f : Header) : Bool :=
  lower f.1 == b! "transfer-encoding" && !ignored ignore f.1 && contains (lower f.2) (b! "chunked")

/-- a field that announces a length -/
def saysLength (ignore : List PyStr) (f : Header) : Bool :=
  lower f.1 == b! "content-length" && !ignored ignore f.1

/-- how the body is delimited -/
inductive Framed where
  | close
  | length (n : Int)
  | chunked
  deriving DecidableEq, Repr

/-- How the header fields say the body is delimited: chunked if some field says so, otherwise by the first
Content-Length, otherwise by the end of the connection.  `none`: the first of all these fields is a
Content-Length that is not a number. -/
def framing (ignore : List PyStr) (hs : List Header) : Option Framed :=
  match hs.find? (fun f => saysChunked ignore f || saysLength ignore f) with
  | none => some .close
  | some f =>
    if saysChunked ignore f then some .chunked
    else match pyInt 10 (lower f.2) with
      | none => none
      | some n => if hs.any (saysChunked ignore) then some .chunked else some (.length n)

/-- the content encoding: the last such field counts -/
def encodingOf (ignore : List PyStr) (hs : List Header) : Option Bytes :=
  ((hs.filter fun f => lower f.1 == b! "content-encoding" && !ignored ignore f.1).getLast?).map fun f => lower f.2

/-- requests and responses: what goes with the start line -/
inductive Kind where
  | request
  /-- a response, and the method of the request it belongs to -/
  | response (requestMethod : PyStr)

/-- the parser objects -/
def Kind.message (k : Kind) (ignore : List PyStr) : Msg :=
  match k with
  | .request => Msg.request ignore
  | .response rm => Msg.response rm ignore

/-- `feed` of the parser objects -/
def Kind.feed (c : Codec) (k : Kind) : Bytes → M Msg Bytes :=
  match k with
  | .request => Http.feed c
  | .response _ => feedResponse c

/-- the parser can be fed in any pieces -/
def Kind.Splittable (k : Kind) (r : Res Msg Bytes) : Prop :=
  match k with
  | .request => Http.Splittable r
  | .response _ => SplittableResponse r

/-- is it the start line of such a message? -/
def Start.fits : Start → Kind → Prop
  | .request .., .request => True
  | .response .., .response _ => True
  | _, _ => False

/-- Messages with a body: requests that announce one, and responses except those to HEAD and those with code
1xx, 204 or 304. -/
def hasBody (k : Kind) (st : Start) (fr : Framed) : Prop :=
  match k, st with
  | .request, _ => fr ≠ .close
  | .response rm, .response _ code _ => rm ≠ .bytes (b! "HEAD") ∧ ¬ (100 ≤ code ∧ code < 200) ∧ code ≠ 204 ∧ code ≠ 304
  | .response _, .request .. => False

/-- Messages without a body, other than the interim response 100: requests that announce none, responses to HEAD and
responses with code 1xx, 204 or 304. -/
def noBody (k : Kind) (st : Start) (fr : Framed) : Prop :=
  match k, st with
  | .request, _ => fr = .close
  | .response rm, .response _ code _ => code ≠ 100 ∧ (rm = .bytes (b! "HEAD") ∨ (100 ≤ code ∧ code < 200) ∨ code = 204 ∨ code = 304)
  | .response _, .request .. => False

/-- everything before the body -/
def headText (st : Start) (hs : List Header) : Bytes := st.text ++ fields hs ++ CRLF

/-- the content encoding ends in gzip -/
def gzipField (ignore : List PyStr) (hs : List Header) : Prop :=
  ∃ e, encodingOf ignore hs = some e ∧ b! "gzip" <:+ e

/-- a chunk: the digits of its size, an extension, the data -/
structure Chunk where
  size : Bytes
  ext : Bytes
  data : Bytes

/-- the value of a hexadecimal digit -/
def hexDigit (d : Byte) : Option Nat :=
  if 48 ≤ d ∧ d ≤ 57 then some (d.toNat - 48)
  else if 97 ≤ d ∧ d ≤ 102 then some (d.toNat - 97 + 10)
  else if 65 ≤ d ∧ d ≤ 70 then some (d.toNat - 65 + 10)
  else none

/-- the value of hexadecimal digits -/
def hexValue (s : Bytes) : Nat := s.foldl (fun n d => 16 * n + (hexDigit d).getD 0) 0

/-- a chunk size line -/
def sizeLine (size ext : Bytes) : Bytes := size ++ ext ++ CRLF

/-- the size is the given number and the extension begins with a semicolon, all on one line -/
structure SizeOk (size ext : Bytes) (n : Nat) : Prop where
  value : pyInt 16 size = some (n : Int)
  line : 10 ∉ size
  semicolon : 59 ∉ size
  extStart : ext = [] ∨ ∃ e, ext = 59 :: e
  extLine : 10 ∉ ext

def Chunk.Ok (c : Chunk) : Prop := SizeOk c.size c.ext c.data.length ∧ c.data ≠ []

def Chunk.text (c : Chunk) : Bytes := sizeLine c.size c.ext ++ c.data ++ CRLF

/-- a chunked body: chunks, the last chunk of size zero, trailer fields -/
structure ChunkedBody where
  chunks : List Chunk
  lastSize : Bytes
  lastExt : Bytes
  trailers : List Header

def ChunkedBody.Ok (b : ChunkedBody) : Prop :=
  (∀ c ∈ b.chunks, c.Ok) ∧ SizeOk b.lastSize b.lastExt 0 ∧ FieldsOk b.trailers

def ChunkedBody.text (b : ChunkedBody) : Bytes :=
  b.chunks.flatMap Chunk.text ++ sizeLine b.lastSize b.lastExt ++ fields b.trailers ++ CRLF

def ChunkedBody.data (b : ChunkedBody) : Bytes := b.chunks.flatMap Chunk.data

/-- The data in the first `n` bytes of the text of chunks. -/
def arrived : List Chunk → Nat → Bytes
  | [], _ => []
  | c :: cs, n => c.data.take (n - (sizeLine c.size c.ext).length) ++ arrived cs (n - c.text.length)

/-- what follows the head of a message -/
inductive Payload where
  /-- nothing -/
  | none
  /-- a body of known length -/
  | sized (body : Bytes)
  /-- a body that ends with the connection -/
  | toEnd (body : Bytes)
  /-- a chunked body -/
  | chunked (body : ChunkedBody)

def Payload.text : Payload → Bytes
  | .none => []
  | .sized b => b
  | .toEnd b => b
  | .chunked b => b.text

/-- the body itself -/
def Payload.data : Payload → Bytes
  | .none => []
  | .sized b => b
  | .toEnd b => b
  | .chunked b => b.data

def Payload.trailers : Payload → List Header
  | .chunked b => b.trailers
  | _ => []

/-- the end of the message can be seen -/
def Payload.ends : Payload → Bool
  | .toEnd _ => false
  | _ => true

/-- an HTTP message -/
structure Message where
  start : Start
  fields : List Header
  payload : Payload

def Message.text (x : Message) : Bytes := headText x.start x.fields ++ x.payload.text

/-- The payload is the one that the head announces. -/
def Message.Framed (x : Message) (k : Kind) (fr : Framed) : Prop :=
  match x.payload with
  | .none => ¬ hasBody k x.start fr
  | .sized b => hasBody k x.start fr ∧ fr = .length b.length
  | .toEnd _ => hasBody k x.start fr ∧ fr = .close
  | .chunked b => hasBody k x.start fr ∧ fr = .chunked ∧ b.Ok

/-- A well-formed message, not the interim response 100; a body of known length is not compressed with gzip. -/
structure Message.Ok (x : Message) (k : Kind) (ignore : List PyStr) : Prop where
  fits : x.start.fits k
  start : x.start.Ok
  fields : FieldsOk x.fields
  framed : ∃ fr, framing ignore x.fields = some fr ∧ x.Framed k fr
  gzip : (∃ b, x.payload = .sized b) → ¬ gzipField ignore x.fields
  final : ∀ v p, x.start ≠ .response v 100 p

/-- the field names that `get_decoded_message` leaves out of a message with a body -/
def dropped (name : Bytes) : Prop :=
  lower name ∈ [b! "content-length", b! "transfer-encoding", b! "content-encoding", b! "te", b! "expect", b! "trailer"]

instance (name : Bytes) : Decidable (dropped name) := by unfold dropped; infer_instance

/-- The message without its transfer encoding: header and trailer fields but for `dropped`, a Content-Length, the
body; a message without body has all its fields. -/
def Message.plain (x : Message) : Message :=
  match x.payload with
  | .none => x
  | p => { start := x.start
           fields := (x.fields ++ p.trailers).filter (fun f => ¬ dropped f.1) ++ [(b! "Content-Length", decimal p.data.length)]
           payload := .sized p.data }

/-- an interim response with code 100 -/
structure Interim where
  version : Bytes
  phrase : Bytes
  fields : List Header

def Interim.text (i : Interim) : Bytes := headText (.response i.version 100 i.phrase) i.fields

/-- well-formed; a Content-Length, if any, is a number -/
def Interim.Ok (i : Interim) (ignore : List PyStr) : Prop :=
  (Start.response i.version 100 i.phrase).Ok ∧ FieldsOk i.fields ∧ framing ignore i.fields ≠ .none

/-- the header object shows the interim response -/
def Interim.Shown (i : Interim) (h : Hdr) : Prop :=
  h.headers = i.fields ∧ h.code = 100 ∧ h.version = .bytes i.version ∧ h.phrase = .bytes i.phrase

/-- The parser shows the message: header fields, trailer fields, the parts of the start line, the body, and the
text of the message. -/
structure Parsed (x : Message) (m : Msg) : Prop where
  headers : m.header.headers = x.fields
  trailers : m.header.trailers = x.payload.trailers
  request : ∀ me t v, x.start = .request me t v → m.header.method = .bytes me ∧ m.header.version = .bytes v
  response : ∀ v c p, x.start = .response v c p → m.header.version = .bytes v ∧ m.header.code = c ∧ m.header.phrase = .bytes p
  body : m.getBody = x.payload.data
  text : m.getMessage = x.text

/-- the part of the body in the first `n` bytes of a message -/
def Message.received (x : Message) (n : Nat) : Bytes :=
  let n := n - (headText x.start x.fields).length
  match x.payload with
  | .chunked b => arrived b.chunks n
  | p => p.data.take n

end Warc.Http
