import Verif.Model.HttpHeader
/-
  Model of the HTTP message parser: HTTPMessage, ChunkReader, LengthReader, ZipLengthReader,
  RequestMessage, ResponseMessage (/repo/hanzo/httptools/messaging.py:30-400, 627-663).

  `feed` returns the unused text.  (Where the code returns the empty `str` instead of empty `bytes`,
  messaging.py:138, the model returns the empty list: both are false and of length 0.)
-/
namespace Warc
namespace Http

/-- Python slicing `s[:n]`. -/
def sliceTo (s : Bytes) (n : Int) : Bytes :=
  if 0 ≤ n then s.take n.toNat else s.take (s.length - n.natAbs)

/-- Python slicing `s[i:j]` for `i ≥ 0`. -/
def slice (s : Bytes) (i : Nat) (j : Int) : Bytes := (sliceTo s j).drop i

/-- `self.mode` of a message (/repo/hanzo/httptools/messaging.py:40). -/
inductive Mode where
  | start | headers | body | end_ | incomplete
  deriving Repr, DecidableEq

/-- `mode` of a ChunkReader (/repo/hanzo/httptools/messaging.py:270). -/
inductive ChunkMode where
  | start | chunk | trailer | end_
  deriving Repr, DecidableEq

/-- ChunkReader object (/repo/hanzo/httptools/messaging.py:269-272). -/
structure ChunkSt where
  mode : ChunkMode := .start
  start : Bool := true
  remaining : Int := 0
  deriving Repr, DecidableEq

/-- `body_reader`: ChunkReader, LengthReader, or ZipLengthReader with its decompressed `_text` (`none` when
decompression failed, i.e. `_file` is None) (/repo/hanzo/httptools/messaging.py:266-400). -/
inductive Reader where
  | chunk (c : ChunkSt)
  | length (remaining : Int)
  | zip (text : Option Bytes) (remaining : Int)
  deriving Repr, DecidableEq

/-- HTTPMessage object (/repo/hanzo/httptools/messaging.py:35-41), with `interim` of ResponseMessage
(639). -/
structure Msg where
  buffer : Bytes := []
  offset : Nat := 0
  header : Hdr
  bodyChunks : List (Nat × Int) := []
  mode : Mode := .start
  reader : Option Reader := none
  interim : List Hdr := []
  deriving Repr, DecidableEq

/-- run a header method -/
def onHeader {α : Type} (x : M Hdr α) : M Msg α := fun m =>
  match x m.header with
  | .ok a h => .ok a { m with header := h }
  | .raise e h => .raise e { m with header := h }
  | .hang => .hang

/-- the first line with its newline, and the rest -/
def splitLine : Bytes → Option (Bytes × Bytes)
  | [] => none
  | c :: cs =>
    if c = 10 then some ([c], cs)
    else match splitLine cs with
      | some (l, r) => some (c :: l, r)
      | none => none

/-- `feed_line` (/repo/hanzo/httptools/messaging.py:166-180): (line or None, text). -/
def feedLine (text : Bytes) : M Msg (Option Bytes × Bytes) := fun m =>
  let buf := m.buffer ++ text
  match splitLine (buf.drop m.offset) with
  | some (line, rest) =>
    let buf := buf.take m.offset ++ line
    .ok (some line, rest) { m with buffer := buf, offset := buf.length }
  | none => .ok (none, []) { m with buffer := buf }

/-- `feed_length` (/repo/hanzo/httptools/messaging.py:182-189) for a positive `remaining`. -/
def feedLength (text : Bytes) (remaining : Int) : M Msg (Int × Bytes) := fun m =>
  let body := sliceTo text remaining
  let rest := text.drop body.length
  let buf := m.buffer ++ body
  .ok (remaining - body.length, rest) { m with buffer := buf, offset := buf.length }

/-- `feed_start` (/repo/hanzo/httptools/messaging.py:191-199). -/
def feedStart (text : Bytes) : M Msg Bytes := do
  let (line, text) ← feedLine text
  match line with
  | none => pure text
  | some line =>
    if isNewline line then pure text
    else do
      onHeader (setStartLine line)
      M.modify fun m => { m with mode := .headers }
      pure text

/-- `feed_headers` (/repo/hanzo/httptools/messaging.py:201-212). -/
def feedHeaders : Nat → Bytes → M Msg Bytes
  | 0, _ => M.diverge
  | fuel + 1, text =>
    if text = [] then pure text
    else do
      let (line, text) ← feedLine text
      match line with
      | none => feedHeaders fuel text
      | some line =>
        onHeader (addHeaderLine line)
        if isNewline line then do
          M.modify fun m => { m with mode := .body }
          pure text
        else feedHeaders fuel text

/-- `b'gzip'` -/
def gzipTag : Bytes := b! "gzip"

/-- `encoding and encoding.endswith(b'gzip')` (/repo/hanzo/httptools/messaging.py:112). -/
def gzipEncoded : Option Bytes → Bool
  | some e => e ≠ [] && endsWith e gzipTag
  | none => false

/-- Choosing the body reader when the headers are complete (/repo/hanzo/httptools/messaging.py:102-126);
`text` is what follows the headers.  The constructor of ZipLengthReader (377-385) reads
`GzipFile(fileobj=BytesIO(text[:length]))` to the end; an `IOError` makes it fall back, any other
exception propagates. -/
def setupBody (c : Codec) (text : Bytes) : M Msg Unit := do
  let m ← M.get
  if m.mode = .body then
    if !m.header.hasBody then M.modify fun m => { m with mode := .end_ }
    else if m.header.bodyIsChunked then M.modify fun m => { m with reader := some (.chunk {}) }
    else match m.header.bodyLength with
      | some length =>
        let finish (r : Reader) (remaining : Int) : M Msg Unit :=
          M.modify fun m => { m with
            reader := some r, bodyChunks := [(m.offset, remaining)],
            mode := if remaining = 0 then .end_ else m.mode }
        if gzipEncoded m.header.encoding then
          match c.dec (sliceTo text length) with
          | (d, none) => finish (.zip (some d) d.length) d.length
          | (_, some .osError) => finish (.zip none text.length) text.length
          | (_, some e) => M.throw e
        else finish (.length length) length
      | none => M.modify fun m => { m with bodyChunks := [(m.offset, 0)], reader := none }
  else pure ()

/-- `ChunkReader.feed_start` (/repo/hanzo/httptools/messaging.py:287-313). -/
def chunkStart (cr : ChunkSt) (text : Bytes) : M Msg (ChunkSt × Bytes) := do
  let m ← M.get
  let pos := m.buffer.length
  let (line, text) ← feedLine text
  match line with
  | some line =>
    let size := match splitOnce 59 line with
      | some (a, _) => a
      | none => line
    match pyInt 16 size with
    | none =>
      if cr.start then do
        M.modify fun m => { m with buffer := m.buffer.take pos, offset := (m.buffer.take pos).length }
        M.throw .brokenChunks
      else M.throw .valueError
    | some chunk =>
      M.modify fun m => { m with bodyChunks := m.bodyChunks ++ [(m.buffer.length, chunk)] }
      pure ({ mode := if chunk = 0 then .trailer else .chunk, start := false, remaining := chunk }, text)
  | none => pure ({ cr with start := false }, text)

/-- `ChunkReader.feed_chunk` (/repo/hanzo/httptools/messaging.py:315-324). -/
def chunkData (cr : ChunkSt) (text : Bytes) : M Msg (ChunkSt × Bytes) := do
  let (rem, text) ← (if 0 < cr.remaining then feedLength text cr.remaining else pure (cr.remaining, text) : M Msg (Int × Bytes))
  if rem = 0 then do
    let (line, text) ← feedLine text
    match line with
    | some (_ :: _) => pure ({ cr with remaining := rem, mode := .start }, text)
    | _ => pure ({ cr with remaining := rem }, text)
  else pure ({ cr with remaining := rem }, text)

/-- `ChunkReader.feed_trailer` (/repo/hanzo/httptools/messaging.py:326-335). -/
def chunkTrailer (cr : ChunkSt) (text : Bytes) : M Msg (ChunkSt × Bytes) := do
  let (line, text) ← feedLine text
  match line with
  | some line =>
    onHeader (addTrailerLine line)
    pure ({ cr with mode := if isNewline line then .end_ else cr.mode }, text)
  | none => pure (cr, text)

/-- the reader object holds its new state -/
def setChunk (cr : ChunkSt) : M Msg Unit := M.modify fun m => { m with reader := some (.chunk cr) }

/-- One of the three stages in the loop of `ChunkReader.feed`; `guard` is the condition under which it
is run. The state is stored in the reader object. -/
def chunkStage (guard : Bool) (f : ChunkSt → Bytes → M Msg (ChunkSt × Bytes)) (cr : ChunkSt) (text : Bytes) :
    M Msg (ChunkSt × Bytes) :=
  if guard then do
    let (cr, text) ← f cr text
    setChunk cr
    pure (cr, text)
  else pure (cr, text)

/-- `ChunkReader.feed` (/repo/hanzo/httptools/messaging.py:337-353). -/
def chunkFeed : Nat → ChunkSt → Bytes → M Msg Bytes
  | 0, _, _ => M.diverge
  | fuel + 1, cr, text =>
    if text = [] then pure text
    else do
      let (cr, text) ← chunkStage (cr.mode = .start) chunkStart cr text
      let (cr, text) ← chunkStage (text ≠ [] && cr.mode = .chunk) chunkData cr text
      let (cr, text) ← chunkStage (text ≠ [] && cr.mode = .trailer) chunkTrailer cr text
      if cr.mode = .end_ then do
        M.modify fun m => { m with mode := .end_ }
        pure text
      else chunkFeed fuel cr text

/-- `LengthReader.feed` (/repo/hanzo/httptools/messaging.py:364-369). -/
def lengthFeed (remaining : Int) (text : Bytes) : M Msg Bytes := do
  let (rem, text) ← (if 0 < remaining then feedLength text remaining else pure (remaining, text) : M Msg (Int × Bytes))
  M.modify fun m => { m with reader := some (.length rem), mode := if rem ≤ 0 then .end_ else m.mode }
  pure text

/-- `ZipLengthReader.feed` (/repo/hanzo/httptools/messaging.py:391-400). -/
def zipFeed (ztext : Option Bytes) (remaining : Int) (text : Bytes) : M Msg Bytes := do
  let (rem, text) ← (if 0 < remaining then feedLength (ztext.getD text) remaining else pure (remaining, text) : M Msg (Int × Bytes))
  M.modify fun m => { m with reader := some (.zip ztext rem), mode := if rem ≤ 0 then .end_ else m.mode }
  pure text

/-- fuel that is always enough for a terminating `feed` of the given text -/
def feedFuel (m : Msg) (text : Bytes) : Nat := m.buffer.length + text.length + 2

/-- `self.body_reader.feed(self, text)` -/
def readerFeed (r : Reader) (text : Bytes) : M Msg Bytes := do
  let m ← M.get
  match r with
  | .chunk cr => chunkFeed (feedFuel m text) cr text
  | .length rem => lengthFeed rem text
  | .zip z rem => zipFeed z rem text

/-- Body delimited by the end of the input (/repo/hanzo/httptools/messaging.py:133-138). -/
def closeFeed (text : Bytes) : M Msg Bytes := fun m =>
  match m.bodyChunks with
  | [(offset, length)] =>
    let buf := m.buffer ++ text
    .ok [] { m with buffer := buf, offset := buf.length, bodyChunks := [(offset, length + text.length)] }
  | _ => .raise .valueError m

/-- The first part of `HTTPMessage.feed` (/repo/hanzo/httptools/messaging.py:97-98). -/
def stageStart (text : Bytes) : M Msg Bytes := do
  let m ← M.get
  if text ≠ [] ∧ m.mode = .start then feedStart text else pure text

/-- The second part of `HTTPMessage.feed` (/repo/hanzo/httptools/messaging.py:100-126). -/
def stageHeaders (c : Codec) (text : Bytes) : M Msg Bytes := do
  let m ← M.get
  if text ≠ [] ∧ m.mode = .headers then do
    let text ← feedHeaders (feedFuel m text) text
    setupBody c text
    pure text
  else pure text

/-- The third part of `HTTPMessage.feed` (/repo/hanzo/httptools/messaging.py:128-138). -/
def stageBody (text : Bytes) : M Msg Bytes := fun m =>
  if text ≠ [] ∧ m.mode = .body then
    match m.reader with
    | none => closeFeed text m
    | some r =>
      match readerFeed r text m with
      | .raise .brokenChunks m' => closeFeed text { m' with reader := none, bodyChunks := [(m'.offset, 0)] }
      | res => res
  else .ok text m

/-- `HTTPMessage.feed`, i.e. `RequestMessage.feed` (/repo/hanzo/httptools/messaging.py:95-140). -/
def feed (c : Codec) (text : Bytes) : M Msg Bytes := do
  let text ← stageStart text
  let text ← stageHeaders c text
  stageBody text

/-- `complete()` (/repo/hanzo/httptools/messaging.py:160-164). -/
def Msg.complete (m : Msg) : Bool := m.mode == .end_

/-- `headers_complete()` (/repo/hanzo/httptools/messaging.py:156-158). -/
def Msg.headersComplete (m : Msg) : Bool := m.mode == .end_ || m.mode == .body

/-- `ResponseMessage.feed` (/repo/hanzo/httptools/messaging.py:651-660). -/
def feedResponse (c : Codec) (text : Bytes) : M Msg Bytes := do
  let text ← feed c text
  let m ← M.get
  if m.complete && m.header.code == 100 then do
    M.modify fun m => { m with
      interim := m.interim ++ [m.header],
      header := match m.header.side with
        | .response rm => Hdr.response rm []
        | .request => Hdr.request [],
      bodyChunks := [], mode := .start, reader := none }
    feed c text
  else pure text

/-- `RequestMessage(ignore_headers)` (/repo/hanzo/httptools/messaging.py:630-632). -/
def Msg.request (ignore : List PyStr) : Msg := { header := Hdr.request ignore }

/-- `ResponseMessage(request, ignore_headers)` (/repo/hanzo/httptools/messaging.py:638-642); of the request
only the method matters. -/
def Msg.response (requestMethod : PyStr) (ignore : List PyStr) : Msg := { header := Hdr.response requestMethod ignore }

/-- `close()` (/repo/hanzo/httptools/messaging.py:142-154). -/
def Msg.close (m : Msg) : Msg :=
  if m.reader = none ∧ m.mode = .body then { m with mode := .end_ }
  else if m.mode ≠ .end_ then
    match m.bodyChunks.getLast? with
    | some (offset, length) =>
      { m with bodyChunks := m.bodyChunks.dropLast ++ [(offset, min length ((m.buffer.length : Int) - offset))], mode := .incomplete }
    | none => { m with mode := .incomplete }
  else m

/-- `get_message()` (/repo/hanzo/httptools/messaging.py:214-216). -/
def Msg.getMessage (m : Msg) : Bytes := m.buffer

/-- `get_body()` (/repo/hanzo/httptools/messaging.py:253-263). -/
def Msg.getBody (m : Msg) : Bytes :=
  m.bodyChunks.flatMap fun (offset, length) => slice m.buffer offset ((offset : Int) + length)

/-- `zlib.decompress(body)` and `zlib.decompress(body, 16 + zlib.MAX_WBITS)`; `none` is `zlib.error`. -/
structure Zlib where
  zlib : Bytes → Option Bytes
  gzip : Bytes → Option Bytes

/-- `get_decoded_message()` (/repo/hanzo/httptools/messaging.py:218-251). -/
def Msg.getDecoded (z : Zlib) (m : Msg) : Except Exc Bytes := do
  let head ← m.header.writeDecoded
  let lenLine := if m.header.hasBody then
      b! "Content-Length: " ++ decimalInt ((m.bodyChunks.map (·.2)).sum) ++ CRLF
    else []
  let body := m.getBody
  match m.header.encoding with
  | some (e :: es) =>
    if body = [] then .ok (head ++ lenLine ++ CRLF ++ body)
    else match z.zlib body with
      | some d => .ok (head ++ lenLine ++ CRLF ++ d)
      | none => match z.gzip body with
        | some d => .ok (head ++ lenLine ++ CRLF ++ d)
        | none => .ok (head ++ lenLine ++ b! "Content-Encoding: " ++ (e :: es) ++ CRLF ++ CRLF ++ body)
  | _ => .ok (head ++ lenLine ++ CRLF ++ body)

/-- what `feed_predict()` asks for: so many bytes, a line, everything, or nothing
(/repo/hanzo/httptools/messaging.py:78-93, 274-285, 361-362). -/
inductive Wants where
  | line
  | count (n : Int)
  | all
  | nothing
  deriving Repr, DecidableEq

/-- `feed_predict()` (/repo/hanzo/httptools/messaging.py:78-93, 274-285, 361-362). -/
def Msg.feedPredict (m : Msg) : Wants :=
  match m.mode with
  | .start => .line
  | .headers => .line
  | .body =>
    match m.reader with
    | none => .all
    | some (.length n) => .count n
    | some (.zip _ n) => .count n
    | some (.chunk cr) =>
      match cr.mode with
      | .start => .line
      | .chunk => if cr.remaining = 0 then .line else .count cr.remaining
      | .trailer => .line
      | .end_ => .nothing
  | .end_ => .nothing
  | .incomplete => .nothing

end Http
end Warc
