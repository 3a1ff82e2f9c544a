import Verif.Model.HttpMessage
/-
  The rest of the HTTP message classes: `feed_fd` (/repo/hanzo/httptools/messaging.py:63-76), `url`
  (/repo/hanzo/httptools/messaging.py:525-531) and the HTTP/0.9 fallback (/repo/hanzo/httptools/messaging.py:662-740).
-/
namespace Warc.Http

/-- `HTTPMessage.feed_fd(fd)` (/repo/hanzo/httptools/messaging.py:63-76) for a parser with the given `feed`.  The state is what is
left to be read from `fd`, and the parser.  `hasReadLine`: the object has a method named `readLine` (Python's own
files and sockets have none; there the lookup raises AttributeError).  `readLine()` returns the bytes up to and
including the next line feed, `read(n)` up to `n` bytes, `read()` everything. -/
def feedFd (feed : Bytes → M Msg Bytes) (hasReadLine : Bool) : Nat → M (Bytes × Msg) Bytes
  | 0, _ => .hang
  | fuel + 1, (fd, m) =>
    let push (text : Bytes) : Res (Bytes × Msg) Bytes :=
      match feed text m with
      | .ok unread m' =>
        if unread = [] then feedFd feed hasReadLine fuel (fd.drop text.length, m') else .ok unread (fd.drop text.length, m')
      | .raise e m' => .raise e (fd.drop text.length, m')
      | .hang => .hang
    match m.feedPredict with
    | .nothing => .ok [] (fd, m)
    | .line => if hasReadLine then push (File.firstLine fd) else .raise .attributeError (fd, m)
    | .all => push fd
    | .count n => if n = 0 then .ok [] (fd, m) else if n < 0 then push fd else push (fd.take n.toNat)

/-- HTTP09Response (/repo/hanzo/httptools/messaging.py:701-740): the buffer, shared with the response it was made from, and
`mode == 'end'`.  Its other attributes are those of the response's request, or constants. -/
structure Http09 where
  buffer : Bytes
  ended : Bool := false
  deriving Repr, DecidableEq

/-- `ResponseMessage.as_http09()` (/repo/hanzo/httptools/messaging.py:662-663, 703-706). -/
def Msg.asHttp09 (m : Msg) : Http09 := { buffer := m.buffer }

/-- `HTTP09Response.feed` (/repo/hanzo/httptools/messaging.py:716-719): the text given back, the new state. -/
def Http09.feed (text : Bytes) (m : Http09) : Bytes × Http09 := ([], { m with buffer := m.buffer ++ text })

/-- `HTTP09Response.close` (/repo/hanzo/httptools/messaging.py:721-723). -/
def Http09.close (m : Http09) : Http09 := { m with ended := true }

/-- `complete()`, inherited (/repo/hanzo/httptools/messaging.py:160-164). -/
def Http09.complete (m : Http09) : Bool := m.ended

/-- `get_body()`; `get_message()` and `get_decoded_message()` are the same
(/repo/hanzo/httptools/messaging.py:725-737). -/
def Http09.getBody (m : Http09) : Bytes := m.buffer

/-- one byte in the `repr` of `bytes`, between quotes `q` (CPython Objects/bytesobject.c, `PyBytes_Repr`) -/
def reprByte (q c : Byte) : Bytes :=
  let hex (n : Nat) : Byte := if n < 10 then UInt8.ofNat (48 + n) else UInt8.ofNat (87 + n)
  if c = q ∨ c = 92 then [92, c]
  else if c = 9 then b! "\\t"
  else if c = 10 then b! "\\n"
  else if c = 13 then b! "\\r"
  else if c < 32 ∨ 127 ≤ c then [92, 120, hex (c.toNat / 16), hex (c.toNat % 16)]
  else [c]

/-- `str(b)` and `'%s' % b` of `bytes`: its `repr` -/
def reprBytes (b : Bytes) : Bytes :=
  let q : Byte := if b.contains 39 && !b.contains 34 then 34 else 39
  98 :: q :: b.flatMap (reprByte q) ++ [q]

/-- `'%s' % x` for an attribute that is `bytes` or `str` (the text of the result as UTF-8) -/
def PyStr.format : PyStr → Bytes
  | .bytes b => reprBytes b
  | .str s => s.toUTF8.toList

/-- `'%s' % port` -/
def Port.format : Port → Bytes
  | .num n => decimalInt n
  | .text b => reprBytes b

/-- the property `url` of a request header (/repo/hanzo/httptools/messaging.py:525-531) -/
def Hdr.url (h : Hdr) : Bytes :=
  if (h.scheme = .str "http" ∧ h.port = .num 80) ∨ (h.scheme = .str "https" ∧ h.port = .num 80) then
    PyStr.format h.scheme ++ b! "://" ++ PyStr.format h.host ++ PyStr.format h.targetUri
  else
    PyStr.format h.scheme ++ b! "://" ++ PyStr.format h.host ++ [58] ++ Port.format h.port ++ PyStr.format h.targetUri

end Warc.Http
