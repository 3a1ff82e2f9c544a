import Verif.Model.Tools
/-
  Model of `FileHTTPResponse` (/repo/hanzo/warcpayload.py:64-90): `http.client.HTTPResponse` of the Python standard library (3.11) reading
  from the content of a record, as far as warcpayload uses it: `begin()` and `read(8192)`.

  Texts are latin-1, one byte per character.  Not modelled: the limit on the number of digits that `int` accepts; the attributes that
  do not matter for `read` (`reason`, `will_close`, the payload and the defects of the email message).  Later versions of the
  library read more than a megabyte in several steps; the result is the same.
-/
namespace Warc
namespace HttpClient

/-- `str.isspace` for a latin-1 character -/
def textWs (b : Byte) : Bool := isWs b || (28 ≤ b && b ≤ 31) || b == 0x85 || b == 0xa0

/-- white space made plain, as `int(str)` does -/
def plainWs (s : Bytes) : Bytes := s.map fun b => if textWs b then 32 else b

/-- `int(s)` for a text -/
def intText (s : Bytes) : Option Int := pyInt 10 (plainWs s)

/-- `s.split(None)` for a text -/
def words (s : Bytes) : List Bytes := splitWs (plainWs s)

/-- `_MAXLINE` -/
def MAXLINE : Nat := 65536
/-- `_MAXHEADERS` -/
def MAXHEADERS : Nat := 100

/-- `self.fp.readline(n)`, where `fp` is `record.content_file` (/repo/hanzo/warcpayload.py:49) -/
def fpReadline (n : Int) : M World Bytes := fun w =>
  match w.rcd.cfile with
  | .stream => World.onStream (Stream.readline (some n)) w
  | .file f =>
    match File.readline (some n) f with
    | .ok a f' => .ok a { w with rcd := { w.rcd with cfile := .file f' } }
    | .raise e f' => .raise e { w with rcd := { w.rcd with cfile := .file f' } }
    | .hang => .hang
  | _ => .raise .attributeError w

/-- `line = fp.readline(_MAXLINE + 1)`, and LineTooLong -/
def readLine : M World Bytes := do
  let line ← fpReadline (MAXLINE + 1)
  if line.length > MAXLINE then M.throw (.httpException "line too long") else pure line

/-- is it the line that ends the header? -/
def blank (line : Bytes) : Bool := line == CRLF || line == [10] || line == []

/-- `_read_headers`; `k`: the number of lines that may still come -/
def readHeaders : Nat → M World (List Bytes)
  | 0 => do
    let _ ← readLine
    M.throw (.httpException "too many headers")
  | k + 1 => do
    let line ← readLine
    if blank line then pure [line]
    else do
      let lines ← readHeaders k
      pure (line :: lines)

/-- `_read_status`: version and status code.  (When the line has only two words, `status` is the second with the white space after it,
which `int` takes away.) -/
def readStatus : M World (Bytes × Int) := do
  let line ← readLine
  if line = [] then M.throw (.httpException "remote disconnected")
  else match words line with
    | version :: status :: _ =>
      if startsWith version (b! "HTTP/") then
        match pyInt 10 status with
        | some n => if n < 100 ∨ n > 999 then M.throw (.httpException "bad status line") else pure (version, n)
        | none => M.throw (.httpException "bad status line")
      else M.throw (.httpException "bad status line")
    | _ => M.throw (.httpException "bad status line")

/-- the loop of `begin` that skips interim responses -/
def skipInterim : Nat → M World (Bytes × Int)
  | 0 => M.diverge
  | fuel + 1 => do
    let s ← readStatus
    if s.2 = 100 then do
      let _ ← readHeaders MAXHEADERS
      skipInterim fuel
    else pure s

/-! ### `email.parser.Parser().parsestr` (email/feedparser.py), header fields only -/

/-- the text in lines, with their ends: `\r\n`, `\r` or `\n` -/
def textLines (cur : Bytes) : Bytes → List Bytes
  | [] => if cur = [] then [] else [cur]
  | 13 :: 10 :: rest => (cur ++ [13, 10]) :: textLines [] rest
  | c :: rest => if c = 13 ∨ c = 10 then (cur ++ [c]) :: textLines [] rest else textLines (cur ++ [c]) rest

/-- a character of a field name -/
def nameChar (c : Byte) : Bool := (33 ≤ c && c ≤ 57) || (59 ≤ c && c ≤ 126)

/-- `headerRE.match(line)`: `From `, or a field name (possibly empty) and a colon, or a space or tab -/
def headerLike (line : Bytes) : Bool :=
  startsWith line (b! "From ") || (line.dropWhile nameChar).head? == some 58 || line.head? == some 9 || line.head? == some 32

/-- `policy.header_source_parse(lines)` (email/_policybase.py, Compat32): the text before the first colon of the first line; the rest,
without white space in front, with the other lines -/
def sourceParse : List Bytes → List Header
  | [] => []
  | line :: more =>
    match splitOnce 58 line with
    | some (name, value) => [(name, rstripCRLF (value.dropWhile (fun b => b == 32 || b == 9) ++ more.flatten))]
    | none => []

/-- `_parse_headers(lines)`; `cur` are the lines of the field at hand -/
def fieldsOf (cur : List Bytes) : List Bytes → List Header
  | [] => sourceParse cur
  | line :: rest =>
    if line.head? == some 32 || line.head? == some 9 then
      if cur = [] then fieldsOf [] rest else fieldsOf (cur ++ [line]) rest
    else
      sourceParse cur ++
        (if startsWith line (b! "From ") || line.head? == some 58 then fieldsOf [] rest else fieldsOf [line] rest)

/-- the fields of the message -/
def parseFields (text : Bytes) : List Header := fieldsOf [] ((textLines [] text).takeWhile headerLike)

/-- `headers.get(name)`, for a lower case name -/
def get (hs : List Header) (name : Bytes) : Option Bytes := (hs.find? fun h => lower h.1 == name).map Prod.snd

/-! ### the response -/

/-- the attributes of an HTTPResponse that matter: `fp is not None`, `chunked`, `chunk_left`, `length` -/
structure Resp where
  opened : Bool
  chunked : Bool
  chunkLeft : Option Int
  length : Option Int
  deriving Repr, DecidableEq

/-- the attributes as `begin` sets them -/
def respOf (status : Int) (hs : List Header) : Resp :=
  let chunked := match get hs (b! "transfer-encoding") with
    | some t => lower t == b! "chunked"
    | none => false
  let length : Option Int := match get hs (b! "content-length") with
    | some t =>
      if t ≠ [] ∧ chunked = false then
        match intText t with
        | some n => if n < 0 then none else some n
        | none => none
      else none
    | none => none
  let length := if status = 204 ∨ status = 304 ∨ (100 ≤ status ∧ status < 200) then some 0 else length
  ⟨true, chunked, none, length⟩

/-- `begin()` -/
def begin : M World Resp := do
  let w ← M.get
  let s ← skipInterim (World.cfileRemaining w + 2)
  if s.1 = b! "HTTP/1.0" ∨ s.1 = b! "HTTP/0.9" ∨ startsWith s.1 (b! "HTTP/1.") then do
    let lines ← readHeaders MAXHEADERS
    pure (respOf s.2 (parseFields lines.flatten))
  else M.throw (.httpException "unknown protocol")

/-- `_safe_read(amt)` -/
def safeRead (amt : Int) : M World Bytes := do
  let data ← World.cfileRead (some amt)
  if (data.length : Int) < amt then M.throw (.httpException "incomplete read") else pure data

/-- `_read_next_chunk_size()`; its ValueError becomes IncompleteRead in `_get_chunk_left` -/
def nextChunkSize : M World Int := do
  let line ← readLine
  match pyInt 16 (line.takeWhile (· ≠ 59)) with
  | some n => pure n
  | none => M.throw (.httpException "incomplete read")

/-- `_read_and_discard_trailer()` -/
def discardTrailer : Nat → M World Unit
  | 0 => M.diverge
  | fuel + 1 => do
    let line ← readLine
    if blank line then pure () else discardTrailer fuel

/-- the second half of `_get_chunk_left`: a new chunk -/
def newChunk (r : Resp) : M World (Option Int × Resp) := do
  let n ← nextChunkSize
  if n = 0 then do
    let w ← M.get
    discardTrailer (World.cfileRemaining w + 2)
    pure (none, { r with opened := false, chunkLeft := none })
  else pure (some n, { r with chunkLeft := some n })

/-- `_get_chunk_left()` -/
def getChunkLeft (r : Resp) : M World (Option Int × Resp) :=
  match r.chunkLeft with
  | some n =>
    if n ≠ 0 then pure (some n, r)
    else do
      let _ ← safeRead 2
      newChunk r
  | none => newChunk r

/-- `_read_chunked(amt)`; `value`: what has been read so far -/
def readChunked : Nat → Int → Bytes → Resp → M World (Bytes × Resp)
  | 0, _, _, _ => M.diverge
  | fuel + 1, amt, value, r => do
    let g ← getChunkLeft r
    match g.1 with
    | none => pure (value, g.2)
    | some n =>
      if amt ≤ n then do
        let data ← safeRead amt
        pure (value ++ data, { g.2 with chunkLeft := some (n - amt) })
      else do
        let data ← safeRead n
        readChunked fuel (amt - n) (value ++ data) { g.2 with chunkLeft := some 0 }

/-- the amount that is asked for: not more than the rest of the announced length -/
def clip (amt : Int) : Option Int → Int
  | some n => if amt > n then n else amt
  | none => amt

/-- `read(amt)` -/
def read (amt : Int) (r : Resp) : M World (Bytes × Resp) :=
  if r.opened = false then pure ([], r)
  else if r.chunked then do
    let w ← M.get
    readChunked (World.cfileRemaining w + 2) amt [] r
  else do
    let amt := clip amt r.length
    let s ← World.cfileRead (some amt)
    if s = [] ∧ amt ≠ 0 then pure (s, { r with opened := false })
    else match r.length with
      | some n => pure (s, { r with length := some (n - s.length), opened := decide (n - s.length ≠ 0) })
      | none => pure (s, r)

/-- the copy loop of warcpayload (/repo/hanzo/warcpayload.py:54-57) -/
def copy : Nat → Resp → M World Unit
  | 0, _ => M.diverge
  | fuel + 1, r => do
    let b ← read 8192 r
    if b.1 = [] then pure ()
    else do
      World.write b.1
      copy fuel b.2

/-- `f = FileHTTPResponse(record.content_file); f.begin()` and the copy loop (/repo/hanzo/warcpayload.py:46-57) -/
def dump : M World Unit := do
  let r ← begin
  let w ← M.get
  copy (World.cfileRemaining w + 2) r

end HttpClient

/-- `warcpayload name:offset` with the HTTP client of the standard library (/repo/hanzo/warcpayload.py:22-63) -/
def WarcPayload.tool (c : Codec) (fs : FS) (name : Bytes) (offset : Nat) : M Bytes Unit :=
  WarcPayload.main c fs HttpClient.dump name offset

end Warc
