import Verif.Spec.HttpText
import Verif.Spec.HttpTarget
/-
  What a sequence of bytes means as an HTTP message: a grammar without regular expressions and without parser states (property C109).
-/
set_option linter.unusedVariables false
namespace Warc.Http.Grammar

/-- what stands before the first `sep`, and what stands behind it -/
def cutAt (sep : Byte) (s : Bytes) : Option (Bytes × Bytes) :=
  if sep ∈ s then some (s.takeWhile (· ≠ sep), (s.dropWhile (· ≠ sep)).drop 1) else none

theorem cutAt_less {sep : Byte} {s a b : Bytes} (h : cutAt sep s = some (a, b)) : b.length < s.length := by
  unfold cutAt at h
  split at h
  · rename_i hm
    cases h
    have h1 := List.takeWhile_append_dropWhile (p := fun x => decide (x ≠ sep)) (l := s)
    have h2 : s.dropWhile (fun x => decide (x ≠ sep)) ≠ [] := by
      intro e
      rw [e, List.append_nil] at h1
      rw [← h1] at hm
      have := List.all_takeWhile (p := fun x => decide (x ≠ sep)) (l := s)
      exact absurd (List.all_eq_true.1 this sep hm) (by simp)
    have h3 : 0 < (s.dropWhile (fun x => decide (x ≠ sep))).length := List.length_pos_iff.2 h2
    have h4 : (s.dropWhile (fun x => decide (x ≠ sep))).length ≤ s.length := by
      have := congrArg List.length h1
      simp only [List.length_append] at this
      omega
    simp only [List.length_drop]
    omega
  · cases h

/-- an empty line, without its line feed -/
def emptyLine (l : Bytes) : Bool := l == [] || l == [13]

/-- What a start line says. -/
inductive Opening where
  | request (method target version : Bytes)
  | response (version : Bytes) (code : Int) (phrase : Bytes)
  deriving DecidableEq, Repr

/-- The start line (without its line feed; white space at its end does not count).  A request line has at least two spaces: method and target stand before the first
and the second one; the target of CONNECT has exactly one colon.  A status line has at least one space, and a number between it and the next one.  Anything else is
refused. -/
def openingIn (k : Kind) (l : Bytes) : Option Opening :=
  match k, cutAt 32 (rstrip l) with
  | _, none => none
  | .request, some (m, r) =>
    match cutAt 32 r with
    | none => none
    | some (t, v) => if upper m = b! "CONNECT" ∧ t.count 58 ≠ 1 then none else some (.request m t v)
  | .response _, some (v, r) => (pyInt 10 (r.takeWhile (· ≠ 32))).map fun n => .response v n ((r.dropWhile (· ≠ 32)).drop 1)

/-- One more line of fields: a line that begins with a space or a tab goes on with the last value (IndexError if there is none); any other line has a name, a colon,
a value (ValueError without a colon).  White space around names and values does not count. -/
def fieldLine (hs : List Header) (l : Bytes) : Except Exc (List Header) :=
  if l.head? = some 32 ∨ l.head? = some 9 then
    match hs.getLast? with
    | none => .error .indexError
    | some (n, v) => .ok (hs.dropLast ++ [(n, v ++ [32] ++ strip l)])
  else match cutAt 58 l with
    | none => .error .valueError
    | some (n, v) => .ok (hs ++ [(strip n, strip v)])

/-- lines of fields up to an empty line -/
inductive Fields where
  | refused (e : Exc)
  /-- there is no empty line yet -/
  | going (hs : List Header)
  | ended (hs : List Header) (rest : Bytes)
  deriving DecidableEq, Repr

def fieldsIn (hs : List Header) (text : Bytes) : Fields :=
  match h : cutAt 10 text with
  | none => .going hs
  | some (l, rest) =>
    if emptyLine l then .ended hs rest
    else match fieldLine hs l with
      | .error e => .refused e
      | .ok hs' => fieldsIn hs' rest
termination_by text.length
decreasing_by exact cutAt_less h

/-- Is there a body? -/
def bodied (k : Kind) (o : Opening) (fr : Framed) : Bool :=
  match k, o with
  | .response rm, .response _ code _ => rm ≠ .bytes (b! "HEAD") && !(100 ≤ code && code < 200) && code ≠ 204 && code ≠ 304
  | _, _ => fr ≠ .close

/-- What follows the head. -/
structure Body where
  /-- the body -/
  data : Bytes
  trailers : List Header := []
  /-- is the end of it seen? -/
  complete : Bool
  /-- is the message complete once there is no more text? -/
  closes : Bool
  /-- the bytes that belong to the message -/
  message : Bytes
  /-- the bytes behind the message -/
  left : Bytes
  deriving DecidableEq, Repr

inductive BodyIs where
  | refused (e : Exc)
  | forever
  | found (b : Body)
  deriving DecidableEq, Repr

/-- everything belongs to the body, and it has no end -/
def toEnd (text : Bytes) : Body := { data := text, complete := false, closes := true, message := text, left := [] }

/-- A body of `n` bytes.  For a negative number it is empty, and complete as soon as something follows. -/
def sized (n : Int) (text : Bytes) : Body :=
  let all := n = 0 ∨ (text ≠ [] ∧ n ≤ text.length)
  { data := text.take n.toNat, complete := all, closes := all, message := text.take n.toNat, left := text.drop n.toNat }

/-- `text[:n]` -/
def upTo (n : Int) (text : Bytes) : Bytes := if 0 ≤ n then text.take n.toNat else text.take (text.length - n.natAbs)

/-- A gzip body of `n` bytes: what the first `n` bytes decompress to is the body, and all that is kept; what follows them is lost, unless nothing comes out.  If they are not
gzip data everything is the body, as it is.  Other exceptions of the decompressor (incomplete data) go through. -/
def zipped (c : Codec) (n : Int) (text : Bytes) : BodyIs :=
  match c.dec (upTo n text) with
  | ([], none) => .found { data := [], complete := true, closes := true, message := [], left := text }
  | (d, none) =>
    if text = [] then .found { data := [], complete := false, closes := false, message := [], left := [] }
    else .found { data := d, complete := true, closes := true, message := d, left := [] }
  | (_, some .osError) => .found { data := text, complete := true, closes := true, message := text, left := [] }
  | (_, some e) => .refused e

/-- chunks -/
inductive Chunks where
  | refused (e : Exc)
  | forever
  /-- the very first line is no size line -/
  | none
  /-- the text ends before the end of the trailers -/
  | going (data : Bytes) (trailers : List Header)
  | ended (data : Bytes) (trailers : List Header) (rest : Bytes)
  deriving DecidableEq, Repr

/-- Chunks: a line with the size in hexadecimal, up to a semicolon if there is one; so many bytes; anything up to a line feed.  Behind a size of zero come trailer fields,
up to an empty line.  A chunk of negative size is never read, if anything follows its size line.  `got` are the data of the chunks before. -/
def chunksIn (first : Bool) (got text : Bytes) : Chunks :=
  match h : cutAt 10 text with
  | .none => .going got []
  | some (l, rest) =>
    match pyInt 16 (l.takeWhile (· ≠ 59)) with
    | .none => if first then .none else .refused .valueError
    | some n =>
      if n = 0 then
        match fieldsIn [] rest with
        | .refused e => .refused e
        | .going ts => .going got ts
        | .ended ts r => .ended got ts r
      else if n < 0 then (if rest = [] then .going got [] else .forever)
      else if rest.length < n.toNat then .going (got ++ rest) []
      else match h2 : cutAt 10 (rest.drop n.toNat) with
        | .none => .going (got ++ rest.take n.toNat) []
        | some (_, r) => chunksIn false (got ++ rest.take n.toNat) r
termination_by text.length
decreasing_by
  have h3 := cutAt_less h
  have h4 := cutAt_less h2
  rw [List.length_drop] at h4
  omega

/-- a chunked body; without a single chunk, what follows the head is the body, and has no end -/
def chunked (text : Bytes) : BodyIs :=
  match chunksIn true [] text with
  | .refused e => .refused e
  | .forever => .forever
  | .none => .found (toEnd text)
  | .going d ts => .found { data := d, trailers := ts, complete := false, closes := false, message := text, left := [] }
  | .ended d ts rest => .found { data := d, trailers := ts, complete := true, closes := true, message := text.take (text.length - rest.length), left := rest }

/-- the content encoding ends in gzip -/
def zipField (ig : List PyStr) (hs : List Header) : Bool :=
  match encodingOf ig hs with
  | none => false
  | some e => (b! "gzip").isSuffixOf e

/-- the body of a message of kind `k` with these fields, in the text behind the head -/
def bodyIn (c : Codec) (k : Kind) (ig : List PyStr) (o : Opening) (hs : List Header) (text : Bytes) : BodyIs :=
  match framing ig hs with
  | none => .refused .valueError
  | some fr =>
    if bodied k o fr then
      match fr with
      | .close => .found (toEnd text)
      | .length n => if zipField ig hs then zipped c n text else .found (sized n text)
      | .chunked => chunked text
    else .found { data := [], complete := true, closes := true, message := [], left := text }

/-- What the parser shows of a message. -/
structure Seen where
  opening : Option Opening := none
  fields : List Header := []
  /-- is the empty line behind the fields seen? -/
  head : Bool := false
  trailers : List Header := []
  body : Bytes := []
  complete : Bool := false
  closes : Bool := false
  message : Bytes
  left : Bytes := []
  /-- the fields of the interim response before it -/
  interim : List (List Header) := []
  deriving DecidableEq, Repr

inductive Outcome where
  | refused (e : Exc)
  | forever
  | seen (s : Seen)
  deriving DecidableEq, Repr

/-- One message.  If the text begins with an empty line, everything behind this line is left. -/
def message (c : Codec) (k : Kind) (ig : List PyStr) (text : Bytes) : Outcome :=
  match cutAt 10 text with
  | none => .seen { message := text }
  | some (l, rest) =>
    if emptyLine l then .seen { message := l ++ [10], left := rest }
    else match openingIn k l with
      | none => .refused .valueError
      | some o =>
        match fieldsIn [] rest with
        | .refused e => .refused e
        | .going hs => .seen { opening := some o, fields := hs, message := text }
        | .ended hs rest =>
          match bodyIn c k ig o hs rest with
          | .refused e => .refused e
          | .forever => .forever
          | .found b => .seen { opening := some o, fields := hs, head := true, trailers := b.trailers, body := b.data, complete := b.complete, closes := b.closes, message := text.take (text.length - rest.length) ++ b.message, left := b.left }

/-- a response with code 100 -/
def Seen.isInterim (s : Seen) : Bool :=
  match s.opening with
  | some (.response _ code _) => s.complete && code == 100
  | _ => false

/-- What the whole text means: a complete response with code 100 is put aside, once, and the message behind it counts (in which no field is ignored). -/
def meaning (c : Codec) (k : Kind) (ig : List PyStr) (text : Bytes) : Outcome :=
  match message c k ig text with
  | .seen s =>
    if s.isInterim then
      match message c k [] s.left with
      | .seen s2 => .seen { s2 with message := s.message ++ s2.message, interim := [s.fields] }
      | r => r
    else .seen s
  | r => r

/-- is there a body, as far as the head tells? -/
def Seen.hasBody (k : Kind) (ig : List PyStr) (s : Seen) : Bool :=
  match s.opening, framing ig s.fields with
  | some o, some fr => bodied k o fr
  | _, _ => false

/-- The start line of the decoded message; `uri` is the target shown, which must not be text. -/
def Opening.decoded (uri : PyStr) : Opening → Except Exc Bytes
  | .request me _ v =>
    match uri with
    | .bytes u => .ok (me ++ [32] ++ u ++ [32] ++ v ++ CRLF)
    | .str _ => .error .typeError
  | .response v n p => .ok (v ++ [32] ++ decimalInt n ++ [32] ++ p ++ CRLF)

/-- The decoded message behind the start line: if there is a body, without the fields about its form, but with its length as it was sent; the body is decompressed if the
encoding is not empty and one of zlib and gzip works; otherwise the encoding is told, in lower case. -/
def Seen.decoded (z : Zlib) (k : Kind) (ig : List PyStr) (s : Seen) : Bytes :=
  let kept := (s.fields ++ s.trailers).filter fun f => ¬ (s.hasBody k ig = true ∧ dropped f.1)
  let head := kept.flatMap (fun f => f.1 ++ b! ": " ++ f.2 ++ CRLF) ++ (if s.hasBody k ig then b! "Content-Length: " ++ decimal s.body.length ++ CRLF else [])
  let enc := (encodingOf ig s.fields).getD []
  if enc = [] ∨ s.body = [] then head ++ CRLF ++ s.body
  else match (z.zlib s.body).or (z.gzip s.body) with
    | some d => head ++ CRLF ++ d
    | none => head ++ b! "Content-Encoding: " ++ enc ++ CRLF ++ CRLF ++ s.body

/-- The parser shows it, before and after `close()`. -/
structure Seen.ShownBy (k : Kind) (ig : List PyStr) (s : Seen) (m : Msg) : Prop where
  head : m.headersComplete = s.head
  request : ∀ me t v, s.opening = some (.request me t v) → m.header.method = .bytes me ∧ m.header.version = .bytes v
  response : ∀ v n p, s.opening = some (.response v n p) → m.header.version = .bytes v ∧ m.header.code = n ∧ m.header.phrase = .bytes p
  fields : m.header.headers = s.fields
  trailers : m.header.trailers = s.trailers
  body : m.getBody = s.body
  message : m.getMessage = s.message
  complete : m.complete = s.complete
  closes : m.close.complete = s.closes
  closedBody : m.close.getBody = s.body
  interim : m.interim.map Hdr.headers = s.interim
  /-- target, host, port and scheme -/
  target : ∀ me t v, s.opening = some (.request me t v) → ∃ line, LineSays me t line ∧ FieldsSay s.fields line m.header.target
  connection : s.head = true → m.header.keepAlive = keepsAlive ig s.fields ∧ m.header.expectContinue = expects ig s.fields
  /-- `get_decoded_message()`, once the message is complete -/
  decoded : s.closes = true → s.left = [] → ∃ o, s.opening = some o ∧ ∀ z, m.close.getDecoded z = (o.decoded m.header.targetUri).map (· ++ s.decoded z k ig)

/-- What is seen does not depend on how the text was cut into pieces: nothing stands behind an empty first line, the body is not decompressed on the fly, and a body that is
announced as chunked has a first chunk, and this is no second interim response. -/
structure Seen.Steady (k : Kind) (ig : List PyStr) (s : Seen) : Prop where
  blank : s.opening = none → s.left = []
  zip : ∀ o n, s.opening = some o → s.head = true → framing ig s.fields = some (.length n) → bodied k o (.length n) = true → zipField ig s.fields = false
  chunks : s.complete = false → s.closes = true → framing ig s.fields ≠ some .chunked
  once : s.isInterim = false

/-- The outcome of feeding a parser for messages of kind `k`, with some fields to be ignored, is this one. -/
def Outcome.Agrees (k : Kind) (ig : List PyStr) (r : Res Msg Bytes) : Outcome → Prop
  | .refused e => ∃ m, r = .raise e m
  | .forever => r = .hang
  | .seen s => ∃ m, r = .ok s.left m ∧ s.ShownBy k (if s.interim = [] then ig else []) m

end Warc.Http.Grammar
