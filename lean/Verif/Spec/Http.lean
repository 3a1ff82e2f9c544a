import Verif.Model.HttpMessage
/-
  What the theorems about the HTTP parser say, independently of how the parser works.
-/
namespace Warc.Http

/-- Feeding a message in pieces, one call of `feed` after the other; what the calls give back is put together. -/
def feedAll (f : Bytes → M Msg Bytes) : List Bytes → M Msg Bytes
  | [] => pure []
  | t :: ts => do
    let l ← f t
    let r ← feedAll f ts
    pure (l ++ r)

/-- A body with a Content-Length and a Content-Encoding that ends in gzip: the parser decompresses it while it
looks at the text at hand. -/
def gzipBody (h : Hdr) : Bool :=
  h.hasBody && h.mode == .length && gzipEncoded h.encoding

/-- The parser took a body announced as chunked for one that ends with the connection, because the first chunk line
is not a number. -/
def fellBack (m : Msg) : Prop := m.mode = .body ∧ m.reader = none ∧ m.header.mode = .chunked

/-- A message that can be fed in any pieces: it does not begin with an empty line that is followed by more text
(`feed` gives that text back), its body is not decompressed on the fly, and a chunked body begins with a
chunk line. -/
def Splittable : Res Msg Bytes → Prop
  | .ok rest m => (m.mode = .start → rest = []) ∧ gzipBody m.header = false ∧ ¬ fellBack m
  | .raise _ m => gzipBody m.header = false
  | .hang => True

/-- A response that can be fed in any pieces: moreover there are not two interim responses with code 100 in front (the
second one is taken for the response). -/
def SplittableResponse (r : Res Msg Bytes) : Prop :=
  Splittable r ∧ ∀ l m, r = .ok l m → ¬ (m.complete = true ∧ m.header.code = 100)

/-- The same message, but with other text in front of it in the buffer and with interim responses before it. -/
def Msg.behind (text : Bytes) (interim : List Hdr) (m : Msg) : Msg :=
  { m with
    buffer := text ++ m.buffer
    offset := text.length + m.offset
    bodyChunks := m.bodyChunks.map fun x => (text.length + x.1, x.2)
    interim := interim ++ m.interim }

/-- the same outcome with another state -/
def onState {α : Type} (f : Msg → Msg) : Res Msg α → Res Msg α
  | .ok a m => .ok a (f m)
  | .raise e m => .raise e (f m)
  | .hang => .hang

/-- The text contains a line that announces a chunk of negative size: the number before the first semicolon, in
hexadecimal, is negative. -/
def NegativeSize (text : Bytes) : Prop :=
  ∃ before line after n, text = before ++ line ++ 10 :: after ∧ (before = [] ∨ before.getLast? = some 10) ∧ 10 ∉ line ∧
    pyInt 16 ((line ++ [10]).takeWhile (· ≠ 59)) = some n ∧ n < 0

/-- the states of a parser that can be reached with calls of `feed` that return -/
inductive Reached (f : Bytes → M Msg Bytes) (start : Msg) : Msg → Prop
  | new : Reached f start start
  | feed {m m' : Msg} {t l : Bytes} : Reached f start m → f t m = .ok l m' → Reached f start m'

end Warc.Http
