import Verif.Spec.HttpText
/-
  Other ways to write the same HTTP message: bare line feeds, white space around the colon and at the end of lines,
  values continued on further lines.
-/
namespace Warc.Http

/-- white space inside a line: space, tab, carriage return, vertical tab, form feed -/
def Blanks (w : Bytes) : Prop := ∀ c ∈ w, c = 32 ∨ c = 9 ∨ c = 13 ∨ c = 11 ∨ c = 12

/-- How a header field is written: the name, white space, a colon, white space, the value, white space, a line feed;
then continuation lines, each a space or a tab, more text, and a line feed.  (The carriage returns are part of the white
space and of the text.) -/
structure FieldLayout where
  name : Bytes
  gap : Bytes
  lead : Bytes
  value : Bytes
  tail : Bytes
  folds : List (Byte × Bytes)

def FieldLayout.text (f : FieldLayout) : Bytes :=
  f.name ++ f.gap ++ [58] ++ f.lead ++ f.value ++ f.tail ++ [10] ++ f.folds.flatMap fun l => l.1 :: l.2 ++ [10]

/-- the field that is meant: the continuation lines, without white space at both ends, are joined to the value with
single spaces -/
def FieldLayout.field (f : FieldLayout) : Header :=
  (f.name, f.folds.foldl (fun v l => v ++ [32] ++ strip l.2) f.value)

/-- the name has no colon, name and value are on one line and without outer white space; a field with an empty name has no
white space before the colon -/
structure FieldLayout.Ok (f : FieldLayout) : Prop where
  nameColon : 58 ∉ f.name
  nameLine : 10 ∉ f.name
  nameStrip : strip f.name = f.name
  named : f.name = [] → f.gap = []
  gap : Blanks f.gap
  lead : Blanks f.lead
  valueLine : 10 ∉ f.value
  valueStrip : strip f.value = f.value
  tail : Blanks f.tail
  folds : ∀ l ∈ f.folds, (l.1 = 32 ∨ l.1 = 9) ∧ 10 ∉ l.2

/-- the start line without its end -/
def Start.words : Start → Bytes
  | .request m t v => m ++ [32] ++ t ++ [32] ++ v
  | .response v c p => v ++ [32] ++ decimal c ++ [32] ++ p

/-- `line` is such a start line: there may be white space at its end, and the space before an empty reason phrase may be
missing. -/
def Start.writtenAs (st : Start) (line : Bytes) : Prop :=
  ∃ w, Blanks w ∧ (line = st.words ++ w ∨ ∃ v c, st = .response v c [] ∧ line = v ++ [32] ++ decimal c ++ w)

/-- How a message is written. -/
structure Layout where
  /-- the start line, without its line feed -/
  startLine : Bytes
  fields : List FieldLayout
  /-- the empty line -/
  blank : Bytes
  trailers : List FieldLayout
  /-- the empty line after the trailers -/
  lastBlank : Bytes

/-- the head so written -/
def Layout.head (w : Layout) : Bytes :=
  w.startLine ++ [10] ++ w.fields.flatMap FieldLayout.text ++ w.blank

/-- the rest so written -/
def Layout.payload (w : Layout) (x : Message) : Bytes :=
  match x.payload with
  | .chunked b => b.chunks.flatMap Chunk.text ++ sizeLine b.lastSize b.lastExt ++ (w.trailers.flatMap FieldLayout.text ++ w.lastBlank)
  | p => p.text

def Layout.text (w : Layout) (x : Message) : Bytes := w.head ++ w.payload x

/-- It is a way to write the message `x`. -/
structure Layout.Ok (w : Layout) (x : Message) : Prop where
  startLine : x.start.writtenAs w.startLine
  fieldsOk : ∀ f ∈ w.fields, f.Ok
  fields : w.fields.map FieldLayout.field = x.fields
  blank : w.blank = CRLF ∨ w.blank = [10]
  trailersOk : ∀ f ∈ w.trailers, f.Ok
  trailers : w.trailers.map FieldLayout.field = x.payload.trailers
  lastBlank : w.lastBlank = CRLF ∨ w.lastBlank = [10]

/-- `line` (without its line feed) is no start line for the parser: a request line with fewer than two spaces before the white
space at its end, or a CONNECT whose target has not exactly one colon; a status line whose second word is missing or no
number. -/
def BadStart (k : Kind) (line : Bytes) : Prop :=
  match k with
  | .request => (rstrip line).count 32 < 2 ∨
      ∃ m t v, rstrip line = m ++ 32 :: (t ++ 32 :: v) ∧ 32 ∉ m ∧ 32 ∉ t ∧ upper m = b! "CONNECT" ∧ t.count 58 ≠ 1
  | .response _ => ∀ v rest, rstrip line = v ++ 32 :: rest → 32 ∉ v → pyInt 10 (rest.takeWhile (· ≠ 32)) = none

end Warc.Http
