import Verif.Spec.Lines
/-
  Which header blocks are flawless (property C12) and what folded headers mean (C13).
-/
namespace Warc.Spec

/-- the line ends in CR LF -/
def endsCRLF (l : Bytes) : Bool := decide (2 ≤ l.length) && l.drop (l.length - 2) == CRLF

/-- a version line without anything but white space in front of `WARC/`, ended by CR LF -/
def versionClean (l : Bytes) : Bool :=
  lower ((l.dropWhile isWs).take 5) == b! "warc/" && endsCRLF l

/-- a header line that ends in CR LF, where at least one byte (a blank will do) stands between the
first colon and the line end -/
def fieldClean (l : Bytes) : Bool := endsCRLF l && l.dropWhile (· != 58) != 58 :: CRLF

/-- a continuation line that ends in CR LF and is not made of white space only -/
def contClean (l : Bytes) : Bool := endsCRLF l && l.any fun c => !isWs c

/-- all lines of the header block are flawless -/
def cleanBlock : Bool → List Bytes → Bool
  | _, [] => true
  | after, l :: ls =>
    if after && contLine l then contClean l && cleanBlock true ls
    else if blankLine l then true
    else fieldClean l && cleanBlock true ls

/-- a Content-Type is not empty, a Content-Length is an integer -/
def ValueOk (h : Header) : Prop :=
  (lower h.1 = b! "content-type" → h.2 ≠ []) ∧
  (lower h.1 = b! "content-length" → (pyInt 10 h.2).isSome = true)

instance (h : Header) : Decidable (ValueOk h) := by unfold ValueOk; infer_instance

/-- the lines before the version line that are not blank -/
def junkLines (ls : List Bytes) : List Bytes :=
  (ls.takeWhile fun l => (versionNumber l).isNone).filter fun l => !blankLine l

/-- a header field written on several lines: name, first piece of the value, and (indentation,
piece) for every further line -/
structure Field where
  name : Bytes
  value : Bytes
  conts : List (Bytes × Bytes)

/-- the text of a field -/
def Field.bytes (f : Field) : Bytes :=
  f.name ++ b! ": " ++ f.value ++ CRLF ++ f.conts.flatMap fun c => c.1 ++ c.2 ++ CRLF

/-- what it means: the pieces joined by single blanks -/
def Field.header (f : Field) : Header := (f.name, join [32] (f.value :: f.conts.map (·.2)))

/-- names and pieces without line feeds and without blanks at the ends, pieces on further lines not
empty, indentations not empty -/
structure Field.Ok (f : Field) : Prop where
  noColon : 58 ∉ f.name
  nameNoLF : 10 ∉ f.name
  nameStrip : strip f.name = f.name
  valueNoLF : 10 ∉ f.value
  valueStrip : strip f.value = f.value
  conts : ∀ c ∈ f.conts, c.1 ≠ [] ∧ (∀ b ∈ c.1, isWs b = true) ∧ 10 ∉ c.1 ∧
    c.2 ≠ [] ∧ strip c.2 = c.2 ∧ 10 ∉ c.2

/-- version line, fields, blank line -/
def richHead (version : Bytes) (fs : List Field) : Bytes :=
  version ++ CRLF ++ fs.flatMap Field.bytes ++ CRLF

/-- a complete line that is neither blank nor a version line -/
structure JunkLine (l : Bytes) : Prop where
  line : ∃ u, l = u ++ [10] ∧ 10 ∉ u
  notBlank : blankLine l = false
  noTag : afterTag l = none

end Warc.Spec
