import Verif.Model.Links
/-
  RFC 3986: references, their text, and their resolution against a base.
-/
namespace Warc.Spec.Uri
open Warc.Unpack (Text)

/-- The five parts of a URI reference (RFC 3986, section 3 and 4.1). -/
structure Ref where
  scheme : Option Text
  authority : Option Text
  path : Text
  query : Option Text
  fragment : Option Text
  deriving Repr, DecidableEq

/-- Section 5.3, component recomposition. -/
def Ref.text (r : Ref) : Text :=
  (match r.scheme with | some s => s ++ [':'] | none => []) ++
  (match r.authority with | some a => '/' :: '/' :: a | none => []) ++
  r.path ++
  (match r.query with | some q => '?' :: q | none => []) ++
  (match r.fragment with | some f => '#' :: f | none => [])

/-- everything up to the last `/`, which is left out; empty if there is none -/
def dropLastSegment (t : Text) : Text := ((t.reverse.dropWhile (· ≠ '/')).drop 1).reverse

/-- Section 5.2.4, steps 2A to 2E on the input buffer and the output buffer. -/
def removeDotsStep : Text → Text → Text × Text
  | '.' :: '.' :: '/' :: t, out => (t, out)
  | '.' :: '/' :: t, out => (t, out)
  | '/' :: '.' :: '/' :: t, out => ('/' :: t, out)
  | ['/', '.'], out => (['/'], out)
  | '/' :: '.' :: '.' :: '/' :: t, out => ('/' :: t, dropLastSegment out)
  | ['/', '.', '.'], out => (['/'], dropLastSegment out)
  | ['.'], out => ([], out)
  | ['.', '.'], out => ([], out)
  | '/' :: t, out => (t.dropWhile (· ≠ '/'), out ++ '/' :: t.takeWhile (· ≠ '/'))
  | t, out => (t.dropWhile (· ≠ '/'), out ++ t.takeWhile (· ≠ '/'))

/-- the loop of section 5.2.4; every step makes the input buffer shorter -/
def removeDotsLoop : Nat → Text → Text → Text
  | 0, _, out => out
  | n + 1, inp, out => if inp = [] then out else removeDotsLoop n (removeDotsStep inp out).1 (removeDotsStep inp out).2

/-- Section 5.2.4 -/
def removeDots (path : Text) : Text := removeDotsLoop path.length path []

/-- Section 5.2.3 -/
def merge (base : Ref) (path : Text) : Text :=
  if base.authority ≠ none ∧ base.path = [] then '/' :: path
  else (base.path.reverse.dropWhile (· ≠ '/')).reverse ++ path

/-- Section 5.2.2 -/
def resolve (base r : Ref) : Ref :=
  if r.scheme ≠ none then ⟨r.scheme, r.authority, removeDots r.path, r.query, r.fragment⟩
  else if r.authority ≠ none then ⟨base.scheme, r.authority, removeDots r.path, r.query, r.fragment⟩
  else if r.path = [] then ⟨base.scheme, base.authority, base.path, if r.query ≠ none then r.query else base.query, r.fragment⟩
  else if r.path.head? = some '/' then ⟨base.scheme, base.authority, removeDots r.path, r.query, r.fragment⟩
  else ⟨base.scheme, base.authority, removeDots (merge base r.path), r.query, r.fragment⟩

/-- a segment that is neither `.` nor `..` and contains no slash -/
def Plain (s : Text) : Prop := '/' ∉ s ∧ s ≠ ['.'] ∧ s ≠ ['.', '.']

/-- `/s1/s2/...` -/
def slashed (segs : List Text) : Text := segs.flatMap fun s => '/' :: s

/-- no tabs and line ends, and no control character or blank in front -/
def Clean (t : Text) : Prop := (∀ c ∈ t, c ≠ '\t' ∧ c ≠ '\r' ∧ c ≠ '\n') ∧ ∀ c, t.head? = some c → 32 < c.toNat

/-- a scheme as RFC 3986 section 3.1 has it, in lower case: a letter, then letters, digits, `+`, `-` and `.` -/
def Scheme (s : Text) : Prop :=
  s ≠ [] ∧ (∀ c ∈ s, (c.isAlphanum = true ∨ c = '+' ∨ c = '-' ∨ c = '.') ∧ c.toLower = c) ∧ ∀ c, s.head? = some c → c.isAlpha = true

/-- A base `scheme://authority/d1/.../dn/file?query#fragment` with a lower case scheme and a host, whose path is empty or made of plain directory
names and a file name that may be empty. -/
structure Base (hostOk : Text → Bool) (b : Ref) (s a : Text) (dirs : List Text) (file : Option Text) : Prop where
  scheme : b.scheme = some s ∧ Scheme s
  authority : b.authority = some a ∧ a ≠ [] ∧ (∀ c ∈ a, c ≠ '/' ∧ c ≠ '?' ∧ c ≠ '#') ∧ hostOk a = true
  path : match file with
    | none => dirs = [] ∧ b.path = []
    | some f => b.path = slashed dirs ++ '/' :: f ∧ '/' ∉ f ∧ ∀ d ∈ dirs, Plain d ∧ d ≠ []
  marks : (∀ c ∈ b.path, c ≠ '?' ∧ c ≠ '#') ∧ ∀ q, b.query = some q → '#' ∉ q
  clean : Clean b.text

/-- A relative reference without host: `up` and `here` are the steps `../` and `./` in front, in order (true for `../`).  The rest has no dot
segments, and does not begin with a slash if anything is in front of it. -/
structure Relative (r : Ref) (ups : List Bool) (rest : Text) : Prop where
  scheme : r.scheme = none
  authority : r.authority = none
  path : r.path = ups.flatMap (fun u => if u then "../".toList else "./".toList) ++ rest
  inside : r.path ≠ [] ∧ r.path.take 2 ≠ ['/', '/'] ∧ (ups ≠ [] → rest.head? ≠ some '/')
  plain : ∀ s ∈ Links.split '/' rest, Plain s
  colon : ':' ∉ r.path.takeWhile (· ≠ '/')
  params : r.path.getLast? ≠ some ';'
  query : r.query ≠ some []
  marks : (∀ c ∈ r.path, c ≠ '?' ∧ c ≠ '#') ∧ ∀ q, r.query = some q → '#' ∉ q
  clean : Clean r.text

end Warc.Spec.Uri

namespace Warc.Spec.Html
open Warc.Unpack (Text)
open Warc.Links (Attr)

/-- the attributes in which the elements of HTML carry links, as far as warclinks knows them: attribute and elements -/
def linkAttributes : List (String × List String) :=
  [("href", ["a", "area", "link", "embed", "img"]),
   ("src", ["img", "script", "frame", "iframe", "embed", "input", "bgsound", "fig", "layer", "overlay"]),
   ("lowsrc", ["img"]), ("code", ["applet"]), ("background", ["body", "table", "td", "th"]), ("action", ["form"]), ("data", ["object"])]

/-- does this attribute of this element carry a link? -/
def linkAttribute (tag attr : Text) : Bool := linkAttributes.any fun p => p.1.toList == attr && p.2.any fun t => t.toList == tag

/-- the text of an attribute with a value that is not empty -/
def valueOf (a : Attr) : Option Text := a.2.filter (· ≠ [])

/-- `k` is `url` in any case -/
def isUrl (k : Text) : Bool := k.map Char.toLower == "url".toList

/-- without white space at both ends -/
def trim (space : Char → Bool) (t : Text) : Text := ((t.dropWhile space).reverse.dropWhile space).reverse

/-- the links in the `content` of a `meta` element: among the pieces between semicolons those of the form `url=...`, up to the next `=` -/
def metaLinks (space : Char → Bool) (content : Text) : List Text :=
  (Links.split ';' content).filterMap fun piece =>
    match Links.split '=' piece with
    | k :: v :: _ => if isUrl k then some (trim space v) else none
    | _ => none

/-- the values of the attributes with this name -/
def values (name : String) (attrs : List Attr) : List Text := (attrs.filter fun a => a.1 == name.toList).filterMap valueOf

/-- the links of one start tag -/
def linksOfTag (space : Char → Bool) (t : Text × List Attr) : List Text :=
  if t.1 = "meta".toList then (values "content" t.2).flatMap (metaLinks space)
  else t.2.filterMap fun a => if linkAttribute t.1 a.1 then valueOf a else none

/-- the base of a document: the last `href` of its last `base` element that has one, or else its own address -/
def baseOf (address : Text) (tags : List (Text × List Attr)) : Text :=
  ((tags.filter fun t => t.1 == "base".toList).flatMap fun t => values "href" t.2).getLastD address

/-- what is assumed about `str.lower` -/
def CharsOk (ch : Links.Chars) : Prop := ∀ k, ch.lower k = "url".toList ↔ isUrl k = true

end Warc.Spec.Html
