import Verif.Spec.Collect
/-
  Small specification of ARC files (http://archive.org/web/researcher/ArcFileFormat.php) and of files
  that mix ARC and WARC records.
-/
namespace Warc.Spec

/-- a header line: the values separated by single blanks -/
def arcLine (values : List Bytes) : Bytes := join [32] values ++ [10]

/-- a blank between `p` and `q` is recognised as a separator: there is a letter, digit or `_` right
before or right after it -/
def Sep (p q : Bytes) : Prop :=
  (∃ c, p.getLast? = some c ∧ isWord c = true) ∨ (∃ c, q.head? = some c ∧ isWord c = true)

/-- all the blanks between consecutive values are recognised -/
def Separated : List Bytes → Prop
  | [] => True
  | [_] => True
  | p :: q :: rest => Sep p q ∧ Separated (q :: rest)

/-- the values that a header line can carry for the given field names: one per name, without white
space; but the first one may be anything on one line (blanks included) if its field is the URL (or
Content-type) and there are other fields -/
structure FieldsOk (names values : List Bytes) : Prop where
  count : values.length = names.length
  sep : Separated values
  rest : ∀ v ∈ values.tail, ∀ c ∈ v, isWs c = false
  first : ∀ v0, values.head? = some v0 → (∀ c ∈ v0, isWs c = false) ∨
    (10 ∉ v0 ∧ 2 ≤ names.length ∧ (names.head? = some (b! "URL") ∨ names.head? = some (b! "Content-type")))

/-- field names: one or more words -/
def NamesOk (names : List Bytes) : Prop :=
  names ≠ [] ∧ ∀ n ∈ names, n ≠ [] ∧ ∀ c ∈ n, isWs c = false

/-- the length announced by the headers: the last Archive-length -/
def arcLength : List Header → Option Int
  | hs => hs.foldl (fun acc h =>
      if lower h.1 = b! "archive-length" then (match pyInt 10 h.2 with | some n => some n | none => acc) else acc) none

/-- a Content-type is not empty, an Archive-length is an integer -/
def ArcValueOk (h : Header) : Prop :=
  (lower h.1 = b! "content-type" → h.2 ≠ []) ∧
  (lower h.1 = b! "archive-length" → (pyInt 10 h.2).isSome = true)

instance (h : Header) : Decidable (ArcValueOk h) :=
  inferInstanceAs (Decidable (_ ∧ _))

/-- A record of an ARC file, or a WARC record in a mixed file. The terminator is what follows the
record (for ARC, a newline). -/
inductive ArcItem where
  /-- filedesc record: header values, version line, field names, rest of its body -/
  | filedesc (values : List Bytes) (version : Bytes) (names : List Bytes) (body T : Bytes)
  /-- data record: header values, content -/
  | data (values : List Bytes) (body T : Bytes)
  /-- a WARC record -/
  | warc (r : R)

namespace ArcItem

/-- the lines that a filedesc record holds after its header line -/
def preamble (version : Bytes) (names : List Bytes) : Bytes := version ++ [10] ++ arcLine names

/-- the bytes of the item -/
def bytes : ArcItem → Bytes
  | filedesc values version names body T => arcLine values ++ preamble version names ++ body ++ T
  | data values body T => arcLine values ++ body ++ T
  | warc r => r.bytes

/-- the field names in force after the item -/
def names (before : List Bytes) : ArcItem → List Bytes
  | filedesc _ _ ns _ _ => ns
  | data _ _ _ => before
  | warc _ => before

/-- the item is well formed when the given field names are in force before it; the flag says that the
file is a mixed one -/
def Ok (mixed : Bool) (before : List Bytes) : ArcItem → Prop
  | filedesc values version ns body T =>
    NamesOk ns ∧ FieldsOk ns values ∧ b! "filedesc:" <+: arcLine values ∧
    10 ∉ version ∧ strip version ≠ [] ∧ (∀ h ∈ ns.zip values, ArcValueOk h) ∧
    arcLength (ns.zip values) = some (((preamble version ns).length + body.length : Nat) : Int) ∧ Terminator T
  | data values body T =>
    NamesOk before ∧ FieldsOk before values ∧ ¬ b! "filedesc:" <+: arcLine values ∧
    (mixed = true → ¬ b! "WARC" <+: arcLine values) ∧
    (∀ h ∈ before.zip values, ArcValueOk h) ∧
    arcLength (before.zip values) = some (body.length : Int) ∧ Terminator T
  | warc r => mixed = true ∧ r.Ok ∧ b! "WARC" <+: r.version

/-- what a program that reads all records should note about the item -/
def got (report : Nat → Option Nat) (pos : Nat) (before : List Bytes) : ArcItem → Got
  | filedesc values version ns body _ =>
    ⟨report pos, strip version, ns.zip values, [], (firstValue (b! "Content-type") (ns.zip values), some body)⟩
  | data values body _ =>
    ⟨report pos, [], before.zip values, [], (firstValue (b! "Content-type") (before.zip values), some body)⟩
  | warc r =>
    ⟨report pos, r.version, r.headers, [], (firstValue (b! "Content-Type") r.headers, some r.body)⟩

/-- all items are well formed, each with the field names in force before it -/
def AllOk (mixed : Bool) : List Bytes → List ArcItem → Prop
  | _, [] => True
  | before, it :: its => it.Ok mixed before ∧ AllOk mixed (it.names before) its

/-- what should be noted about a list of items -/
def allGot (report : Nat → Option Nat) : Nat → List Bytes → List ArcItem → List Got
  | _, _, [] => []
  | pos, before, it :: its =>
    it.got report pos before :: allGot report (pos + it.bytes.length) (it.names before) its

end ArcItem
end Warc.Spec
