import Verif.Py.Exc
/-
  Model of the dates: `datetime.datetime` objects, `isoformat`, `strptime` with the two formats used by
  /repo/hanzo/arc2warc.py, and `warc_datetime_str` (/repo/hanzo/warctools/warc.py:365-369).
-/
namespace Warc

/-- A `datetime.datetime`; `offset` is the offset from UTC in seconds of an aware object. Simplification: offsets
with fractions of a second are left out. -/
structure DateTime where
  year : Nat
  month : Nat
  day : Nat
  hour : Nat
  minute : Nat
  second : Nat
  micro : Nat := 0
  offset : Option Int := none
  deriving Repr, DecidableEq

/-- `calendar.isleap` -/
def isLeap (y : Nat) : Bool := y % 4 == 0 && (y % 100 != 0 || y % 400 == 0)

/-- days in a month (CPython Lib/_pydatetime.py `_days_in_month`) -/
def daysInMonth (y m : Nat) : Nat :=
  if m = 2 then (if isLeap y then 29 else 28)
  else if m = 4 ∨ m = 6 ∨ m = 9 ∨ m = 11 then 30 else 31

/-- The range check of the `datetime` constructor (CPython Lib/_pydatetime.py `_check_date_fields`,
`_check_time_fields`): only such objects exist. -/
structure DateTime.Valid (d : DateTime) : Prop where
  year : 1 ≤ d.year ∧ d.year ≤ 9999
  month : 1 ≤ d.month ∧ d.month ≤ 12
  day : 1 ≤ d.day ∧ d.day ≤ daysInMonth d.year d.month
  hour : d.hour < 24
  minute : d.minute < 60
  second : d.second < 60
  micro : d.micro < 1000000
  offset : ∀ z, d.offset = some z → -86400 < z ∧ z < 86400

instance (d : DateTime) : Decidable d.Valid :=
  decidable_of_iff ((1 ≤ d.year ∧ d.year ≤ 9999) ∧ (1 ≤ d.month ∧ d.month ≤ 12) ∧
      (1 ≤ d.day ∧ d.day ≤ daysInMonth d.year d.month) ∧ d.hour < 24 ∧ d.minute < 60 ∧ d.second < 60 ∧
      d.micro < 1000000 ∧ (∀ z ∈ d.offset.toList, -86400 < z ∧ z < 86400))
    ⟨fun ⟨a, b, c, e, f, g, h, i⟩ => ⟨a, b, c, e, f, g, h, fun z hz => i z (by simp [hz])⟩,
     fun ⟨a, b, c, e, f, g, h, i⟩ => ⟨a, b, c, e, f, g, h, fun z hz => i z (by simpa using hz)⟩⟩

/-- `"%0wd" % n` for `n` with at most `w` digits (which holds for all fields of a `datetime`) -/
def fixed : Nat → Nat → Bytes
  | 0, _ => []
  | w + 1, n => fixed w (n / 10) ++ [digitByte n]

/-- the UTC offset in `isoformat()`: `+hh:mm`, and `:ss` if there are seconds (CPython Lib/_pydatetime.py
`_format_offset`) -/
def offsetSuffix (z : Int) : Bytes :=
  let a := z.natAbs
  (if z < 0 then b! "-" else b! "+") ++ fixed 2 (a / 3600) ++ b! ":" ++ fixed 2 (a / 60 % 60) ++
    (if a % 60 = 0 then [] else b! ":" ++ fixed 2 (a % 60))

/-- `d.isoformat()` (CPython Lib/_pydatetime.py `datetime.isoformat`) -/
def DateTime.isoformat (d : DateTime) : Bytes :=
  fixed 4 d.year ++ b! "-" ++ fixed 2 d.month ++ b! "-" ++ fixed 2 d.day ++ b! "T" ++
  fixed 2 d.hour ++ b! ":" ++ fixed 2 d.minute ++ b! ":" ++ fixed 2 d.second ++
  (if d.micro = 0 then [] else b! "." ++ fixed 6 d.micro) ++
  (match d.offset with | none => [] | some z => offsetSuffix z)

/-- `warc_datetime_str` (/repo/hanzo/warctools/warc.py:365-369): everything from the first `.` on is dropped. -/
def warcDatetimeStr (d : DateTime) : Bytes :=
  (d.isoformat.takeWhile (· ≠ 46)) ++ b! "Z"

/-! ### strptime

CPython's `_strptime` compiles the format to a regular expression, matches it at the start of the text (first
alternative first, with backtracking), requires that the match reaches the end of the text, and hands the
numbers to the constructor. The fields (CPython Lib/_strptime.py `TimeRE`): `%Y` `\d\d\d\d`, `%m` `1[0-2]|0[1-9]|[1-9]`,
`%d` `3[0-1]|[1-2]\d|0[1-9]|[1-9]| [1-9]`, `%H` `2[0-3]|[0-1]\d|\d`, `%M` `[0-5]\d|\d`, `%S` `6[0-1]|[0-5]\d|\d`. -/
namespace Strptime

/-- ASCII digit; the text was decoded as ASCII, so `\d` matches nothing else -/
def dig (c : Byte) : Option Nat := if isDigit c then some (c.toNat - 48) else none

/-- All matches of a piece at the start of a text, in order of preference, with the rest of the text. -/
abbrev P := Bytes → List (Nat × Bytes)

/-- one digit -/
def one (ok : Nat → Bool) : P
  | a :: rest =>
    match dig a with
    | some x => if ok x then [(x, rest)] else []
    | none => []
  | [] => []

/-- two digits -/
def two (ok : Nat → Nat → Bool) : P
  | a :: b :: rest =>
    match dig a, dig b with
    | some x, some y => if ok x y then [(10 * x + y, rest)] else []
    | _, _ => []
  | _ => []

/-- alternatives -/
def alt (ps : List P) : P := fun s => ps.flatMap fun p => p s

def year : P
  | a :: b :: c :: d :: rest =>
    match dig a, dig b, dig c, dig d with
    | some w, some x, some y, some z => [(1000 * w + 100 * x + 10 * y + z, rest)]
    | _, _, _, _ => []
  | _ => []
def month : P := alt [two fun x y => x == 1 && y ≤ 2, two fun x y => x == 0 && 1 ≤ y, one fun x => 1 ≤ x]
def day : P := alt [two fun x y => x == 3 && y ≤ 1, two fun x _ => 1 ≤ x && x ≤ 2, two fun x y => x == 0 && 1 ≤ y,
  one fun x => 1 ≤ x, fun s => match s with | 32 :: rest => one (fun x => 1 ≤ x) rest | _ => []]
def hour : P := alt [two fun x y => x == 2 && y ≤ 3, two fun x _ => x ≤ 1, one fun _ => true]
def minute : P := alt [two fun x _ => x ≤ 5, one fun _ => true]
def second : P := alt [two fun x y => x == 6 && y ≤ 1, two fun x _ => x ≤ 5, one fun _ => true]

/-- a sequence of pieces: all matches in order of preference -/
def pieces : List P → Bytes → List (List Nat × Bytes)
  | [], s => [([], s)]
  | p :: ps, s => (p s).flatMap fun m => (pieces ps m.2).map fun r => (m.1 :: r.1, r.2)

/-- the match, which must be complete -/
def fullMatch (ps : List P) (s : Bytes) : Option (List Nat) :=
  match pieces ps s with
  | (ns, []) :: _ => some ns
  | _ => none

/-- the constructor: ValueError for fields out of range -/
def construct (d : DateTime) : Except Exc DateTime := if d.Valid then .ok d else .error .valueError

/-- `datetime.strptime(s.decode('ascii'), '%Y%m%d%H%M%S')` for bytes `s`; UnicodeDecodeError is a ValueError too
(a text with non-ASCII bytes matches nothing here) -/
def full (s : Bytes) : Except Exc DateTime :=
  match fullMatch [year, month, day, hour, minute, second] s with
  | some [y, mo, d, h, mi, sec] => construct ⟨y, mo, d, h, mi, sec, 0, none⟩
  | _ => .error .valueError

/-- `datetime.strptime(s.decode('ascii'), '%Y%m%d')` -/
def short (s : Bytes) : Except Exc DateTime :=
  match fullMatch [year, month, day] s with
  | some [y, mo, d] => construct ⟨y, mo, d, 0, 0, 0, 0, none⟩
  | _ => .error .valueError

end Strptime
end Warc
