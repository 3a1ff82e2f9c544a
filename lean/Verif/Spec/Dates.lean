import Verif.Model.Dates
/-
  Dates as texts: the WARC format `YYYY-MM-DDThh:mm:ssZ` and the digits used in ARC files.
-/
namespace Warc

/-- the digit of a number below ten -/
def digitOf (n : Nat) : Byte := UInt8.ofNat (48 + n)
/-- two digits, of a number below a hundred -/
def twoDigits (n : Nat) : Bytes := [digitOf (n / 10), digitOf (n % 10)]
/-- four digits, of a number below ten thousand -/
def fourDigits (n : Nat) : Bytes := twoDigits (n / 100) ++ twoDigits (n % 100)

/-- the date and time with the given fields in WARC format: `YYYY-MM-DDThh:mm:ssZ` -/
def warcStamp (y mo d h mi s : Nat) : Bytes :=
  fourDigits y ++ b! "-" ++ twoDigits mo ++ b! "-" ++ twoDigits d ++
    b! "T" ++ twoDigits h ++ b! ":" ++ twoDigits mi ++ b! ":" ++ twoDigits s ++ b! "Z"

/-- date and time as above, without the final `Z` -/
def localStamp (y mo d h mi s : Nat) : Bytes :=
  fourDigits y ++ b! "-" ++ twoDigits mo ++ b! "-" ++ twoDigits d ++ b! "T" ++ twoDigits h ++ b! ":" ++ twoDigits mi ++ b! ":" ++ twoDigits s

/-- the distance to UTC: `+hh:mm`, `-hh:mm`, with the seconds if there are any -/
def utcOffset (behind : Bool) (h m s : Nat) : Bytes :=
  (if behind then b! "-" else b! "+") ++ twoDigits h ++ b! ":" ++ twoDigits m ++ (if s = 0 then [] else b! ":" ++ twoDigits s)

/-- a date in an ARC file: `YYYYMMDD` -/
def arcDay (y mo d : Nat) : Bytes := fourDigits y ++ twoDigits mo ++ twoDigits d

/-- date and time in an ARC file: `YYYYMMDDhhmmss` -/
def arcStamp (y mo d h mi s : Nat) : Bytes := arcDay y mo d ++ twoDigits h ++ twoDigits mi ++ twoDigits s

/-- the text consists of `k` digits and is the number `n` in decimal -/
def Digits (k : Nat) (text : Bytes) (n : Nat) : Prop :=
  text.length = k ∧ (∀ c ∈ text, 48 ≤ c ∧ c ≤ 57) ∧ text.foldl (fun a c => 10 * a + (c.toNat - 48)) 0 = n

/-- a field with one digit or two -/
def Field (text : Bytes) (n : Nat) : Prop := Digits 1 text n ∨ Digits 2 text n

/-- a leap year of the Gregorian calendar -/
def GregorianLeap (y : Nat) : Prop := 400 ∣ y ∨ 4 ∣ y ∧ ¬ 100 ∣ y

/-- there is such a day in the Gregorian calendar: thirty days have April, June, September and November … -/
def DayExists (y mo d : Nat) : Prop :=
  1 ≤ y ∧ 1 ≤ mo ∧ mo ≤ 12 ∧ 1 ≤ d ∧
    (mo ∈ [1, 3, 5, 7, 8, 10, 12] ∧ d ≤ 31 ∨ mo ∈ [4, 6, 9, 11] ∧ d ≤ 30 ∨
     mo = 2 ∧ (d ≤ 28 ∨ d = 29 ∧ GregorianLeap y))

/-- `text` is a date of an ARC file, with or without time of day, and `warc` is the same point in time in WARC format
(midnight for a date without time of day) -/
def ArcDate (text warc : Bytes) : Prop :=
  ∃ d : DateTime, d.Valid ∧
    (text = arcStamp d.year d.month d.day d.hour d.minute d.second ∧
      warc = warcStamp d.year d.month d.day d.hour d.minute d.second ∨
     text = arcDay d.year d.month d.day ∧ warc = warcStamp d.year d.month d.day 0 0 0)

end Warc
