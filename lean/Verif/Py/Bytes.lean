/-
  The slice of CPython's `bytes` type used by warctools.

  Nothing in this file models code of /repo itself; it models the runtime
  library calls which that code makes.  Each definition names the Python
  operation it stands for and where /repo uses it.
-/

namespace Warc

/-- A Python byte, `0 .. 255`. -/
abbrev Byte := UInt8

/-- Python `bytes` / `bytearray` contents. -/
abbrev Bytes := List UInt8

open Lean in
/-- Bytes literal: `b! "WARC"` elaborates to the explicit list of its UTF-8 bytes
(the Python literal `b'WARC'`). -/
macro "b!" s:str : term => do
  let elems ← s.getString.toUTF8.toList.mapM fun b => `(term| $(quote b.toNat))
  `(term| ([$(elems.toArray),*] : List UInt8))

/-- carriage return, line feed -/
abbrev CR : Byte := 13
abbrev LF : Byte := 10
/-- The byte string `b'\r\n'`. -/
abbrev CRLF : Bytes := [13, 10]

/-- ASCII white space as used by `bytes.strip()`, `bytes.split()`, `int(bytes)` and `\s` in
a bytes pattern: space, `\t`, `\n`, `\v`, `\f`, `\r`. -/
def isWs (b : Byte) : Bool :=
  b == 32 || b == 9 || b == 10 || b == 11 || b == 12 || b == 13

/-- `\w` in a bytes pattern: `[A-Za-z0-9_]`. -/
def isWord (b : Byte) : Bool :=
  (48 ≤ b && b ≤ 57) || (65 ≤ b && b ≤ 90) || (97 ≤ b && b ≤ 122) || b == 95

/-- `\d` in a bytes pattern. -/
def isDigit (b : Byte) : Bool := 48 ≤ b && b ≤ 57

/-- ASCII lower casing of one byte. -/
def lowerByte (b : Byte) : Byte := if 65 ≤ b && b ≤ 90 then b + 32 else b

/-- `bytes.lower()`. -/
def lower (s : Bytes) : Bytes := s.map lowerByte

/-- ASCII upper casing of one byte. -/
def upperByte (b : Byte) : Byte := if 97 ≤ b && b ≤ 122 then b - 32 else b

/-- `bytes.upper()`. -/
def upper (s : Bytes) : Bytes := s.map upperByte

/-- Drop a maximal suffix of bytes satisfying `p`. -/
def rstripP (p : Byte → Bool) (s : Bytes) : Bytes := (s.reverse.dropWhile p).reverse

/-- `bytes.lstrip()`. -/
def lstrip (s : Bytes) : Bytes := s.dropWhile isWs

/-- `bytes.rstrip()`. -/
def rstrip (s : Bytes) : Bytes := rstripP isWs s

/-- `bytes.strip()`. -/
def strip (s : Bytes) : Bytes := rstrip (lstrip s)

/-- `bytes.rstrip(b'\r\n')`. -/
def rstripCRLF (s : Bytes) : Bytes := rstripP (fun b => b == 13 || b == 10) s

/-- `bytes.startswith`. -/
def startsWith (s pre : Bytes) : Bool := pre.isPrefixOf s

/-- `bytes.endswith`. -/
def endsWith (s suf : Bytes) : Bool := suf.isSuffixOf s

/-- `needle in haystack` for bytes. -/
def contains (s needle : Bytes) : Bool :=
  match s with
  | [] => needle.isPrefixOf []
  | c :: cs => needle.isPrefixOf (c :: cs) || contains cs needle

/-- `s.split(sep, 1)` for a one byte separator: `none` when the separator does not occur
(Python then returns the one element list `[s]`). -/
def splitOnce (sep : Byte) : Bytes → Option (Bytes × Bytes)
  | [] => none
  | c :: cs =>
    if c == sep then some ([], cs)
    else match splitOnce sep cs with
      | some (a, b) => some (c :: a, b)
      | none => none

/-- `s.split(sep, n)` for a one byte separator and `n ≥ 0`. -/
def splitMax (sep : Byte) : Nat → Bytes → List Bytes
  | 0, s => [s]
  | n + 1, s => match splitOnce sep s with
    | some (a, b) => a :: splitMax sep n b
    | none => [s]

/-- `s.split(sep)` (no limit) for a one byte separator: at most `s.length` splits can happen. -/
def splitAll (sep : Byte) (s : Bytes) : List Bytes := splitMax sep s.length s

/-- Helper of `splitWs`: `cur` is the (reversed) run of non-blank bytes collected so far. -/
def splitWsAux : Bytes → Bytes → List Bytes
  | [], [] => []
  | [], cur => [cur.reverse]
  | c :: cs, cur =>
    if isWs c then
      match cur with
      | [] => splitWsAux cs []
      | _ :: _ => cur.reverse :: splitWsAux cs []
    else splitWsAux cs (c :: cur)

/-- `s.split()`: maximal runs of non-white-space bytes. -/
def splitWs (s : Bytes) : List Bytes := splitWsAux s []

/-- `sep.join(parts)`. -/
def join (sep : Bytes) : List Bytes → Bytes
  | [] => []
  | [x] => x
  | x :: y :: rest => x ++ sep ++ join sep (y :: rest)

/-- The decimal digit byte of `n % 10`. -/
def digitByte (n : Nat) : Byte := UInt8.ofNat (48 + n % 10)

/-- Helper of `decimal`. -/
def decimalAux : Nat → Nat → Bytes → Bytes
  | 0, _, acc => acc
  | fuel + 1, n, acc =>
    if n < 10 then digitByte n :: acc
    else decimalAux fuel (n / 10) (digitByte n :: acc)

/-- `str(n).encode('ascii')` for a natural number. -/
def decimal (n : Nat) : Bytes := decimalAux (n + 1) n []

/-- `str(n).encode('ascii')` for an integer. -/
def decimalInt : Int → Bytes
  | .ofNat n => decimal n
  | .negSucc n => 45 :: decimal (n + 1)

/-- Value of a digit byte in bases up to 36 (CPython's `_PyLong_DigitValue`). -/
def digitVal (b : Byte) : Option Nat :=
  if 48 ≤ b && b ≤ 57 then some (b.toNat - 48)
  else if 97 ≤ b && b ≤ 122 then some (b.toNat - 87)
  else if 65 ≤ b && b ≤ 90 then some (b.toNat - 55)
  else none

/-- Digits with single underscores between them; the flag says that the previous byte was a
digit. -/
def digitsAux (base : Nat) : Bytes → Nat → Bool → Option Nat
  | [], acc, true => some acc
  | [], _, false => none
  | c :: cs, acc, prev =>
    if c == 95 then (if prev then digitsAux base cs acc false else none)
    else match digitVal c with
      | some v => if v < base then digitsAux base cs (acc * base + v) true else none
      | none => none

/-- The part of `int(...)` after the sign: an optional `0x`/`0X` prefix for base 16 (with one
optional underscore after it) and the digits. -/
def intBody (base : Nat) (s : Bytes) : Option Nat :=
  match s with
  | 48 :: x :: rest =>
    if base == 16 && (x == 120 || x == 88) then
      match rest with
      | 95 :: rest' => digitsAux base rest' 0 false
      | _ => digitsAux base rest 0 false
    else digitsAux base s 0 false
  | _ => digitsAux base s 0 false

/-- `int(s, base)` for bases 10 and 16; `none` stands for `ValueError`.
Simplification: the limit on the number of decimal digits which newer interpreters impose
(4300 by default) is not modelled. -/
def pyInt (base : Nat) (s : Bytes) : Option Int :=
  match strip s with
  | 45 :: rest => (intBody base rest).map fun n => - (n : Int)
  | 43 :: rest => (intBody base rest).map fun n => (n : Int)
  | t => (intBody base t).map fun n => (n : Int)

end Warc
