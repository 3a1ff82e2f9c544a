import Verif.Spec.ReadAll
import Verif.Spec.Arc
/-
  What the bytes at some place of a file mean as an ARC record, or as a record of a file that mixes ARC and WARC records, for every sequence of
  bytes: a specification without regular expressions, streams or loops.  An ARC record is described with the field names that the last filedesc record gave.
-/
namespace Warc.Spec
open _root_.Warc.Stream

/-! ### the fields of a header line -/

/-- the byte at that place, if there is one, satisfies `p` -/
def byteAt (p : Byte → Bool) (l : Bytes) (i : Nat) : Bool := (l[i]?).any p

/-- a separator: white space with a letter, a digit or `_` directly before or directly behind it -/
def sepAt (l : Bytes) (i : Nat) : Bool := byteAt isWs l i && ((decide (0 < i) && byteAt isWord l (i - 1)) || byteAt isWord l (i + 1))

/-- the places of the separators, from left to right -/
def separators (l : Bytes) : List Nat := (List.range l.length).filter (sepAt l)

/-- the pieces of a line from place `start` on, between the separators at the given places -/
def cuts (l : Bytes) : Nat → List Nat → List Bytes
  | start, [] => [l.drop start]
  | start, p :: ps => (l.drop start).take (p - start) :: cuts l (p + 1) ps

/-- The values of a header line for that many field names: with more separators than needed, the last ones count (`back`), or the first ones; a single name allows no separator. -/
def splitLine (back : Bool) (count : Nat) (l : Bytes) : Option (List Bytes) :=
  if (separators l).length + 1 < count ∨ (count = 1 ∧ separators l ≠ []) then none
  else some (cuts l 0 (if back then (separators l).drop ((separators l).length + 1 - count) else (separators l).take (count - 1)))

/-- the line without CR and LF at its end -/
def withoutEnd (l : Bytes) : Bytes := (l.reverse.dropWhile fun c => c == 13 || c == 10).reverse

/-- The headers that a line gives for some field names. If the first field is the URL (or the Content-type), blanks in it are tolerated. -/
def lineHeaders (names : List Bytes) (l : Bytes) : Option (List Header) :=
  (splitLine (decide (names.head? = some (b! "URL") ∨ names.head? = some (b! "Content-type"))) names.length (withoutEnd l)).map fun values => names.zip values

/-- the complaints about headers -/
def arcFlaws (hs : List Header) : List Err := (hs.filter fun h => !decide (ArcValueOk h)).map fun h => .invalidHeader h.1 h.2

/-! ### the next record -/

/-- A record that was found: where it starts, how many bytes there are up to its payload, the length of the payload if one is announced, and the field names in force behind it. -/
structure Located where
  start : Nat
  size : Nat
  cls : Cls
  version : Bytes
  headers : List Header
  errors : List Err
  raw : List Bytes
  length : Option Int
  names : List Bytes
  deriving DecidableEq

/-- what the bytes mean -/
inductive Meant where
  /-- no record: where the reader was when it gave up looking, and its complaints -/
  | nothing (place : Nat) (errors : List Err) (size : Nat)
  | record (f : Located)
  | raises (e : Exc)
  | stuck
  deriving DecidableEq

/-- only white space -/
def white (l : Bytes) : Bool := l.all isWs

/-- A filedesc record: its header line `l`, the line with the version and the line with the field names (which may be missing, `[]`). `start` is where the record
starts and `size` the number of bytes up to the end of the header line. -/
def fileDesc (start size : Nat) (l v n : Bytes) : Meant :=
  if white v ∨ white n then .raises .indexError
  else match lineHeaders (splitWs n) l with
    | none => .raises .typeError
    | some hs => match arcLength hs with
      | none => .raises .typeError
      | some len => .record ⟨start, size + v.length + n.length, .arcHeader, strip v, hs, arcFlaws hs, [l, v, n], some (len - v.length - n.length), splitWs n⟩

/-- any other ARC record -/
def plainRecord (start size : Nat) (names : List Bytes) (l : Bytes) : Meant :=
  if names = [] then .raises (.generic "missing filedesc")
  else match lineHeaders names l with
    | none => .raises .typeError
    | some hs => .record ⟨start, size, .arc, [], hs, arcFlaws hs, [], arcLength hs, names⟩

/-- what the bytes mean as an ARC record: white lines are passed over; the place of the record is where the first line is that has more than line ends -/
def nextArc (names : List Bytes) (data : Bytes) : Meant :=
  match (dropTerminators (lines data)).dropWhile white with
  | [] => .nothing (data.length - sizeOf (dropTerminators (lines data))) [] data.length
  | l :: ls =>
    if b! "filedesc:" <+: l then
      fileDesc (data.length - sizeOf (dropTerminators (lines data))) (data.length - sizeOf ls) l (ls.headD []) ((ls.drop 1).headD [])
    else plainRecord (data.length - sizeOf (dropTerminators (lines data))) (data.length - sizeOf ls) names l

/-- a WARC record in a mixed file -/
def ofWarc (names : List Bytes) : Next → Meant
  | .none errors size => .nothing size errors size
  | .record start version headers errors size => .record ⟨start, size, .warc, version, headers, errors, [], some (declaredLength headers), names⟩
  | .unknown => .raises .typeError
  | .stuck => .stuck

/-- what the bytes mean as a record of an ARC file, or of a mixed file; in the latter a line with `WARC` in front is taken for the start of a WARC record -/
def nextIn (mixed : Bool) (names : List Bytes) (data : Bytes) : Meant :=
  if mixed = true ∧ b! "WARC" <+: (dropTerminators (lines data)).headD [] then ofWarc names (next data) else nextArc names data

/-! ### a whole file -/

/-- what is noted about a record with that payload -/
def Located.got (report : Nat → Option Nat) (pos : Nat) (f : Located) (payload : Bytes) : Got :=
  ⟨report (pos + f.start), f.version, f.headers, f.errors, (firstValue (b! "Content-Type") f.headers, some payload)⟩

/-- What the bytes from position `pos` on give.
* Without an announced length, or with the length -1, the payload is the rest of the file; a length of -2 or less ends the loop with ValueError;
* with a payload shorter than announced, the next record is asked for in vain. -/
def meaningIn (mixed : Bool) (report : Nat → Option Nat) : Nat → Nat → List Bytes → Bytes → Collected
  | 0, _, _, _ => ⟨[], none, .hangs⟩
  | rounds + 1, pos, names, data =>
    match nextIn mixed names data with
    | .stuck => ⟨[], none, .hangs⟩
    | .raises e => ⟨[], none, .raised e⟩
    | .nothing place errors _ => ⟨[], some ⟨report (pos + place), none, errors⟩, .done⟩
    | .record f =>
      if f.length = none ∨ f.length = some (-1) then
        Collected.behind [f.got report pos (data.drop f.size)] (meaningIn mixed report rounds (pos + data.length) f.names [])
      else if f.length.getD 0 < 0 then ⟨[], none, .raised .valueError⟩
      else if (data.drop f.size).length < (f.length.getD 0).toNat then
        ⟨[f.got report pos (data.drop f.size)], none, .raised (.generic "expected more bytes")⟩
      else
        Collected.behind [f.got report pos ((data.drop f.size).take (f.length.getD 0).toNat)]
          (meaningIn mixed report rounds (pos + f.size + (f.length.getD 0).toNat) f.names ((data.drop f.size).drop (f.length.getD 0).toNat))

end Warc.Spec
