import Verif.Spec.Warc
/-
  Line level description of WARC header blocks, used to say for which inputs parsing a record
  terminates.  Nothing here refers to the parser.
-/
namespace Warc.Spec

/-- split into lines, each with its final LF (the last line may lack it) -/
def lines : Bytes → List Bytes
  | [] => []
  | c :: cs =>
    if c = 10 then [10] :: lines cs
    else match lines cs with
      | [] => [[c]]
      | l :: ls => (c :: l) :: ls

/-- the line ends in CR or LF -/
def complete (l : Bytes) : Bool := l.getLast? == some 10 || l.getLast? == some 13

/-- a line that ends a header block: it starts with CR, or it is a single LF -/
def blankLine (l : Bytes) : Bool := l.head? == some 13 || l == [10]

/-- a line that can hold a header field: it has a colon and a line end -/
def fieldLine (l : Bytes) : Bool := l.contains 58 && complete l

/-- a line that can continue a header field: it starts with white space, has a line end and at
least one more character in between -/
def contLine (l : Bytes) : Bool :=
  (match l with | c :: _ => isWs c | [] => false) && complete l && decide (3 ≤ l.length)

/-- The header block starting at these lines contains a line that is neither blank (the end of the
block) nor a header field nor the continuation of one; the flag says whether a header field came
before, so that there is something to continue. -/
def stuck : Bool → List Bytes → Bool
  | _, [] => false
  | after, l :: ls =>
    if after && contLine l then stuck true ls
    else if blankLine l then false
    else if fieldLine l then stuck true ls
    else true

/-- the bytes after the first `WARC/` (in any letter case) -/
def afterTag : Bytes → Option Bytes
  | [] => none
  | c :: cs => if lower ((c :: cs).take 5) = b! "warc/" then some ((c :: cs).drop 5) else afterTag cs

/-- remove the line end (CR LF, CR or LF) of a complete line -/
def dropNewline (l : Bytes) : Bytes :=
  if 2 ≤ l.length ∧ l.drop (l.length - 2) = CRLF then l.take (l.length - 2) else l.dropLast

/-- the version number if the line is a version line: anything, `WARC/`, the number, line end -/
def versionNumber (l : Bytes) : Option Bytes :=
  if complete l then (afterTag l).map dropNewline else none

/-- what looking for a version line finds -/
inductive Found where
  | nothing
  | tooManyBadLines
  | version (number : Bytes) (rest : List Bytes)
  deriving DecidableEq

/-- look for a version line; blank lines do not count, at most 5 other lines are tolerated -/
def findVersion : Nat → List Bytes → Found
  | _, [] => .nothing
  | bad, l :: ls =>
    match versionNumber l with
    | some n => .version n ls
    | none =>
      if blankLine l then findVersion bad ls
      else if bad = 5 then .tooManyBadLines
      else findVersion (bad + 1) ls

/-- drop the lines made of CR and LF only -/
def dropTerminators (ls : List Bytes) : List Bytes :=
  ls.dropWhile fun l => l.all fun c => c == 13 || c == 10

end Warc.Spec
