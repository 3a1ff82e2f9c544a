import Verif.Spec.Clean
import Verif.Spec.Collect
/-
  What the bytes at some place of a file mean as a WARC record, for every sequence of bytes: a specification without regular expressions, streams or
  loops.  The bytes are split into lines; a record is looked for among them; its header block is split into fields.
-/
namespace Warc.Spec
open _root_.Warc.Stream

/-- the line end of a complete line: CR LF, or its last byte -/
def lineEnd (l : Bytes) : Bytes := if endsCRLF l then CRLF else l.drop (l.length - 1)

/-! ### one header field -/

/-- A header field: its first line and the lines that continue it.  The name is what stands before the first colon, the value what stands behind it, with the text of the
further lines behind it, separated by one blank each; white space at the ends (of the name, and of each piece of the value) is dropped. -/
def fieldHeader (f : Bytes × List Bytes) : Header :=
  (strip (f.1.takeWhile (· != 58)), join [32] (strip ((f.1.dropWhile (· != 58)).drop 1) :: f.2.map strip))

/-- the line end that the parser sees in the first line of a field; with nothing between the colon and CR LF it is LF only -/
def fieldEnd (l : Bytes) : Bytes := if l.dropWhile (· != 58) = 58 :: CRLF then [10] else lineEnd l

/-- the line end that the parser sees in a continuation line; of a line of white space it is the last byte only -/
def contEnd (l : Bytes) : Bytes := if l.all isWs then l.drop (l.length - 1) else lineEnd l

/-- the flaws of a field, in order: line ends that are not CR LF, then a value that is not allowed -/
def fieldErrors (f : Bytes × List Bytes) : List Err :=
  (if fieldEnd f.1 = CRLF then [] else [.badNlHeader (fieldEnd f.1)]) ++
  (f.2.flatMap fun l => if contEnd l = CRLF then [] else [.badNlFollow l (contEnd l)]) ++
  (if ValueOk (fieldHeader f) then [] else [.invalidHeader (fieldHeader f).1 (fieldHeader f).2])

/-! ### the header block -/

/-- the lines of the header block, without the blank line that ends it; a line that can continue a field never ends the block, unless no field came before -/
def blockLines : Bool → List Bytes → List Bytes
  | _, [] => []
  | after, l :: ls =>
    if after && contLine l then l :: blockLines true ls
    else if blankLine l then []
    else l :: blockLines true ls

/-- continuation lines in front, and the fields behind them -/
def cutFields : List Bytes → List Bytes × List (Bytes × List Bytes)
  | [] => ([], [])
  | l :: ls => if contLine l then (l :: (cutFields ls).1, (cutFields ls).2) else ([], (l, (cutFields ls).1) :: (cutFields ls).2)

/-- the fields of a header block: the first line is never a continuation -/
def fields : List Bytes → List (Bytes × List Bytes)
  | [] => []
  | l :: ls => (l, (cutFields ls).1) :: (cutFields ls).2

/-- how many bytes the block takes, with the blank line that ends it, if there is one -/
def blockSize (ls : List Bytes) : Nat := ((ls.take ((blockLines false ls).length + 1)).map List.length).sum

/-! ### the version line -/

/-- the bytes before the first `WARC/` (in any letter case) -/
def beforeTag : Bytes → Bytes
  | [] => []
  | c :: cs => if lower ((c :: cs).take 5) = b! "warc/" then [] else c :: beforeTag cs

/-- what stands in front of the version: everything before `WARC/` without the white space directly before it -/
def versionPrefix (l : Bytes) : Bytes := rstrip (beforeTag l)

/-- the version: the rest of the line without the line end -/
def versionText (l : Bytes) : Bytes := (dropNewline l).drop (versionPrefix l).length

/-- flaws of the version line -/
def versionFlaws (l : Bytes) : List Err :=
  (if lineEnd l = CRLF then [] else [.badNlVersion (lineEnd l)]) ++
  (if versionPrefix l = [] then [] else [.badPrefix (versionPrefix l)])

/-- what looking for a version line finds, and the lines it goes over -/
inductive Looked where
  /-- the lines end -/
  | nothing (over : List Bytes)
  /-- six lines that are not blank and no version lines -/
  | tooMany (over : List Bytes)
  | found (over : List Bytes) (line : Bytes) (rest : List Bytes)

/-- with one more line in front -/
def Looked.behind (l : Bytes) : Looked → Looked
  | .nothing over => .nothing (l :: over)
  | .tooMany over => .tooMany (l :: over)
  | .found over line rest => .found (l :: over) line rest

/-- look for a version line; blank lines do not count, at most 5 other lines are tolerated -/
def look : Nat → List Bytes → Looked
  | _, [] => .nothing []
  | bad, l :: ls =>
    if (versionNumber l).isSome then .found [] l ls
    else if blankLine l then (look bad ls).behind l
    else if bad = 5 then .tooMany [l]
    else (look (bad + 1) ls).behind l

/-- the complaints about the lines that were gone over -/
def ignored (over : List Bytes) : List Err := (over.filter fun l => !blankLine l).map .ignoredLine

/-! ### the next record -/

/-- what the bytes mean -/
inductive Next where
  /-- nothing that looks like a record within the tolerated lines: the errors, and how many bytes were gone over -/
  | none (errors : List Err) (size : Nat)
  /-- a record: where it starts, how many bytes there are up to its payload -/
  | record (start : Nat) (version : Bytes) (headers : List Header) (errors : List Err) (size : Nat)
  /-- the version is not known -/
  | unknown
  /-- a header block with a line that is neither a field nor blank -/
  | stuck
  deriving DecidableEq

/-- number of bytes in some lines -/
def sizeOf (ls : List Bytes) : Nat := (ls.map List.length).sum

/-- the meaning of the bytes from some place of a file on -/
def next (data : Bytes) : Next :=
  match look 0 (dropTerminators (lines data)) with
  | .nothing over => .none (ignored over) data.length
  | .tooMany over => .none (ignored over ++ [.tooMany]) (data.length - sizeOf (dropTerminators (lines data)) + sizeOf over)
  | .found over line rest =>
    if versionNumber line ∈ [some (b! "1.0"), some (b! "0.17"), some (b! "0.18")] then
      if Spec.stuck false rest then .stuck
      else
        .record (data.length - sizeOf (dropTerminators (lines data)) + sizeOf over + (versionPrefix line).length) (versionText line)
          ((fields (blockLines false rest)).map fieldHeader)
          (ignored over ++ versionFlaws line ++ (fields (blockLines false rest)).flatMap fieldErrors)
          (data.length - sizeOf (dropTerminators (lines data)) + sizeOf over + line.length + blockSize rest)
    else .unknown

end Warc.Spec
