import Verif.Spec.Scan
import Verif.Spec.Collect
import Verif.Model.Tools
/-
  Files on disk that hold archives, and what the command line tools should print.
-/
namespace Warc.Spec
open _root_.Warc.Stream

/-- The file called `name` holds the records `rs` (with their terminators): uncompressed and not
named `.gz`, or compressed in any division into gzip members (so in particular record by record). -/
def Stored (c : Codec) (fs : FS) (name : Bytes) (compressed : Bool) (rs : List RT) : Prop :=
  OkT rs ∧
  if compressed then
    ∃ ms : List Bytes, ms.flatten = archiveT rs ∧ fs name = some (ms.flatMap c.enc) ∧
      (ms ≠ [] ∨ b! ".gz" <:+ name)
  else fs name = some (archiveT rs) ∧ ¬ b! ".gz" <:+ name

/-- a file with what it holds -/
structure StoredFile where
  name : Bytes
  compressed : Bool
  records : List RT

/-- every file holds what the list says -/
def AllStored (c : Codec) (fs : FS) (files : List StoredFile) : Prop :=
  ∀ f ∈ files, Stored c fs f.name f.compressed f.records

/-- the records of all the files, in order -/
def allRecords (files : List StoredFile) : List R := files.flatMap fun f => f.records.map Prod.fst

/-- offsets as reported for a compressed or uncompressed archive -/
def reportedAt (compressed : Bool) (pos : Nat) : Option Nat := if compressed then none else some pos

/-- the records with their positions -/
def positions : Nat → List RT → List (Nat × R)
  | _, [] => []
  | pos, r :: rs => (pos, r.1) :: positions (pos + (r.1.core ++ r.2).length) rs

/-- the (case insensitive) first value of a header, as text for the index: `-` when missing or empty -/
def shown (name : Bytes) (hs : List Header) : Bytes :=
  match firstValue name hs with
  | some (x :: xs) => x :: xs
  | _ => b! "-"

/-- the length shown in the index: the first Content-Length header, or the number of content bytes when that
header or the Content-Type header is missing (then the content has been read) -/
def shownLength (r : R) : Int :=
  match firstValue (b! "Content-Type") r.headers, firstValue (b! "Content-Length") r.headers with
  | some _, some v => (pyInt 10 v).getD 0
  | _, _ => r.body.length

/-- the line of the index for one record -/
def indexLine (file : Bytes) (offset : Option Nat) (r : R) : Bytes :=
  file ++ b! " " ++ (match offset with | some n => decimal n | none => b! "None") ++ b! " " ++
  shown (b! "WARC-Type") r.headers ++ b! " " ++ shown (b! "WARC-Target-URI") r.headers ++ b! " " ++
  shown (b! "WARC-Record-ID") r.headers ++ b! " " ++ shown (b! "Content-Type") r.headers ++ b! " " ++
  decimalInt (shownLength r) ++ b! "\n"

/-- the index of one file -/
def indexOf (file : Bytes) (compressed : Bool) (rs : List RT) : Bytes :=
  (positions 0 rs).flatMap fun r => indexLine file (reportedAt compressed r.1) r.2

/-- The file called `name`, whatever its bytes, is read to its end without exception and without parse
errors, giving the records `gs`. -/
def Readable (c : Codec) (fs : FS) (name : Bytes) (gs : List Got) : Prop :=
  ∃ s rounds, openName c fs .warc none name = .ok s ∧
    collect false rounds s = ⟨gs, some ⟨none, none, []⟩, .done⟩

/-- the record that was read, without offset and errors -/
def Got.record (g : Got) : R := ⟨g.version, g.headers, g.content.2.getD []⟩

/-- what a reader notes about a record of an archive -/
def R.asRead (r : R) : Got :=
  ⟨none, r.version, r.headers, [], (firstValue (b! "Content-Type") r.headers, some r.body)⟩

/-- the record as it is written after its content was read: the Content-Type and Content-Length headers (in exactly
this spelling) are replaced by new ones at the end -/
def R.rewritten (r : R) : R :=
  ⟨r.version, writtenHeaders r.headers (firstValue (b! "Content-Type") r.headers) r.body, r.body⟩

end Warc.Spec
