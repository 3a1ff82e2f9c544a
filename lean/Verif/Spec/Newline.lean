import Verif.Spec.Collect
import Verif.Spec.Write
/-
  Records written with a line end other than CR LF (`record.write_to(out, newline=...)`).
-/
namespace Warc.Spec

/-- a record whose lines end in `nl`: version line, header lines, blank line, content, two line ends -/
def recordWith (nl version : Bytes) (hs : List Header) (body : Bytes) : Bytes :=
  version ++ nl ++ hs.flatMap (fun h => h.1 ++ b! ": " ++ h.2 ++ nl) ++ nl ++ body ++ nl ++ nl

/-- `for record in records: record.write_to(out, newline=nl)` where every record has a content tuple; `none` if some call raised -/
def writeAllWith (nl : Bytes) : List Item → Bytes → Option Bytes
  | [], out => some out
  | it :: its, out =>
    match World.writeTo nl ⟨⟨File.ofBytes [], none, .plain, .warc⟩, it.record, out⟩ with
    | .ok () w => writeAllWith nl its w.out
    | _ => none

/-- `for record in records: record.write_to(out, newline=nl, gzip=True)` -/
def writeAllGzWith (c : Codec) (nl : Bytes) : List Item → Bytes → Option Bytes
  | [], out => some out
  | it :: its, out =>
    match World.writeToGz c.enc nl ⟨⟨File.ofBytes [], none, .plain, .warc⟩, it.record, out⟩ with
    | .ok () w => writeAllGzWith c nl its w.out
    | _ => none

/-- the records one after the other -/
def archiveWith (nl : Bytes) (rs : List R) : Bytes := rs.flatMap fun r => recordWith nl r.version r.headers r.body

/-- the complaints about a record whose lines end in LF: one for the version line, one for every header line -/
def lineFeedErrors (r : R) : List Err := .badNlVersion [10] :: r.headers.map fun _ => .badNlHeader [10]

/-- What should be noted about the records of an archive with LF line ends, when the first one starts at `pos`: nothing is lost, every line is complained about. -/
def expectLF (report : Nat → Option Nat) : Nat → List R → List Got
  | _, [] => []
  | pos, r :: rs =>
    ⟨report pos, r.version, r.headers, lineFeedErrors r, (firstValue (b! "Content-Type") r.headers, some r.body)⟩ ::
      expectLF report (pos + (recordWith [10] r.version r.headers r.body).length) rs

end Warc.Spec
