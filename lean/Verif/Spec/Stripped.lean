import Verif.Spec.Convert
/-
  Records whose header values have white space around them (property C120).  Such records come out of arc2warc: the fields of an ARC header line are cut at single
  white space characters, so that a field may begin or end with blanks, tabs or a CR.
-/
namespace Warc.Spec

/-- the record without the white space around its header values -/
def R.tidied (r : R) : R := ⟨r.version, r.headers.map (fun h => (h.1, strip h.2)), r.body⟩

/-- without that white space the record can be written and its Content-Length is right; no header value has a line feed -/
structure R.Loose (r : R) : Prop where
  tidied : r.tidied.Ok
  noLF : ∀ h ∈ r.headers, 10 ∉ h.2

/-- What should be noted about such records, the first of which starts at `pos`: nothing but the white space is lost, and nothing is complained about. -/
def expectTidied (report : Nat → Option Nat) : Nat → List R → List Got
  | _, [] => []
  | pos, r :: rs =>
    ⟨report pos, r.version, r.tidied.headers, [], (firstValue (b! "Content-Type") r.tidied.headers, some r.body)⟩ ::
      expectTidied report (pos + r.bytes.length) rs

/-- The WARC records among the pieces are proper: a known version, headers that fit on a line, a right Content-Length.  Of the ARC records nothing is asked. -/
def WarcPiecesOk (ps : List Piece) : Prop := ∀ p ∈ ps, p.cls = .warc → ∀ body, p.content.2 = some body → R.Ok ⟨p.version, p.headers, body⟩

end Warc.Spec
