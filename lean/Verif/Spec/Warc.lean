import Verif.Model.ReadRecord
/-
  Small, independent specification of the WARC text format, used in the statements of the
  property theorems.  It refers to the model only for the data types (`Bytes`, `Header`, `Rec`) and
  for the Python library functions `lower`, `strip`, `int` and `str`.
-/
namespace Warc.Spec

/-- a header line `name: value\r\n` -/
def headerLine (h : Header) : Bytes := h.1 ++ b! ": " ++ h.2 ++ CRLF

/-- version line, header lines, blank line -/
def headBytes (version : Bytes) (hs : List Header) : Bytes :=
  version ++ CRLF ++ hs.flatMap headerLine ++ CRLF

/-- a complete record -/
def recordBytes (version : Bytes) (hs : List Header) (body : Bytes) : Bytes :=
  headBytes version hs ++ body ++ CRLF ++ CRLF

/-- A header field that can be written on one line: the name has no colon and no newline, the value
has no newline, neither begins or ends with white space; a Content-Type is not empty and a
Content-Length is an integer. -/
structure HeaderOk (h : Header) : Prop where
  noColon : 58 ∉ h.1
  nameNoLF : 10 ∉ h.1
  nameStrip : strip h.1 = h.1
  valueNoLF : 10 ∉ h.2
  valueStrip : strip h.2 = h.2
  typeOk : lower h.1 = b! "content-type" → h.2 ≠ []
  lengthOk : lower h.1 = b! "content-length" → (pyInt 10 h.2).isSome = true

instance (h : Header) : Decidable (HeaderOk h) :=
  decidable_of_iff (58 ∉ h.1 ∧ 10 ∉ h.1 ∧ strip h.1 = h.1 ∧ 10 ∉ h.2 ∧ strip h.2 = h.2 ∧
      (lower h.1 = b! "content-type" → h.2 ≠ []) ∧
      (lower h.1 = b! "content-length" → (pyInt 10 h.2).isSome = true))
    ⟨fun ⟨a, b, c, d, e, f, g⟩ => ⟨a, b, c, d, e, f, g⟩,
     fun ⟨a, b, c, d, e, f, g⟩ => ⟨a, b, c, d, e, f, g⟩⟩

/-- A version stamp: optional blanks, `WARC/` in any case, one of the known version numbers. -/
def VersionOk (v : Bytes) : Prop :=
  ∃ w t n, v = w ++ t ++ n ∧ (∀ c ∈ w, isWs c = true) ∧ 10 ∉ w ∧ lower t = b! "warc/" ∧
    n ∈ [b! "1.0", b! "0.17", b! "0.18"]

/-- the payload length announced by the headers: the last Content-Length, 0 without one -/
def declaredLength : List Header → Int
  | hs => hs.foldl (fun acc h =>
      if lower h.1 = b! "content-length" then (pyInt 10 h.2).getD acc else acc) 0

/-- the record object that a parser returns for the given version and headers: no errors, content
not read yet, content file = the stream -/
def parsed (version : Bytes) (hs : List Header) : Rec :=
  { cls := .warc, version := version, headers := hs, errors := [], content := none,
    cfile := .stream, cfileValid := true }

/-- bytes made of CR and LF only, empty or ending in LF: what may stand between records -/
def Terminator (T : Bytes) : Prop :=
  (∀ c ∈ T, c = 13 ∨ c = 10) ∧ (T = [] ∨ T.getLast? = some 10)

/-- a record given by version, headers and content -/
structure R where
  version : Bytes
  headers : List Header
  body : Bytes

/-- the record can be written and its Content-Length (the last one, if several) is right -/
structure R.Ok (r : R) : Prop where
  version : VersionOk r.version
  headers : ∀ h ∈ r.headers, HeaderOk h
  length : declaredLength r.headers = r.body.length

/-- the bytes of the record -/
def R.bytes (r : R) : Bytes := recordBytes r.version r.headers r.body

/-- an uncompressed archive -/
def archive (rs : List R) : Bytes := rs.flatMap R.bytes

/-- position of each record of a list that starts at position `start` -/
def offsets : Nat → List R → List Nat
  | _, [] => []
  | start, r :: rs => start :: offsets (start + r.bytes.length) rs

end Warc.Spec
