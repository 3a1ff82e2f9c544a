import Verif.Spec.Collect
import Verif.Spec.Payload
/-
  What the attributes of a record are called in the headers.
-/
namespace Warc.Spec

/-- name of the header that holds the date: WARC-Date in WARC records, Archive-date in ARC records -/
def dateHeader : Cls → Bytes
  | .warc => b! "WARC-Date"
  | .arc => b! "Archive-date"
  | .arcHeader => b! "Archive-date"

/-- name of the header that holds the URL -/
def urlHeader : Cls → Bytes
  | .warc => b! "WARC-Target-URI"
  | .arc => b! "URL"
  | .arcHeader => b! "URL"

/-- name of the header that holds the length -/
def lengthHeader : Cls → Bytes
  | .warc => b! "Content-Length"
  | .arc => b! "Archive-length"
  | .arcHeader => b! "Archive-length"

/-- the record has exactly one header with that name, in any letter case, and it has that value -/
def OnlyHeader (name value : Bytes) (hs : List Header) : Prop :=
  ∃ pre k post, hs = pre ++ (k, value) :: post ∧ lower k = lower name ∧
    (∀ h ∈ pre, lower h.1 ≠ lower name) ∧ (∀ h ∈ post, lower h.1 ≠ lower name)

end Warc.Spec
