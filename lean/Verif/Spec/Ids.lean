import Verif.Py.Bytes
/-
  Record ids as texts.
-/
namespace Warc.Spec

/-- the digits that ids are written with -/
def idDigits : Bytes := b! "0123456789abcdef"

/-- `text` is the id for the 16 bytes `d`: `<urn:uuid:XXXXXXXX-XXXX-XXXX-XXXX-XXXXXXXXXXXX>`, where the digits, without the hyphens,
are the bytes in order, each as its higher and then its lower hexadecimal digit -/
def UuidText (d text : Bytes) : Prop :=
  ∃ g1 g2 g3 g4 g5 : Bytes, g1.length = 8 ∧ g2.length = 4 ∧ g3.length = 4 ∧ g4.length = 4 ∧ g5.length = 12 ∧
    text = b! "<urn:uuid:" ++ g1 ++ b! "-" ++ g2 ++ b! "-" ++ g3 ++ b! "-" ++ g4 ++ b! "-" ++ g5 ++ b! ">" ∧
    d.length = 16 ∧
    ∀ i, i < 16 → ∃ hi lo : Nat, hi < 16 ∧ lo < 16 ∧ (d.getD i 0).toNat = 16 * hi + lo ∧
      (g1 ++ g2 ++ g3 ++ g4 ++ g5)[2 * i]? = idDigits[hi]? ∧ (g1 ++ g2 ++ g3 ++ g4 ++ g5)[2 * i + 1]? = idDigits[lo]?

end Warc.Spec
