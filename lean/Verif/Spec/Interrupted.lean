import Verif.Model.Interrupted
import Verif.Spec.Collect
/-
  What it means that two runs are the same up to what they leave behind (property C121).
-/
namespace Warc.Spec

/-- Two runs end in the same way - both return, both raise the same exception, or both go on for ever - and what they leave is related as `R` says if they return and as `E` says if they raise. -/
inductive SameEnd {σ : Type} (R E : σ → σ → Prop) : Res σ Unit → Res σ Unit → Prop
  | returns (a b : σ) (h : R a b) : SameEnd R E (.ok () a) (.ok () b)
  | raises (e : Exc) (a b : σ) (h : E a b) : SameEnd R E (.raise e a) (.raise e b)
  | forEver : SameEnd R E .hang .hang

/-- the first decompresses, to its end and without an error, to the second -/
def UnpacksTo (c : Codec) (packed plain : Bytes) : Prop := c.dec packed = (plain, none)

/-- the first has one more gzip member at its end, or is the same -/
def OneMore (c : Codec) (a b : Bytes) : Prop := a = b ∨ ∃ p, a = b ++ c.enc p

end Warc.Spec
