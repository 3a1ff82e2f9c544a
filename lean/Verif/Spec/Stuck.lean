import Verif.Spec.Lines
/-
  Files in which a reader gets stuck.
-/
namespace Warc.Spec
open _root_.Warc

/-- Somewhere in the data there is a WARC version line (possibly after some junk lines) that is followed by a header
block with a line that is neither blank nor a field nor a continuation. -/
def StuckData (data : Bytes) : Prop :=
  ∃ pos n ls, findVersion 0 (lines (data.drop pos)) = .version n ls ∧ n ∈ [b! "1.0", b! "0.17", b! "0.18"] ∧
    stuck false ls = true

/-- Somewhere in the data there is a line end, and what is between some place in the same line and its end announces an HTTP
chunk of negative size: the number before the first semicolon, in hexadecimal, is negative. -/
def NegativeChunk (data : Bytes) : Prop :=
  ∃ before line after n, data = before ++ line ++ 10 :: after ∧ 10 ∉ line ∧
    pyInt 16 ((line ++ [10]).takeWhile (· ≠ 59)) = some n ∧ n < 0

end Warc.Spec
