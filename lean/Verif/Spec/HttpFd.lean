import Verif.Model.HttpMore
/-
  What it means for a text to be what a parser asked for (C62).
-/
namespace Warc.Http

/-- The text is what was asked for, or a first part of it: at most one line, at most so many bytes, anything, or
nothing. -/
def Asked : Wants → Bytes → Prop
  | .line, t => 10 ∉ t ∨ ∃ u, 10 ∉ u ∧ t = u ++ [10]
  | .count n, t => (t.length : Int) ≤ n
  | .all, _ => True
  | .nothing, t => t = []

end Warc.Http
