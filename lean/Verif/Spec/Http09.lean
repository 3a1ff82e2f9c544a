import Verif.Model.HttpMore
/-
  HTTP/0.9 responses (C63).
-/
namespace Warc.Http

/-- A status line: a first word, a number, and possibly more after a space.  (`rstrip` takes the line end away.) -/
def StatusLine (line : Bytes) : Prop :=
  ∃ version code more n, rstrip line = version ++ 32 :: (code ++ more) ∧ 32 ∉ version ∧ 32 ∉ code ∧
    (more = [] ∨ ∃ phrase, more = 32 :: phrase) ∧ pyInt 10 code = some n

/-- feeding an HTTP/0.9 response piece by piece -/
def Http09.feedAll (m : Http09) (ts : List Bytes) : Http09 := ts.foldl (fun m t => (m.feed t).2) m

end Warc.Http
