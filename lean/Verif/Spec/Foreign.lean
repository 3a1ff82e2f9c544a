import Verif.Spec.Lines
import Verif.Spec.Scan
import Verif.Spec.Tools
/-
  Data that are not WARC records: another file format, log output, a block of junk.
-/
namespace Warc.Spec

/-- the lines that are not blank -/
def visible (ls : List Bytes) : List Bytes := ls.filter fun l => !blankLine l

/-- The data begin with the lines `a`, none of which is a version line (`WARC/` and a line end), and either these are
all lines, or at least six of them are not blank.  What follows is arbitrary. -/
def Foreign (data : Bytes) (a : List Bytes) : Prop :=
  ∃ b, lines data = a ++ b ∧ (∀ l ∈ a, versionNumber l = none) ∧ (b = [] ∨ 6 ≤ (visible a).length)

/-- what the reader has to say about such lines: it ignored every line that is not blank, but after the sixth it gives up -/
def complaints (a : List Bytes) : List Err :=
  ((visible a).take 6).map Err.ignoredLine ++ (if 6 ≤ (visible a).length then [Err.tooMany] else [])

/-- The file called `name` holds these data: uncompressed and not named `.gz` (nor beginning like a gzip file), or compressed
in any division into gzip members. -/
def HoldsData (c : Codec) (fs : FS) (name data : Bytes) : Prop :=
  (fs name = some data ∧ ¬ b! ".gz" <:+ name ∧ data.take 2 ≠ [0x1f, 0x8b]) ∨
  ∃ ms : List Bytes, ms.flatten = data ∧ fs name = some (ms.flatMap c.enc) ∧ (ms ≠ [] ∨ b! ".gz" <:+ name)

end Warc.Spec
