import Verif.Spec.Arc2Warc
/-
  Small specification for random access in ARC files: the position behind the first records of a file (the field names in force there are
  `namesAfter` of Spec/Arc2Warc.lean).
-/
namespace Warc.Spec

/-- where the record behind the given ones starts -/
def startOf (pre : List ArcItem) : Nat := (pre.flatMap ArcItem.bytes).length

end Warc.Spec
