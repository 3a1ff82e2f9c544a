import Verif.Spec.Tools
/-
  Records at known positions of files.
-/
namespace Warc.Spec

/-- The bytes of the record `r` start at byte `off` of the uncompressed file `name`; what stands before and after does
not matter, except that the file must not be taken for a compressed one. -/
def PlainAt (fs : FS) (name : Bytes) (off : Nat) (r : R) : Prop :=
  r.Ok ∧ ¬ b! ".gz" <:+ name ∧
  ∃ before after, fs name = some (before ++ (r.core ++ after)) ∧ off = before.length ∧
    (before ++ (r.core ++ after)).take 2 ≠ [0x1f, 0x8b]

/-- At byte `off` of the compressed file `name` starts a gzip member, and decompressing from there (to the end of the
file, all members being intact) gives the record `r` and more. -/
def CompressedAt (c : Codec) (fs : FS) (name : Bytes) (off : Nat) (r : R) : Prop :=
  r.Ok ∧
  ∃ before after, ∃ ms : List Bytes, fs name = some (before ++ ms.flatMap c.enc) ∧ ms.flatten = r.core ++ after ∧ off = before.length ∧
    (b! ".gz" <:+ name ∨ (before ++ ms.flatMap c.enc).take 2 = [0x1f, 0x8b])

end Warc.Spec
