import Verif.Spec.Toy
import Verif.Spec.Tools
/-
  Damaged compressed archives (property C67).
-/
namespace Warc.Spec
open _root_.Warc.Stream

/-- Assumption on the gzip library: from a file that ends inside a member, everything of the members before
it can still be decompressed, then some first part of what was compressed into the broken member, and then an exception is
raised. -/
structure Codec.Cut (c : Codec) : Prop where
  cut : ∀ (ms : List Bytes) (m : Bytes) (k : Nat), 0 < k → k < (c.enc m).length →
    ∃ p e, p <+: m ∧ c.dec (ms.flatMap c.enc ++ (c.enc m).take k) = (ms.flatten ++ p, some e)

/-- a reading that stopped early: it gave some of the first records and then the exception of the decompressor -/
structure StoppedBy (e : Exc) (got full : Collected) : Prop where
  records : got.records <+: full.records
  fin : got.fin = .raised e
  last : got.last = none

/-- what reading notes about the records of a compressed archive -/
def noted (rs : List RT) : List Got :=
  rs.map fun r => ⟨none, r.1.version, r.1.headers, [], (firstValue (b! "Content-Type") r.1.headers, some r.1.body)⟩

/-- one gzip member per record, as `write_to(gzip=True)` makes them -/
def perRecord (rs : List RT) : List Bytes := rs.map fun r => r.1.core ++ r.2

/-- the toy codec meets the assumption about cut members -/
theorem toy_cut_body (b : Bytes) (k : Nat) (hk : k < (b.flatMap (fun x => [1, x]) ++ [0]).length) :
    ∃ p, p <+: b ∧ toyDec true ((b.flatMap (fun x => [1, x]) ++ [0]).take k) = (p, some .eofError) := by
  induction b generalizing k with
  | nil =>
    simp at hk; subst hk
    exact ⟨[], by simp, by simp [toyDec]⟩
  | cons x b ih =>
    match k with
    | 0 => exact ⟨[], by simp, by simp [toyDec]⟩
    | 1 => exact ⟨[], by simp, by simp [toyDec]⟩
    | k + 2 =>
      obtain ⟨p, h1, h2⟩ := ih k (by simp at hk ⊢; omega)
      refine ⟨x :: p, by simpa using h1, ?_⟩
      simp only [List.flatMap_cons, List.cons_append, List.nil_append, List.take_succ_cons, toyDec, h2]

theorem toy_cut : Codec.Cut toy where
  cut := by
    intro ms m k h0 hk
    induction ms with
    | nil =>
      match k, h0 with
      | 1, _ => exact ⟨[], .osError, by simp, by simp [toy, toyEnc, toyDec]⟩
      | 2, _ => exact ⟨[], .eofError, by simp, by simp [toy, toyEnc, toyDec]⟩
      | k + 3, _ =>
        obtain ⟨p, h1, h2⟩ := toy_cut_body m (k + 1) (by simp [toy, toyEnc] at hk ⊢; omega)
        refine ⟨p, .eofError, h1, ?_⟩
        simp only [toy, toyEnc, List.flatMap_nil, List.nil_append, List.flatten_nil, List.take_succ_cons, toyDec]
        exact h2
    | cons b ms ih =>
      obtain ⟨p, e, h1, h2⟩ := ih
      refine ⟨p, e, h1, ?_⟩
      have : (b :: ms).flatMap toy.enc ++ (toy.enc m).take k =
          0x1f :: 0x8b :: (b.flatMap (fun x => [1, x]) ++ 0 :: (ms.flatMap toy.enc ++ (toy.enc m).take k)) := by
        simp [toy, toyEnc]
      rw [this]
      show toyDec false _ = _
      have h2 : toyDec false (ms.flatMap toy.enc ++ (toy.enc m).take k) = (ms.flatten ++ p, some e) := h2
      simp only [toyDec]
      rw [toyDec_body, h2]
      simp

end Warc.Spec
