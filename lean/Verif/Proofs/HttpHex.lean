import Verif.Proofs.HttpPlain
/-
  Hexadecimal chunk sizes.
-/
set_option linter.all false
namespace Warc.Http
open Rx

theorem hexDigit_facts (d : Byte) (h : (hexDigit d).isSome = true) :
    digitVal d = hexDigit d ∧ (hexDigit d).getD 0 < 16 ∧ isWs d = false ∧ d ≠ 95 ∧ d ≠ 45 ∧ d ≠ 43 ∧ d ≠ 120 ∧ d ≠ 88 ∧ d ≠ 10 ∧ d ≠ 59 := by
  have : ∀ n : Fin 256, (hexDigit (UInt8.ofNat n.val)).isSome = true →
      digitVal (UInt8.ofNat n.val) = hexDigit (UInt8.ofNat n.val) ∧ (hexDigit (UInt8.ofNat n.val)).getD 0 < 16 ∧ isWs (UInt8.ofNat n.val) = false ∧
      UInt8.ofNat n.val ≠ 95 ∧ UInt8.ofNat n.val ≠ 45 ∧ UInt8.ofNat n.val ≠ 43 ∧ UInt8.ofNat n.val ≠ 120 ∧ UInt8.ofNat n.val ≠ 88 ∧
      UInt8.ofNat n.val ≠ 10 ∧ UInt8.ofNat n.val ≠ 59 := by
    decide +kernel
  have h' := this ⟨d.toNat, d.toNat_lt⟩
  simp only [UInt8.ofNat_toNat] at h'
  exact h' h

theorem digitsAux_hex (s : Bytes) (h : ∀ d ∈ s, (hexDigit d).isSome = true) (acc : Nat) :
    digitsAux 16 s acc true = some (s.foldl (fun n d => 16 * n + (hexDigit d).getD 0) acc) := by
  induction s generalizing acc with
  | nil => rfl
  | cons d s ih =>
    have hd := hexDigit_facts d (h d (by simp))
    obtain ⟨v, hv⟩ := Option.isSome_iff_exists.1 (h d (by simp))
    have h1 := hd.1
    have h2 := hd.2.1
    rw [hv] at h1 h2
    simp only [digitsAux, beq_iff_eq, hd.2.2.2.1, if_false, h1]
    simp only [Option.getD_some] at h2
    rw [if_pos h2, ih (fun x hx => h x (by simp [hx]))]
    simp [hv, Nat.mul_comm]

theorem pyInt_hex (s : Bytes) (h : ∀ d ∈ s, (hexDigit d).isSome = true) (hne : s ≠ []) : pyInt 16 s = some (hexValue s : Int) := by
  have hstrip : strip s = s := by
    apply strip_eq_self
    · intro c cs he
      exact (hexDigit_facts c (h c (by rw [he]; simp))).2.2.1
    · intro c he
      exact (hexDigit_facts c (h c (List.mem_of_getLast? he))).2.2.1
  have hdig : digitsAux 16 s 0 false = some (hexValue s) := by
    cases s with
    | nil => exact absurd rfl hne
    | cons d s =>
      have hd := hexDigit_facts d (h d (by simp))
      obtain ⟨v, hv⟩ := Option.isSome_iff_exists.1 (h d (by simp))
      have h1 := hd.1
      have h2 := hd.2.1
      rw [hv] at h1 h2
      simp only [Option.getD_some] at h2
      simp only [digitsAux, beq_iff_eq, hd.2.2.2.1, if_false, h1]
      rw [if_pos h2, digitsAux_hex s (fun x hx => h x (by simp [hx]))]
      simp [hexValue, hv]
  have hbody : intBody 16 s = some (hexValue s) := by
    unfold intBody
    split
    · rename_i x rest
      have hx := hexDigit_facts x (h x (by simp))
      have : (x == 120 || x == 88) = false := by simp [hx.2.2.2.2.2.2.1, hx.2.2.2.2.2.2.2.1]
      rw [this]
      simpa using hdig
    · exact hdig
  unfold pyInt
  rw [hstrip]
  split
  · rename_i rest
    exact absurd rfl (hexDigit_facts 45 (h 45 (by simp))).2.2.2.2.1
  · rename_i rest
    exact absurd rfl (hexDigit_facts 43 (h 43 (by simp))).2.2.2.2.2.1
  · rw [hbody]; rfl

/-- a size in hexadecimal digits -/
theorem SizeOk.hex {size ext : Bytes} (h : ∀ d ∈ size, (hexDigit d).isSome = true) (hne : size ≠ []) (he : ext = [] ∨ ∃ e, ext = 59 :: e) (hl : 10 ∉ ext) :
    SizeOk size ext (hexValue size) where
  value := pyInt_hex size h hne
  line := fun hm => (hexDigit_facts 10 (h 10 hm)).2.2.2.2.2.2.2.2.1 rfl
  semicolon := fun hm => (hexDigit_facts 59 (h 59 hm)).2.2.2.2.2.2.2.2.2 rfl
  extStart := he
  extLine := hl

end Warc.Http
