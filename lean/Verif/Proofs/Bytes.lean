import Verif.Py.Bytes
/-
  Lemmas about byte string operations.
-/
set_option linter.all false
namespace Warc

/-! ### strip -/

theorem lstrip_eq_self {s : Bytes} (h : ∀ c cs, s = c :: cs → isWs c = false) : lstrip s = s := by
  cases s with
  | nil => rfl
  | cons c cs => simp [lstrip, h c cs rfl]

theorem rstripP_eq_self {p : Byte → Bool} {s : Bytes} (h : ∀ c, s.getLast? = some c → p c = false) :
    rstripP p s = s := by
  unfold rstripP
  cases hr : s.reverse with
  | nil => simp only [List.reverse_eq_nil_iff] at hr; simp [hr]
  | cons c cs =>
    have hs : s = cs.reverse ++ [c] := by rw [← List.reverse_reverse s, hr]; simp
    have : p c = false := h c (by simp [hs])
    simp [this, hs]

theorem rstrip_eq_self {s : Bytes} (h : ∀ c, s.getLast? = some c → isWs c = false) : rstrip s = s :=
  rstripP_eq_self h

theorem strip_eq_self {s : Bytes} (h1 : ∀ c cs, s = c :: cs → isWs c = false)
    (h2 : ∀ c, s.getLast? = some c → isWs c = false) : strip s = s := by
  rw [strip, lstrip_eq_self h1, rstrip_eq_self h2]

theorem rstripP_append {p : Byte → Bool} (s t : Bytes) (ht : ∀ c ∈ t, p c = true) :
    rstripP p (s ++ t) = rstripP p s := by
  unfold rstripP
  congr 1
  rw [List.reverse_append]
  have : ∀ (u r : Bytes), (∀ c ∈ u, p c = true) → (u ++ r).dropWhile p = r.dropWhile p := by
    intro u r hu
    induction u with
    | nil => rfl
    | cons c cs ih =>
      simp [hu c (by simp), ih (fun d hd => hu d (by simp [hd]))]
  exact this _ _ (by simpa using ht)

theorem rstripP_last {p : Byte → Bool} {s : Bytes} {c : Byte} (h : (rstripP p s).getLast? = some c) :
    p c = false := by
  unfold rstripP at h
  rw [List.getLast?_reverse] at h
  have := List.head?_dropWhile_not p s.reverse
  rw [h] at this
  simpa using this

theorem rstripP_sublist (p : Byte → Bool) (s : Bytes) : rstripP p s <+: s := by
  unfold rstripP
  have h := List.dropWhile_suffix (l := s.reverse) p
  rw [← List.reverse_prefix] at h
  simpa using h

theorem lstrip_head {s cs : Bytes} {c : Byte} (h : lstrip s = c :: cs) : isWs c = false := by
  have := List.head?_dropWhile_not isWs s
  unfold lstrip at h
  rw [h] at this
  simpa using this

theorem strip_head {s cs : Bytes} {c : Byte} (h : strip s = c :: cs) : isWs c = false := by
  unfold strip at h
  have hp := rstripP_sublist isWs (lstrip s)
  unfold rstrip at h
  rw [h] at hp
  obtain ⟨t, ht⟩ := hp
  exact lstrip_head ht.symm

theorem strip_last {s : Bytes} {c : Byte} (h : (strip s).getLast? = some c) : isWs c = false :=
  rstripP_last h

@[simp] theorem strip_strip (s : Bytes) : strip (strip s) = strip s :=
  strip_eq_self (fun _ _ h => strip_head h) (fun _ h => strip_last h)

theorem strip_self_head {s cs : Bytes} {c : Byte} (h : strip s = s) (hs : s = c :: cs) :
    isWs c = false := strip_head (h.trans hs)

theorem strip_self_last {s : Bytes} {c : Byte} (h : strip s = s) (hs : s.getLast? = some c) :
    isWs c = false := strip_last (s := s) (by rw [h]; exact hs)

theorem mem_strip {s : Bytes} {c : Byte} (h : c ∈ strip s) : c ∈ s := by
  have h1 := (rstripP_sublist isWs (lstrip s)).subset h
  exact (List.dropWhile_suffix (l := s) isWs).subset h1

theorem strip_nil : strip [] = [] := rfl

theorem strip_ws_cons {c : Byte} {s : Bytes} (h : isWs c = true) : strip (c :: s) = strip s := by
  simp [strip, lstrip, h]

/-! ### decimal -/

theorem digitVal_digitByte (n : Nat) : digitVal (digitByte n) = some (n % 10) := by
  have : ∀ k < 10, digitVal (UInt8.ofNat (48 + k)) = some k := by decide
  exact this _ (Nat.mod_lt _ (by decide))

theorem isDigit_digitByte (n : Nat) : isDigit (digitByte n) = true := by
  have : ∀ k < 10, isDigit (UInt8.ofNat (48 + k)) = true := by decide
  exact this _ (Nat.mod_lt _ (by decide))

theorem isDigit_range {c : Byte} (h : isDigit c = true) : 48 ≤ c.toNat ∧ c.toNat ≤ 57 := by
  simp only [isDigit, Bool.and_eq_true, decide_eq_true_eq, UInt8.le_iff_toNat_le] at h
  exact h

theorem isDigit_ne {c : Byte} (h : isDigit c = true) (d : Byte) (hd : isDigit d = false) : c ≠ d := by
  intro e; subst e; simp [h] at hd

theorem isDigit_not_ws {c : Byte} (h : isDigit c = true) : isWs c = false := by
  have h1 := isDigit_ne h 32 (by decide)
  have h2 := isDigit_ne h 9 (by decide)
  have h3 := isDigit_ne h 10 (by decide)
  have h4 := isDigit_ne h 11 (by decide)
  have h5 := isDigit_ne h 12 (by decide)
  have h6 := isDigit_ne h 13 (by decide)
  simp [isWs, h1, h2, h3, h4, h5, h6]

theorem decimalAux_digits (fuel n : Nat) (acc : Bytes) (h : ∀ c ∈ acc, isDigit c = true) :
    ∀ c ∈ decimalAux fuel n acc, isDigit c = true := by
  induction fuel generalizing n acc with
  | zero => simpa [decimalAux] using h
  | succ fuel ih =>
    have hacc : ∀ c ∈ digitByte n :: acc, isDigit c = true := by
      intro c hc
      rcases List.mem_cons.1 hc with rfl | hc
      · exact isDigit_digitByte n
      · exact h c hc
    rw [decimalAux]
    split
    · exact hacc
    · exact ih _ _ hacc

theorem decimal_digits (n : Nat) : ∀ c ∈ decimal n, isDigit c = true :=
  decimalAux_digits _ _ _ (by simp)

theorem digitsAux_decimalAux (fuel n : Nat) (acc : Bytes) (h : n < fuel) :
    digitsAux 10 (decimalAux fuel n acc) 0 false = digitsAux 10 acc n true := by
  have step : ∀ (k m : Nat) (b : Bool), digitsAux 10 (digitByte k :: acc) m b =
      digitsAux 10 acc (m * 10 + k % 10) true := by
    intro k m b
    have h95 : (digitByte k == 95) = false := by
      simpa using isDigit_ne (isDigit_digitByte k) 95 (by decide)
    have hlt : k % 10 < 10 := Nat.mod_lt _ (by decide)
    simp [digitsAux, h95, digitVal_digitByte, hlt]
  induction fuel generalizing n acc with
  | zero => omega
  | succ fuel ih =>
    rw [decimalAux]
    split
    · rename_i hn
      rw [step, Nat.zero_mul, Nat.zero_add, Nat.mod_eq_of_lt hn]
    · rename_i hn
      have hlt : n / 10 < fuel := by omega
      rw [ih (n / 10) (digitByte n :: acc) hlt]
      · rw [step]
        congr 1
        omega
      · intro k m b
        have h95 : (digitByte k == 95) = false := by
          simpa using isDigit_ne (isDigit_digitByte k) 95 (by decide)
        have hlt : k % 10 < 10 := Nat.mod_lt _ (by decide)
        simp [digitsAux, h95, digitVal_digitByte, hlt]

theorem intBody_ten (s : Bytes) : intBody 10 s = digitsAux 10 s 0 false := by
  unfold intBody
  split
  · simp
  · rfl

theorem decimal_ne_nil (n : Nat) : decimal n ≠ [] := by
  intro h
  have := digitsAux_decimalAux (n + 1) n [] (by omega)
  unfold decimal at h
  rw [h] at this
  simp [digitsAux] at this

theorem strip_decimal (n : Nat) : strip (decimal n) = decimal n := by
  apply strip_eq_self
  · intro c cs h
    exact isDigit_not_ws (decimal_digits n c (by rw [h]; simp))
  · intro c h
    exact isDigit_not_ws (decimal_digits n c (List.mem_of_getLast? h))

/-- `int(str(n)) == n` -/
theorem pyInt_decimal (n : Nat) : pyInt 10 (decimal n) = some (n : Int) := by
  unfold pyInt
  rw [strip_decimal]
  have hd := decimal_digits n
  have key : intBody 10 (decimal n) = some n := by
    rw [intBody_ten]
    have := digitsAux_decimalAux (n + 1) n [] (by omega)
    simpa [decimal, digitsAux] using this
  split
  · rename_i rest he
    have := hd 45 (by rw [he]; simp)
    simp [isDigit] at this
  · rename_i rest he
    have := hd 43 (by rw [he]; simp)
    simp [isDigit] at this
  · rw [key]; rfl

theorem decimal_noLF (n : Nat) : 10 ∉ decimal n := by
  intro h
  have := decimal_digits n 10 h
  simp [isDigit] at this

/-- different numbers have different decimal representations -/
theorem decimal_injective {m n : Nat} (h : decimal m = decimal n) : m = n := by
  have h1 := pyInt_decimal m
  rw [h, pyInt_decimal n] at h1
  simp at h1; omega

/-! ### lower -/

@[simp] theorem lower_append (a b : Bytes) : lower (a ++ b) = lower a ++ lower b := by simp [lower]
@[simp] theorem lower_length (a : Bytes) : (lower a).length = a.length := by simp [lower]

theorem lowerByte_idem (c : Byte) : lowerByte (lowerByte c) = lowerByte c := by
  have : ∀ n : Fin 256, lowerByte (lowerByte (UInt8.ofNat n.val)) = lowerByte (UInt8.ofNat n.val) := by
    decide +kernel
  have h := this ⟨c.toNat, c.toNat_lt⟩
  simpa using h

theorem lower_idem (s : Bytes) : lower (lower s) = lower s := by
  simp [lower, lowerByte_idem]

end Warc
