import Verif.Proofs.Bytes
import Verif.Proofs.HttpLoose
import Verif.Proofs.Http09
import Verif.Proofs.Cli
/-
  The operations on bytes of `Py/Bytes.lean`, characterised one by one without looking at how they are defined there.  They stand for methods of
  CPython, and model and specifications both use them, so a mistake in them could go unnoticed in the theorems about the code.
-/
set_option linter.all false
namespace Warc.Library
open Warc Warc.Http Warc.CliLemmas

theorem byte_all {P : Byte → Prop} (h : ∀ n < 256, P (UInt8.ofNat n)) (b : Byte) : P b := by
  have := h b.toNat b.toNat_lt
  rwa [UInt8.ofNat_toNat] at this

/-- `\s`, and what `strip` and `split` remove -/
theorem lib_white (b : Byte) : isWs b = true ↔ b ∈ ([9, 10, 11, 12, 13, 32] : Bytes) := by
  revert b; exact byte_all (by decide +kernel)

/-- `\d` -/
theorem lib_digit (b : Byte) : isDigit b = true ↔ b ∈ b! "0123456789" := by
  revert b; exact byte_all (by decide +kernel)

/-- `\w` -/
theorem lib_word (b : Byte) : isWord b = true ↔ b ∈ b! "ABCDEFGHIJKLMNOPQRSTUVWXYZabcdefghijklmnopqrstuvwxyz0123456789_" := by
  revert b; exact byte_all (by decide +kernel)

/-- `lower`: the 26 letters, and nothing else; byte by byte -/
theorem lib_lower : lower (b! "ABCDEFGHIJKLMNOPQRSTUVWXYZ") = b! "abcdefghijklmnopqrstuvwxyz" ∧
    (∀ b : Byte, b ∉ b! "ABCDEFGHIJKLMNOPQRSTUVWXYZ" → lower [b] = [b]) ∧ ∀ s t, lower (s ++ t) = lower s ++ lower t := by
  refine ⟨by decide +kernel, byte_all (by decide +kernel), fun s t => by simp [lower]⟩

/-- `upper` -/
theorem lib_upper : upper (b! "abcdefghijklmnopqrstuvwxyz") = b! "ABCDEFGHIJKLMNOPQRSTUVWXYZ" ∧
    (∀ b : Byte, b ∉ b! "abcdefghijklmnopqrstuvwxyz" → upper [b] = [b]) ∧ ∀ s t, upper (s ++ t) = upper s ++ upper t := by
  refine ⟨by decide +kernel, byte_all (by decide +kernel), fun s t => by simp [upper]⟩

/-- begins and ends with something other than white space, or is empty -/
def Trimmed (t : Bytes) : Prop := (∀ c cs, t = c :: cs → isWs c = false) ∧ ∀ c, t.getLast? = some c → isWs c = false

/-- `strip` -/
theorem lib_strip (a t b : Bytes) (ha : ∀ c ∈ a, isWs c = true) (hb : ∀ c ∈ b, isWs c = true) (ht : Trimmed t) : strip (a ++ t ++ b) = t := by
  rw [strip_ws_right _ _ hb, strip_ws_left _ _ ha]
  exact strip_eq_self ht.1 ht.2

/-- `lstrip` -/
theorem lib_lstrip (a t : Bytes) (ha : ∀ c ∈ a, isWs c = true) (ht : ∀ c cs, t = c :: cs → isWs c = false) : lstrip (a ++ t) = t := by
  rw [lstrip, List.dropWhile_append_of_pos ha]
  exact lstrip_eq_self ht

/-- `rstrip` -/
theorem lib_rstrip (t b : Bytes) (hb : ∀ c ∈ b, isWs c = true) (ht : ∀ c, t.getLast? = some c → isWs c = false) : rstrip (t ++ b) = t := by
  rw [rstrip_ws _ _ hb]
  exact rstrip_eq_self ht

/-- `rstrip(b'\r\n')` -/
theorem lib_rstripCRLF (t b : Bytes) (hb : ∀ c ∈ b, c = 13 ∨ c = 10) (ht : ∀ c, t.getLast? = some c → c ≠ 13 ∧ c ≠ 10) : rstripCRLF (t ++ b) = t := by
  rw [rstripCRLF, rstripP_append]
  · apply rstripP_eq_self
    intro c hc
    have := ht c hc
    simp [this.1, this.2]
  · intro c hc
    rcases hb c hc with rfl | rfl <;> rfl

/-- `startswith` -/
theorem lib_startswith (s p : Bytes) : startsWith s p = true ↔ p <+: s := startsWith_iff' s p

/-- `endswith` -/
theorem lib_endswith (s p : Bytes) : endsWith s p = true ↔ p <:+ s := by rw [endsWith, List.isSuffixOf_iff_suffix]

/-- `in` -/
theorem lib_contains (s p : Bytes) : contains s p = true ↔ p <:+: s := by
  induction s with
  | nil =>
    rw [contains, List.isPrefixOf_iff_prefix, List.prefix_nil, List.infix_nil]
  | cons c cs ih =>
    rw [contains, Bool.or_eq_true, List.isPrefixOf_iff_prefix, ih, List.infix_cons_iff]

/-- `split(sep, 1)` -/
theorem lib_split_once (sep : Byte) (s : Bytes) :
    (∀ a b, splitOnce sep s = some (a, b) ↔ s = a ++ sep :: b ∧ sep ∉ a) ∧ (splitOnce sep s = none ↔ sep ∉ s) := by
  refine ⟨fun a b => ⟨splitOnce_spec, ?_⟩, splitOnce_free, splitOnce_none⟩
  rintro ⟨rfl, h⟩
  exact splitOnce_append a b h

/-- `split(sep, n)`: at most `n + 1` parts, which joined give the text; the separator is in none of them, except that it may be in the last one if there
are `n + 1` -/
theorem lib_split_max (sep : Byte) : ∀ (n : Nat) (parts : List Bytes), parts ≠ [] → parts.length ≤ n + 1 → (∀ p ∈ parts.dropLast, sep ∉ p) →
    (parts.length ≤ n → ∀ p ∈ parts, sep ∉ p) → splitMax sep n (join [sep] parts) = parts
  | n, [], h, _, _, _ => absurd rfl h
  | 0, [a], _, _, _, _ => rfl
  | 0, a :: b :: parts, _, h, _, _ => by simp at h
  | n + 1, [a], _, _, _, h => by
    rw [splitMax, join, splitOnce_none (h (by simp) a (by simp))]
  | n + 1, a :: b :: parts, _, hl, hd, h => by
    have e : join [sep] (a :: b :: parts) = a ++ sep :: join [sep] (b :: parts) := by simp [join]
    rw [e, splitMax, splitOnce_append _ _ (hd a (by simp [List.dropLast]))]
    simp only
    rw [lib_split_max sep n (b :: parts) (by simp) (by simpa using hl) (fun p hp => hd p (by simp [List.dropLast, hp]))
      (fun hl' p hp => h (by simpa using hl') p (by simp only [List.mem_cons] at hp ⊢; exact .inr hp))]

/-- `split(sep)` -/
theorem lib_split_all (sep : Byte) (parts : List Bytes) (hne : parts ≠ []) (h : ∀ p ∈ parts, sep ∉ p) :
    splitAll sep (join [sep] parts) = parts := by
  have hlen : ∀ parts : List Bytes, parts ≠ [] → parts.length ≤ (join [sep] parts).length + 1 := by
    intro parts
    induction parts with
    | nil => intro h; exact absurd rfl h
    | cons a parts ih =>
      intro _
      cases parts with
      | nil => simp
      | cons b parts =>
        have := ih (by simp)
        simp only [join, List.length_append, List.length_cons, List.length_nil] at this ⊢
        omega
  exact lib_split_max sep _ parts hne (hlen parts hne) (fun p hp => h p (List.dropLast_subset _ hp)) (fun _ => h)

/-- words separated by white space, with white space around them or not -/
inductive Words : Bytes → List Bytes → Prop
  | none {s : Bytes} : (∀ c ∈ s, isWs c = true) → Words s []
  | cons {lead w rest : Bytes} {ws : List Bytes} : (∀ c ∈ lead, isWs c = true) → w ≠ [] → (∀ c ∈ w, isWs c = false) →
      (∀ c cs, rest = c :: cs → isWs c = true) → Words rest ws → Words (lead ++ w ++ rest) (w :: ws)

/-- `split()` -/
theorem lib_split (s : Bytes) (ws : List Bytes) (h : Words s ws) : splitWs s = ws := by
  have lead : ∀ (l r : Bytes), (∀ c ∈ l, isWs c = true) → splitWsAux (l ++ r) [] = splitWsAux r [] := by
    intro l
    induction l with
    | nil => intro r _; rfl
    | cons c l ih =>
      intro r hl
      have e : splitWsAux (c :: (l ++ r)) [] = splitWsAux (l ++ r) [] := by
        rw [splitWsAux.eq_def]; simp only [hl c (by simp), if_true]
      rw [List.cons_append, e]
      exact ih r (fun c hc => hl c (by simp [hc]))
  have word : ∀ (w r cur : Bytes), (∀ c ∈ w, isWs c = false) → splitWsAux (w ++ r) cur = splitWsAux r (w.reverse ++ cur) := by
    intro w
    induction w with
    | nil => intro r cur _; rfl
    | cons c w ih =>
      intro r cur hw
      have e : splitWsAux (c :: (w ++ r)) cur = splitWsAux (w ++ r) (c :: cur) := by
        rw [splitWsAux.eq_def]; simp only [hw c (by simp), Bool.false_eq_true, if_false]
      rw [List.cons_append, e, ih _ _ (fun c hc => hw c (by simp [hc]))]
      simp
  induction h with
  | none hs =>
    have := lead _ [] hs
    rw [List.append_nil] at this
    rw [splitWs, this]; rfl
  | @cons l w rest ws hl hne hw hr _ ih =>
    rw [splitWs, List.append_assoc, lead _ _ hl, word _ _ _ hw, List.append_nil]
    have hrev : w.reverse ≠ [] := by simpa using hne
    cases rest with
    | nil =>
      cases hh : w.reverse with
      | nil => exact absurd hh hrev
      | cons x xs =>
        have : ws = [] := ih.symm
        have e : splitWsAux [] (x :: xs) = [(x :: xs).reverse] := rfl
        rw [e, this, ← hh, List.reverse_reverse]
    | cons c cs =>
      have hc := hr c cs rfl
      have e1 : splitWsAux (c :: cs) [] = splitWsAux cs [] := by
        rw [splitWsAux.eq_def]; simp only [hc, if_true]
      rw [splitWs, e1] at ih
      cases hh : w.reverse with
      | nil => exact absurd hh hrev
      | cons x xs =>
        have e2 : splitWsAux (c :: cs) (x :: xs) = (x :: xs).reverse :: splitWsAux cs [] := by
          rw [splitWsAux.eq_def]; simp only [hc, if_true]
        rw [e2, ih, ← hh, List.reverse_reverse]

/-- the value of a digit -/
def DigitOf (base : Nat) (c : Byte) (v : Nat) : Prop :=
  v < base ∧ (∃ i, (b! "0123456789abcdefghijklmnopqrstuvwxyz")[i]? = some c ∧ v = i ∨
    (b! "0123456789ABCDEFGHIJKLMNOPQRSTUVWXYZ")[i]? = some c ∧ v = i)

/-- digits, with single underscores between them -/
inductive Digits (base : Nat) : Bytes → Nat → Prop
  | one {c : Byte} {v : Nat} : DigitOf base c v → Digits base [c] v
  | more {s : Bytes} {c : Byte} {n v : Nat} : Digits base s n → DigitOf base c v → Digits base (s ++ [c]) (n * base + v)
  | under {s : Bytes} {c : Byte} {n v : Nat} : Digits base s n → DigitOf base c v → Digits base (s ++ [95, c]) (n * base + v)

theorem digitVal_lower (i : Nat) (c : Byte) (h : (b! "0123456789abcdefghijklmnopqrstuvwxyz")[i]? = some c) : digitVal c = some i := by
  have : ∀ i < 36, ∀ c, (b! "0123456789abcdefghijklmnopqrstuvwxyz")[i]? = some c → digitVal c = some i := by
    intro i hi c hc
    have all : ∀ i < 36, ((b! "0123456789abcdefghijklmnopqrstuvwxyz")[i]?).map digitVal = some (some i) := by decide +kernel
    have := all i hi
    rw [hc] at this
    simpa using this
  have hi : i < 36 := (List.getElem?_eq_some_iff.mp h).1
  exact this i hi c h

theorem digitVal_upper (i : Nat) (c : Byte) (h : (b! "0123456789ABCDEFGHIJKLMNOPQRSTUVWXYZ")[i]? = some c) : digitVal c = some i := by
  have : ∀ i < 36, ∀ c, (b! "0123456789ABCDEFGHIJKLMNOPQRSTUVWXYZ")[i]? = some c → digitVal c = some i := by
    intro i hi c hc
    have all : ∀ i < 36, ((b! "0123456789ABCDEFGHIJKLMNOPQRSTUVWXYZ")[i]?).map digitVal = some (some i) := by decide +kernel
    have := all i hi
    rw [hc] at this
    simpa using this
  have hi : i < 36 := (List.getElem?_eq_some_iff.mp h).1
  exact this i hi c h

theorem digitVal_some (c : Byte) (v : Nat) (h : digitVal c = some v) :
    ∃ i, (b! "0123456789abcdefghijklmnopqrstuvwxyz")[i]? = some c ∧ v = i ∨ (b! "0123456789ABCDEFGHIJKLMNOPQRSTUVWXYZ")[i]? = some c ∧ v = i := by
  have all : ∀ n < 256, ∀ v < 36, digitVal (UInt8.ofNat n) = some v →
      (b! "0123456789abcdefghijklmnopqrstuvwxyz")[v]? = some (UInt8.ofNat n) ∨ (b! "0123456789ABCDEFGHIJKLMNOPQRSTUVWXYZ")[v]? = some (UInt8.ofNat n) := by
    decide +kernel
  have lt : ∀ n < 256, ∀ v, digitVal (UInt8.ofNat n) = some v → v < 36 := by
    have : ∀ n < 256, ((digitVal (UInt8.ofNat n)).getD 0) < 36 := by decide +kernel
    intro n hn v hv
    have := this n hn
    rw [hv] at this
    exact this
  have e : UInt8.ofNat c.toNat = c := UInt8.ofNat_toNat
  have h1 := lt c.toNat c.toNat_lt v (by rw [e]; exact h)
  have h2 := all c.toNat c.toNat_lt v h1 (by rw [e]; exact h)
  rw [e] at h2
  exact ⟨v, h2.imp (fun h => ⟨h, rfl⟩) (fun h => ⟨h, rfl⟩)⟩

theorem digitOf_iff (base : Nat) (c : Byte) (v : Nat) : DigitOf base c v ↔ digitVal c = some v ∧ v < base := by
  constructor
  · rintro ⟨h, i, ⟨h1, rfl⟩ | ⟨h1, rfl⟩⟩
    · exact ⟨digitVal_lower _ _ h1, h⟩
    · exact ⟨digitVal_upper _ _ h1, h⟩
  · rintro ⟨h1, h2⟩
    exact ⟨h2, digitVal_some c v h1⟩

theorem digit_not_under {base : Nat} {c : Byte} {v : Nat} (h : DigitOf base c v) : (c == 95) = false := by
  rw [digitOf_iff] at h
  cases hc : c == 95 with
  | false => rfl
  | true =>
    have : c = 95 := by simpa using hc
    subst this
    have h0 : digitVal 95 = none := by decide
    rw [h0] at h
    cases h.1

/-- more digits behind -/
theorem digitsAux_snoc (base : Nat) (s t : Bytes) (n : Nat) : ∀ (acc : Nat) (prev : Bool), digitsAux base s acc prev = some n →
    digitsAux base (s ++ t) acc prev = digitsAux base t n true := by
  induction s with
  | nil =>
    intro acc prev h
    cases prev with
    | true => simp only [digitsAux, Option.some.injEq] at h; rw [h]; rfl
    | false => cases h
  | cons c s ih =>
    intro acc prev h
    simp only [List.cons_append, digitsAux] at h ⊢
    by_cases hc : (c == 95) = true
    · rw [if_pos hc] at h ⊢
      cases prev with
      | true => exact ih _ _ h
      | false => cases h
    · rw [if_neg hc] at h ⊢
      cases hd : digitVal c with
      | none => rw [hd] at h; cases h
      | some v =>
        simp only [hd] at h ⊢
        by_cases hv : v < base
        · rw [if_pos hv] at h ⊢; exact ih _ _ h
        · rw [if_neg hv] at h; cases h

theorem digitsAux_one {base : Nat} {c : Byte} {v : Nat} (h : DigitOf base c v) (t : Bytes) (acc : Nat) (prev : Bool) :
    digitsAux base (c :: t) acc prev = digitsAux base t (acc * base + v) true := by
  have hu := digit_not_under h
  rw [digitOf_iff] at h
  simp only [digitsAux, hu, Bool.false_eq_true, if_false, h.1, if_pos h.2]

theorem digitsAux_of {base : Nat} {s : Bytes} {n : Nat} (h : Digits base s n) : digitsAux base s 0 false = some n := by
  induction h with
  | one h => rw [digitsAux_one h]; simp [digitsAux]
  | more _ h ih => rw [digitsAux_snoc _ _ _ _ _ _ ih, digitsAux_one h]; rfl
  | under _ h ih =>
    rw [digitsAux_snoc _ _ _ _ _ _ ih]
    show (if ((95 : Byte) == 95) = true then _ else _) = _
    rw [if_pos (by rfl), if_pos rfl, digitsAux_one h]; rfl

theorem of_digitsAux {base : Nat} (t : Bytes) : ∀ (s : Bytes) (acc : Nat) (n : Nat),
    (Digits base s acc → digitsAux base t acc true = some n → Digits base (s ++ t) n) ∧
    (Digits base s acc → digitsAux base t acc false = some n → Digits base (s ++ 95 :: t) n) ∧
    (digitsAux base t 0 false = some n → Digits base t n) := by
  induction t with
  | nil =>
    intro s acc n
    refine ⟨fun h h1 => ?_, fun h h1 => ?_, fun h1 => ?_⟩
    · simp only [digitsAux, Option.some.injEq] at h1
      rw [List.append_nil, ← h1]; exact h
    · cases h1
    · cases h1
  | cons c t ih =>
    intro s acc n
    by_cases hc : (c == 95) = true
    · have hc' : c = 95 := by simpa using hc
      subst hc'
      refine ⟨fun h h1 => ?_, fun h h1 => ?_, fun h1 => ?_⟩
      · have h1' : digitsAux base t acc false = some n := h1
        exact (ih s acc n).2.1 h h1'
      · cases h1
      · cases h1
    · have key : ∀ acc prev, digitsAux base (c :: t) acc prev = some n → ∃ v, DigitOf base c v ∧ digitsAux base t (acc * base + v) true = some n := by
        intro acc prev h
        simp only [digitsAux, if_neg hc] at h
        cases hd : digitVal c with
        | none => rw [hd] at h; cases h
        | some v =>
          simp only [hd] at h
          by_cases hv : v < base
          · rw [if_pos hv] at h
            exact ⟨v, (digitOf_iff _ _ _).2 ⟨hd, hv⟩, h⟩
          · rw [if_neg hv] at h; cases h
      refine ⟨fun h h1 => ?_, fun h h1 => ?_, fun h1 => ?_⟩
      · obtain ⟨v, hv, h2⟩ := key _ _ h1
        have := (ih (s ++ [c]) (acc * base + v) n).1 (.more h hv) h2
        simpa using this
      · obtain ⟨v, hv, h2⟩ := key _ _ h1
        have := (ih (s ++ [95, c]) (acc * base + v) n).1 (.under h hv) h2
        simpa using this
      · obtain ⟨v, hv, h2⟩ := key _ _ h1
        have := (ih [c] (0 * base + v) n).1 (by simpa using Digits.one hv) h2
        simpa using this

/-- what stands before the digits: nothing, or for base 16 also `0x`, `0X`, with an underscore or not -/
def Marker (base : Nat) (m : Bytes) : Prop := m = [] ∨ base = 16 ∧ m ∈ [b! "0x", b! "0X", b! "0x_", b! "0X_"]

theorem intBody_iff (base : Nat) (s : Bytes) (n : Nat) : intBody base s = some n ↔ ∃ m ds, s = m ++ ds ∧ Marker base m ∧ Digits base ds n := by
  have dig : ∀ t, digitsAux base t 0 false = some n ↔ Digits base t n := fun t => ⟨((of_digitsAux t [] 0 n).2.2), digitsAux_of⟩
  have no_mark : ∀ x rest, (x = 120 ∨ x = 88) → base = 16 → ¬ Digits base (48 :: x :: rest) n := by
    intro x rest hx hb h
    have := digitsAux_of h
    subst hb
    rcases hx with rfl | rfl <;> simp [digitsAux, digitVal] at this
  have no_under : ∀ rest, ¬ Digits base (95 :: rest) n := by
    intro rest h
    have := digitsAux_of h
    simp [digitsAux] at this
  by_cases hx : base = 16 ∧ ∃ x rest, s = 48 :: x :: rest ∧ (x = 120 ∨ x = 88)
  · obtain ⟨hb, x, rest, rfl, hx⟩ := hx
    have hcond : (base == 16 && (x == 120 || x == 88)) = true := by
      subst hb; rcases hx with rfl | rfl <;> rfl
    have hm1 : Marker base [48, x] := .inr ⟨hb, by rcases hx with rfl | rfl <;> simp⟩
    have hm2 : Marker base [48, x, 95] := .inr ⟨hb, by rcases hx with rfl | rfl <;> simp⟩
    have hinv : ∀ m ds, 48 :: x :: rest = m ++ ds → Marker base m → Digits base ds n → (m = [48, x] ∧ ds = rest) ∨ (m = [48, x, 95] ∧ rest = 95 :: ds) := by
      intro m ds he hm hd
      rcases hm with rfl | ⟨-, hm⟩
      · rw [List.nil_append] at he
        rw [← he] at hd
        exact absurd hd (no_mark x rest hx hb)
      · simp only [List.mem_cons, List.not_mem_nil, or_false] at hm
        rcases hm with rfl | rfl | rfl | rfl <;> simp only [List.cons_append, List.nil_append, List.cons.injEq, true_and] at he <;> obtain ⟨rfl, rfl⟩ := he
        · exact .inl ⟨rfl, rfl⟩
        · exact .inl ⟨rfl, rfl⟩
        · exact .inr ⟨rfl, rfl⟩
        · exact .inr ⟨rfl, rfl⟩
    simp only [intBody, hcond, if_true]
    cases rest with
    | nil =>
      simp only
      rw [dig]
      constructor
      · intro h; exact ⟨_, _, rfl, hm1, h⟩
      · rintro ⟨m, ds, he, hm, hd⟩
        rcases hinv m ds he hm hd with ⟨rfl, rfl⟩ | ⟨rfl, h⟩
        · exact hd
        · cases h
    | cons y rest' =>
      by_cases hy : y = 95
      · subst hy
        simp only
        rw [dig]
        constructor
        · intro h; exact ⟨[48, x, 95], rest', rfl, hm2, h⟩
        · rintro ⟨m, ds, he, hm, hd⟩
          rcases hinv m ds he hm hd with ⟨rfl, rfl⟩ | ⟨rfl, h⟩
          · exact absurd hd (no_under _)
          · cases h; exact hd
      · have : (match y :: rest' with | 95 :: rest' => digitsAux base rest' 0 false | _ => digitsAux base (y :: rest') 0 false) =
            digitsAux base (y :: rest') 0 false := by
          split
          · next h => exact absurd (List.cons.inj h).1 hy
          · rfl
        refine Iff.trans (b := digitsAux base (y :: rest') 0 false = some n) ?_ ?_
        · refine Eq.to_iff ?_
          congr 1
        rw [dig]
        constructor
        · intro h; exact ⟨[48, x], _, rfl, hm1, h⟩
        · rintro ⟨m, ds, he, hm, hd⟩
          rcases hinv m ds he hm hd with ⟨rfl, rfl⟩ | ⟨rfl, h⟩
          · exact hd
          · exact absurd (List.cons.inj h).1 hy
  · have hb : intBody base s = digitsAux base s 0 false := by
      unfold intBody
      split
      · next x rest =>
        rw [if_neg]
        intro hc
        simp only [Bool.and_eq_true, beq_iff_eq, Bool.or_eq_true] at hc
        exact hx ⟨hc.1, x, rest, rfl, hc.2⟩
      · rfl
    rw [hb, dig]
    constructor
    · intro h; exact ⟨[], s, rfl, .inl rfl, h⟩
    · rintro ⟨m, ds, rfl, hm, hd⟩
      rcases hm with rfl | ⟨h16, hm⟩
      · exact hd
      · simp only [List.mem_cons, List.not_mem_nil, or_false] at hm
        exfalso
        rcases hm with rfl | rfl | rfl | rfl
        · exact hx ⟨h16, 120, ds, rfl, .inl rfl⟩
        · exact hx ⟨h16, 88, ds, rfl, .inr rfl⟩
        · exact hx ⟨h16, 120, 95 :: ds, rfl, .inl rfl⟩
        · exact hx ⟨h16, 88, 95 :: ds, rfl, .inr rfl⟩

/-- an integer as `int(text, base)` reads it: white space, a sign, a marker, digits, white space -/
def IntText (base : Nat) (s : Bytes) (z : Int) : Prop :=
  ∃ a sign m ds b n, s = a ++ (sign ++ (m ++ ds)) ++ b ∧ (∀ c ∈ a, isWs c = true) ∧ (∀ c ∈ b, isWs c = true) ∧ Marker base m ∧ Digits base ds n ∧
    ((sign = [] ∨ sign = b! "+") ∧ z = n ∨ sign = b! "-" ∧ z = -(n : Int))

theorem digits_shape {base : Nat} {ds : Bytes} {n : Nat} (h : Digits base ds n) :
    ∃ c cs d v w, ds = c :: cs ∧ DigitOf base c v ∧ ds.getLast? = some d ∧ DigitOf base d w := by
  induction h with
  | one h => exact ⟨_, _, _, _, _, rfl, h, rfl, h⟩
  | @more s c n v hs hc ih =>
    obtain ⟨a, as, d, v', w, rfl, h1, -, -⟩ := ih
    exact ⟨a, _, c, v', v, rfl, h1, by rw [List.getLast?_append]; rfl, hc⟩
  | @under s c n v hs hc ih =>
    obtain ⟨a, as, d, v', w, rfl, h1, -, -⟩ := ih
    exact ⟨a, _, c, v', v, rfl, h1, by rw [List.getLast?_append]; rfl, hc⟩

theorem digit_not_ws {base : Nat} {c : Byte} {v : Nat} (h : DigitOf base c v) : isWs c = false ∧ c ≠ 45 ∧ c ≠ 43 := by
  rw [digitOf_iff] at h
  have all : ∀ c : Byte, (digitVal c).isSome = true → isWs c = false ∧ c ≠ 45 ∧ c ≠ 43 := byte_all (by decide +kernel)
  exact all c (by rw [h.1]; rfl)

theorem strip_split (s : Bytes) : ∃ a b, s = a ++ strip s ++ b ∧ (∀ c ∈ a, isWs c = true) ∧ (∀ c ∈ b, isWs c = true) := by
  refine ⟨s.takeWhile isWs, ((lstrip s).reverse.takeWhile isWs).reverse, ?_, ?_, ?_⟩
  · have h1 : s.takeWhile isWs ++ lstrip s = s := List.takeWhile_append_dropWhile
    have h2 : (lstrip s).reverse.takeWhile isWs ++ (lstrip s).reverse.dropWhile isWs = (lstrip s).reverse := List.takeWhile_append_dropWhile
    have h3 := congrArg List.reverse h2
    rw [List.reverse_append, List.reverse_reverse] at h3
    have h4 : strip s = ((lstrip s).reverse.dropWhile isWs).reverse := rfl
    rw [h4, List.append_assoc, h3, h1]
  · intro c hc
    have := List.all_takeWhile (p := isWs) (l := s)
    rw [List.all_eq_true] at this
    exact this c hc
  · intro c hc
    rw [List.mem_reverse] at hc
    have := List.all_takeWhile (p := isWs) (l := (lstrip s).reverse)
    rw [List.all_eq_true] at this
    exact this c hc

theorem pyInt_cases (base : Nat) (s : Bytes) : pyInt base s = match strip s with
    | 45 :: rest => (intBody base rest).map fun n : Nat => -(n : Int)
    | 43 :: rest => (intBody base rest).map fun n : Nat => (n : Int)
    | t => (intBody base t).map fun n : Nat => (n : Int) := by
  rw [pyInt]
  generalize strip s = x
  split
  · next t => simp only; cases intBody base t <;> rfl
  · next t => simp only; cases intBody base t <;> rfl
  · next t h1 h2 =>
    split
    · next t => exact absurd rfl (h1 t)
    · next t => exact absurd rfl (h2 t)
    · cases intBody base x <;> rfl

/-- `int(text, base)` for bases 10 and 16 (and others): the numbers it accepts, and their values -/
theorem lib_int (base : Nat) (s : Bytes) (z : Int) : pyInt base s = some z ↔ IntText base s z := by
  constructor
  · intro h
    obtain ⟨a, b, hs, ha, hb⟩ := strip_split s
    have case1 : ∀ t, strip s = 45 :: t → IntText base s z := by
      intro t ht
      rw [pyInt_cases, ht] at h
      simp only [Option.map_eq_some_iff] at h
      obtain ⟨n, h1, h2⟩ := h
      obtain ⟨m, ds, rfl, hm, hd⟩ := (intBody_iff base t n).1 h1
      refine ⟨a, b! "-", m, ds, b, n, ?_, ha, hb, hm, hd, .inr ⟨rfl, h2.symm⟩⟩
      rw [hs, ht]; simp
    have case2 : ∀ t, strip s = 43 :: t → IntText base s z := by
      intro t ht
      rw [pyInt_cases, ht] at h
      simp only [Option.map_eq_some_iff] at h
      obtain ⟨n, h1, h2⟩ := h
      obtain ⟨m, ds, rfl, hm, hd⟩ := (intBody_iff base t n).1 h1
      refine ⟨a, b! "+", m, ds, b, n, ?_, ha, hb, hm, hd, .inl ⟨.inr rfl, h2.symm⟩⟩
      rw [hs, ht]; simp
    by_cases h1 : ∃ t, strip s = 45 :: t
    · exact case1 _ h1.choose_spec
    by_cases h2 : ∃ t, strip s = 43 :: t
    · exact case2 _ h2.choose_spec
    have : pyInt base s = (intBody base (strip s)).map fun n : Nat => (n : Int) := by
      rw [pyInt_cases]
      split
      · next t ht => exact absurd ⟨t, ht⟩ h1
      · next t ht => exact absurd ⟨t, ht⟩ h2
      · rfl
    rw [this] at h
    simp only [Option.map_eq_some_iff] at h
    obtain ⟨n, h3, h4⟩ := h
    obtain ⟨m, ds, h5, hm, hd⟩ := (intBody_iff base _ n).1 h3
    refine ⟨a, [], m, ds, b, n, ?_, ha, hb, hm, hd, .inl ⟨.inl rfl, h4.symm⟩⟩
    rw [List.nil_append, ← h5]; exact hs
  · rintro ⟨a, sign, m, ds, b, n, rfl, ha, hb, hm, hd, hz⟩
    have hbody := (intBody_iff base (m ++ ds) n).2 ⟨m, ds, rfl, hm, hd⟩
    obtain ⟨c, cs, d, v, w, hc, hcv, hl, hdw⟩ := digits_shape hd
    have hhead : ∃ x xs, m ++ ds = x :: xs ∧ isWs x = false ∧ x ≠ 45 ∧ x ≠ 43 := by
      rcases hm with rfl | ⟨-, hm⟩
      · exact ⟨c, cs, hc, digit_not_ws hcv⟩
      · simp only [List.mem_cons, List.not_mem_nil, or_false] at hm
        rcases hm with rfl | rfl | rfl | rfl <;> exact ⟨48, _, rfl, by decide, by decide, by decide⟩
    have hlast : (m ++ ds).getLast? = some d := by
      rw [hc] at hl ⊢
      simpa using hl
    obtain ⟨x, xs, hx, hxw, hx1, hx2⟩ := hhead
    have htrim : Trimmed (sign ++ (m ++ ds)) := by
      constructor
      · intro c' cs' he
        rcases hz with ⟨rfl | rfl, -⟩ | ⟨rfl, -⟩
        · rw [List.nil_append, hx] at he; cases he; exact hxw
        · cases he; rfl
        · cases he; rfl
      · intro c' he
        have : (sign ++ (m ++ ds)).getLast? = some d := by
          rw [List.getLast?_append, hlast]; rfl
        rw [this] at he; cases he
        exact (digit_not_ws hdw).1
    rw [pyInt_cases, lib_strip _ _ _ ha hb htrim]
    rcases hz with ⟨rfl | rfl, rfl⟩ | ⟨rfl, rfl⟩
    · rw [List.nil_append]
      rw [hx] at hbody ⊢
      split
      · next h => exact absurd (List.cons.inj h).1 hx1
      · next h => exact absurd (List.cons.inj h).1 hx2
      · rw [hbody]; rfl
    · simp only [List.cons_append, List.nil_append, hbody, Option.map_some]
    · simp only [List.cons_append, List.nil_append, hbody, Option.map_some]

/-- `str(n)`: digits with this value, without leading zero -/
theorem lib_decimal (n : Nat) : Digits 10 (decimal n) n ∧ (∀ c ∈ decimal n, c ∈ b! "0123456789") ∧ ((decimal n).head? = some 48 → n = 0) := by
  have h1 := pyInt_decimal n
  have hd := decimal_digits n
  refine ⟨?_, fun c hc => (lib_digit c).1 (hd c hc), ?_⟩
  · rw [pyInt_cases, strip_decimal] at h1
    have hne : ∀ c t, decimal n = c :: t → c ≠ 45 ∧ c ≠ 43 := by
      intro c t h
      have := hd c (by rw [h]; simp)
      constructor <;> (rintro rfl; exact absurd this (by decide))
    have h2 : intBody 10 (decimal n) = some n := by
      split at h1
      · next h => exact absurd rfl (hne _ _ h).1
      · next h => exact absurd rfl (hne _ _ h).2
      · simp only [Option.map_eq_some_iff] at h1
        obtain ⟨m, h3, h4⟩ := h1
        have : m = n := by exact_mod_cast h4
        rw [h3, this]
    rw [intBody_ten] at h2
    exact (of_digitsAux (decimal n) [] 0 n).2.2 h2
  · have key : ∀ fuel n acc, n < fuel → 0 < n → (decimalAux fuel n acc).head? ≠ some 48 := by
      intro fuel
      induction fuel with
      | zero => intro n acc h; omega
      | succ fuel ih =>
        intro n acc hn hpos
        rw [decimalAux]
        by_cases h10 : n < 10
        · rw [if_pos h10]
          have all : ∀ k < 10, 0 < k → digitByte k ≠ 48 := by decide +kernel
          simpa using all n h10 hpos
        · rw [if_neg h10]
          exact ih _ _ (by omega) (by omega)
    intro h
    apply Classical.byContradiction
    intro hn
    exact key (n + 1) n [] (by omega) (by omega) h

theorem lib_decimal_int (n : Nat) : decimalInt (n : Int) = decimal n ∧ decimalInt (-(n + 1 : Nat) : Int) = 45 :: decimal (n + 1) := ⟨rfl, rfl⟩

/-- `sep.join(parts)` -/
theorem lib_join (sep a b : Bytes) (parts : List Bytes) : join sep [] = [] ∧ join sep [a] = a ∧ join sep (a :: b :: parts) = a ++ sep ++ join sep (b :: parts) :=
  ⟨rfl, rfl, rfl⟩

/-! ### Cases -/

example : IntText 16 (b! " -0x_1F_0\n") (-496) := (lib_int _ _ _).1 (by rfl)
example : ¬ ∃ z, IntText 10 (b! "1__0") z := by rintro ⟨z, h⟩; have := (lib_int _ _ _).2 h; revert this; simp [pyInt, strip, rstrip, rstripP, lstrip, isWs, intBody, digitsAux, digitVal]
example : Words (b! " a  bc") [b! "a", b! "bc"] :=
  .cons (lead := [32]) (w := b! "a") (by decide) (by decide) (by decide) (by intro c cs h; cases h; rfl)
    (.cons (lead := b! "  ") (w := b! "bc") (rest := []) (by decide) (by decide) (by decide) (by intro c cs h; cases h) (.none (by decide)))

end Warc.Library
