import Verif.Spec.ArcGrammar
import Verif.Proofs.Grammar2
import Verif.Proofs.Arc
set_option linter.all false
namespace Warc
open Rx Stream Spec

/-! ### separators and cuts -/

theorem byteAt_word (p : Byte → Bool) (done : Bytes) (c : Byte) (cs : Bytes) : byteAt p (done ++ c :: cs) done.length = p c := by
  simp [byteAt]

theorem sepAt_eq (done : Bytes) (c : Byte) (cs : Bytes) :
    sepAt (done ++ c :: cs) done.length = (isWs c && (wordAt done.getLast? || wordAt cs.head?)) := by
  unfold sepAt
  rw [byteAt_word]
  have h1 : byteAt isWord (done ++ c :: cs) (done.length + 1) = wordAt cs.head? := by
    rw [byteAt, List.getElem?_append_right (by omega)]
    have : done.length + 1 - done.length = 1 := by omega
    rw [this]
    cases cs <;> simp [wordAt]
  have h2 : (decide (0 < done.length) && byteAt isWord (done ++ c :: cs) (done.length - 1)) = wordAt done.getLast? := by
    by_cases hd : done = []
    · subst hd; simp [wordAt]
    · have hp := List.length_pos_iff.2 hd
      rw [byteAt, List.getElem?_append_left (by omega), List.getLast?_eq_getElem?]
      simp only [hp, decide_true, Bool.true_and]
      cases hq : done[done.length - 1]? <;> simp [wordAt]
  rw [h1, h2]

/-- the first `n` of a list, or all -/
def takeOpt (n : Option Nat) (l : List Nat) : List Nat := match n with | none => l | some k => l.take k

theorem splitScan_cuts (n : Option Nat) (done x : Bytes) (start : Nat) (h : start ≤ done.length) :
    splitScan n done.getLast? x (done.drop start).reverse =
      cuts (done ++ x) start (takeOpt n ((List.range' done.length x.length).filter (sepAt (done ++ x)))) := by
  induction x generalizing n done start with
  | nil => cases n <;> simp [splitScan, takeOpt, cuts]
  | cons c cs ih =>
    rw [splitScan_cons]
    have hs := sepAt_eq done c cs
    have hr : List.range' done.length (c :: cs).length = done.length :: List.range' (done.length + 1) cs.length := by
      simp [List.range'_succ]
    rw [hr, List.filter_cons, hs]
    have e1 : done ++ c :: cs = (done ++ [c]) ++ cs := by simp
    have e2 : (done ++ [c]).length = done.length + 1 := by simp
    have e3 : (done ++ [c]).getLast? = some c := by simp
    by_cases hc : isWs c = true ∧ (wordAt done.getLast? = true ∨ wordAt cs.head? = true)
    · have hb : (isWs c && (wordAt done.getLast? || wordAt cs.head?)) = true := by
        simp only [Bool.and_eq_true, Bool.or_eq_true]; exact hc
      rw [hb, if_pos rfl]
      by_cases hn : n = some 0
      · rw [if_neg (by simp [hn])]
        have := ih n (done ++ [c]) start (by simp; omega)
        rw [e3, List.drop_append_of_le_length h, List.reverse_append] at this
        simp only [List.reverse_cons, List.reverse_nil, List.nil_append, List.singleton_append] at this
        rw [this, hn, ← e1]
        simp [takeOpt]
      · rw [if_pos ⟨hn, hc⟩]
        have := ih (n.map (· - 1)) (done ++ [c]) (done.length + 1) (by simp)
        rw [e3, e2, List.drop_of_length_le (by simp)] at this
        simp only [List.reverse_nil] at this
        rw [this, ← e1]
        have ht : takeOpt n (done.length :: (List.range' (done.length + 1) cs.length).filter (sepAt (done ++ c :: cs))) =
            done.length :: takeOpt (n.map (· - 1)) ((List.range' (done.length + 1) cs.length).filter (sepAt (done ++ c :: cs))) := by
          cases n with
          | none => rfl
          | some k =>
            cases k with
            | zero => exact absurd rfl hn
            | succ k => simp [takeOpt]
        rw [ht, cuts, List.reverse_reverse]
        have hd : (done ++ c :: cs).drop start = done.drop start ++ c :: cs := List.drop_append_of_le_length h
        rw [hd, List.take_append_of_le_length (by simp), List.take_of_length_le (by simp)]
    · have hb : (isWs c && (wordAt done.getLast? || wordAt cs.head?)) = false := by
        rw [Bool.eq_false_iff]; intro q; simp only [Bool.and_eq_true, Bool.or_eq_true] at q; exact hc q
      rw [hb, if_neg (fun q => hc q.2), if_neg (by simp)]
      have := ih n (done ++ [c]) start (by simp; omega)
      rw [e3, List.drop_append_of_le_length h, List.reverse_append] at this
      simp only [List.reverse_cons, List.reverse_nil, List.nil_append, List.singleton_append] at this
      rw [this, e2, ← e1]

theorem splitScan_all (n : Option Nat) (l : Bytes) : splitScan n none l [] = cuts l 0 (takeOpt n (separators l)) := by
  have h := splitScan_cuts n [] l 0 (by simp)
  simpa [separators, List.range_eq_range'] using h

theorem cuts_length (l : Bytes) (start : Nat) (ps : List Nat) : (cuts l start ps).length = ps.length + 1 := by
  induction ps generalizing start with
  | nil => rfl
  | cons p ps ih => simp [cuts, ih]

/-! ### from the right -/

theorem sepAt_reverse (l : Bytes) (i : Nat) (h : i < l.length) : sepAt l.reverse i = sepAt l (l.length - 1 - i) := by
  unfold sepAt byteAt
  have g0 : l.reverse[i]? = l[l.length - 1 - i]? := List.getElem?_reverse h
  rw [g0]
  have g1 : (l.reverse[i + 1]?).any isWord = (decide (0 < l.length - 1 - i) && (l[l.length - 1 - i - 1]?).any isWord) := by
    by_cases hi : i + 1 < l.length
    · rw [List.getElem?_reverse hi]
      have e : l.length - 1 - (i + 1) = l.length - 1 - i - 1 := by omega
      have : 0 < l.length - 1 - i := by omega
      rw [e]; simp [this]
    · rw [List.getElem?_eq_none (by simp; omega)]
      have : ¬ 0 < l.length - 1 - i := by omega
      simp [this]
  have g2 : (decide (0 < i) && (l.reverse[i - 1]?).any isWord) = (l[l.length - 1 - i + 1]?).any isWord := by
    by_cases hi : 0 < i
    · rw [List.getElem?_reverse (by omega)]
      have e : l.length - 1 - (i - 1) = l.length - 1 - i + 1 := by omega
      rw [e]; simp [hi]
    · rw [List.getElem?_eq_none (l := l) (by omega)]
      simp [hi]
  rw [g1, g2, Bool.or_comm]

theorem separators_reverse (l : Bytes) : separators l.reverse = ((separators l).reverse).map (fun i => l.length - 1 - i) := by
  unfold separators
  rw [← List.filter_reverse]
  have e : (List.range l.length).reverse = (List.range l.length).map (fun i => l.length - 1 - i) := by
    rw [List.range_eq_range', List.reverse_range']
    simp [List.range_eq_range']
  rw [e, List.filter_map, List.map_map, List.length_reverse]
  have h1 : (List.range l.length).filter (sepAt l.reverse) = (List.range l.length).filter (sepAt l ∘ fun i => l.length - 1 - i) := by
    apply List.filter_congr
    intro i hi
    exact sepAt_reverse l i (by simpa using hi)
  rw [h1]
  have h2 : ∀ q : List Nat, (∀ i ∈ q, i < l.length) → q.map ((fun i => l.length - 1 - i) ∘ fun i => l.length - 1 - i) = q := by
    intro q hq
    induction q with
    | nil => rfl
    | cons a q ih =>
      simp only [List.map_cons, Function.comp]
      have ha := hq a (by simp)
      have : l.length - 1 - (l.length - 1 - a) = a := by omega
      rw [this]
      congr 1
      exact ih fun i hi => hq i (by simp [hi])
  rw [h2]
  intro i hi
  have := (List.mem_filter.1 hi).1
  simpa using this

theorem cuts_shift (l : Bytes) (k start : Nat) (ps : List Nat) (h : ∀ p ∈ ps, k ≤ p) :
    cuts l (start + k) ps = cuts (l.drop k) start (ps.map (· - k)) := by
  induction ps generalizing start with
  | nil => simp [cuts, Nat.add_comm]
  | cons p ps ih =>
    have hp := h p (by simp)
    simp only [cuts, List.map_cons]
    have e1 : l.drop (start + k) = (l.drop k).drop start := by rw [List.drop_drop, Nat.add_comm]
    have e2 : p - (start + k) = p - k - start := by omega
    have e3 : p + 1 = (p - k + 1) + k := by omega
    rw [e1, e2, e3, ih _ fun q hq => h q (by simp [hq])]

/-- ascending places inside a line of that length -/
def Ascending (bound : Nat) (ps : List Nat) : Prop := ps.Pairwise (· < ·) ∧ ∀ p ∈ ps, p < bound

theorem cuts_last (l : Bytes) (start : Nat) (ps : List Nat) (p : Nat) (h1 : (ps ++ [p]).Pairwise (· < ·)) (h2 : ∀ q ∈ ps ++ [p], start ≤ q) (hp : p < l.length) :
    cuts l start (ps ++ [p]) = cuts (l.take p) start ps ++ [l.drop (p + 1)] := by
  induction ps generalizing start with
  | nil =>
    simp only [List.nil_append, cuts, List.singleton_append]
    have : start ≤ p := h2 p (by simp)
    rw [← List.drop_take]
  | cons q ps ih =>
    simp only [List.cons_append, cuts]
    have hq := h2 q (by simp)
    rw [List.cons_append, List.pairwise_cons] at h1
    have hqp : q < p := h1.1 p (by simp)
    rw [ih (q + 1) h1.2 (fun x hx => h1.1 x hx)]
    congr 1
    rw [← List.drop_take, ← List.drop_take, List.take_take]
    congr 2
    omega

theorem reverse_induction {α : Type} {motive : List α → Prop} (nil : motive []) (append : ∀ l a, motive l → motive (l ++ [a])) (l : List α) : motive l := by
  have : ∀ l : List α, motive l.reverse := by
    intro l
    induction l with
    | nil => exact nil
    | cons a l ih => rw [List.reverse_cons]; exact append _ _ ih
  have h := this l.reverse
  rwa [List.reverse_reverse] at h

theorem cuts_reverse (ps : List Nat) : ∀ (l : Bytes), ps.Pairwise (· < ·) → (∀ p ∈ ps, p < l.length) →
    (cuts l.reverse 0 (ps.reverse.map (fun i => l.length - 1 - i))).reverse.map List.reverse = cuts l 0 ps := by
  induction ps using reverse_induction with
  | nil => intro l _ _; simp [cuts]
  | append ps p ih =>
    intro l h1 h2
    have hp := h2 p (by simp)
    rw [cuts_last l 0 ps p h1 (by simp) hp]
    have hlt : ∀ q ∈ ps, q < p := fun q hq => (List.pairwise_append.1 h1).2.2 q hq p (by simp)
    simp only [List.reverse_append, List.reverse_cons, List.reverse_nil, List.nil_append, List.singleton_append, List.map_cons, cuts]
    rw [List.map_append]
    congr 1
    · have hs := cuts_shift l.reverse (l.length - p) 0 (ps.reverse.map (fun i => l.length - 1 - i)) (by
        intro q hq
        obtain ⟨a, ha, rfl⟩ := List.mem_map.1 hq
        have := hlt a (by simpa using ha)
        omega)
      have e0 : l.length - 1 - p + 1 = 0 + (l.length - p) := by omega
      rw [e0, hs]
      have e1 : l.reverse.drop (l.length - p) = (l.take p).reverse := by
        rw [List.drop_reverse]
        have : l.length - (l.length - p) = p := by omega
        rw [this]
      have e2 : (ps.reverse.map (fun i => l.length - 1 - i)).map (fun x => x - (l.length - p)) = ps.reverse.map (fun i => (l.take p).length - 1 - i) := by
        rw [List.map_map]
        apply List.map_congr_left
        intro a ha
        have := hlt a (by simpa using ha)
        simp [Function.comp]
        omega
      rw [e1, e2]
      exact ih (l.take p) (List.pairwise_append.1 h1).1 (by intro q hq; have := hlt q hq; simp; omega)
    · simp only [List.drop_zero, Nat.sub_zero, List.map_cons, List.map_nil]
      rw [List.take_reverse, List.reverse_reverse]
      have : l.length - (l.length - 1 - p) = p + 1 := by omega
      rw [this]

theorem separators_ascending (l : Bytes) : (separators l).Pairwise (· < ·) ∧ ∀ p ∈ separators l, p < l.length := by
  constructor
  · exact List.Pairwise.filter _ List.pairwise_lt_range
  · intro p hp
    simpa using (List.mem_filter.1 hp).1

/-- splitting the reversed line -/
theorem splitScan_back (n : Nat) (l : Bytes) :
    (splitScan (some n) none l.reverse []).reverse.map List.reverse = cuts l 0 ((separators l).drop ((separators l).length - n)) := by
  rw [splitScan_all, separators_reverse]
  simp only [takeOpt]
  rw [← List.map_take, List.take_reverse]
  obtain ⟨h1, h2⟩ := separators_ascending l
  exact cuts_reverse _ l (List.Pairwise.sublist (List.drop_sublist _ _) h1) (fun p hp => h2 p (List.mem_of_mem_drop hp))

theorem rstripCRLF_eq (l : Bytes) : rstripCRLF l = withoutEnd l := by
  simp [rstripCRLF, withoutEnd, rstripP]

theorem headerValues_exact (names : List Bytes) (l : Bytes) (hn : names ≠ []) :
    ArcParser.parseHeaderList names l = match lineHeaders names l with | some hs => .ok hs | none => .error .typeError := by
  unfold ArcParser.parseHeaderList ArcParser.headerValues lineHeaders splitLine
  rw [rstripCRLF_eq]
  generalize withoutEnd l = x
  have h0 : arcSplit x 0 = cuts x 0 (separators x) := by
    simp only [arcSplit]; exact splitScan_all none x
  have hpl := cuts_length x 0
  simp only [h0, hpl]
  have hpos := List.length_pos_iff.2 hn
  by_cases heq : names.length = (separators x).length + 1
  · have hcond : ¬ ((separators x).length + 1 < names.length ∨ (names.length = 1 ∧ separators x ≠ [])) := by
      rintro (h | ⟨h, h2⟩)
      · omega
      · have := List.length_pos_iff.2 h2; omega
    have e1 : (separators x).length + 1 - names.length = 0 := by omega
    have e2 : (separators x).take (names.length - 1) = separators x := List.take_of_length_le (by omega)
    rw [if_neg (by omega), if_neg hcond, e1, e2]
    simp only [hpl, heq, ne_eq, not_true_eq_false, if_false, List.drop_zero, ite_self, Option.map_some]
  · rw [if_pos heq]
    obtain ⟨n0, nr, rfl⟩ : ∃ n0 nr, names = n0 :: nr := by cases names with
      | nil => exact absurd rfl hn
      | cons a b => exact ⟨a, b, rfl⟩
    have hnn : ¬ (((n0 :: nr).length : Int) - 1 < 0) := by simp only [List.length_cons] at *; omega
    by_cases h1 : nr = []
    · subst h1
      have hsep : separators x ≠ [] := by intro e; rw [e] at heq; simp at heq
      have hcond : ((separators x).length + 1 < [n0].length ∨ ([n0].length = 1 ∧ separators x ≠ [])) := Or.inr ⟨rfl, hsep⟩
      rw [if_pos hcond]
      have hz : (([n0].length : Int) - 1) = 0 := by simp
      have hl := List.length_pos_iff.2 hsep
      simp only [hz, h0]
      have h3 : (arcSplit x.reverse 0).length = (separators x).length + 1 := by
        have : arcSplit x.reverse 0 = splitScan none none x.reverse [] := by simp [arcSplit]
        rw [this, splitScan_all, cuts_length]; simp [takeOpt, separators_reverse]
      by_cases hu : n0 = AH.URL ∨ n0 = AH.CONTENT_TYPE
      · simp only [if_pos hu, List.length_map, List.length_reverse, h3]
        simp only [Option.map_none]
        rw [if_pos (by simp; omega)]
      · simp only [if_neg hu, hpl]
        simp only [Option.map_none]
        rw [if_pos (by simp; omega)]
    · have hr := List.length_pos_iff.2 h1
      have hz : ¬ (((n0 :: nr).length : Int) - 1 = 0) := by simp only [List.length_cons]; omega
      have ht : (((n0 :: nr).length : Int) - 1).toNat = nr.length := by simp
      have hsp : ∀ y, arcSplit y (((n0 :: nr).length : Int) - 1) = splitScan (some nr.length) none y [] := by
        intro y; rw [arcSplit, if_neg hnn, if_neg hz, ht]
      simp only [hsp]
      have hcond : ((separators x).length + 1 < (n0 :: nr).length ∨ ((n0 :: nr).length = 1 ∧ separators x ≠ [])) ↔ (separators x).length < nr.length := by
        simp only [List.length_cons]; constructor
        · rintro (h | ⟨h, _⟩) <;> omega
        · intro h; left; omega
      have hhead : (List.head? (n0 :: nr) = some (b! "URL") ∨ List.head? (n0 :: nr) = some (b! "Content-type")) ↔ (n0 = AH.URL ∨ n0 = AH.CONTENT_TYPE) := by
        simp [AH.URL, AH.CONTENT_TYPE]
      have hdl : (separators x).length + 1 - (n0 :: nr).length = (separators x).length - nr.length := by simp
      by_cases hu : n0 = AH.URL ∨ n0 = AH.CONTENT_TYPE
      · have hd : decide (List.head? (n0 :: nr) = some (b! "URL") ∨ List.head? (n0 :: nr) = some (b! "Content-type")) = true := by
          rw [decide_eq_true_eq]; exact hhead.2 hu
        rw [hd]
        simp only [if_pos hu, splitScan_back, hpl, List.length_drop]
        by_cases hc : (separators x).length < nr.length
        · rw [if_pos (hcond.2 hc)]
          simp only [Option.map_none]
          rw [if_pos (by simp only [List.length_cons]; omega)]
        · rw [if_neg (fun q => hc (hcond.1 q))]
          simp only [Option.map_some, if_true, hdl]
          rw [if_neg (by simp only [List.length_cons]; omega)]
      · have hd : decide (List.head? (n0 :: nr) = some (b! "URL") ∨ List.head? (n0 :: nr) = some (b! "Content-type")) = false := by
          rw [decide_eq_false_iff_not]; exact fun q => hu (hhead.1 q)
        rw [hd]
        simp only [if_neg hu, splitScan_all, takeOpt, hpl, List.length_take]
        by_cases hc : (separators x).length < nr.length
        · rw [if_pos (hcond.2 hc)]
          simp only [Option.map_none]
          rw [if_pos (by simp only [List.length_cons]; omega)]
        · rw [if_neg (fun q => hc (hcond.1 q))]
          simp only [Option.map_some]
          rw [if_neg (by simp only [List.length_cons]; omega)]
          simp

end Warc
