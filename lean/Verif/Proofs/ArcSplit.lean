import Verif.Proofs.Inv
import Verif.Spec.Arc
/-
  The splitting of ARC header lines.
-/
set_option linter.all false
namespace Warc
open Rx Stream Spec

theorem ws_not_word {c : Byte} (h : isWs c = true) : isWord c = false := by
  rcases isWs_cases h with rfl | rfl | rfl | rfl | rfl | rfl <;> decide

/-- white space with a word character on either side -/
theorem splitAt_isSome (prev : Option Byte) (c : Byte) (cs : Bytes) :
    (splitAt? prev (c :: cs)).isSome = (isWs c && (wordAt prev || wordAt cs.head?)) := by
  simp only [splitAt?, splitRx, m]
  cases hc : isWs c with
  | false =>
    cases h1 : wordAt prev <;> simp [hc]
  | true =>
    have hw := ws_not_word hc
    have hwc : wordAt (some c) = false := hw
    simp only [List.head?_cons, hwc]
    cases h1 : wordAt prev <;> cases h2 : wordAt cs.head? <;> simp [hc]

theorem splitScan_cons (n : Option Nat) (prev : Option Byte) (c : Byte) (cs cur : Bytes) :
    splitScan n prev (c :: cs) cur =
      if n ≠ some 0 ∧ isWs c = true ∧ (wordAt prev = true ∨ wordAt cs.head? = true) then
        cur.reverse :: splitScan (n.map (· - 1)) (some c) cs []
      else splitScan n (some c) cs (c :: cur) := by
  rw [splitScan, splitAt_isSome]
  simp only [Bool.and_eq_true, Bool.or_eq_true]

/-- the pieces do not depend on what was collected before, except for the first one -/
theorem splitScan_cur (n : Option Nat) (prev : Option Byte) (x cur : Bytes) :
    ∃ p ps, splitScan n prev x [] = p :: ps ∧ splitScan n prev x cur = (cur.reverse ++ p) :: ps := by
  induction x generalizing n prev cur with
  | nil => exact ⟨[], [], by simp [splitScan], by simp [splitScan]⟩
  | cons c cs ih =>
    rw [splitScan_cons, splitScan_cons]
    split
    · exact ⟨[], _, rfl, by simp⟩
    · obtain ⟨p, ps, h1, h2⟩ := ih n (some c) [c]
      obtain ⟨p', ps', h1', h2'⟩ := ih n (some c) (c :: cur)
      rw [h1] at h1'
      simp only [List.cons.injEq] at h1'
      obtain ⟨rfl, rfl⟩ := h1'
      exact ⟨_, _, h2, by rw [h2']; simp⟩

theorem splitScan_done (prev : Option Byte) (x cur : Bytes) : splitScan (some 0) prev x cur = [cur.reverse ++ x] := by
  induction x generalizing prev cur with
  | nil => simp [splitScan]
  | cons c cs ih => rw [splitScan_cons, if_neg (by simp), ih]; simp

/-- a run without white space is not split -/
theorem splitScan_run (n : Option Nat) (prev : Option Byte) (p q cur : Bytes) (hp : ∀ c ∈ p, isWs c = false) :
    splitScan n prev (p ++ q) cur = splitScan n (if p = [] then prev else p.getLast?) q (p.reverse ++ cur) := by
  induction p generalizing prev cur with
  | nil => simp
  | cons c p ih =>
    have hc : isWs c = false := hp c (by simp)
    rw [List.cons_append, splitScan_cons, if_neg (by simp [hc]), ih (some c) (c :: cur) (fun x hx => hp x (by simp [hx]))]
    cases p with
    | nil => simp
    | cons d p => simp [List.getLast?_cons_cons]

/-- a recognised separator -/
theorem splitScan_sep (n : Option Nat) (hn : n ≠ some 0) (prev : Option Byte) (p q cur : Bytes) (hp : ∀ c ∈ p, isWs c = false)
    (hs : wordAt (if p = [] then prev else p.getLast?) = true ∨ wordAt q.head? = true) :
    splitScan n prev (p ++ 32 :: q) cur = (cur.reverse ++ p) :: splitScan (n.map (· - 1)) (some 32) q [] := by
  rw [splitScan_run n prev p _ cur hp, splitScan_cons, if_pos ⟨hn, by decide, hs⟩]
  simp

theorem sep_word {p q : Bytes} {prev : Option Byte} (h : Sep p q) (hprev : wordAt prev = false ∨ p ≠ []) :
    wordAt (if p = [] then prev else p.getLast?) = true ∨ wordAt q.head? = true := by
  rcases h with ⟨c, h1, h2⟩ | ⟨c, h1, h2⟩
  · left
    rw [if_neg (by rintro rfl; simp at h1), h1]; exact h2
  · right; rw [h1]; exact h2

theorem join_head (q : Bytes) (rest : List Bytes) (r : Bytes) (h : wordAt q.head? = true) :
    wordAt (join [32] (q :: rest) ++ r).head? = true := by
  cases q with
  | nil => simp [wordAt] at h
  | cons c cs =>
    cases rest with
    | nil => simpa [join] using h
    | cons a b => simpa [join] using h

/-- splitting joined values, without limit -/
theorem splitScan_join (values : List Bytes) (hne : values ≠ []) (hws : ∀ v ∈ values, ∀ c ∈ v, isWs c = false)
    (hsep : Separated values) (prev : Option Byte) (hprev : wordAt prev = false) :
    splitScan none prev (join [32] values) [] = values := by
  induction values generalizing prev with
  | nil => exact absurd rfl hne
  | cons p rest ih =>
    cases rest with
    | nil =>
      have := splitScan_run none prev p [] [] (hws p (by simp))
      simp only [List.append_nil] at this
      simp [join, this, splitScan]
    | cons q rest =>
      have e : join [32] (p :: q :: rest) = p ++ 32 :: join [32] (q :: rest) := by simp [join]
      have hs : wordAt (if p = [] then prev else p.getLast?) = true ∨ wordAt (join [32] (q :: rest)).head? = true := by
        rcases sep_word hsep.1 (Or.inl hprev) with h | h
        · exact Or.inl h
        · right; simpa using join_head q rest [] h
      rw [e, splitScan_sep none (by simp) prev p _ [] (hws p (by simp)) hs]
      simp only [Option.map_none, List.reverse_nil, List.nil_append]
      rw [ih (by simp) (fun v hv => hws v (by simp [hv])) hsep.2 (some 32) (by decide)]

/-- splitting off as many values as allowed, leaving the rest alone -/
theorem splitScan_limit (values : List Bytes) (r : Bytes) (hws : ∀ v ∈ values, ∀ c ∈ v, isWs c = false)
    (hsep : Separated (values ++ [r])) (prev : Option Byte) (hprev : wordAt prev = false) :
    splitScan (some values.length) prev (join [32] (values ++ [r])) [] = values ++ [r] := by
  induction values generalizing prev with
  | nil => simp [join, splitScan_done]
  | cons p rest ih =>
    obtain ⟨q, more, hq⟩ : ∃ q more, rest ++ [r] = q :: more := by
      cases rest with
      | nil => exact ⟨r, [], rfl⟩
      | cons a b => exact ⟨a, b ++ [r], rfl⟩
    have e : join [32] ((p :: rest) ++ [r]) = p ++ 32 :: join [32] (rest ++ [r]) := by
      simp [hq, join]
    have hsep' : Sep p q ∧ Separated (q :: more) := by
      rw [List.cons_append, hq] at hsep; exact hsep
    have hs : wordAt (if p = [] then prev else p.getLast?) = true ∨ wordAt (join [32] (rest ++ [r])).head? = true := by
      rcases sep_word hsep'.1 (Or.inl hprev) with h | h
      · exact Or.inl h
      · right; rw [hq]; simpa using join_head q more [] h
    rw [e, splitScan_sep _ (by simp) prev p _ [] (hws p (by simp)) hs]
    have : (some (p :: rest).length).map (· - 1) = some rest.length := by simp
    rw [this, ih (fun v hv => hws v (by simp [hv])) (by rw [hq]; exact hsep'.2) (some 32) (by decide)]
    simp

/-- without limit, a first part is split on its own -/
theorem splitScan_first (x q : Bytes) (prev : Option Byte) (cur : Bytes)
    (hs : wordAt (if x = [] then prev else x.getLast?) = true ∨ wordAt q.head? = true) :
    splitScan none prev (x ++ 32 :: q) cur = splitScan none prev x cur ++ splitScan none (some 32) q [] := by
  induction x generalizing prev cur with
  | nil =>
    rw [List.nil_append, splitScan_cons, if_pos ⟨by simp, by decide, by simpa using hs⟩]
    simp [splitScan]
  | cons c x ih =>
    have hs' : wordAt (if x = [] then some c else x.getLast?) = true ∨ wordAt q.head? = true := by
      cases x with
      | nil => simpa using hs
      | cons d x => simpa [List.getLast?_cons_cons] using hs
    have hh : wordAt (x ++ 32 :: q).head? = wordAt x.head? := by
      cases x with
      | nil => simp [wordAt, isWord]
      | cons d x => simp
    rw [List.cons_append, splitScan_cons, splitScan_cons, hh]
    split
    · simp only [Option.map_none]; rw [ih _ _ hs']; simp
    · rw [ih _ _ hs']

theorem join_concat (l : List Bytes) (h : l ≠ []) (x : Bytes) : join [32] (l ++ [x]) = join [32] l ++ 32 :: x := by
  induction l with
  | nil => exact absurd rfl h
  | cons a l ih =>
    cases l with
    | nil => simp [join]
    | cons b l =>
      have := ih (by simp)
      simp only [List.cons_append] at this ⊢
      simp [join, this]

theorem join_reverse (l : List Bytes) : (join [32] l).reverse = join [32] (l.map List.reverse).reverse := by
  induction l with
  | nil => simp [join]
  | cons a l ih =>
    cases l with
    | nil => simp [join]
    | cons b l =>
      have e : join [32] (a :: b :: l) = a ++ 32 :: join [32] (b :: l) := by simp [join]
      rw [e, List.map_cons, List.reverse_cons, join_concat _ (by simp)]
      rw [← ih]
      simp

theorem sep_reverse {p q : Bytes} (h : Sep p q) : Sep q.reverse p.reverse := by
  rcases h with ⟨c, h1, h2⟩ | ⟨c, h1, h2⟩
  · exact Or.inr ⟨c, by simpa using h1, h2⟩
  · exact Or.inl ⟨c, by simpa using h1, h2⟩

theorem separated_concat (l : List Bytes) (q p : Bytes) (h : Separated (l ++ [q])) (hs : Sep q p) :
    Separated (l ++ [q, p]) := by
  induction l with
  | nil => exact ⟨hs, trivial⟩
  | cons a l ih =>
    cases l with
    | nil => exact ⟨h.1, hs, trivial⟩
    | cons b l => exact ⟨h.1, ih h.2⟩

theorem separated_reverse (l : List Bytes) (h : Separated l) : Separated (l.map List.reverse).reverse := by
  induction l with
  | nil => trivial
  | cons a l ih =>
    cases l with
    | nil => trivial
    | cons b l =>
      have := ih h.2
      rw [List.map_cons, List.reverse_cons, List.map_cons, List.reverse_cons, List.append_assoc]
      rw [List.map_cons, List.reverse_cons] at this
      exact separated_concat _ _ _ this (sep_reverse h.1)

theorem separated_tail {p : Bytes} {l : List Bytes} (h : Separated (p :: l)) : Separated l := by
  cases l with
  | nil => trivial
  | cons b l => exact h.2

/-- the last byte of joined values is not a line end -/
theorem join_last (values : List Bytes) (hws : ∀ v ∈ values.tail, ∀ c ∈ v, isWs c = false)
    (h1 : ∀ v, values = [v] → ∀ c ∈ v, isWs c = false) :
    ∀ c, (join [32] values).getLast? = some c → ¬ (c = 13 ∨ c = 10) := by
  induction values with
  | nil => simp [join]
  | cons p rest ih =>
    intro c hc
    cases rest with
    | nil =>
      have := h1 p rfl c (by simpa [join] using List.mem_of_getLast? hc)
      rintro (rfl | rfl) <;> simp [isWs] at this
    | cons q rest =>
      have e : join [32] (p :: q :: rest) = p ++ 32 :: join [32] (q :: rest) := by simp [join]
      rw [e, List.getLast?_append] at hc
      cases hj : join [32] (q :: rest) with
      | nil =>
        simp [hj] at hc; subst hc; decide
      | cons d ds =>
        rw [hj, List.getLast?_cons_cons] at hc
        apply ih (fun v hv => hws v (by simpa using List.mem_of_mem_tail hv))
          (fun v hv => by
            simp only [List.cons.injEq] at hv
            exact hws v (by simp [hv.1]))
        rw [hj]
        cases hd : (d :: ds).getLast? with
        | none => simp at hd
        | some y => simp [hd] at hc; rw [hc]

theorem rstripCRLF_line (values : List Bytes) (hws : ∀ v ∈ values.tail, ∀ c ∈ v, isWs c = false)
    (h1 : ∀ v, values = [v] → ∀ c ∈ v, isWs c = false) :
    rstripCRLF (arcLine values) = join [32] values := by
  rw [rstripCRLF, arcLine, rstripP_append _ _ (by simp)]
  apply rstripP_eq_self
  intro c hc
  have := join_last values hws h1 c hc
  simpa using this

/-- **the header values of a well formed line** -/
theorem headerValues_line (names values : List Bytes) (h : FieldsOk names values) (hn : names ≠ []) :
    ArcParser.headerValues names (arcLine values) = .ok values := by
  have hvne : values ≠ [] := by
    intro e; have := h.count; rw [e] at this; simp at this; exact hn (List.eq_nil_of_length_eq_zero this.symm)
  have h1 : ∀ v, values = [v] → ∀ c ∈ v, isWs c = false := by
    intro v hv
    rcases h.first v (by simp [hv]) with h1 | ⟨_, h2, _⟩
    · exact h1
    · rw [← h.count, hv] at h2; simp at h2
  have hline := rstripCRLF_line values h.rest h1
  simp only [ArcParser.headerValues, hline]
  have hfirst0 : ∃ v0 vs, values = v0 :: vs := by
    cases values with
    | nil => exact absurd rfl hvne
    | cons a b => exact ⟨a, b, rfl⟩
  obtain ⟨v0, vs, rfl⟩ := hfirst0
  by_cases hv0 : ∀ c ∈ v0, isWs c = false
  · have hall : ∀ v ∈ v0 :: vs, ∀ c ∈ v, isWs c = false := by
      intro v hv
      rcases List.mem_cons.1 hv with rfl | hv
      · exact hv0
      · exact h.rest v (by simpa using hv)
    have hsplit : arcSplit (join [32] (v0 :: vs)) 0 = v0 :: vs := by
      simp only [arcSplit]
      exact splitScan_join _ (by simp) hall h.sep none (by decide)
    rw [hsplit]
    rw [if_neg (by simp [← h.count])]
  · rcases h.first v0 rfl with hf | ⟨h10, h2, hurl⟩
    · exact absurd hf hv0
    · obtain ⟨v1, ws, rfl⟩ : ∃ v1 ws, vs = v1 :: ws := by
        cases vs with
        | nil => rw [← h.count] at h2; simp at h2
        | cons a b => exact ⟨a, b, rfl⟩
      have e : join [32] (v0 :: v1 :: ws) = v0 ++ 32 :: join [32] (v1 :: ws) := by simp [join]
      have hs : wordAt (if v0 = [] then none else v0.getLast?) = true ∨ wordAt (join [32] (v1 :: ws)).head? = true := by
        rcases sep_word (prev := none) h.sep.1 (Or.inl (by decide)) with hh | hh
        · exact Or.inl hh
        · right; simpa using join_head v1 ws [] hh
      have hsplit : arcSplit (join [32] (v0 :: v1 :: ws)) 0 = splitScan none none v0 [] ++ (v1 :: ws) := by
        simp only [arcSplit]
        rw [e]
        show splitScan none none _ [] = _
        rw [splitScan_first _ _ _ _ hs]
        rw [splitScan_join (v1 :: ws) (by simp) (fun v hv => h.rest v (by simpa using hv)) h.sep.2 (some 32) (by decide)]
      obtain ⟨n0, ns, hnames⟩ : ∃ n0 ns, names = n0 :: ns := by
        cases names with
        | nil => exact absurd rfl hn
        | cons a b => exact ⟨a, b, rfl⟩
      have hn0 : n0 = AH.URL ∨ n0 = AH.CONTENT_TYPE := by
        rw [hnames] at hurl
        simpa [AH.URL, AH.CONTENT_TYPE] using hurl
      have hcount := h.count
      rw [hsplit]
      by_cases hlen : names.length ≠ (splitScan none none v0 [] ++ (v1 :: ws)).length
      · rw [if_pos hlen, hnames]
        simp only [hn0, if_true]
        rw [← hnames, ← hcount]
        have hm : ((v0 :: v1 :: ws).length : Int) - 1 = ((v1 :: ws).length : Nat) := by simp
        rw [hm]
        have hrev : (join [32] (v0 :: v1 :: ws)).reverse =
            join [32] (((v1 :: ws).map List.reverse).reverse ++ [v0.reverse]) := by
          rw [join_reverse]; simp
        rw [hrev, arcSplit, if_neg (by omega), if_neg (by simp; omega)]
        have hl : ((v1 :: ws).length : Int).toNat = (((v1 :: ws).map List.reverse).reverse).length := by simp
        rw [hl]
        rw [splitScan_limit]
        · congr 1
          simp [List.map_reverse, Function.comp_def]
        · intro v hv c hc
          simp only [List.mem_reverse, List.mem_map] at hv
          obtain ⟨w, hw, rfl⟩ := hv
          exact h.rest w (by simpa using hw) c (by simpa using hc)
        · have := separated_reverse _ h.sep
          simpa using this
        · decide
      · rw [if_neg hlen]
        -- the first value is one piece
        obtain ⟨p, ps, hp1, _⟩ := splitScan_cur none none v0 []
        have hps : ps = [] := by
          rw [hp1] at hlen
          simp only [ne_eq, Decidable.not_not] at hlen
          rw [← hcount] at hlen
          simp only [List.length_cons, List.length_append] at hlen
          exact List.eq_nil_of_length_eq_zero (by omega)
        have hp : p = v0 := by
          have hall : ∀ (x : Bytes) (prev : Option Byte) (cur p : Bytes), splitScan none prev x cur = [p] → p = cur.reverse ++ x := by
            intro x
            induction x with
            | nil => intro prev cur p hh; simp [splitScan] at hh; simp [hh]
            | cons c cs ihx =>
              intro prev cur p hh
              rw [splitScan_cons] at hh
              split at hh
              · exfalso
                obtain ⟨p', ps', h3, _⟩ := splitScan_cur ((none : Option Nat).map (· - 1)) (some c) cs []
                rw [h3] at hh
                simp at hh
              · rw [ihx _ _ _ hh]; simp
          have := hall v0 none [] p (by rw [hp1, hps])
          simpa using this
        rw [hp1, hps, hp]
        simp

theorem parseHeaderList_line (names values : List Bytes) (h : FieldsOk names values) (hn : names ≠ []) :
    ArcParser.parseHeaderList names (arcLine values) = .ok (names.zip values) := by
  rw [ArcParser.parseHeaderList, headerValues_line names values h hn]
  simp [h.count]

end Warc
