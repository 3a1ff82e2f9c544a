import Verif.Model.ReadRecord
/-
  Closed forms of the regular expressions, proved from the backtracking matcher.
-/
set_option linter.all false
namespace Warc
open Rx

/-! ### generic star lemmas -/

theorem starGM_none {α : Type} {p : Byte → Bool} {caps} {k : MSt → Option α}
    (h : ∀ prev r, k ⟨prev, r, caps⟩ = none) : ∀ prev r, starGM p caps k prev r = none := by
  intro prev r
  induction r generalizing prev with
  | nil => simp [starGM, h]
  | cons c cs ih => simp [starGM, h, ih]

/-- A greedy star swallows a whole run when the continuation then succeeds. -/
theorem starGM_run {α : Type} {p : Byte → Bool} {caps} {k : MSt → Option α} {x : α}
    (w r : Bytes) (prev : Option Byte) (hw : ∀ c ∈ w, p c = true)
    (hr : ∀ c cs, r = c :: cs → p c = false)
    (hk : k ⟨(w.getLast?).or prev, r, caps⟩ = some x) :
    starGM p caps k prev (w ++ r) = some x := by
  induction w generalizing prev with
  | nil =>
    cases r with
    | nil => simpa [starGM] using hk
    | cons c cs => simp [starGM, hr c cs rfl]; simpa using hk
  | cons c cs ih =>
    have h1 : starGM p caps k (some c) (cs ++ r) = some x := by
      apply ih
      · intro d hd; exact hw d (by simp [hd])
      · rw [← hk]; congr 2
        cases cs <;> simp [List.getLast?_cons]
    simp [starGM, hw c (by simp), h1]

/-! ### newline group followed by the end -/

/-- `(?P<nl>\r\n|\r|\n)\Z` followed by `k`. -/
theorem nlEnd {α : Type} (st : MSt) (k : MSt → Option α) :
    m nlGroup st (fun st' => m eos st' k) =
      if st.rest = CRLF then k ⟨some 10, [], (.nl, CRLF) :: st.caps⟩
      else if st.rest = [13] then k ⟨some 13, [], (.nl, [13]) :: st.caps⟩
      else if st.rest = [10] then k ⟨some 10, [], (.nl, [10]) :: st.caps⟩
      else none := by
  obtain ⟨prev, rest, caps⟩ := st
  match rest with
  | [] => simp [nlGroup, m, str, seqs, lit, CRLF]
  | [a] =>
    simp only [nlGroup, m, str, seqs, lit, List.map]
    by_cases h13 : a = 13
    · subst h13; simp
      cases k ⟨some 13, [], (.nl, [13]) :: caps⟩ <;> rfl
    · by_cases h10 : a = 10
      · subst h10; simp
      · simp [h13, h10]
  | a :: b :: t =>
    simp only [nlGroup, m, str, seqs, lit, List.map]
    by_cases h13 : a = 13
    · subst h13
      by_cases hb : b = 10
      · subst hb
        cases t with
        | nil =>
          simp
          cases k ⟨some 10, [], (.nl, [13, 10]) :: caps⟩ <;> rfl
        | cons => simp
      · simp [hb]
    · by_cases h10 : a = 10
      · subst h10; simp
      · simp [h13, h10]

/-- Split a line into its text and its final newline (`\r\n`, `\r` or `\n`), choosing the earliest
possible end of the text.  The text contains no `\n`. -/
def chomp : Bytes → Option (Bytes × Bytes)
  | [] => none
  | c :: cs =>
    if c :: cs = CRLF then some ([], CRLF)
    else if c :: cs = [13] then some ([], [13])
    else if c :: cs = [10] then some ([], [10])
    else if c = 10 then none
    else match chomp cs with
      | some (v, nl) => some (c :: v, nl)
      | none => none

theorem chomp_append {x v nl : Bytes} (h : chomp x = some (v, nl)) : x = v ++ nl := by
  induction x generalizing v with
  | nil => simp [chomp] at h
  | cons c cs ih =>
    unfold chomp at h
    split at h
    · simp only [Option.some.injEq, Prod.mk.injEq] at h; obtain ⟨rfl, rfl⟩ := h; rw [List.nil_append]; assumption
    · split at h
      · simp only [Option.some.injEq, Prod.mk.injEq] at h; obtain ⟨rfl, rfl⟩ := h; rw [List.nil_append]; assumption
      · split at h
        · simp only [Option.some.injEq, Prod.mk.injEq] at h; obtain ⟨rfl, rfl⟩ := h; rw [List.nil_append]; assumption
        · split at h
          · simp at h
          · split at h
            · rename_i v' nl' hc
              simp only [Option.some.injEq, Prod.mk.injEq] at h; obtain ⟨rfl, rfl⟩ := h
              simp [ih hc]
            · simp at h

theorem chomp_nl {x v nl : Bytes} (h : chomp x = some (v, nl)) :
    nl = CRLF ∨ nl = [13] ∨ nl = [10] := by
  induction x generalizing v with
  | nil => simp [chomp] at h
  | cons c cs ih =>
    unfold chomp at h
    repeat' split at h
    all_goals first
      | (simp only [Option.some.injEq, Prod.mk.injEq] at h; obtain ⟨rfl, rfl⟩ := h; simp; done)
      | (simp at h; done)
      | skip
    rename_i v' nl' hc
    simp only [Option.some.injEq, Prod.mk.injEq] at h; obtain ⟨rfl, rfl⟩ := h
    exact ih hc

theorem chomp_noLF {x v nl : Bytes} (h : chomp x = some (v, nl)) : 10 ∉ v := by
  induction x generalizing v with
  | nil => simp [chomp] at h
  | cons c cs ih =>
    unfold chomp at h
    repeat' split at h
    all_goals first
      | (simp only [Option.some.injEq, Prod.mk.injEq] at h; obtain ⟨rfl, rfl⟩ := h; simp; done)
      | (simp at h; done)
      | skip
    rename_i h10 _ v' nl' hc
    simp only [Option.some.injEq, Prod.mk.injEq] at h; obtain ⟨rfl, rfl⟩ := h
    simp only [List.mem_cons, not_or]
    exact ⟨fun h => h10 h.symm, ih hc⟩

/-- A text without newline followed by CRLF. -/
theorem chomp_crlf (v : Bytes) (h : 10 ∉ v) : chomp (v ++ CRLF) = some (v, CRLF) := by
  induction v with
  | nil => simp [chomp, CRLF]
  | cons c cs ih =>
    simp only [List.mem_cons, not_or] at h
    have h2 : c ≠ 10 := fun e => h.1 e.symm
    simp only [List.cons_append]
    rw [chomp, ih h.2]
    have : ∀ y, c :: (cs ++ CRLF) ≠ [y] := by intro y; simp [CRLF]
    have h3 : c :: (cs ++ CRLF) ≠ CRLF := by
      intro e
      have := congrArg List.length e
      simp [CRLF] at this
    simp [this, h3, h2]

/-- A text without newline, not ending in CR, followed by LF. -/
theorem chomp_lf (v : Bytes) (h : 10 ∉ v) (h13 : v.getLast? ≠ some 13) :
    chomp (v ++ [10]) = some (v, [10]) := by
  induction v with
  | nil => simp [chomp, CRLF]
  | cons c cs ih =>
    simp only [List.mem_cons, not_or] at h
    have h2 : c ≠ 10 := fun e => h.1 e.symm
    have hcs : cs.getLast? ≠ some 13 := by
      intro e; apply h13
      cases cs with
      | nil => simp at e
      | cons d ds => simpa [List.getLast?_cons_cons] using e
    simp only [List.cons_append]
    rw [chomp, ih h.2 hcs]
    have : ∀ y, c :: (cs ++ [10]) ≠ [y] := by intro y; simp
    have h3 : c :: (cs ++ [10]) ≠ CRLF := by
      intro e
      simp only [CRLF, List.cons.injEq] at e
      obtain ⟨rfl, e⟩ := e
      cases cs with
      | nil => simp at h13
      | cons d ds =>
        have := congrArg List.length e
        simp at this
    simp [this, h3, h2]

/-- case distinction on the three newline forms -/
def nlCases {α : Type} (r : Bytes) (F : Bytes → Option α) : Option α :=
  if r = CRLF then F CRLF else if r = [13] then F [13] else if r = [10] then F [10] else none

/-- `.*?` followed by something that only succeeds right before a final newline. -/
theorem lazyDot_nl {α : Type} {caps} {K : MSt → Option α} {F : Bytes → Option α}
    (hK : ∀ prev r, K ⟨prev, r, caps⟩ = nlCases r F) (hF : ∀ nl, (F nl).isSome) (prev x) :
    starLM isDot caps K prev x = (chomp x).bind fun p => F p.2 := by
  induction x generalizing prev with
  | nil => simp [starLM, hK, nlCases, chomp, CRLF]
  | cons c cs ih =>
    rw [starLM, chomp, hK, nlCases]
    by_cases h1 : c :: cs = CRLF
    · obtain ⟨y, hy⟩ := Option.isSome_iff_exists.1 (hF CRLF)
      simp [h1, hy]
    · by_cases h2 : c :: cs = [13]
      · obtain ⟨y, hy⟩ := Option.isSome_iff_exists.1 (hF [13])
        simp [h2, hy]
      · by_cases h3 : c :: cs = [10]
        · obtain ⟨y, hy⟩ := Option.isSome_iff_exists.1 (hF [10])
          simp [h3, hy]
        · simp only [h1, h2, h3, if_false]
          by_cases h4 : c = 10
          · simp [h4, isDot]
          · have : isDot c = true := by simp [isDot, h4]
            simp only [this, if_true, if_neg h4]
            rw [ih]
            cases hc : chomp cs <;> simp

/-! ### `header_rx` -/

/-- final continuation of `pmatch` -/
abbrev kEnd : MSt → Option Match := fun st => some ⟨st.caps, st.rest⟩

/-- `(?P<g>.*?)(?P<nl>...)\Z` -/
theorem lazyGroup_nlEnd (g : Grp) (prev : Option Byte) (r : Bytes) (caps) :
    m (seqs [group g (starL isDot), nlGroup, eos]) ⟨prev, r, caps⟩ kEnd =
      (chomp r).map fun p => ⟨(.nl, p.2) :: (g, p.1) :: caps, []⟩ := by
  simp only [seqs, m]
  rw [lazyDot_nl (F := fun nl => some ⟨(.nl, nl) :: (g, r.take (r.length - nl.length)) :: caps, []⟩)]
  · cases hc : chomp r with
    | none => rfl
    | some p =>
      obtain ⟨v, nl⟩ := p
      have := chomp_append hc
      simp [this]
  · intro prev r'
    have := nlEnd (α := Match) ⟨prev, r', (g, r.take (r.length - r'.length)) :: caps⟩ kEnd
    simp only [m] at this
    rw [this]
    unfold nlCases
    by_cases h1 : r' = CRLF
    · simp [h1]
    · by_cases h2 : r' = [13]
      · simp [h2, CRLF]
      · by_cases h3 : r' = [10]
        · simp [h3, CRLF]
        · simp [h1, h2, h3]
  · intro nl; rfl

/-- what may follow the colon of a header line: (value, newline) -/
def afterColon : Bytes → Option (Bytes × Bytes)
  | [] => none
  | c :: cs =>
    if isWs c then
      match chomp cs with
      | some p => some p
      | none => chomp (c :: cs)
    else chomp (c :: cs)

/-- closed form of `header_rx`: (name, value, newline) -/
def hspec : Bytes → Option (Bytes × Bytes × Bytes)
  | [] => none
  | c :: cs =>
    match (if c = 58 then afterColon cs else none) with
    | some (v, nl) => some ([], v, nl)
    | none => if c = 10 then none else (hspec cs).map fun (n, v, nl) => (c :: n, v, nl)

theorem colonPart (prev : Option Byte) (x : Bytes) (caps) :
    m (seqs [lit 58, opt (cls isWs), group .value (starL isDot), nlGroup, eos]) ⟨prev, x, caps⟩ kEnd =
      match x with
      | [] => none
      | c :: cs => if c = 58 then
          (afterColon cs).map fun p => ⟨(.nl, p.2) :: (.value, p.1) :: caps, []⟩ else none := by
  have key : ∀ prev r, m (group .value (starL isDot)) ⟨prev, r, caps⟩
      (fun st' => m nlGroup st' fun st' => m eos st' kEnd) =
      (chomp r).map fun p => ⟨(.nl, p.2) :: (.value, p.1) :: caps, []⟩ := fun prev r =>
    lazyGroup_nlEnd .value prev r caps
  cases x with
  | nil => simp [seqs, m, lit]
  | cons c cs =>
    by_cases hc : c = 58
    · subst hc
      simp only [seqs, m, lit, opt, beq_self_eq_true, if_true] at key ⊢
      cases cs with
      | nil => simp only [key]; simp [afterColon, chomp]
      | cons d ds =>
        simp only [key, afterColon]
        by_cases hd : isWs d = true
        · simp only [hd, if_true]
          cases chomp ds <;> simp
        · simp [hd]
    · simp [seqs, m, lit, hc]

theorem pmatch_headerRx (line : Bytes) :
    pmatch headerRx line =
      (hspec line).map fun (n, v, nl) => ⟨[(.nl, nl), (.value, v), (.name, n)], []⟩ := by
  have main : ∀ (x pre : Bytes) (prev : Option Byte), line = pre ++ x →
      starLM isDot ([] : List (Grp × Bytes)) (fun st => m (seqs [lit 58, opt (cls isWs), group .value (starL isDot), nlGroup, eos])
        { st with caps := (.name, line.take (line.length - st.rest.length)) :: st.caps } kEnd) prev x =
      (hspec x).map fun (n, v, nl) => ⟨[(.nl, nl), (.value, v), (.name, pre ++ n)], []⟩ := by
    intro x
    induction x with
    | nil => intro pre prev _; simp only [starLM, colonPart]; simp [hspec]
    | cons c cs ih =>
      intro pre prev hl
      have hlen : line.take (line.length - (c :: cs).length) = pre := by subst hl; simp
      rw [starLM]
      simp only [colonPart, hlen]
      rw [hspec]
      by_cases hc : c = 58
      · subst hc
        simp only [if_true]
        cases ha : afterColon cs with
        | some p => simp
        | none =>
          have h := ih (pre ++ [58]) (some 58) (by simp [hl])
          simp only [colonPart] at h
          simp only [Option.map_none, isDot]
          have h58 : ((58 : UInt8) != 10) = true := by decide
          simp only [h58, if_true]
          rw [h]
          simp only [show ((58:UInt8) = 10) = False from by decide, if_false]
          cases hspec cs <;> simp
      · simp only [hc, if_false]
        by_cases h10 : c = 10
        · simp [h10, isDot]
        · have h := ih (pre ++ [c]) (some c) (by simp [hl])
          simp only [colonPart] at h
          have hd : isDot c = true := by simp [isDot, h10]
          simp only [hd, if_true, h10, if_false]
          rw [h]
          cases hspec cs <;> simp
  have := main line [] none rfl
  simp only [List.nil_append] at this
  rw [← this]
  simp only [pmatch, headerRx, seqs, m, if_true]

/-! ### literals and `version_rx` -/

/-- remove a literal prefix, ignoring ASCII case -/
def stripI : Bytes → Bytes → Option Bytes
  | [], x => some x
  | _ :: _, [] => none
  | a :: s, c :: x => if lowerByte c = lowerByte a then stripI s x else none

theorem m_strI {α : Type} (s x : Bytes) (prev) (caps) (k : MSt → Option α)
    (hk : ∀ p q r, k ⟨p, r, caps⟩ = k ⟨q, r, caps⟩) :
    m (seqs (s.map litI)) ⟨prev, x, caps⟩ k = (stripI s x).bind fun r => k ⟨none, r, caps⟩ := by
  induction s generalizing x prev with
  | nil => simp [seqs, m, stripI]; exact hk _ _ _
  | cons a s ih =>
    have step : m (seqs ((a :: s).map litI)) ⟨prev, x, caps⟩ k =
        match x with
        | [] => none
        | c :: cs => if lowerByte c = lowerByte a then m (seqs (s.map litI)) ⟨some c, cs, caps⟩ k else none := by
      cases s with
      | nil =>
        simp only [List.map, seqs, litI, m]
        cases x <;> simp
      | cons b s =>
        simp only [List.map, seqs, litI, m]
        cases x <;> simp
    rw [step]
    cases x with
    | nil => simp [stripI]
    | cons c cs =>
      simp only [stripI]
      split
      · rw [ih]
      · rfl

theorem starGM_ws {α : Type} {caps} {k : MSt → Option α}
    (hk : ∀ p c cs, isWs c = true → k ⟨p, c :: cs, caps⟩ = none)
    (hp : ∀ p q r, k ⟨p, r, caps⟩ = k ⟨q, r, caps⟩) (prev x) :
    starGM isWs caps k prev x = k ⟨none, x.dropWhile isWs, caps⟩ := by
  induction x generalizing prev with
  | nil => simp [starGM]; exact hp _ _ _
  | cons c cs ih =>
    rw [starGM]
    by_cases hc : isWs c = true
    · simp only [hc, if_true, List.dropWhile_cons_of_pos]
      rw [ih, hk _ _ _ hc]
      cases k ⟨none, cs.dropWhile isWs, caps⟩ <;> rfl
    · simp only [hc, List.dropWhile_cons]; exact hp _ _ _

/-- a version stamp at the start of `x`: (version text, number, newline) -/
def versionAt (x : Bytes) : Option (Bytes × Bytes × Bytes) :=
  (stripI (b! "WARC/") (x.dropWhile isWs)).bind fun r =>
    (chomp r).map fun p => (x.take (x.length - p.2.length), p.1, p.2)

/-- closed form of `version_rx`: (prefix, version, number, newline) -/
def vspec : Bytes → Option (Bytes × Bytes × Bytes × Bytes)
  | [] => none
  | c :: cs =>
    match versionAt (c :: cs) with
    | some (v, n, nl) => some ([], v, n, nl)
    | none => if c = 10 then none else (vspec cs).map fun (p, v, n, nl) => (c :: p, v, n, nl)


theorem isWs_cases {c : Byte} (h : isWs c = true) :
    c = 32 ∨ c = 9 ∨ c = 10 ∨ c = 11 ∨ c = 12 ∨ c = 13 := by
  simp only [isWs, Bool.or_eq_true, beq_iff_eq] at h
  rcases h with ((((h | h) | h) | h) | h) | h <;> simp [h]

theorem stripI_ws_W (s x : Bytes) (c : Byte) (hc : isWs c = true) : stripI (87 :: s) (c :: x) = none := by
  rw [stripI, if_neg]
  rcases isWs_cases hc with h | h | h | h | h | h <;> subst h <;> decide

theorem versionPart (prev : Option Byte) (x : Bytes) (caps) :
    m (seqs [group .version (seqs [starG isWs, strI (b! "WARC/"), group .number (starL isDot)]),
        nlGroup, eos]) ⟨prev, x, caps⟩ kEnd =
      (versionAt x).map fun (v, n, nl) =>
        ⟨(.nl, nl) :: (.version, v) :: (.number, n) :: caps, []⟩ := by
  simp only [seqs, m]
  have numPart : ∀ prev r, starLM isDot caps (fun st' =>
        m nlGroup
          { prev := st'.prev, rest := st'.rest,
            caps := (Grp.version, x.take (x.length - st'.rest.length)) ::
              (Grp.number, r.take (r.length - st'.rest.length)) :: st'.caps }
          fun st' => if st'.rest = [] then kEnd st' else none) prev r =
      (chomp r).map fun p => (⟨(.nl, p.2) :: (.version, x.take (x.length - p.2.length)) ::
        (.number, p.1) :: caps, []⟩ : Match) := by
    intro prev r
    rw [lazyDot_nl (F := fun nl => some ⟨(.nl, nl) :: (.version, x.take (x.length - nl.length)) ::
      (.number, r.take (r.length - nl.length)) :: caps, []⟩)]
    · cases hc : chomp r with
      | none => rfl
      | some p =>
        obtain ⟨v, nl⟩ := p
        have := chomp_append hc
        simp [this]
    · intro prev r'
      have := nlEnd (α := Match) ⟨prev, r', (.version, x.take (x.length - r'.length)) ::
        (.number, r.take (r.length - r'.length)) :: caps⟩ kEnd
      simp only [m] at this
      rw [this]
      unfold nlCases
      by_cases h1 : r' = CRLF
      · simp [h1]
      · by_cases h2 : r' = [13]
        · simp [h2, CRLF]
        · by_cases h3 : r' = [10]
          · simp [h3, CRLF]
          · simp [h1, h2, h3]
    · intro nl; rfl
  have litPart : ∀ prev r, m (strI (b! "WARC/")) ⟨prev, r, caps⟩ (fun st' =>
      starLM isDot st'.caps (fun st'_1 =>
        m nlGroup
          { prev := st'_1.prev, rest := st'_1.rest,
            caps := (Grp.version, x.take (x.length - st'_1.rest.length)) ::
              (Grp.number, st'.rest.take (st'.rest.length - st'_1.rest.length)) :: st'_1.caps }
          fun st' => if st'.rest = [] then kEnd st' else none) st'.prev st'.rest) =
      (stripI (b! "WARC/") r).bind fun r =>
      (chomp r).map fun p => (⟨(.nl, p.2) :: (.version, x.take (x.length - p.2.length)) ::
        (.number, p.1) :: caps, []⟩ : Match) := by
    intro prev r
    rw [strI, m_strI]
    · simp only [numPart]
    · intro p q r; simp only [numPart]
  rw [starGM_ws]
  · rw [litPart]
    simp only [versionAt]
    cases stripI (b! "WARC/") (x.dropWhile isWs) with
    | none => simp
    | some r => simp [Function.comp_def]
  · intro p c cs hc
    simp only [litPart]
    rw [stripI_ws_W _ _ _ hc]; rfl
  · intro p q r
    simp only [litPart]

theorem pmatch_versionRx (line : Bytes) :
    pmatch versionRx line =
      (vspec line).map fun (p, v, n, nl) =>
        ⟨[(.nl, nl), (.version, v), (.number, n), (.prefix_, p)], []⟩ := by
  have main : ∀ (x pre : Bytes) (prev : Option Byte), line = pre ++ x →
      starLM isDot ([] : List (Grp × Bytes)) (fun st =>
        m (seqs [group .version (seqs [starG isWs, strI (b! "WARC/"), group .number (starL isDot)]),
          nlGroup, eos])
        { st with caps := (.prefix_, line.take (line.length - st.rest.length)) :: st.caps } kEnd) prev x =
      (vspec x).map fun (p, v, n, nl) =>
        ⟨[(.nl, nl), (.version, v), (.number, n), (.prefix_, pre ++ p)], []⟩ := by
    intro x
    induction x with
    | nil => intro pre prev _; simp only [starLM, versionPart]; simp [vspec, versionAt, stripI]
    | cons c cs ih =>
      intro pre prev hl
      have hlen : line.take (line.length - (c :: cs).length) = pre := by subst hl; simp
      rw [starLM]
      simp only [versionPart, hlen]
      rw [vspec]
      cases hv : versionAt (c :: cs) with
      | some p => simp
      | none =>
        simp only [Option.map_none]
        by_cases h10 : c = 10
        · simp [h10, isDot]
        · have h := ih (pre ++ [c]) (some c) (by simp [hl])
          simp only [versionPart] at h
          have hd : isDot c = true := by simp [isDot, h10]
          simp only [hd, if_true, h10, if_false]
          rw [h]
          cases vspec cs <;> simp
  have := main line [] none rfl
  simp only [List.nil_append] at this
  rw [← this]
  simp only [pmatch, versionRx, seqs, m, if_true]

/-! ### the other patterns -/

theorem rxTest_nlRx (line : Bytes) :
    rxTest nlRx line = (line.head? == some 13 || line == [10]) := by
  unfold rxTest pmatch nlRx
  simp only [m, str, seqs, lit, List.map, CRLF, if_true]
  match line with
  | [] => rfl
  | [a] =>
    by_cases h : a = 13
    · subst h; simp
    · by_cases h2 : a = 10
      · subst h2; simp
      · simp [h, h2]
  | a :: b :: t =>
    by_cases h : a = 13
    · subst h; by_cases hb : b = 10 <;> simp [hb]
    · by_cases h2 : a = 10
      · subst h2; simp
      · simp [h, h2]

theorem rxTest_blank (line : Bytes) :
    rxTest blankLineRx line = (!line.isEmpty && line.all (fun c => c == 13 || c == 10)) := by
  unfold rxTest pmatch blankLineRx
  simp only [m, seqs, if_true]
  cases line with
  | nil => rfl
  | cons c cs =>
    have star : ∀ (x : Bytes) (prev : Option Byte),
        (starGM (fun c => c == 13 || c == 10) ([] : List (Grp × Bytes))
          (fun st' => if st'.rest = [] ∨ st'.rest = [10] then kEnd st' else none) prev x).isSome =
        x.all (fun c => c == 13 || c == 10) := by
      intro x
      induction x with
      | nil => intro prev; simp [starGM]
      | cons d ds ih =>
        intro prev
        rw [starGM]
        by_cases hd : (d == 13 || d == 10) = true
        · simp only [hd, if_true, List.all_cons, Bool.true_and, ← ih (some d)]
          cases hs : starGM (fun c => c == 13 || c == 10) ([] : List (Grp × Bytes))
            (fun st' => if st'.rest = [] ∨ st'.rest = [10] then kEnd st' else none) (some d) ds with
          | some r => simp
          | none =>
            have : ds ≠ [] := by
              intro e; subst e; simp [starGM] at hs
            simp [this]
        · have h10 : d ≠ 10 := by intro e; subst e; simp at hd
          simp [hd, h10]
    by_cases hc : (c == 13 || c == 10) = true
    · simp only [hc, if_true]
      simpa [hc] using star cs (some c)
    · simp [hc]

theorem stripI_nil_iff (s x : Bytes) : stripI s x = some [] ↔ lower x = lower s := by
  induction s generalizing x with
  | nil => cases x <;> simp [stripI, lower]
  | cons a s ih =>
    cases x with
    | nil => simp [stripI, lower]
    | cons c x =>
      simp only [stripI, lower, List.map_cons, List.cons.injEq]
      split
      · rename_i h; simp only [h, true_and]; exact ih x
      · rename_i h; simp [h]

theorem stripI_append {s x r : Bytes} (h : stripI s x = some r) :
    ∃ p, x = p ++ r ∧ lower p = lower s := by
  induction s generalizing x with
  | nil => simp [stripI] at h; exact ⟨[], by simp [h]⟩
  | cons a s ih =>
    cases x with
    | nil => simp [stripI] at h
    | cons c x =>
      simp only [stripI] at h
      split at h
      · rename_i hc
        obtain ⟨p, hp, hl⟩ := ih h
        exact ⟨c :: p, by simp [hp], by simpa [lower, hc] using hl⟩
      · simp at h

theorem stripI_of_lower (s p r : Bytes) (h : lower p = lower s) : stripI s (p ++ r) = some r := by
  induction s generalizing p with
  | nil => cases p <;> simp_all [stripI, lower]
  | cons a s ih =>
    cases p with
    | nil => simp [lower] at h
    | cons c p =>
      simp only [lower, List.map_cons, List.cons.injEq] at h
      simp only [List.cons_append, stripI, h.1, if_true]
      exact ih p h.2

/-- `^literal$` with IGNORECASE -/
theorem rxTest_literal (s name : Bytes) :
    rxTest (seqs [bos, strI s, dollar]) name = true ↔
      lower name = lower s ∨ ∃ p, name = p ++ [10] ∧ lower p = lower s := by
  unfold rxTest pmatch
  simp only [seqs, m, if_true, strI]
  rw [m_strI]
  · constructor
    · intro h
      cases hs : stripI s name with
      | none => simp [hs] at h
      | some r =>
        simp only [hs, Option.bind_some] at h
        by_cases hr : r = []
        · subst hr; exact Or.inl ((stripI_nil_iff _ _).1 hs)
        · by_cases hr2 : r = [10]
          · subst hr2
            obtain ⟨p, hp, hl⟩ := stripI_append hs
            exact Or.inr ⟨p, hp, hl⟩
          · simp [hr, hr2] at h
    · rintro (h | ⟨p, rfl, h⟩)
      · rw [(stripI_nil_iff _ _).2 h]; simp
      · rw [stripI_of_lower _ _ _ h]; simp
  · intro p q r; rfl

/-! ### `value_rx` -/

/-- the non-empty value of a continuation line and its newline -/
def contValue : Bytes → Option (Bytes × Bytes)
  | [] => none
  | c :: cs => if c = 10 then none else (chomp cs).map fun p => (c :: p.1, p.2)

/-- skip as much white space as possible while a value remains -/
def wsStar : Bytes → Option (Bytes × Bytes)
  | [] => none
  | c :: cs => if isWs c then (wsStar cs).or (contValue (c :: cs)) else contValue (c :: cs)

/-- closed form of `value_rx`: (value, newline) -/
def fspec : Bytes → Option (Bytes × Bytes)
  | [] => none
  | c :: cs => if isWs c then wsStar cs else none

theorem valuePart (prev : Option Byte) (x : Bytes) (caps) :
    m (seqs [group .value (seq (cls isDot) (starL isDot)), nlGroup, eos]) ⟨prev, x, caps⟩ kEnd =
      (contValue x).map fun p => ⟨(.nl, p.2) :: (.value, p.1) :: caps, []⟩ := by
  simp only [seqs, m]
  cases x with
  | nil => simp [contValue]
  | cons c cs =>
    simp only [contValue]
    by_cases hc : c = 10
    · simp [hc, isDot]
    · have hd : isDot c = true := by simp [isDot, hc]
      simp only [hd, if_true, if_neg hc]
      rw [lazyDot_nl (F := fun nl => some ⟨(.nl, nl) ::
        (.value, (c :: cs).take ((c :: cs).length - nl.length)) :: caps, []⟩)]
      · cases hch : chomp cs with
        | none => rfl
        | some p =>
          obtain ⟨v, nl⟩ := p
          have := chomp_append hch
          subst this
          simp only [Option.bind_some, Option.map_some, Option.some.injEq, Match.mk.injEq,
            List.cons.injEq, Prod.mk.injEq, true_and, and_true]
          have : (c :: (v ++ nl)).length - nl.length = (c :: v).length := by simp; omega
          rw [this, ← List.cons_append, List.take_left]
      · intro prev r'
        have := nlEnd (α := Match) ⟨prev, r', (.value, (c :: cs).take ((c :: cs).length - r'.length))
          :: caps⟩ kEnd
        simp only [m] at this
        rw [this]
        unfold nlCases
        by_cases h1 : r' = CRLF
        · simp [h1]
        · by_cases h2 : r' = [13]
          · simp [h2, CRLF]
          · by_cases h3 : r' = [10]
            · simp [h3, CRLF]
            · simp [h1, h2, h3]
      · intro nl; rfl

theorem pmatch_valueRx (line : Bytes) :
    pmatch valueRx line =
      (fspec line).map fun (v, nl) => ⟨[(.nl, nl), (.value, v)], []⟩ := by
  have star : ∀ (x : Bytes) (prev : Option Byte),
      starGM isWs ([] : List (Grp × Bytes))
        (fun st => m (seqs [group .value (seq (cls isDot) (starL isDot)), nlGroup, eos]) st kEnd) prev x =
      (wsStar x).map fun (v, nl) => ⟨[(.nl, nl), (.value, v)], []⟩ := by
    intro x
    induction x with
    | nil => intro prev; simp only [starGM, valuePart]; simp [contValue, wsStar]
    | cons c cs ih =>
      intro prev
      rw [starGM, wsStar]
      by_cases hc : isWs c = true
      · simp only [hc, if_true]
        rw [ih]
        simp only [valuePart]
        cases wsStar cs <;> simp
      · simp only [hc, valuePart]; simp
  simp only [pmatch, valueRx]
  cases line with
  | nil => simp [seqs, m, fspec]
  | cons c cs =>
    simp only [fspec]
    by_cases hc : isWs c = true
    · have := star cs (some c)
      simp only [seqs, m] at this ⊢
      simp [hc, this]
    · simp [seqs, m, hc]

theorem fspec_head {c : Byte} {cs : Bytes} (h : isWs c = false) : fspec (c :: cs) = none := by
  simp [fspec, h]

theorem fspec_crlf : fspec CRLF = none := by decide
theorem fspec_lf : fspec [10] = none := by decide

theorem wsStar_body (w b nl : Bytes) (hw : ∀ c ∈ w, isWs c = true) (c : Byte) (cs : Bytes)
    (hb : b = c :: cs) (hc : isWs c = false)
    (hch : chomp (cs ++ nl) = some (cs, nl)) : wsStar (w ++ b ++ nl) = some (b, nl) := by
  induction w with
  | nil =>
    subst hb
    have h10 : c ≠ 10 := by intro e; subst e; simp [isWs] at hc
    simp [wsStar, hc, contValue, h10, hch]
  | cons d ds ih =>
    simp only [List.cons_append, wsStar, hw d (by simp), if_true]
    have := ih (fun c hc => hw c (by simp [hc]))
    simp only [List.append_assoc] at this ⊢
    rw [this]; rfl

/-- a continuation line: white space, a text starting with a visible byte, CRLF -/
theorem fspec_body (w b : Bytes) (hw0 : w ≠ []) (hw : ∀ c ∈ w, isWs c = true) (c : Byte) (cs : Bytes)
    (hb : b = c :: cs) (hc : isWs c = false) (h10 : 10 ∉ b) :
    fspec (w ++ b ++ CRLF) = some (b, CRLF) := by
  cases w with
  | nil => exact absurd rfl hw0
  | cons d ds =>
    simp only [List.cons_append, fspec, hw d (by simp), if_true]
    apply wsStar_body ds b CRLF (fun c hc => hw c (by simp [hc])) c cs hb hc
    subst hb
    simp only [List.mem_cons, not_or] at h10
    exact chomp_crlf _ h10.2

end Warc
