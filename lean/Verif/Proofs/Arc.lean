import Verif.Proofs.ArcSplit
/-
  Reading ARC records, alone or mixed with WARC records.
-/
set_option linter.all false
namespace Warc
open Rx Stream Spec

theorem rxTest_arcType (k : Bytes) (hk : 10 ∉ k) : rxTest arcTypeRx k = decide (lower k = b! "content-type") := by
  rw [Bool.eq_iff_iff, decide_eq_true_eq]
  exact rxTest_name AH.CONTENT_TYPE k hk

theorem dropWhile_nil_iff {α : Type} (p : α → Bool) (l : List α) : l.dropWhile p = [] ↔ ∀ x ∈ l, p x = true := by
  induction l with
  | nil => simp
  | cons a l ih =>
    rw [List.dropWhile_cons]
    split
    · rename_i h; simp [ih, h]
    · rename_i h; simp [h]

theorem rxTest_arcLength (k : Bytes) (hk : 10 ∉ k) : rxTest arcLengthRx k = decide (lower k = b! "archive-length") := by
  rw [Bool.eq_iff_iff, decide_eq_true_eq]
  exact rxTest_name AH.CONTENT_LENGTH k hk

/-- one step of the declared length -/
def arcStep (acc : Option Int) (h : Header) : Option Int :=
  if lower h.1 = b! "archive-length" then (match pyInt 10 h.2 with | some n => some n | none => acc) else acc

theorem arcLength_eq (hs : List Header) : arcLength hs = hs.foldl arcStep none := rfl

theorem contentHeaders_ok (hs : List Header) (hok : ∀ h ∈ hs, ArcValueOk h) (hn : ∀ h ∈ hs, 10 ∉ h.1) (acc : Option Int)
    (es : List Err) : ArcParser.contentHeaders hs (acc, es) = (hs.foldl arcStep acc, es) := by
  induction hs generalizing acc with
  | nil => rfl
  | cons h hs ih =>
    obtain ⟨k, v⟩ := h
    have h1 := hok (k, v) (by simp)
    have h10 : 10 ∉ k := hn (k, v) (by simp)
    have ih' := fun acc => ih (fun h hh => hok h (by simp [hh])) (fun h hh => hn h (by simp [hh])) acc
    simp only [ArcParser.contentHeaders, rxTest_arcType k h10, rxTest_arcLength k h10]
    by_cases ht : lower k = b! "content-type"
    · have hv : v ≠ [] := h1.1 ht
      simp only [ht, decide_true, if_true, if_pos hv]
      rw [ih']
      simp [arcStep, ht]
    · simp only [ht, decide_false, Bool.false_eq_true, if_false]
      by_cases hl : lower k = b! "archive-length"
      · have hv := h1.2 hl
        simp only [hl, decide_true, if_true]
        cases hp : pyInt 10 v with
        | none => simp [hp] at hv
        | some n =>
          simp only [ih', List.foldl_cons, arcStep, hl, if_true, hp]
      · simp only [hl, decide_false, Bool.false_eq_true, if_false]
        rw [ih']
        simp [arcStep, hl]

/-! ### the parser attached to the stream -/

/-- the ARC state of a parser -/
def Parser.arcSt? : Parser → Option ArcSt
  | .warc => none
  | .arc st => some st
  | .mixed st => some st

/-- replace the ARC state -/
def Parser.withArc : Parser → ArcSt → Parser
  | .warc, _ => .warc
  | .arc _, st => .arc st
  | .mixed _, st => .mixed st

/-- is it the mixed parser? -/
def Parser.isMixed : Parser → Bool
  | .mixed _ => true
  | _ => false

theorem withArc_arcSt (p : Parser) (st st' : ArcSt) (h : p.arcSt? = some st) : (p.withArc st').arcSt? = some st' := by
  cases p <;> simp [Parser.withArc, Parser.arcSt?] at *

theorem withArc_isMixed (p : Parser) (st' : ArcSt) : (p.withArc st').isMixed = p.isMixed := by
  cases p <;> rfl

theorem parseWith_arc (s : Stream) (st : ArcSt) (off : Option Nat) (line : Bytes) (hst : s.parser.arcSt? = some st)
    (hne : line ≠ []) (hnw : s.parser.isMixed = true → ¬ b! "WARC" <+: line)
    (hb : line ≠ [10] ∧ line ≠ [13, 10] ∧ line ≠ [13]) :
    parseWith off line s = ArcParser.parse st
      (fun st' => M.modify fun t => { t with parser := s.parser.withArc st' }) off line s := by
  cases hp : s.parser with
  | warc => simp [hp, Parser.arcSt?] at hst
  | arc st0 =>
    simp [hp, Parser.arcSt?] at hst; subst hst
    simp [parseWith, hp, Parser.withArc]
  | mixed st0 =>
    simp [hp, Parser.arcSt?] at hst; subst hst
    have hsw : startsWith line (b! "WARC") = false := by
      have := hnw (by simp [hp, Parser.isMixed])
      simp only [startsWith]
      cases hh : List.isPrefixOf (b! "WARC") line with
      | false => rfl
      | true => exact absurd (List.isPrefixOf_iff_prefix.1 hh) this
    simp only [parseWith, M.bind_apply, M.get_apply, hp, MixedParser.parse, if_neg hne, hsw, Parser.withArc,
      Bool.false_eq_true, if_false, if_pos hb]

/-! ### lines -/

/-- some byte of the line is not white space -/
def Visible (l : Bytes) : Prop := ∃ c ∈ l, isWs c = false

theorem Visible.rstrip {l : Bytes} (h : Visible l) : rstrip l ≠ [] := by
  obtain ⟨c, hc, hw⟩ := h
  intro e
  have : ∀ x ∈ l, isWs x = true := by
    unfold Warc.rstrip rstripP at e
    rw [List.reverse_eq_nil_iff, dropWhile_nil_iff] at e
    intro x hx
    exact e x (by simpa using hx)
  rw [this c hc] at hw
  cases hw

theorem Visible.ne {l : Bytes} (h : Visible l) : l ≠ [] ∧ l ≠ [10] ∧ l ≠ [13, 10] ∧ l ≠ [13] := by
  obtain ⟨c, hc, hw⟩ := h
  refine ⟨?_, ?_, ?_, ?_⟩ <;> rintro rfl
  · simp at hc
  · simp at hc; subst hc; simp [isWs] at hw
  · simp at hc; rcases hc with rfl | rfl <;> simp [isWs] at hw
  · simp at hc; subst hc; simp [isWs] at hw

theorem Visible.notTerm {l : Bytes} (h : Visible l) : isTerm l = false := by
  obtain ⟨c, hc, hw⟩ := h
  cases ht : isTerm l with
  | false => rfl
  | true =>
    simp only [isTerm, Bool.and_eq_true, List.all_eq_true] at ht
    have := ht.2 c hc
    simp only [isCRLF, Bool.or_eq_true, beq_iff_eq] at this
    rcases this with rfl | rfl <;> simp [isWs] at hw

theorem skipBlank_visible (fuel : Nat) (l : Bytes) (h : Visible l) (s : Stream) :
    ArcParser.skipBlank (fuel + 1) l s = .ok (some l) s := by
  simp [ArcParser.skipBlank, h.rstrip]

theorem join_mem {values : List Bytes} {v : Bytes} (hv : v ∈ values) {c : Byte} (hc : c ∈ v) : c ∈ join [32] values := by
  induction values with
  | nil => simp at hv
  | cons a l ih =>
    cases l with
    | nil =>
      simp at hv; subst hv; simpa [join] using hc
    | cons b l =>
      simp only [join]
      rcases List.mem_cons.1 hv with rfl | hv
      · simp [hc]
      · simp [ih hv]

theorem mem_join {values : List Bytes} {c : Byte} (hc : c ∈ join [32] values) : c = 32 ∨ ∃ v ∈ values, c ∈ v := by
  induction values with
  | nil => simp [join] at hc
  | cons a l ih =>
    cases l with
    | nil => simp [join] at hc; exact Or.inr ⟨a, by simp, hc⟩
    | cons b l =>
      have e : join [32] (a :: b :: l) = a ++ 32 :: join [32] (b :: l) := by simp [join]
      rw [e, List.mem_append, List.mem_cons] at hc
      rcases hc with hc | hc | hc
      · exact Or.inr ⟨a, by simp, hc⟩
      · exact Or.inl hc
      · rcases ih hc with h | ⟨v, hv, h⟩
        · exact Or.inl h
        · exact Or.inr ⟨v, by simp [hv], h⟩

theorem fields_noLF {names values : List Bytes} (h : FieldsOk names values) : 10 ∉ join [32] values := by
  intro hc0
  rcases mem_join hc0 with hc | ⟨v, hv, hc⟩
  · simp at hc
  · clear hc0
    cases values with
    | nil => simp at hv
    | cons v0 vs =>
      rcases List.mem_cons.1 hv with rfl | hv
      · rcases h.first _ rfl with hh | ⟨hh, _⟩
        · have := hh 10 hc; simp [isWs] at this
        · exact hh hc
      · have := h.rest v (by simpa using hv) 10 hc
        simp [isWs] at this

theorem prefix_visible {l : Bytes} (h : b! "filedesc:" <+: l) : Visible l := by
  obtain ⟨t, rfl⟩ := h
  exact ⟨102, by simp, by decide⟩

theorem strip_all_ws {v : Bytes} (h : ∀ c ∈ v, isWs c = true) : strip v = [] := by
  have : lstrip v = [] := by
    rw [lstrip, dropWhile_nil_iff]; exact h
  rw [strip, this]; rfl

theorem pyInt_visible {v : Bytes} (h : (pyInt 10 v).isSome = true) : Visible v := by
  by_cases hh : ∃ c ∈ v, isWs c = false
  · exact hh
  · exfalso
    have hall : ∀ c ∈ v, isWs c = true := by
      intro c hc
      cases hw : isWs c with
      | true => rfl
      | false => exact absurd ⟨c, hc, hw⟩ hh
    have hnone : pyInt 10 v = none := by
      unfold pyInt
      rw [strip_all_ws hall]
      rfl
    rw [hnone] at h
    simp at h

theorem arcLength_visible {names values : List Bytes} {n : Int} (hok : ∀ h ∈ names.zip values, ArcValueOk h)
    (h : arcLength (names.zip values) = some n) : Visible (arcLine values) := by
  have : ∀ (hs : List Header) (acc : Option Int), (∀ h ∈ hs, ArcValueOk h) → hs.foldl arcStep acc = some n → acc = none →
      ∃ h ∈ hs, lower h.1 = b! "archive-length" := by
    intro hs
    induction hs with
    | nil => intro acc _ h1 h2; rw [List.foldl_nil, h2] at h1; cases h1
    | cons x hs ih =>
      intro acc hok h1 h2
      by_cases hx : lower x.1 = b! "archive-length"
      · exact ⟨x, by simp, hx⟩
      · rw [List.foldl_cons] at h1
        obtain ⟨y, hy, hl⟩ := ih _ (fun h hh => hok h (by simp [hh])) h1 (by simp [arcStep, hx, h2])
        exact ⟨y, by simp [hy], hl⟩
  rw [arcLength_eq] at h
  obtain ⟨x, hx, hl⟩ := this _ none hok h rfl
  obtain ⟨c, hc, hw⟩ := pyInt_visible ((hok x hx).2 hl)
  exact ⟨c, by
    have hv : x.2 ∈ values := (List.of_mem_zip hx).2
    rw [arcLine, List.mem_append]; exact Or.inl (join_mem hv hc), hw⟩

/-! ### names line and version line -/

theorem splitWsAux_run (w rest cur : Bytes) (h : ∀ c ∈ w, isWs c = false) :
    splitWsAux (w ++ rest) cur = splitWsAux rest (w.reverse ++ cur) := by
  induction w generalizing cur with
  | nil => simp
  | cons c w ih =>
    have hc := h c (by simp)
    cases hcur : cur <;> simp [splitWsAux, hc, ih _ (fun x hx => h x (by simp [hx]))]

theorem splitWs_join (names : List Bytes) (h : NamesOk names) : splitWs (join [32] names) = names := by
  obtain ⟨hne, hok⟩ := h
  induction names with
  | nil => exact absurd rfl hne
  | cons a l ih =>
    have ha := hok a (by simp)
    obtain ⟨c, cs, hcs⟩ : ∃ c cs, a.reverse = c :: cs := by
      cases hr : a.reverse with
      | nil => exact absurd (List.reverse_eq_nil_iff.1 hr) ha.1
      | cons c cs => exact ⟨c, cs, rfl⟩
    cases l with
    | nil =>
      have := splitWsAux_run a [] [] ha.2
      simp only [List.append_nil] at this
      simp only [splitWs, join, this, hcs, splitWsAux]
      rw [← hcs]; simp
    | cons b l =>
      have e : join [32] (a :: b :: l) = a ++ 32 :: join [32] (b :: l) := by simp [join]
      have ih' := ih (by simp) (fun n hn => hok n (by simp [hn]))
      have hw32 : isWs 32 = true := by decide
      rw [splitWs, e, splitWsAux_run a _ [] ha.2]
      simp only [List.append_nil, hcs, splitWsAux, hw32, if_true]
      rw [← hcs, List.reverse_reverse]
      rw [splitWs] at ih'
      rw [ih']

theorem strip_lf (x : Bytes) : strip (x ++ [10]) = strip x := by
  by_cases hall : ∀ c ∈ x, isWs c = true
  · rw [strip_all_ws hall, strip_all_ws]
    intro c hc
    rcases List.mem_append.1 hc with hc | hc
    · exact hall c hc
    · simp at hc; subst hc; decide
  · have hd : ∀ y : Bytes, ¬ (∀ c ∈ y, isWs c = true) → lstrip (y ++ [10]) = lstrip y ++ [10] := by
      intro y
      induction y with
      | nil => intro h; exact absurd (by simp) h
      | cons c cs ih =>
        intro h
        cases hc : isWs c with
        | false => simp [lstrip, List.dropWhile_cons, hc]
        | true =>
          have h' : ¬ (∀ c ∈ cs, isWs c = true) := by
            intro hh; apply h; intro d hd
            rcases List.mem_cons.1 hd with rfl | hd
            · exact hc
            · exact hh d hd
          have := ih h'
          simp only [lstrip, List.cons_append, List.dropWhile_cons, hc, if_true] at this ⊢
          exact this
    rw [strip, hd x hall, rstrip, rstripP_append _ _ (by simp [isWs])]
    rfl

theorem strip_names (names : List Bytes) (h : NamesOk names) : strip (arcLine names) = join [32] names := by
  rw [arcLine, strip_lf]
  have hws : ∀ v ∈ names, v ≠ [] ∧ ∀ c ∈ v, isWs c = false := h.2
  apply strip_eq_self
  · intro c cs hcs
    obtain ⟨a, l, hal⟩ : ∃ a l, names = a :: l := by
      cases names with
      | nil => exact absurd rfl h.1
      | cons a l => exact ⟨a, l, rfl⟩
    obtain ⟨d, ds, hd⟩ : ∃ d ds, a = d :: ds := by
      cases a with
      | nil => exact absurd rfl (hws [] (by simp [hal])).1
      | cons d ds => exact ⟨d, ds, rfl⟩
    have : join [32] names = d :: (cs) := by
      subst hal hd
      cases l with
      | nil => simp only [join] at hcs ⊢; injection hcs with h1 h2; rw [h2]
      | cons b l => simp only [join, List.cons_append] at hcs ⊢; injection hcs with h1 h2; rw [h2]
    rw [hcs] at this
    simp at this
    rw [this]
    exact (hws a (by simp [hal])).2 d (by simp [hd])
  · intro c hc
    have key : ∀ l : List Bytes, (∀ v ∈ l, v ≠ [] ∧ ∀ c ∈ v, isWs c = false) → (join [32] l).getLast? = some c → isWs c = false := by
      intro l
      induction l with
      | nil => intro _ hh; simp [join] at hh
      | cons a l ih =>
        intro hl hh
        cases l with
        | nil => exact (hl a (by simp)).2 c (by simpa [join] using List.mem_of_getLast? hh)
        | cons b l =>
          have e : join [32] (a :: b :: l) = a ++ 32 :: join [32] (b :: l) := by simp [join]
          have hb := hl b (by simp)
          have hjne : join [32] (b :: l) ≠ [] := by
            obtain ⟨d, ds, hd⟩ : ∃ d ds, b = d :: ds := by
              cases b with
              | nil => exact absurd rfl hb.1
              | cons d ds => exact ⟨d, ds, rfl⟩
            subst hd
            cases l <;> simp [join]
          obtain ⟨d, ds, hj⟩ : ∃ d ds, join [32] (b :: l) = d :: ds := by
            cases hj : join [32] (b :: l) with
            | nil => exact absurd hj hjne
            | cons d ds => exact ⟨d, ds, rfl⟩
          apply ih (fun v hv => hl v (by simp [hv]))
          rw [e, hj, List.getLast?_append, List.getLast?_cons_cons] at hh
          rw [hj]
          cases hd : (d :: ds).getLast? with
          | none => simp at hd
          | some y => simp [hd] at hh; rw [hh]
    exact key names hws hc

theorem splitWs_ne_nil {t : Bytes} (h : Visible t) : splitWs t ≠ [] := by
  have key : ∀ (t cur : Bytes), (Visible t ∨ cur ≠ []) → splitWsAux t cur ≠ [] := by
    intro t
    induction t with
    | nil =>
      intro cur hh
      rcases hh with ⟨c, hc, _⟩ | hh
      · simp at hc
      · cases cur with
        | nil => exact absurd rfl hh
        | cons a b => simp [splitWsAux]
    | cons c cs ih =>
      intro cur hh
      cases hc : isWs c with
      | true =>
        cases cur with
        | nil =>
          simp only [splitWsAux, hc, if_true]
          apply ih
          rcases hh with ⟨d, hd, hw⟩ | hh
          · rcases List.mem_cons.1 hd with rfl | hd
            · rw [hc] at hw; cases hw
            · exact Or.inl ⟨d, hd, hw⟩
          · exact absurd rfl hh
        | cons a b => simp [splitWsAux, hc]
      | false =>
        cases cur <;> simp only [splitWsAux, hc] <;> exact ih _ (Or.inr (by simp))
  exact key t [] (Or.inl h)

theorem strip_visible {v : Bytes} (h : strip v ≠ []) : Visible (strip v) := by
  cases hs : strip v with
  | nil => exact absurd hs h
  | cons c cs => exact ⟨c, by simp, strip_head hs⟩

/-! ### parsing -/

/-- what the parser returns for an ARC item -/
def arcRec (names values : List Bytes) : Rec :=
  { cls := .arc, version := [], headers := names.zip values, errors := [], content := none, cfile := .stream,
    cfileValid := true }

def arcHeaderRec (names values : List Bytes) (version : Bytes) : Rec :=
  { cls := .arcHeader, version := strip version, headers := names.zip values, errors := [], content := none,
    cfile := .stream, cfileValid := true, rawHeaders := [arcLine values, version ++ [10], arcLine names] }

theorem zip_noLF {names values : List Bytes} (h : NamesOk names) : ∀ x ∈ names.zip values, 10 ∉ x.1 := by
  intro x hx h10
  have := (h.2 x.1 (List.of_mem_zip hx).1).2 10 h10
  simp [isWs] at this

theorem parse_data (st : ArcSt) (set : ArcSt → M Stream Unit) (off : Option Nat) (values : List Bytes) (n : Int)
    (s : Stream) (hnames : NamesOk st.headers) (hf : FieldsOk st.headers values)
    (hnf : ¬ b! "filedesc:" <+: arcLine values) (hok : ∀ h ∈ st.headers.zip values, ArcValueOk h)
    (hl : arcLength (st.headers.zip values) = some n) :
    ArcParser.parse st set off (arcLine values) s =
      .ok (some (arcRec st.headers values), [], off) { s with eoc := some n } := by
  have hvis := arcLength_visible hok hl
  have hsw : startsWith (arcLine values) ArcParser.filedescTag = false := by
    cases hh : startsWith (arcLine values) ArcParser.filedescTag with
    | false => rfl
    | true => exact absurd (List.isPrefixOf_iff_prefix.1 hh) hnf
  simp only [ArcParser.parse, M.bind_apply, M.get_apply, skipBlank_visible _ _ hvis, hsw, if_neg hnames.1,
    parseHeaderList_line _ _ hf hnames.1, contentHeaders_ok _ hok (zip_noLF hnames), ← arcLength_eq, hl,
    M.modify_apply, M.pure_apply, Bool.false_eq_true, if_false]
  rfl

theorem parse_filedesc (st : ArcSt) (set : ArcSt → M Stream Unit) (off : Option Nat) (values names : List Bytes)
    (version more : Bytes) (n : Int) (s : Stream) (he : s.eoc = none) (p' : ArcSt → Parser)
    (hset : ∀ st' (t : Stream), set st' t = .ok () { t with parser := p' st' })
    (hnames : NamesOk names) (hf : FieldsOk names values)
    (hfd : b! "filedesc:" <+: arcLine values) (hv : 10 ∉ version) (hvs : strip version ≠ [])
    (hok : ∀ h ∈ names.zip values, ArcValueOk h)
    (hl : arcLength (names.zip values) = some n)
    (hr : s.fh.rest = ArcItem.preamble version names ++ more) :
    ArcParser.parse st set off (arcLine values) s =
      .ok (some (arcHeaderRec names values version), [], off)
        { s.adv (ArcItem.preamble version names).length with
          parser := p' ⟨(splitWs (strip version)).head?, names⟩, eoc := some (n - (ArcItem.preamble version names).length) } := by
  have hvis := prefix_visible hfd
  have hsw : startsWith (arcLine values) ArcParser.filedescTag = true := List.isPrefixOf_iff_prefix.2 hfd
  have hn10 : 10 ∉ join [32] names := by
    intro hc
    rcases mem_join hc with hc | ⟨v, hv, hc⟩
    · simp at hc
    · have := (hnames.2 v hv).2 10 hc; simp [isWs] at this
  have hrl1 := readline_line s he version (arcLine names ++ more) hv (by rw [hr]; simp [ArcItem.preamble])
  have hrl2 := readline_line (s.adv (version.length + 1)) (by simpa using he) (join [32] names) more hn10 (by
    rw [adv_fh, File.advance_rest, hr]
    simp [ArcItem.preamble, arcLine])
  obtain ⟨v, vs, hvv⟩ : ∃ v vs, splitWs (strip version) = v :: vs := by
    cases hh : splitWs (strip version) with
    | nil => exact absurd hh (splitWs_ne_nil (strip_visible hvs))
    | cons a b => exact ⟨a, b, rfl⟩
  rw [hvv, List.head?_cons]
  have hnl : splitWs (strip (join [32] names ++ [10])) = names := by
    have := strip_names names hnames
    rw [arcLine] at this
    rw [this, splitWs_join names hnames]
  simp only [ArcParser.parse, M.bind_apply, M.get_apply, skipBlank_visible _ _ hvis, hsw, if_true,
    hrl1, hrl2, strip_lf, hvv, hset]
  have hnl' := hnl
  rw [strip_lf] at hnl'
  simp only [hnl', parseHeaderList_line _ _ hf hnames.1, contentHeaders_ok _ hok (zip_noLF hnames), ← arcLength_eq, hl,
    M.bind_apply, M.modify_apply, M.pure_apply]
  have e1 : (ArcItem.preamble version names).length = version.length + 1 + ((join [32] names).length + 1) := by
    simp [ArcItem.preamble, arcLine]; omega
  have e2 : n - ((version ++ [10]).length : Int) - ((join [32] names ++ [10]).length : Int) =
      n - ((ArcItem.preamble version names).length : Int) := by
    rw [e1]; simp; omega
  simp only [arcHeaderRec, arcLine, adv, File.advance, e2]
  rw [e1]
  simp [Nat.add_assoc]

/-! ### reading -/

/-- reading up to the parser, given the first line -/
theorem readRecord_line (offs : Bool) (T u more : Bytes) (s s' : Stream) (q : Option Nat → WarcParser.ParseOut)
    (hk : s.kind ≠ .gzipFile) (he : s.eoc = none)
    (hT : Terminator T) (hu : 10 ∉ u) (hvis : Visible (u ++ [10])) (hr : s.fh.rest = T ++ (u ++ 10 :: more))
    (r : Option Rec) (es : List Err)
    (hparse : ∀ o, parseWith o (u ++ [10]) (s.adv (T.length + (u.length + 1))) = .ok (r, es, o) s') :
    readRecord offs s = .ok ⟨reported s.kind offs (s.fh.pos + T.length), r, es⟩ s' := by
  have hfirst : File.firstLine (u ++ 10 :: more) = u ++ [10] := File.firstLine_append _ _ hu
  have hT' : ∀ c ∈ T, isCRLF c = true := fun c hc => by
    rcases hT.1 c hc with h | h <;> simp [h, isCRLF]
  have hbl : ∀ o, blankLoop o (s.fh.rest.length + 2) s =
      .ok (if o then some (s.fh.pos + T.length) else none, u ++ [10]) (s.adv (T.length + (u.length + 1))) := by
    intro o
    have := blankLoop_spec o (s.fh.rest.length + 2) T (u ++ 10 :: more) s hT' hT.2 hr
      (by rw [hfirst]; exact hvis.notTerm) (Or.inr (by simp)) (by rw [hr]; simp; omega)
    rw [hfirst] at this
    simpa using this
  have hset : { s with eoc := none } = s := by
    obtain ⟨fh, eoc, kind, parser⟩ := s; simp at he; subst he; rfl
  simp only [readRecord, M.bind_apply, M.get_apply, he, M.pure_apply, M.modify_apply, hset]
  cases hkind : s.kind with
  | plain =>
    simp only [M.bind_apply, hbl, hparse]
    simp [reported]
  | gzipRecord =>
    simp only [M.bind_apply, hbl, hparse]
    simp [reported]
  | gzipFile => exact absurd hkind hk

theorem readRecord_data (offs : Bool) (T : Bytes) (values : List Bytes) (n : Int) (more : Bytes) (s : Stream) (st : ArcSt)
    (hk : s.kind ≠ .gzipFile) (he : s.eoc = none) (hp : s.parser.arcSt? = some st)
    (hnw : s.parser.isMixed = true → ¬ b! "WARC" <+: arcLine values)
    (hT : Terminator T) (hnames : NamesOk st.headers) (hf : FieldsOk st.headers values)
    (hnf : ¬ b! "filedesc:" <+: arcLine values) (hok : ∀ h ∈ st.headers.zip values, ArcValueOk h)
    (hl : arcLength (st.headers.zip values) = some n)
    (hr : s.fh.rest = T ++ (arcLine values ++ more)) :
    readRecord offs s =
      .ok ⟨reported s.kind offs (s.fh.pos + T.length), some (arcRec st.headers values), []⟩
        { s.adv (T.length + (arcLine values).length) with eoc := some n } := by
  have hvis := arcLength_visible hok hl
  have hlen : (arcLine values).length = (join [32] values).length + 1 := by simp [arcLine]
  rw [hlen]
  apply readRecord_line offs T (join [32] values) more s _ (fun _ => (none, [], none)) hk he hT (fields_noLF hf) hvis
    (by rw [hr]; simp [arcLine])
  intro o
  rw [parseWith_arc (s.adv (T.length + ((join [32] values).length + 1))) st o (join [32] values ++ [10]) hp hvis.ne.1 hnw hvis.ne.2]
  exact parse_data st _ o values n _ hnames hf hnf hok hl

theorem readRecord_filedesc (offs : Bool) (T : Bytes) (values names : List Bytes) (version : Bytes) (n : Int) (more : Bytes)
    (s : Stream) (st : ArcSt)
    (hk : s.kind ≠ .gzipFile) (he : s.eoc = none) (hp : s.parser.arcSt? = some st)
    (hT : Terminator T) (hnames : NamesOk names) (hf : FieldsOk names values)
    (hfd : b! "filedesc:" <+: arcLine values) (hv : 10 ∉ version) (hvs : strip version ≠ [])
    (hok : ∀ h ∈ names.zip values, ArcValueOk h)
    (hl : arcLength (names.zip values) = some n)
    (hr : s.fh.rest = T ++ (arcLine values ++ (ArcItem.preamble version names ++ more))) :
    readRecord offs s =
      .ok ⟨reported s.kind offs (s.fh.pos + T.length), some (arcHeaderRec names values version), []⟩
        { s.adv (T.length + (arcLine values).length + (ArcItem.preamble version names).length) with
          parser := s.parser.withArc ⟨(splitWs (strip version)).head?, names⟩,
          eoc := some (n - (ArcItem.preamble version names).length) } := by
  have hvis := prefix_visible hfd
  have hlen : (arcLine values).length = (join [32] values).length + 1 := by simp [arcLine]
  have hnw : s.parser.isMixed = true → ¬ b! "WARC" <+: arcLine values := by
    intro _ h
    obtain ⟨t, ht⟩ := hfd
    obtain ⟨t', ht'⟩ := h
    rw [← ht] at ht'
    simp at ht'
  have hrest : (s.adv (T.length + ((join [32] values).length + 1))).fh.rest = ArcItem.preamble version names ++ more := by
    rw [adv_fh, File.advance_rest, hr, ← List.append_assoc, ← hlen, ← List.length_append, List.drop_left]
  rw [hlen, ← adv_adv]
  apply readRecord_line offs T (join [32] values) (ArcItem.preamble version names ++ more) s _ (fun _ => (none, [], none))
    hk he hT (fields_noLF hf) hvis (by rw [hr]; simp [arcLine])
  intro o
  rw [parseWith_arc (s.adv (T.length + ((join [32] values).length + 1))) st o (join [32] values ++ [10]) hp hvis.ne.1 hnw hvis.ne.2]
  exact parse_filedesc st (fun st' => M.modify fun t => { t with parser := s.parser.withArc st' }) o values names
      version more n (s.adv (T.length + ((join [32] values).length + 1))) he (fun st' => s.parser.withArc st')
      (fun _ _ => rfl) hnames hf hfd hv hvs hok hl hrest

/-! ### whole files -/

/-- `record.content` of a record just returned by a parser -/
theorem content_fresh (s : Stream) (r : Rec) (n : Nat) (hr1 : r.content = none) (hr2 : r.cfile = .stream)
    (he : s.eoc = some (n : Int)) (hn : n ≤ s.fh.rest.length) :
    ∃ r', World.content ⟨s, r, []⟩ =
      .ok (firstValue r.cls.contentTypeName r.headers, some (s.fh.rest.take n))
        ⟨{ s.adv n with eoc := some 0 }, r', []⟩ := by
  have hop := op_run (.read none) s n he (Or.inl hn)
  simp only [ReadOp.run, ReadOp.result, Option.map_none] at hop
  have hl : (s.fh.rest.take n).length = n := by simp; omega
  rw [hl, Nat.sub_self] at hop
  simp only [World.content, hr1, World.cfileRead, hr2, World.onStream, hop, Rec.getHeader, lookupHeader_eq]
  exact ⟨_, rfl⟩

/-- one round of the collecting program -/
theorem collect_step (offs : Bool) (fuel : Nat) (s s' : Stream) (o : Option Nat) (r : Rec) (body T rest : Bytes)
    (hread : readRecord offs s = .ok ⟨o, some r, []⟩ s') (hr1 : r.content = none) (hr2 : r.cfile = .stream)
    (he : s'.eoc = some (body.length : Int)) (hT : Terminator T) (hrest : s'.fh.rest = body ++ (T ++ rest)) :
    collect offs (fuel + 1) s =
      let q := collect offs fuel { s'.adv (body.length + T.length) with eoc := none }
      { q with records := ⟨o, r.version, r.headers, r.errors, (firstValue r.cls.contentTypeName r.headers, some body)⟩ :: q.records } := by
  obtain ⟨r', hc⟩ := content_fresh s' r body.length hr1 hr2 he (by rw [hrest]; simp)
  have htake : s'.fh.rest.take body.length = body := by rw [hrest]; simp
  rw [htake] at hc
  simp only [collect, hread, hc]
  have hneg := readRecord_neg offs 0 { s'.adv body.length with eoc := some 0 } rfl (by omega)
  have hterm := readRecord_terminator offs T rest { s'.adv body.length with eoc := none } rfl hT (by
    show (s'.adv body.length).fh.rest = T ++ rest
    rw [adv_fh, File.advance_rest, hrest, List.drop_left])
  have e : ({ s'.adv body.length with eoc := none } : Stream).adv T.length =
      { s'.adv (body.length + T.length) with eoc := none } := by
    simp [adv]
  rw [e] at hterm
  have h2 := collect_congr offs fuel _ _ (hneg.trans hterm)
  rw [h2]

/-- **reading a whole ARC or mixed file with all contents** -/
theorem collect_arc (offs : Bool) (fuel : Nat) (s : Stream) (its : List ArcItem) (st : ArcSt)
    (hk : s.kind ≠ .gzipFile) (he : s.eoc = none) (hf : s.fh.fault = none)
    (hp : s.parser.arcSt? = some st)
    (hok : ArcItem.AllOk s.parser.isMixed st.headers its)
    (hr : s.fh.rest = its.flatMap ArcItem.bytes) (hfuel : its.length < fuel) :
    collect offs fuel s =
      ⟨ArcItem.allGot (reported s.kind offs) s.fh.pos st.headers its,
       some ⟨reported s.kind offs (s.fh.pos + (its.flatMap ArcItem.bytes).length), none, []⟩, .done⟩ := by
  induction its generalizing fuel s st with
  | nil =>
    obtain ⟨fuel, rfl⟩ : ∃ k, fuel = k + 1 := ⟨fuel - 1, by omega⟩
    simp only [collect, readRecord_eof offs s hk he hf hr]
    simp [ArcItem.allGot]
  | cons it its ih =>
    obtain ⟨fuel, rfl⟩ : ∃ k, fuel = k + 1 := ⟨fuel - 1, by omega⟩
    obtain ⟨hit, hrest⟩ := hok
    have hfuel' : its.length < fuel := by simp at hfuel; omega
    cases it with
    | data values body T =>
      obtain ⟨h1, h2, h3, h4, h5, h6, h7⟩ := hit
      have hr' : s.fh.rest = [] ++ (arcLine values ++ (body ++ (T ++ its.flatMap ArcItem.bytes))) := by
        rw [hr]; simp [ArcItem.bytes]
      have hread := readRecord_data offs [] values body.length (body ++ (T ++ its.flatMap ArcItem.bytes)) s st hk he hp h4
        ⟨by simp, Or.inl rfl⟩ h1 h2 h3 h5 h6 hr'
      rw [collect_step offs fuel s _ _ _ body T (its.flatMap ArcItem.bytes) hread rfl rfl rfl h7 (by
        show (s.adv _).fh.rest = _
        rw [adv_fh, File.advance_rest, hr', ← List.append_assoc, ← List.length_append, List.drop_left])]
      have hlen : ([] : Bytes).length + (arcLine values).length + (body.length + T.length) = (ArcItem.data values body T).bytes.length := by
        simp [ArcItem.bytes]
      have e : ({ ({ s.adv (([] : Bytes).length + (arcLine values).length) with eoc := some (body.length : Int) } : Stream).adv
          (body.length + T.length) with eoc := none } : Stream) = s.adv (ArcItem.data values body T).bytes.length := by
        rw [← hlen]
        obtain ⟨fh, eoc, kind, parser⟩ := s
        simp at he; subst he
        simp [adv]
      rw [e, ih fuel (s.adv (ArcItem.data values body T).bytes.length) st hk he hf hp hrest (by
        rw [adv_fh, File.advance_rest, hr]; simp) hfuel']
      simp [ArcItem.allGot, ArcItem.got, ArcItem.names, arcRec, Cls.contentTypeName, AH.CONTENT_TYPE, Nat.add_assoc]
    | filedesc values version names body T =>
      obtain ⟨h1, h2, h3, h4, h5, h6, h7, h8⟩ := hit
      have hr' : s.fh.rest = [] ++ (arcLine values ++ (ArcItem.preamble version names ++ (body ++ (T ++ its.flatMap ArcItem.bytes)))) := by
        rw [hr]; simp [ArcItem.bytes]
      have hread := readRecord_filedesc offs [] values names version _ (body ++ (T ++ its.flatMap ArcItem.bytes)) s st hk he hp
        ⟨by simp, Or.inl rfl⟩ h1 h2 h3 h4 h5 h6 h7 hr'
      have hsub : (((ArcItem.preamble version names).length + body.length : Nat) : Int) - (ArcItem.preamble version names).length
          = (body.length : Int) := by omega
      rw [hsub] at hread
      rw [collect_step offs fuel s _ _ _ body T (its.flatMap ArcItem.bytes) hread rfl rfl rfl h8 (by
        show (s.adv _).fh.rest = _
        rw [adv_fh, File.advance_rest, hr', ← List.append_assoc, ← List.append_assoc, ← List.length_append,
          ← List.length_append, List.drop_left])]
      have hlen : ([] : Bytes).length + (arcLine values).length + (ArcItem.preamble version names).length + (body.length + T.length)
          = (ArcItem.filedesc values version names body T).bytes.length := by
        simp [ArcItem.bytes]; omega
      have e : ({ ({ s.adv (([] : Bytes).length + (arcLine values).length + (ArcItem.preamble version names).length) with
            parser := s.parser.withArc ⟨(splitWs (strip version)).head?, names⟩, eoc := some (body.length : Int) } : Stream).adv
          (body.length + T.length) with eoc := none } : Stream) =
          { s.adv (ArcItem.filedesc values version names body T).bytes.length with
            parser := s.parser.withArc ⟨(splitWs (strip version)).head?, names⟩ } := by
        rw [← hlen]
        obtain ⟨fh, eoc, kind, parser⟩ := s
        simp at he; subst he
        simp [adv]
      rw [e, ih fuel { s.adv (ArcItem.filedesc values version names body T).bytes.length with
            parser := s.parser.withArc ⟨(splitWs (strip version)).head?, names⟩ }
          ⟨(splitWs (strip version)).head?, names⟩ hk he hf (withArc_arcSt _ st _ hp)
          (by show ArcItem.AllOk (s.parser.withArc _).isMixed _ _; rw [withArc_isMixed]; exact hrest) (by
        show (s.adv _).fh.rest = _
        rw [adv_fh, File.advance_rest, hr]; simp) hfuel']
      simp [ArcItem.allGot, ArcItem.got, ArcItem.names, arcHeaderRec, Cls.contentTypeName, AH.CONTENT_TYPE, Nat.add_assoc]
    | warc r =>
      obtain ⟨h1, h2, h3⟩ := hit
      have hm : WarcMode s (r.version ++ CRLF) := by
        right
        constructor
        · cases hpp : s.parser with
          | warc => simp [hpp, Parser.isMixed] at h1
          | arc x => simp [hpp, Parser.isMixed] at h1
          | mixed x => exact ⟨x, rfl⟩
        · obtain ⟨t, ht⟩ := h3
          exact List.isPrefixOf_iff_prefix.2 ⟨t ++ CRLF, by rw [← ht]; simp⟩
      have hr' : s.fh.rest = [] ++ (headBytes r.version r.headers ++ (r.body ++ ((CRLF ++ CRLF) ++ its.flatMap ArcItem.bytes))) := by
        rw [hr]; simp [ArcItem.bytes, R.bytes, recordBytes]
      have hread := readRecord_head offs [] r.version r.headers (r.body ++ ((CRLF ++ CRLF) ++ its.flatMap ArcItem.bytes)) s hk he
        ⟨by simp, Or.inl rfl⟩ h2.version h2.headers hm hr'
      rw [h2.length] at hread
      rw [collect_step offs fuel s _ _ _ r.body (CRLF ++ CRLF) (its.flatMap ArcItem.bytes) hread rfl rfl rfl terminator_crlf2 (by
        show (s.adv _).fh.rest = _
        rw [adv_fh, File.advance_rest, hr', ← List.append_assoc, ← List.length_append, List.drop_left])]
      have hlen : ([] : Bytes).length + (headBytes r.version r.headers).length + (r.body.length + (CRLF ++ CRLF).length)
          = (ArcItem.warc r).bytes.length := by
        simp [ArcItem.bytes, R.bytes, recordBytes]
      have e : ({ ({ s.adv (([] : Bytes).length + (headBytes r.version r.headers).length) with eoc := some (r.body.length : Int) } : Stream).adv
          (r.body.length + (CRLF ++ CRLF).length) with eoc := none } : Stream) = s.adv (ArcItem.warc r).bytes.length := by
        rw [← hlen]
        obtain ⟨fh, eoc, kind, parser⟩ := s
        simp at he; subst he
        simp [adv]
      rw [e, ih fuel (s.adv (ArcItem.warc r).bytes.length) st hk he hf hp hrest (by
        rw [adv_fh, File.advance_rest, hr]; simp) hfuel']
      simp [ArcItem.allGot, ArcItem.got, ArcItem.names, parsed, Cls.contentTypeName, WH.CONTENT_TYPE, Nat.add_assoc]

end Warc
