import Verif.Proofs.ArcGrammar
import Verif.Proofs.ReadAll
set_option linter.all false
namespace Warc
open Rx Stream Spec

/-! ### words -/

theorem splitWsAux_trail (x w cur : Bytes) (hw : ∀ c ∈ w, isWs c = true) : splitWsAux (x ++ w) cur = splitWsAux x cur := by
  induction x generalizing cur with
  | nil =>
    rw [List.nil_append]
    induction w generalizing cur with
    | nil => rfl
    | cons c w ih =>
      have hc := hw c (by simp)
      have ih' := ih (fun d hd => hw d (by simp [hd]))
      cases cur with
      | nil => simp only [splitWsAux, hc, if_true]; exact ih' []
      | cons a b =>
        simp only [splitWsAux, hc, if_true]
        rw [ih' []]; rfl
  | cons c x ih =>
    simp only [List.cons_append, splitWsAux]
    split
    · cases cur with
      | nil => simp only; exact ih []
      | cons a b => simp only; rw [ih []]
    · exact ih _

theorem splitWs_lstrip (x : Bytes) : splitWs (lstrip x) = splitWs x := by
  induction x with
  | nil => rfl
  | cons c cs ih =>
    rw [lstrip, List.dropWhile_cons]
    by_cases hc : isWs c = true
    · rw [if_pos hc]
      have : splitWs (c :: cs) = splitWs cs := by simp [splitWs, splitWsAux, hc]
      rw [this]; exact ih
    · rw [if_neg hc]

theorem rstrip_split (x : Bytes) : ∃ w, x = rstrip x ++ w ∧ ∀ c ∈ w, isWs c = true := by
  refine ⟨(x.reverse.takeWhile isWs).reverse, ?_, ?_⟩
  · have := congrArg List.reverse (List.takeWhile_append_dropWhile (p := isWs) (l := x.reverse))
    rw [List.reverse_append, List.reverse_reverse] at this
    exact this.symm
  · intro c hc; exact mem_takeWhile_ws _ c (by simpa using hc)

theorem splitWs_strip (x : Bytes) : splitWs (strip x) = splitWs x := by
  rw [strip]
  obtain ⟨w, h1, h2⟩ := rstrip_split (lstrip x)
  rw [← splitWs_lstrip x]
  conv => rhs; rw [h1]
  rw [splitWs, splitWs, splitWsAux_trail _ _ _ h2]

theorem white_iff (l : Bytes) : white l = true ↔ ∀ c ∈ l, isWs c = true := by simp [white]

theorem white_visible (l : Bytes) : white l = false ↔ Visible l := by
  constructor
  · intro h
    by_cases hv : Visible l
    · exact hv
    · exfalso
      have : white l = true := by
        rw [white_iff]; intro c hc
        cases hw : isWs c with
        | true => rfl
        | false => exact absurd ⟨c, hc, hw⟩ hv
      rw [h] at this; cases this
  · rintro ⟨c, hc, hw⟩
    rw [Bool.eq_false_iff]; intro h
    rw [white_iff] at h
    rw [h c hc] at hw; cases hw

theorem splitWs_white {l : Bytes} (h : white l = true) : splitWs l = [] := by
  rw [← splitWs_strip, strip_all_ws ((white_iff l).1 h)]; rfl

theorem rstrip_white (l : Bytes) : rstrip l = [] ↔ white l = true := by
  rw [white_iff, rstrip, rstripP, List.reverse_eq_nil_iff, dropWhile_nil_iff]
  simp

theorem splitWsAux_noWs (x cur : Bytes) (hcur : ∀ c ∈ cur, isWs c = false) : ∀ w ∈ splitWsAux x cur, ∀ c ∈ w, isWs c = false := by
  induction x generalizing cur with
  | nil =>
    cases cur with
    | nil => simp [splitWsAux]
    | cons a b =>
      intro w hw c hc
      simp only [splitWsAux, List.mem_singleton] at hw
      subst hw; exact hcur c (List.mem_reverse.1 hc)
  | cons d x ih =>
    intro w hw
    simp only [splitWsAux] at hw
    by_cases hd : isWs d = true
    · rw [if_pos hd] at hw
      cases cur with
      | nil => simp only at hw; exact ih [] (by simp) w hw
      | cons a b =>
        simp only [List.mem_cons] at hw
        rcases hw with rfl | hw
        · intro c hc; exact hcur c (List.mem_reverse.1 hc)
        · exact ih [] (by simp) w hw
    · rw [if_neg hd] at hw
      refine ih (d :: cur) ?_ w hw
      intro c hc
      rcases List.mem_cons.1 hc with rfl | hc
      · simpa using hd
      · exact hcur c hc

theorem splitWs_noLF (x : Bytes) : ∀ w ∈ splitWs x, 10 ∉ w := by
  intro w hw h10
  have := splitWsAux_noWs x [] (by simp) w hw 10 h10
  simp [isWs] at this

theorem zip_names_noLF {names values : List Bytes} (h : ∀ n ∈ names, 10 ∉ n) : ∀ x ∈ names.zip values, 10 ∉ x.1 :=
  fun x hx => h x.1 (List.of_mem_zip hx).1

/-! ### headers -/

theorem contentHeaders_exact (hs : List Header) (hn : ∀ h ∈ hs, 10 ∉ h.1) (acc : Option Int) (es : List Err) :
    ArcParser.contentHeaders hs (acc, es) = (hs.foldl arcStep acc, es ++ arcFlaws hs) := by
  induction hs generalizing acc es with
  | nil => simp [ArcParser.contentHeaders, arcFlaws]
  | cons h hs ih =>
    obtain ⟨k, v⟩ := h
    have h10 : 10 ∉ k := hn (k, v) (by simp)
    have ih' := fun acc es => ih (fun h hh => hn h (by simp [hh])) acc es
    have hfl : ∀ b : Bool, decide (ArcValueOk (k, v)) = b → arcFlaws ((k, v) :: hs) = (if b then [] else [.invalidHeader k v]) ++ arcFlaws hs := by
      intro b hb
      rw [arcFlaws, List.filter_cons, hb]
      cases b <;> simp [arcFlaws]
    simp only [ArcParser.contentHeaders, rxTest_arcType k h10, rxTest_arcLength k h10]
    by_cases ht : lower k = b! "content-type"
    · have hl : ¬ lower k = b! "archive-length" := by rw [ht]; decide
      simp only [ht, decide_true, if_true]
      have hst : arcStep acc (k, v) = acc := by simp [arcStep, ht]
      rw [List.foldl_cons, hst]
      by_cases hv : v ≠ []
      · rw [if_pos hv, ih', hfl true (by simp [ArcValueOk, ht, hv])]
        simp
      · rw [if_neg hv, ih', hfl false (by simp only [ne_eq, Decidable.not_not] at hv; simp [ArcValueOk, ht, hv])]
        simp
    · simp only [ht, decide_false, Bool.false_eq_true, if_false]
      by_cases hl : lower k = b! "archive-length"
      · simp only [hl, decide_true, if_true]
        cases hp : pyInt 10 v with
        | none =>
          have hst : arcStep acc (k, v) = acc := by simp [arcStep, hl, hp]
          simp only [ih', List.foldl_cons, hst]
          rw [hfl false (by simp [ArcValueOk, hl, hp])]
          simp
        | some n =>
          have hst : arcStep acc (k, v) = some n := by simp [arcStep, hl, hp]
          simp only [ih', List.foldl_cons, hst]
          rw [hfl true (by simp [ArcValueOk, hl, hp])]
          simp
      · simp only [hl, decide_false, Bool.false_eq_true, if_false]
        have hst : arcStep acc (k, v) = acc := by simp [arcStep, hl]
        rw [ih', List.foldl_cons, hst, hfl true (by simp [ArcValueOk, ht, hl])]
        simp

/-! ### lines -/

theorem skipBlank_exact (fuel : Nat) (l : Bytes) (s : Stream) (h : Cur l s) (hf : (Spec.lines (l ++ s.fh.rest)).length < fuel) :
    (match (Spec.lines (l ++ s.fh.rest)).dropWhile white with
     | [] => ArcParser.skipBlank fuel l s = .ok none (s.adv s.fh.rest.length)
     | l' :: ls' => ∃ k, ArcParser.skipBlank fuel l s = .ok (some l') (s.adv k) ∧ Cur l' (s.adv k) ∧ Spec.lines (s.adv k).fh.rest = ls' ∧
         k + (s.adv k).fh.rest.length = s.fh.rest.length) := by
  induction fuel generalizing l s with
  | zero => omega
  | succ fuel ih =>
    by_cases hl : l = []
    · have hr := h.nil hl
      subst hl
      rw [hr]
      simp only [List.append_nil, Spec.lines, List.dropWhile_nil, ArcParser.skipBlank]
      have : rstrip [] = [] := rfl
      rw [if_pos this, if_pos trivial]
      simp [adv_zero]
    · rw [h.lines hl] at hf ⊢
      rw [List.dropWhile_cons]
      by_cases hw : white l = true
      · rw [if_pos hw]
        have hstep : ArcParser.skipBlank (fuel + 1) l s =
            ArcParser.skipBlank fuel (File.firstLine s.fh.rest) (s.adv (File.firstLine s.fh.rest).length) := by
          rw [ArcParser.skipBlank, if_pos ((rstrip_white l).2 hw), if_neg hl]
          simp only [M.bind_apply]
          rw [readline_ok s h.1 (Or.inl h.2.1)]
        have hcat : File.firstLine s.fh.rest ++ (s.adv (File.firstLine s.fh.rest).length).fh.rest = s.fh.rest := by
          simp only [adv_fh, File.advance_rest]; rw [File.firstLine_append_drop]
        have hc : Cur (File.firstLine s.fh.rest) (s.adv (File.firstLine s.fh.rest).length) :=
          ⟨h.1, h.2.1, by rw [hcat]⟩
        have hi := ih _ _ hc (by rw [hcat]; simp at hf; omega)
        have hlen := congrArg List.length hcat
        rw [List.length_append] at hlen
        rw [hcat] at hi
        rw [hstep]
        cases hq : (Spec.lines s.fh.rest).dropWhile white with
        | nil =>
          rw [hq] at hi
          simp only at hi ⊢
          rw [hi, adv_adv, hlen]
        | cons l' ls' =>
          rw [hq] at hi
          simp only at hi ⊢
          obtain ⟨k, h1, h2, h3, h4⟩ := hi
          refine ⟨(File.firstLine s.fh.rest).length + k, ?_, ?_, ?_, ?_⟩
          · rw [h1, adv_adv]
          · rw [← adv_adv]; exact h2
          · rw [← adv_adv]; exact h3
          · rw [← adv_adv]; omega
      · rw [if_neg hw]
        simp only
        refine ⟨0, ?_, ?_, ?_, ?_⟩
        · rw [ArcParser.skipBlank, if_neg (fun q => hw ((rstrip_white l).1 q))]
          rw [adv_zero]; rfl
        · rw [adv_zero]; exact h
        · rw [adv_zero]
        · rw [adv_zero]; omega

/-- the record that is described -/
def Spec.Located.rcd (f : Located) : Rec :=
  { cls := f.cls, version := f.version, headers := f.headers, errors := f.errors, content := none, cfile := .stream, cfileValid := true, rawHeaders := f.raw }

/-- what the parser returns if the bytes in front of the stream `s` mean `m` -/
def Spec.Meant.Ran (m : Meant) (off : Option Nat) (s : Stream) (r : Res Stream WarcParser.ParseOut) : Prop :=
  match m with
  | .nothing _ errors size => r = .ok (none, errors, off) (s.adv size)
  | .record f => ∃ ver, r = .ok (some f.rcd, [], off) { s.adv f.size with eoc := f.length, parser := s.parser.withArc ⟨ver, f.names⟩ }
  | .raises e => ∃ s', r = .raise e s'
  | .stuck => r = .hang

theorem firstLine_headD (x : Bytes) : File.firstLine x = (Spec.lines x).headD [] := by
  by_cases h : x = []
  · subst h; rfl
  · rw [lines_first h]; rfl

theorem firstLine_drop_lines (x : Bytes) : Spec.lines (x.drop (File.firstLine x).length) = (Spec.lines x).drop 1 := by
  by_cases h : x = []
  · subst h; rfl
  · rw [lines_first h]; rfl

theorem firstLine_le (x : Bytes) : (File.firstLine x).length ≤ x.length := by
  have := congrArg List.length (File.firstLine_append_drop x)
  rw [List.length_append] at this; omega

theorem withArc_self (p : Parser) (st : ArcSt) (h : p.arcSt? = some st) : p.withArc ⟨st.version, st.headers⟩ = p := by
  cases p <;> simp_all [Parser.arcSt?, Parser.withArc]

/-- the parser for ARC records, behind the first line `l` -/
theorem arcParse_exact (st : ArcSt) (off : Option Nat) (s : Stream) (l : Bytes) (k : Nat) (hst : s.parser.arcSt? = some st)
    (hn : ∀ n ∈ st.headers, 10 ∉ n) (h : Cur l (s.adv k))
    (hl : Spec.lines (l ++ (s.adv k).fh.rest) = dropTerminators (Spec.lines s.fh.rest))
    (hk : k + (s.adv k).fh.rest.length = s.fh.rest.length) :
    (nextArc st.headers s.fh.rest).Ran off s
      (ArcParser.parse st (fun st' => M.modify fun t => { t with parser := s.parser.withArc st' }) off l (s.adv k)) := by
  have hlen : (Spec.lines (l ++ (s.adv k).fh.rest)).length < (s.adv k).fh.rest.length + 2 := by
    by_cases hl : l = []
    · rw [hl, h.nil hl]; simp [Spec.lines]
    · rw [h.lines hl]; have := lines_length (s.adv k).fh.rest; simp at this ⊢; omega
  have hsb := skipBlank_exact _ l (s.adv k) h hlen
  unfold ArcParser.parse nextArc
  simp only [M.bind_apply, M.get_apply]
  rw [hl] at hsb
  cases hd : (dropTerminators (Spec.lines s.fh.rest)).dropWhile white with
  | nil =>
    rw [hd] at hsb
    simp only at hsb ⊢
    rw [hsb]
    simp only [M.pure_apply, Spec.Meant.Ran, adv_adv, hk]
  | cons l' ls' =>
    rw [hd] at hsb
    simp only at hsb ⊢
    obtain ⟨k', h1, h2, h3, h4⟩ := hsb
    rw [h1]
    simp only [adv_adv] at h2 h3 h4 ⊢
    have hrest : (s.adv (k + k')).fh.rest = s.fh.rest.drop (k + k') := by simp
    have hsz : Spec.sizeOf ls' = (s.adv (k + k')).fh.rest.length := by rw [← h3, sizeOf_lines]
    have hsize : s.fh.rest.length - Spec.sizeOf ls' = k + k' := by rw [hsz]; omega
    rw [hsize]
    by_cases hfd : b! "filedesc:" <+: l'
    · have hsw : startsWith l' ArcParser.filedescTag = true := List.isPrefixOf_iff_prefix.2 hfd
      rw [if_pos hfd, hsw]
      simp only [if_true, M.bind_apply]
      rw [readline_ok (s.adv (k + k')) h2.1 (Or.inl h2.2.1)]
      simp only
      generalize hv : File.firstLine (s.adv (k + k')).fh.rest = v
      rw [readline_ok ((s.adv (k + k')).adv v.length) h2.1 (Or.inl h2.2.1)]
      simp only
      generalize hnn : File.firstLine ((s.adv (k + k')).adv v.length).fh.rest = n
      have ev : ls'.headD [] = v := by rw [← h3, ← hv, firstLine_headD]
      have en : (ls'.drop 1).headD [] = n := by
        rw [← h3, ← hnn, firstLine_headD, ← firstLine_drop_lines, hv]
        simp [adv_adv]
      rw [ev, en, splitWs_strip, splitWs_strip]
      unfold fileDesc
      by_cases hwv : white v = true
      · rw [if_pos (Or.inl hwv), splitWs_white hwv]
        exact ⟨_, rfl⟩
      · obtain ⟨w0, ws, hws⟩ : ∃ w0 ws, splitWs v = w0 :: ws := by
          cases hq : splitWs v with
          | nil => exact absurd hq (splitWs_ne_nil ((white_visible v).1 (by simpa using hwv)))
          | cons a b => exact ⟨a, b, rfl⟩
        rw [hws]
        simp only [M.bind_apply, M.modify_apply]
        by_cases hwn : white n = true
        · rw [if_pos (Or.inr hwn), splitWs_white hwn]
          have : ArcParser.parseHeaderList [] l' = .error .indexError := by
            simp [ArcParser.parseHeaderList, ArcParser.headerValues]
            have h0 : arcSplit (rstripCRLF l') 0 = cuts (rstripCRLF l') 0 (separators (rstripCRLF l')) := by
              simp only [arcSplit]; exact splitScan_all none _
            have hne : ¬ arcSplit (rstripCRLF l') 0 = [] := by
              intro e
              have := congrArg List.length e
              rw [h0, cuts_length] at this
              simp at this
            have : ¬ 0 = (arcSplit (rstripCRLF l') 0).length := by
              intro e; exact hne (List.eq_nil_of_length_eq_zero e.symm)
            simp [this]
          simp only [this]
          exact ⟨_, rfl⟩
        · rw [if_neg (by rintro (q | q) <;> contradiction)]
          have hne : splitWs n ≠ [] := splitWs_ne_nil ((white_visible n).1 (by simpa using hwn))
          rw [headerValues_exact _ _ hne]
          cases hlh : lineHeaders (splitWs n) l' with
          | none => exact ⟨_, rfl⟩
          | some hs =>
            have h10 : ∀ x ∈ hs, 10 ∉ x.1 := by
              unfold lineHeaders at hlh
              cases hq : splitLine (decide ((splitWs n).head? = some (b! "URL") ∨ (splitWs n).head? = some (b! "Content-type"))) (splitWs n).length (withoutEnd l') with
              | none => rw [hq] at hlh; simp at hlh
              | some vs => 
                rw [hq] at hlh; simp only [Option.map_some, Option.some.injEq] at hlh
                rw [← hlh]; exact zip_names_noLF (splitWs_noLF n)
            have hch := contentHeaders_exact hs h10 none []
            rw [← arcLength_eq, List.nil_append] at hch
            simp only [hch]
            cases hal : arcLength hs with
            | none => exact ⟨_, rfl⟩
            | some len =>
              refine ⟨some w0, ?_⟩
              simp only [M.bind_apply, M.modify_apply, M.pure_apply, adv_adv]
              rfl
    · have hsw : startsWith l' ArcParser.filedescTag = false := by
        rw [Bool.eq_false_iff]; intro q; exact hfd (List.isPrefixOf_iff_prefix.1 q)
      rw [if_neg hfd, hsw]
      simp only [Bool.false_eq_true, if_false]
      unfold plainRecord
      by_cases hne : st.headers = []
      · rw [if_pos hne, if_pos hne]; exact ⟨_, rfl⟩
      · rw [if_neg hne, if_neg hne, headerValues_exact _ _ hne]
        cases hlh : lineHeaders st.headers l' with
        | none => exact ⟨_, rfl⟩
        | some hs =>
          have h10 : ∀ x ∈ hs, 10 ∉ x.1 := by
            unfold lineHeaders at hlh
            cases hq : splitLine (decide (st.headers.head? = some (b! "URL") ∨ st.headers.head? = some (b! "Content-type"))) st.headers.length (withoutEnd l') with
            | none => rw [hq] at hlh; simp at hlh
            | some vs => 
              rw [hq] at hlh; simp only [Option.map_some, Option.some.injEq] at hlh
              rw [← hlh]; exact zip_names_noLF hn
          have hch := contentHeaders_exact hs h10 none []
          rw [← arcLength_eq, List.nil_append] at hch
          simp only [hch]
          refine ⟨st.version, ?_⟩
          simp only [M.bind_apply, M.modify_apply, M.pure_apply]
          rw [withArc_self _ _ hst]
          rfl

end Warc
