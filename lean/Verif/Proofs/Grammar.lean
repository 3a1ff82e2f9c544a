import Verif.Spec.Grammar
import Verif.Proofs.AnyRecord
import Verif.Proofs.Reread
import Verif.Proofs.HttpHead
set_option linter.all false
namespace Warc
open Rx Stream Spec

theorem dropWhile_ws (x : Bytes) (h : ∀ c ∈ x, isWs c = true) : x.dropWhile isWs = [] := by
  induction x with
  | nil => rfl
  | cons c cs ih => rw [List.dropWhile_cons, if_pos (h c (by simp)), ih fun d hd => h d (by simp [hd])]

theorem ws_of_dropWhile (x : Bytes) (h : x.dropWhile isWs = []) : ∀ c ∈ x, isWs c = true := by
  induction x with
  | nil => simp
  | cons c cs ih =>
    rw [List.dropWhile_cons] at h
    by_cases hc : isWs c = true
    · rw [if_pos hc] at h
      intro d hd
      rcases List.mem_cons.1 hd with rfl | hd
      · exact hc
      · exact ih h d hd
    · rw [if_neg hc] at h; simp at h

theorem mem_takeWhile_ws (x : Bytes) (c : Byte) (h : c ∈ x.takeWhile isWs) : isWs c = true := by
  induction x with
  | nil => simp at h
  | cons d ds ih =>
    rw [List.takeWhile_cons] at h
    by_cases hd : isWs d = true
    · rw [if_pos hd] at h
      rcases List.mem_cons.1 h with rfl | h
      · exact hd
      · exact ih h
    · rw [if_neg hd] at h; simp at h

theorem last_append_ne (a b : Bytes) (h : b ≠ []) : (a ++ b).getLast? = b.getLast? := by
  rw [List.getLast?_append]
  cases hb : b.getLast? with
  | none => simp at hb; exact absurd hb h
  | some x => rfl

/-! ### single lines -/

theorem chomp_exact {l v nl : Bytes} (h : LineLike l) (hc : chomp l = some (v, nl)) : v = dropNewline l ∧ nl = lineEnd l := by
  have h1 := chomp_line h
  have h2 := chomp_append hc
  have h3 := chomp_isSome h
  rw [hc] at h1 h3
  simp only [Option.isSome_some] at h3
  rw [← h3, if_pos rfl] at h1
  simp only [Option.map_some, Option.some.injEq] at h1
  refine ⟨h1, ?_⟩
  have hn := chomp_crlf_iff h hc
  unfold lineEnd
  by_cases he : endsCRLF l = true
  · rw [if_pos he]; exact hn.2 he
  · rw [if_neg he]
    have hne : ¬ (2 ≤ l.length ∧ l.drop (l.length - 2) = CRLF) := by
      intro q; apply he; simp [endsCRLF, q.1, q.2]
    have hd : dropNewline l = l.dropLast := by rw [dropNewline, if_neg hne]
    have hl : l ≠ [] := by intro e; rw [e] at hc; simp [chomp] at hc
    rw [h1, hd] at h2
    have : l = l.dropLast ++ [l.getLast hl] := (List.dropLast_concat_getLast hl).symm
    have e1 : nl = [l.getLast hl] := by
      have h4 : l.dropLast ++ nl = l.dropLast ++ [l.getLast hl] := by rw [← h2, ← this]
      exact List.append_cancel_left h4
    rw [e1]
    conv => rhs; rw [this]
    simp

theorem chomp_ws {l v nl : Bytes} (h : chomp l = some (v, nl)) : ∀ c ∈ nl, isWs c = true := by
  induction l generalizing v with
  | nil => simp [chomp] at h
  | cons c cs ih =>
    rw [chomp] at h
    split at h
    · simp at h; rw [← h.2]; decide
    · split at h
      · simp at h; rw [← h.2]; decide
      · split at h
        · simp at h; rw [← h.2]; decide
        · split at h
          · simp at h
          · cases hc : chomp cs with
            | none => rw [hc] at h; simp at h
            | some p => rw [hc] at h; simp at h; obtain ⟨a, b⟩ := p; simp at h; exact ih (by rw [hc, h.2])

theorem chomp_strip {l v nl : Bytes} (h : chomp l = some (v, nl)) : strip v = strip l := by
  rw [chomp_append h, Http.strip_ws_right _ _ (chomp_ws h)]

theorem lineEnd_cons {c : Byte} {cs : Bytes} (h : 2 ≤ cs.length) : lineEnd (c :: cs) = lineEnd cs := by
  unfold lineEnd
  rw [endsCRLF_cons h]
  have : (c :: cs).length - 1 = (cs.length - 1) + 1 := by simp; omega
  rw [this, List.drop_succ_cons]

theorem lineEnd_cons' {c : Byte} {cs : Bytes} (hne : cs ≠ []) (hc : c ≠ 13) : lineEnd (c :: cs) = lineEnd cs := by
  match cs, hne with
  | [d], _ =>
    have : endsCRLF [c, d] = false := by
      cases h : endsCRLF [c, d] with
      | false => rfl
      | true => simp [endsCRLF] at h; exact absurd h.1 hc
    rw [lineEnd, this]
    simp [lineEnd, endsCRLF]
  | d :: e :: f, _ => exact lineEnd_cons (by simp)

theorem lineEnd_append (a x : Bytes) (hx : x ≠ []) (ha : a.getLast? ≠ some 13) : lineEnd (a ++ x) = lineEnd x := by
  induction a with
  | nil => rfl
  | cons y a ih =>
    by_cases hae : a = []
    · subst hae
      rw [List.singleton_append, lineEnd_cons' hx]
      simpa using ha
    · rw [List.cons_append, lineEnd_cons, ih]
      · cases a with
        | nil => exact absurd rfl hae
        | cons z a => simpa using ha
      · have h1 : 0 < a.length := List.length_pos_iff.2 hae
        have h2 : 0 < x.length := List.length_pos_iff.2 hx
        rw [List.length_append]; omega

theorem hspec_exact {l n v nl : Bytes} (h : LineLike l) (hs : hspec l = some (n, v, nl)) :
    n = l.takeWhile (· != 58) ∧ strip v = strip ((l.dropWhile (· != 58)).drop 1) ∧ nl = fieldEnd l := by
  induction l generalizing n with
  | nil => simp [hspec] at hs
  | cons c cs ih =>
    have htl := lineLike_tail h
    have hsome := hspec_isSome h
    rw [hs] at hsome
    rw [hspec] at hs
    by_cases hc : c = 58
    · subst hc
      simp only [if_true] at hs
      have hcs : cs ≠ [] := by intro e; subst e; simp [fieldLine, complete] at hsome
      have hcomp : complete cs = true := by
        rw [← complete_cons hcs (c := 58)]
        simp only [Option.isSome_some, fieldLine] at hsome
        have := hsome.symm
        simp only [Bool.and_eq_true] at this
        exact this.2
      have htw : (58 :: cs : Bytes).takeWhile (· != 58) = [] := by simp
      have hdw : (58 :: cs : Bytes).dropWhile (· != 58) = 58 :: cs := by simp
      rw [htw, fieldEnd, hdw]
      simp only [List.drop_succ_cons, List.drop_zero]
      match cs, hcs with
      | d :: ds, _ =>
        unfold afterColon at hs
        simp only at hs
        have hchd : (chomp (d :: ds)).isSome = true := by rw [chomp_isSome htl, hcomp]
        by_cases hw : isWs d = true
        · rw [if_pos hw] at hs
          cases hch : chomp ds with
          | some p =>
            rw [hch] at hs
            simp only [Option.some.injEq, Prod.mk.injEq] at hs
            obtain ⟨h1, h2, h3⟩ := hs
            obtain ⟨p1, p2⟩ := p
            simp only at h2 h3
            subst h2 h3
            have hex := chomp_exact (lineLike_tail htl) hch
            refine ⟨h1.symm, ?_, ?_⟩
            · rw [chomp_strip hch, strip_ws_cons hw]
            · have hne : ds ≠ [] := by intro e; subst e; simp [chomp] at hch
              by_cases hq : (58 :: d :: ds : Bytes) = 58 :: CRLF
              · rw [if_pos hq]
                simp only [List.cons.injEq, true_and] at hq
                obtain ⟨rfl, rfl⟩ : d = 13 ∧ ds = [10] := by
                  simpa using hq
                rw [hex.2]; decide
              · rw [if_neg hq, hex.2]
                rw [lineEnd_cons' (by simp) (by decide)]
                by_cases h13 : d = 13
                · subst h13
                  match ds, hne with
                  | [e], _ =>
                    have : e ≠ 10 := by intro e'; subst e'; exact hq rfl
                    simp [lineEnd, endsCRLF, this]
                  | e :: f :: g, _ => exact (lineEnd_cons (c := 13) (by simp)).symm
                · rw [lineEnd_cons' hne h13]
          | none =>
            rw [hch] at hs
            cases hq : chomp (d :: ds) with
            | none => rw [hq] at hchd; simp at hchd
            | some p =>
              rw [hq] at hs
              simp only [Option.some.injEq, Prod.mk.injEq] at hs
              obtain ⟨h1, h2, h3⟩ := hs
              obtain ⟨p1, p2⟩ := p
              simp only at h2 h3
              subst h2 h3
              have hex := chomp_exact htl hq
              refine ⟨h1.symm, chomp_strip hq, ?_⟩
              rw [if_neg, hex.2, lineEnd_cons' (c := 58) (by simp) (by decide)]
              intro e
              obtain ⟨rfl, rfl⟩ : d = 13 ∧ ds = [10] := by
                have : (d :: ds : Bytes) = [13, 10] := by simpa using e
                simpa using this
              revert hch; decide
        · rw [if_neg hw] at hs
          cases hq : chomp (d :: ds) with
          | none => rw [hq] at hchd; simp at hchd
          | some p =>
            rw [hq] at hs
            simp only [Option.some.injEq, Prod.mk.injEq] at hs
            obtain ⟨h1, h2, h3⟩ := hs
            obtain ⟨p1, p2⟩ := p
            simp only at h2 h3
            subst h2 h3
            have hex := chomp_exact htl hq
            refine ⟨h1.symm, chomp_strip hq, ?_⟩
            rw [if_neg, hex.2, lineEnd_cons' (c := 58) (by simp) (by decide)]
            intro e
            obtain ⟨rfl, rfl⟩ : d = 13 ∧ ds = [10] := by
              have : (d :: ds : Bytes) = [13, 10] := by simpa using e
              simpa using this
            exact hw (by decide)
    · rw [if_neg hc] at hs
      simp only at hs
      split at hs
      · simp at hs
      · cases hq : hspec cs with
        | none => rw [hq] at hs; simp at hs
        | some q =>
          obtain ⟨n', v', nl'⟩ := q
          rw [hq] at hs
          simp only [Option.map_some, Option.some.injEq, Prod.mk.injEq] at hs
          obtain ⟨rfl, rfl, rfl⟩ := hs
          obtain ⟨h1, h2, h3⟩ := ih htl hq
          have hb : (c != 58) = true := by simpa using hc
          have hcs2 : 2 ≤ cs.length := by
            have := hspec_isSome htl
            rw [hq] at this
            have := this.symm
            simp only [Option.isSome_some, fieldLine, Bool.and_eq_true] at this
            match cs, this with
            | [], t => simp [complete] at t
            | [d], t => simp [complete] at t; obtain ⟨t1, t2⟩ := t; subst t1; revert t2; decide
            | d :: e :: f, _ => simp
          refine ⟨?_, ?_, ?_⟩
          · rw [List.takeWhile_cons, if_pos hb, ← h1]
          · rw [List.dropWhile_cons, if_pos hb, ← h2]
          · rw [h3, fieldEnd, fieldEnd, List.dropWhile_cons, if_pos hb, lineEnd_cons hcs2]

theorem wsStar_exact {l v nl : Bytes} (h : LineLike l) (hs : wsStar l = some (v, nl)) : strip v = strip l ∧ nl = contEnd l := by
  induction l generalizing v nl with
  | nil => simp [wsStar] at hs
  | cons c cs ih =>
    have htl := lineLike_tail h
    have hcv : ∀ {v nl}, contValue (c :: cs) = some (v, nl) → isWs c = false ∨ cs.length ≤ 1 → strip v = strip (c :: cs) ∧ nl = contEnd (c :: cs) := by
      intro v nl hq hor
      rw [contValue] at hq
      split at hq
      · simp at hq
      · cases hch : chomp cs with
        | none => rw [hch] at hq; simp at hq
        | some p =>
          obtain ⟨p1, p2⟩ := p
          rw [hch] at hq
          simp only [Option.map_some, Option.some.injEq, Prod.mk.injEq] at hq
          obtain ⟨rfl, rfl⟩ := hq
          have hex := chomp_exact htl hch
          have hne : cs ≠ [] := by intro e; subst e; simp [chomp] at hch
          refine ⟨?_, ?_⟩
          · rw [chomp_append hch, ← List.cons_append, Http.strip_ws_right _ _ (chomp_ws hch)]
          · rw [hex.2]
            by_cases hw : isWs c = true
            · have hl : cs.length ≤ 1 := by rcases hor with h' | h'; · rw [hw] at h'; simp at h'
                                            · exact h'
              match cs, hne with
              | [d], _ =>
                have hd := chomp_ws hch
                have happ := chomp_append hch
                have hd' : isWs d = true := by
                  have hp1 : p1 = [] := by
                    have hle : lineEnd [d] = [d] := by
                      have : endsCRLF [d] = false := by simp [endsCRLF]
                      rw [lineEnd, this]; rfl
                    rw [hex.2, hle] at happ
                    have := congrArg List.length happ
                    simp at this
                    exact this
                  rw [hp1] at happ
                  exact hd d (by rw [← List.nil_append p2, ← happ]; simp)
                simp [contEnd, hw, hd', lineEnd, endsCRLF]
              | d :: e :: f, _ => simp at hl
            · have : ((c :: cs).all isWs) = false := by simp [hw]
              rw [contEnd, this]
              simp only [Bool.false_eq_true, if_false]
              rw [lineEnd_cons' hne]
              intro e; subst e; exact hw (by decide)
    rw [wsStar] at hs
    by_cases hw : isWs c = true
    · rw [if_pos hw] at hs
      cases hq : wsStar cs with
      | some p =>
        rw [hq] at hs
        simp only [Option.some_or, Option.some.injEq] at hs
        subst hs
        obtain ⟨h1, h2⟩ := ih htl hq
        refine ⟨by rw [h1, strip_ws_cons hw], ?_⟩
        rw [h2]
        have hne : cs ≠ [] := by intro e; subst e; simp [wsStar] at hq
        unfold contEnd
        simp only [List.all_cons, hw, Bool.true_and]
        by_cases ha : cs.all isWs = true
        · rw [if_pos ha, if_pos ha]
          match cs, hne with
          | d :: ds, _ => simp
        · rw [if_neg ha, if_neg ha]
          match cs, hne with
          | [d], _ =>
            exfalso
            rw [wsStar] at hq
            split at hq
            · rename_i hwd; exact ha (by simp [hwd])
            · simp [contValue, chomp] at hq
          | d :: e :: f, _ => exact (lineEnd_cons (c := c) (by simp)).symm
      | none =>
        rw [hq] at hs
        simp only [Option.none_or] at hs
        refine hcv hs (Or.inr ?_)
        -- cs is complete, so it has only one byte
        have hcc : (chomp cs).isSome = true := by
          rw [contValue] at hs
          split at hs
          · simp at hs
          · cases hch : chomp cs with
            | none => rw [hch] at hs; simp at hs
            | some p => rfl
        match cs with
        | [] => simp
        | [d] => simp
        | d :: e :: f =>
          exfalso
          have hd10 : d ≠ 10 := lineLike_head htl (by simp)
          have hcc2 : (chomp (e :: f)).isSome = true := by
            rw [chomp_isSome (lineLike_tail htl), ← complete_cons (c := d) (by simp), ← chomp_isSome htl, hcc]
          rw [wsStar] at hq
          cases hp : chomp (e :: f) with
          | none => rw [hp] at hcc2; simp at hcc2
          | some p =>
            have : contValue (d :: e :: f) = some (d :: p.1, p.2) := by simp [contValue, hd10, hp]
            rw [this] at hq
            split at hq
            · cases wsStar (e :: f) <;> simp at hq
            · simp at hq
    · rw [if_neg hw] at hs
      exact hcv hs (Or.inl (by simpa using hw))

theorem fspec_exact {l v nl : Bytes} (h : LineLike l) (hs : fspec l = some (v, nl)) : strip v = strip l ∧ nl = contEnd l := by
  cases l with
  | nil => simp [fspec] at hs
  | cons c cs =>
    rw [fspec] at hs
    split at hs
    · rename_i hw
      exact wsStar_exact h (by rw [wsStar, if_pos hw, hs]; rfl)
    · simp at hs

theorem beforeTag_ws (w x : Bytes) (hw : ∀ c ∈ w, isWs c = true) (hx : lower (x.take 5) = b! "warc/") : beforeTag (w ++ x) = w := by
  induction w with
  | nil =>
    cases x with
    | nil => simp [lower] at hx
    | cons c cs => rw [List.nil_append, beforeTag, if_pos hx]
  | cons c w ih =>
    rw [List.cons_append, beforeTag, if_neg, ih fun d hd => hw d (by simp [hd])]
    have := isWs_cases (hw c (by simp))
    intro e
    simp only [List.take_succ_cons, lower, List.map_cons, List.cons.injEq] at e
    have e1 := e.1
    rcases this with rfl | rfl | rfl | rfl | rfl | rfl <;> revert e1 <;> decide

theorem rstrip_nil_iff (s : Bytes) : rstrip s = [] ↔ ∀ c ∈ s, isWs c = true := by
  unfold rstrip rstripP
  rw [List.reverse_eq_nil_iff]
  constructor
  · intro h c hc
    exact ws_of_dropWhile _ h c (by simpa using hc)
  · intro h
    exact dropWhile_ws _ (by intro c hc; exact h c (by simpa using hc))

theorem rstrip_cons (c : Byte) (s : Bytes) (h : rstrip s ≠ [] ∨ isWs c = false) : rstrip (c :: s) = c :: rstrip s := by
  unfold rstrip rstripP at *
  rw [List.reverse_cons]
  by_cases hs : List.dropWhile isWs s.reverse = []
  · have hc : isWs c = false := by rcases h with h | h; · rw [hs] at h; simp at h
                                   · exact h
    rw [List.dropWhile_append, hs]
    simp [hc]
  · rw [List.dropWhile_append]
    have : (List.dropWhile isWs s.reverse).isEmpty = false := by simpa using hs
    rw [this]
    simp

theorem vspec_exact {l : Bytes} {p} (h : LineLike l) (hv : vspec l = some p) :
    p.1 = versionPrefix l ∧ p.2.1 = versionText l ∧ versionNumber l = some p.2.2.1 ∧ p.2.2.2 = lineEnd l := by
  have hnum := vspec_number h
  rw [hv] at hnum
  have hmain : p.1 = versionPrefix l ∧ l = p.1 ++ p.2.1 ++ p.2.2.2 ∧ p.2.2.2 = lineEnd l := by
    have hcomp : complete l = true := by
      cases hc : complete l with
      | true => rfl
      | false => rw [vspec_incomplete h hc] at hv; simp at hv
    clear hnum
    induction l generalizing p with
    | nil => simp [vspec] at hv
    | cons c cs ih =>
      have htl := lineLike_tail h
      rw [vspec] at hv
      cases ha : versionAt (c :: cs) with
      | some q =>
        rw [ha] at hv
        simp only [Option.some.injEq] at hv
        subst hv
        unfold versionAt at ha
        rw [stripI_tag] at ha
        split at ha
        · rename_i htag
          simp only [Option.bind_some] at ha
          cases hch : chomp ((List.dropWhile isWs (c :: cs)).drop 5) with
          | none => rw [hch] at ha; simp at ha
          | some r =>
            rw [hch] at ha
            simp only [Option.map_some, Option.some.injEq] at ha
            subst ha
            have happ := chomp_append hch
            have hsplit : (c :: cs) = (c :: cs).takeWhile isWs ++ (c :: cs).dropWhile isWs := List.takeWhile_append_dropWhile.symm
            have hbt : beforeTag (c :: cs) = (c :: cs).takeWhile isWs := by
              conv => lhs; rw [hsplit]
              exact beforeTag_ws _ _ (fun d hd => (mem_takeWhile_ws _ _ hd)) htag
            have hsuf : ∃ a, (c :: cs) = a ++ (r.1 ++ r.2) ∧ a ≠ [] ∧ a.getLast? ≠ some 13 := by
              refine ⟨(c :: cs).takeWhile isWs ++ ((c :: cs).dropWhile isWs).take 5, ?_, ?_, ?_⟩
              · rw [← happ, List.append_assoc, List.take_append_drop]
                exact hsplit
              · intro e
                simp only [List.append_eq_nil_iff] at e
                rw [e.2] at htag; simp [lower] at htag
              · generalize hy : ((c :: cs).dropWhile isWs).take 5 = y at htag ⊢
                have hyl : y.length = 5 := by
                  have := congrArg List.length htag
                  simpa [lower] using this
                have hyne : y ≠ [] := by intro e; subst e; simp at hyl
                rw [last_append_ne _ _ hyne]
                match y, hyl with
                | [a, b, c', d, e], _ =>
                  simp only [lower, List.map_cons, List.map_nil, List.cons.injEq] at htag
                  have he := htag.2.2.2.2.1
                  simp only [List.getLast?_cons_cons, List.getLast?_singleton, ne_eq, Option.some.injEq]
                  intro e'; subst e'; revert he; decide
            obtain ⟨a, ha1, ha2, ha3⟩ := hsuf
            refine ⟨?_, ?_, ?_⟩
            · show ([] : Bytes) = versionPrefix (c :: cs)
              rw [versionPrefix, hbt, (rstrip_nil_iff _).2 (fun d hd => mem_takeWhile_ws _ _ hd)]
            · show (c :: cs) = [] ++ (c :: cs).take ((c :: cs).length - r.2.length) ++ r.2
              rw [ha1]
              have e1 : (a ++ (r.1 ++ r.2)).length - r.2.length = (a ++ r.1).length := by simp only [List.length_append]; omega
              rw [e1, ← List.append_assoc, List.take_left, List.nil_append]
            · show r.2 = lineEnd (c :: cs)
              have hll : LineLike ((List.dropWhile isWs (c :: cs)).drop 5) := by
                have : (c :: cs) = a ++ ((List.dropWhile isWs (c :: cs)).drop 5) := by rw [happ]; exact ha1
                rw [this] at h
                exact lineLike_suffix h
              have hex := chomp_exact hll (show chomp _ = some (r.1, r.2) from hch)
              have hne : r.1 ++ r.2 ≠ [] := by rw [← happ]; intro e; rw [e] at hch; simp [chomp] at hch
              rw [ha1, lineEnd_append a (r.1 ++ r.2) hne ha3, ← happ]
              exact hex.2
        · simp at ha
      | none =>
        rw [ha] at hv
        simp only at hv
        split at hv
        · simp at hv
        · rename_i hc10
          cases hq : vspec cs with
          | none => rw [hq] at hv; simp at hv
          | some q =>
            rw [hq] at hv
            simp only [Option.map_some, Option.some.injEq] at hv
            subst hv
            have hcs : cs ≠ [] := by intro e; subst e; simp [vspec] at hq
            have hcc : complete cs = true := by rw [← complete_cons (c := c) hcs]; exact hcomp
            obtain ⟨h1, h2, h3⟩ := ih htl hq hcc
            -- no tag here
            have hno : ∀ w x, (c :: cs) = w ++ x → (∀ d ∈ w, isWs d = true) → lower (x.take 5) ≠ b! "warc/" := by
              intro w x hwx hw htag
              have hdw : (c :: cs).dropWhile isWs = x := by
                rw [hwx]
                have hx : x.dropWhile isWs = x := by
                  cases x with
                  | nil => rfl
                  | cons y ys =>
                    rw [List.dropWhile_cons, if_neg]
                    intro hy
                    simp only [List.take_succ_cons, lower, List.map_cons, List.cons.injEq] at htag
                    have := htag.1
                    rcases isWs_cases hy with rfl | rfl | rfl | rfl | rfl | rfl <;> revert this <;> decide
                rw [List.dropWhile_append, dropWhile_ws _ hw]
                simp [hx]
              have hx5 : 5 < x.length := by
                have hl5 : (x.take 5).length = 5 := by
                  have := congrArg List.length htag
                  simpa [lower] using this
                have hle : 5 ≤ x.length := by rw [List.length_take] at hl5; omega
                rcases Nat.lt_or_ge 5 x.length with hlt | hge
                · exact hlt
                · exfalso
                  have hxt : x.take 5 = x := List.take_of_length_le hge
                  rw [hxt] at htag hl5
                  have hlast : (c :: cs).getLast? = x.getLast? := by
                    rw [hwx, last_append_ne _ _ (by intro e; subst e; simp at hl5)]
                  rw [complete, hlast] at hcomp
                  match x, hl5 with
                  | [x1, x2, x3, x4, x5], _ =>
                    simp only [lower, List.map_cons, List.map_nil, List.cons.injEq] at htag
                    have he := htag.2.2.2.2.1
                    simp at hcomp
                    rcases hcomp with rfl | rfl <;> revert he <;> decide
              have hch : (chomp (x.drop 5)).isSome = true := by
                have hll : LineLike (x.drop 5) := by
                  have : (c :: cs) = (w ++ x.take 5) ++ x.drop 5 := by rw [List.append_assoc, List.take_append_drop, hwx]
                  rw [this] at h
                  exact lineLike_suffix h
                rw [chomp_isSome hll]
                have hne : x.drop 5 ≠ [] := by
                  intro e
                  have := congrArg List.length e
                  simp at this; omega
                have : (c :: cs).getLast? = (x.drop 5).getLast? := by
                  have hh : (c :: cs) = (w ++ x.take 5) ++ x.drop 5 := by rw [List.append_assoc, List.take_append_drop, hwx]
                  rw [hh, last_append_ne _ _ hne]
                rw [complete, ← this]; exact hcomp
              unfold versionAt at ha
              rw [hdw, stripI_tag, if_pos htag] at ha
              simp only [Option.bind_some] at ha
              cases hz : chomp (x.drop 5) with
              | none => rw [hz] at hch; simp at hch
              | some r => rw [hz] at ha; simp at ha
            have hbt : beforeTag (c :: cs) = c :: beforeTag cs := by
              rw [beforeTag, if_neg (hno [] (c :: cs) rfl (by simp))]
            refine ⟨?_, ?_, ?_⟩
            · show c :: q.1 = versionPrefix (c :: cs)
              rw [versionPrefix, hbt, rstrip_cons, h1]
              · rfl
              · by_cases hr : rstrip (beforeTag cs) = []
                · right
                  apply Decidable.byContradiction
                  intro hcw
                  have hcw : isWs c = true := by simpa using hcw
                  have hall := (rstrip_nil_iff _).1 hr
                  -- cs starts with white space and then the tag
                  have htag : ∀ y : Bytes, (vspec y).isSome = true → ∃ x, y = beforeTag y ++ x ∧ lower (x.take 5) = b! "warc/" := by
                    intro y
                    induction y with
                    | nil => intro hy; simp [vspec] at hy
                    | cons d ds ihd =>
                      intro hy
                      rw [beforeTag]
                      by_cases ht : lower ((d :: ds).take 5) = b! "warc/"
                      · rw [if_pos ht]; exact ⟨d :: ds, rfl, ht⟩
                      · rw [if_neg ht]
                        have : (∃ x, ds = beforeTag ds ++ x ∧ lower (x.take 5) = b! "warc/") := by
                          rw [vspec] at hy
                          cases hz : versionAt (d :: ds) with
                          | none =>
                            rw [hz] at hy
                            simp only at hy
                            split at hy
                            · simp at hy
                            · apply ihd
                              cases hu : vspec ds with
                              | none => rw [hu] at hy; simp at hy
                              | some _ => rfl
                          | some z =>
                            unfold versionAt at hz
                            rw [stripI_tag] at hz
                            split at hz
                            · rename_i htt
                              have hd : isWs d = true := by
                                apply Decidable.byContradiction
                                intro hd
                                rw [List.dropWhile_cons, if_neg hd] at htt
                                exact ht htt
                              rw [List.dropWhile_cons, if_pos hd] at htt
                              have hsp : ds = ds.takeWhile isWs ++ ds.dropWhile isWs := List.takeWhile_append_dropWhile.symm
                              have hb : beforeTag ds = ds.takeWhile isWs := by
                                conv => lhs; rw [hsp]
                                exact beforeTag_ws _ _ (fun d hd => (mem_takeWhile_ws _ _ hd)) htt
                              exact ⟨_, by rw [hb]; exact hsp, htt⟩
                            · simp at hz
                        obtain ⟨x, hx, hx2⟩ := this
                        exact ⟨x, by rw [List.cons_append, ← hx], hx2⟩
                  obtain ⟨x, hx, hx2⟩ := htag cs (by rw [hq]; rfl)
                  exact hno (c :: beforeTag cs) x (by rw [List.cons_append, ← hx]) (by
                    intro d hd
                    rcases List.mem_cons.1 hd with rfl | hd
                    · exact hcw
                    · exact hall d hd) hx2
                · exact Or.inl hr
            · show c :: cs = c :: q.1 ++ q.2.1 ++ q.2.2.2
              rw [List.cons_append, List.cons_append, ← h2]
            · show q.2.2.2 = lineEnd (c :: cs)
              rw [h3, lineEnd_cons]
              have : vspec cs = some q := hq
              match cs, hcs with
              | [d], _ =>
                simp only [complete, List.getLast?_singleton, Bool.or_eq_true, beq_iff_eq, Option.some.injEq] at hcc
                exfalso
                rcases hcc with rfl | rfl
                · rw [show vspec [10] = none by decide] at hq; simp at hq
                · rw [show vspec [13] = none by decide] at hq; simp at hq
              | d :: e :: f, _ => simp
  obtain ⟨h1, h2, h3⟩ := hmain
  refine ⟨h1, ?_, ?_, h3⟩
  · have hcomp : complete l = true := by
      cases hc : complete l with
      | true => rfl
      | false => rw [vspec_incomplete h hc] at hv; simp at hv
    cases hch : chomp l with
    | none => have := chomp_isSome h; rw [hch, hcomp] at this; simp at this
    | some q =>
      have hex := chomp_exact h (show chomp l = some (q.1, q.2) from hch)
      have happ := chomp_append hch
      have : dropNewline l = p.1 ++ p.2.1 := by
        rw [hex.1, hex.2] at happ
        have h5 : dropNewline l ++ lineEnd l = (p.1 ++ p.2.1) ++ lineEnd l := by rw [← happ, ← h3]; exact h2
        exact List.append_cancel_right h5
      rw [versionText, this, ← h1]
      simp
  · exact hnum.symm

end Warc
