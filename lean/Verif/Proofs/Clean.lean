import Verif.Spec.Clean
import Verif.Proofs.Lines
set_option linter.all false
namespace Warc
open Rx Stream Spec

theorem endsCRLF_cons {c : Byte} {cs : Bytes} (h : 2 ≤ cs.length) : endsCRLF (c :: cs) = endsCRLF cs := by
  unfold endsCRLF
  have h1 : (c :: cs).length - 2 = (cs.length - 2) + 1 := by simp; omega
  rw [h1, List.drop_succ_cons]
  have : decide (2 ≤ (c :: cs).length) = true := by simp; omega
  rw [this]
  have : decide (2 ≤ cs.length) = true := by simpa using h
  rw [this]

theorem endsCRLF_append {a b : Bytes} (h : 2 ≤ b.length) : endsCRLF (a ++ b) = endsCRLF b := by
  induction a with
  | nil => rfl
  | cons c a ih => rw [List.cons_append, endsCRLF_cons (by simp; omega), ih]

theorem endsCRLF_iff (x : Bytes) : endsCRLF x = true ↔ ∃ u, x = u ++ CRLF := by
  unfold endsCRLF
  simp only [Bool.and_eq_true, decide_eq_true_eq, beq_iff_eq]
  constructor
  · rintro ⟨h1, h2⟩
    exact ⟨x.take (x.length - 2), by rw [← h2, List.take_append_drop]⟩
  · rintro ⟨u, rfl⟩
    simp

/-- the newline that `chomp` finds is CR LF exactly when the line ends in CR LF -/
theorem chomp_crlf_iff {l v nl : Bytes} (h : LineLike l) (hc : chomp l = some (v, nl)) :
    nl = CRLF ↔ endsCRLF l = true := by
  constructor
  · rintro rfl
    rw [endsCRLF_iff]
    exact ⟨v, chomp_append hc⟩
  · intro he
    obtain ⟨u, rfl⟩ := (endsCRLF_iff l).1 he
    have hu : 10 ∉ u := by
      intro hm
      apply h
      have : (u ++ CRLF).dropLast = u ++ [13] := by
        rw [show (u ++ CRLF) = (u ++ [13]) ++ [10] by simp, List.dropLast_concat]
      rw [this]; simp [hm]
    rw [chomp_crlf u hu] at hc
    simp at hc
    exact hc.2.symm

theorem hspec_nl {l n v nl : Bytes} (h : LineLike l) (hs : hspec l = some (n, v, nl)) :
    nl = CRLF ↔ fieldClean l = true := by
  induction l generalizing n with
  | nil => simp [hspec] at hs
  | cons c cs ih =>
    have htl := lineLike_tail h
    rw [hspec] at hs
    by_cases hc : c = 58
    · subst hc
      simp only [if_true] at hs
      have hfc : fieldClean (58 :: cs) = (endsCRLF (58 :: cs) && (cs != CRLF)) := by
        simp only [fieldClean, List.dropWhile_cons]
        congr 1
      cases ha : afterColon cs with
      | none =>
        rw [ha] at hs
        simp only at hs
        -- a colon without a line end: nothing matches later either
        have hh := hspec_isSome htl
        cases hq : hspec cs with
        | none => simp [hq] at hs
        | some q =>
          exfalso
          rw [hq] at hh
          simp only [fieldLine, Option.isSome_some] at hh
          have hcomp : complete cs = true := by
            have := hh.symm
            simp only [Bool.and_eq_true] at this; exact this.2
          have := chomp_isSome htl
          rw [hcomp] at this
          cases cs with
          | nil => simp [complete] at hcomp
          | cons d ds =>
            unfold afterColon at ha
            simp only at ha
            split at ha
            · split at ha
              · simp at ha
              · rw [ha] at this; simp at this
            · rw [ha] at this; simp at this
      | some p =>
        rw [ha] at hs
        simp only [Option.some.injEq, Prod.mk.injEq] at hs
        obtain ⟨-, hv, hn⟩ := hs
        rw [hfc, ← hn]
        obtain ⟨pv, pn⟩ := p
        simp only at hn hv ⊢
        cases cs with
        | nil => simp [afterColon] at ha
        | cons d ds =>
          unfold afterColon at ha
          simp only at ha
          have hds := lineLike_tail htl
          by_cases hw : isWs d = true
          · rw [if_pos hw] at ha
            cases hch : chomp ds with
            | none =>
              rw [hch] at ha
              simp only at ha
              rw [chomp_crlf_iff htl ha]
              have hn0 : ¬ (d :: ds = CRLF) := by
                intro e
                have : ds = [10] := by simp at e; exact e.2
                rw [this] at hch; exact absurd hch (by decide)
              have hne : (d :: ds != CRLF) = true := by simpa using hn0
              rw [hne, Bool.and_true]
              cases ds with
              | nil =>
                simp [endsCRLF, isWs] at hw ⊢
              | cons e es => rw [endsCRLF_cons (c := (58 : UInt8)) (by simp)]
            | some p2 =>
              rw [hch] at ha
              simp only [Option.some.injEq] at ha
              subst ha
              rw [chomp_crlf_iff hds hch]
              match ds with
              | [] => simp [chomp] at hch
              | [e] =>
                constructor
                · intro h'; simp [endsCRLF] at h'
                · intro h'
                  simp only [Bool.and_eq_true, endsCRLF_iff] at h'
                  obtain ⟨⟨u, hu⟩, h2⟩ := h'
                  have : [d, e] = CRLF := by
                    match u, hu with
                    | [], hu => simp at hu
                    | [a], hu => simp at hu; simp [hu]
                    | a :: b :: t, hu => have := congrArg List.length hu; simp at this
                  simp [this] at h2
              | e :: f :: g =>
                rw [endsCRLF_cons (c := (58 : UInt8)) (by simp), endsCRLF_cons (c := d) (by simp)]
                simp
          · rw [if_neg hw] at ha
            rw [chomp_crlf_iff htl ha]
            have hn0 : ¬ (d :: ds = CRLF) := by
              intro e
              have : d = 13 := by simp at e; exact e.1
              subst this; exact hw (by decide)
            have hne : (d :: ds != CRLF) = true := by simpa using hn0
            rw [hne, Bool.and_true]
            cases ds with
            | nil =>
              simp [endsCRLF]
            | cons e es => rw [endsCRLF_cons (c := (58 : UInt8)) (by simp)]
    · simp only [if_neg hc] at hs
      by_cases hcs : cs = []
      · subst hcs; split at hs <;> simp [hspec] at hs
      · rw [if_neg (lineLike_head h hcs)] at hs
        cases hq : hspec cs with
        | none => simp [hq] at hs
        | some q =>
          obtain ⟨q1, q2, q3⟩ := q
          simp only [hq, Option.map_some, Option.some.injEq, Prod.mk.injEq] at hs
          obtain ⟨-, rfl, rfl⟩ := hs
          rw [ih htl hq]
          have hdrop : (c :: cs).dropWhile (· != 58) = cs.dropWhile (· != 58) := by
            rw [List.dropWhile_cons, if_pos (by simpa using hc)]
          unfold fieldClean
          rw [hdrop]
          -- cs has a colon, so it is at least two bytes long or a single colon which cannot match
          have hlen : 2 ≤ cs.length := by
            match cs, hcs with
            | [d], _ =>
              have := hspec_isSome htl
              rw [hq] at this
              simp [fieldLine, complete] at this
              rcases this with ⟨rfl, h2⟩
              revert h2; decide
            | d :: e :: f, _ => simp
          rw [endsCRLF_cons hlen]

theorem fspec_nl {l v nl : Bytes} (h : LineLike l) (hs : fspec l = some (v, nl)) :
    nl = CRLF ↔ contClean l = true := by
  cases l with
  | nil => simp [fspec] at hs
  | cons c cs =>
    unfold fspec at hs
    simp only at hs
    split at hs
    case isFalse => simp at hs
    rename_i hw
    have htl := lineLike_tail h
    -- the part after the first white space byte
    have key : ∀ x : Bytes, LineLike x → ∀ v nl, wsStar x = some (v, nl) →
        (nl = CRLF ↔ (endsCRLF x = true ∧ x.any (fun c => !isWs c) = true)) := by
      intro x
      induction x with
      | nil => intro _ v nl hh; simp [wsStar] at hh
      | cons d ds ih =>
        intro hx v nl hh
        have hcv : contValue (d :: ds) = some (v, nl) → (nl = CRLF ↔ (endsCRLF ds = true)) := by
          intro hq
          unfold contValue at hq
          simp only at hq
          split at hq
          · simp at hq
          · cases hch : chomp ds with
            | none => simp [hch] at hq
            | some p =>
              simp only [hch, Option.map_some, Option.some.injEq, Prod.mk.injEq] at hq
              obtain ⟨_, rfl⟩ := hq
              exact chomp_crlf_iff (lineLike_tail hx) hch
        rw [wsStar] at hh
        by_cases hwd : isWs d = true
        · rw [if_pos hwd] at hh
          have hany : (d :: ds).any (fun c => !isWs c) = ds.any (fun c => !isWs c) := by simp [hwd]
          rw [hany]
          cases hq : wsStar ds with
          | some q =>
            rw [hq] at hh
            simp only [Option.some_or, Option.some.injEq] at hh
            subst hh
            rw [ih (lineLike_tail hx) _ _ hq]
            have : 2 ≤ ds.length := by
              have : ∀ y : Bytes, (wsStar y).isSome = true → 2 ≤ y.length := by
                intro y
                induction y with
                | nil => simp [wsStar]
                | cons a y ihy =>
                  intro hy
                  have hc2 : (contValue (a :: y)).isSome = true → 2 ≤ (a :: y).length := by
                    unfold contValue
                    simp only
                    split
                    · simp
                    · cases y with
                      | nil => simp [chomp]
                      | cons b z => simp
                  rw [wsStar] at hy
                  split at hy
                  · rw [Option.isSome_or, Bool.or_eq_true] at hy
                    rcases hy with hy | hy
                    · have := ihy hy; simp; omega
                    · exact hc2 hy
                  · exact hc2 hy
              exact this ds (by rw [hq]; rfl)
            rw [endsCRLF_cons this]
          | none =>
            rw [hq] at hh
            simp only [Option.none_or] at hh
            rw [hcv hh]
            -- the rest cannot be a value: it is a line end only
            have hds : ds.length ≤ 1 ∨ ds = CRLF ∧ False ∨ True := Or.inr (Or.inr trivial)
            have hnone : ∀ y : Bytes, LineLike y → wsStar y = none → complete y = true → y.length ≤ 1 := by
              intro y hy hn hcomp
              have : (wsStar y).isSome = false := by rw [hn]; rfl
              by_cases h2 : 2 ≤ y.length
              · exfalso
                have hf : (fspec (32 :: y)).isSome = contLine (32 :: y) := fspec_isSome (by
                  cases y with
                  | nil => simp at h2
                  | cons a b => simp [LineLike] at hy ⊢; exact hy)
                simp only [fspec, show isWs 32 = true by decide, if_true, hn, contLine, Bool.true_and] at hf
                have hne : y ≠ [] := by intro e; subst e; simp at h2
                rw [complete_cons hne, hcomp] at hf
                simp at hf
                omega
              · omega
            have hcomp : complete ds = true := by
              unfold contValue at hh
              simp only at hh
              split at hh
              · simp at hh
              · cases hch : chomp ds with
                | none => simp [hch] at hh
                | some p => rw [← chomp_isSome (lineLike_tail hx), hch]; rfl
            have hl1 := hnone ds (lineLike_tail hx) hq hcomp
            constructor
            · intro he
              simp [endsCRLF] at he; omega
            · rintro ⟨he, ha⟩
              exfalso
              match ds with
              | [] => simp at ha
              | [e] =>
                simp only [complete, List.getLast?_singleton, Bool.or_eq_true, beq_iff_eq, Option.some.injEq] at hcomp
                rcases hcomp with rfl | rfl <;> simp [isWs] at ha
              | e :: f :: g => simp at hl1
        · rw [if_neg hwd] at hh
          rw [hcv hh]
          have hany : (d :: ds).any (fun c => !isWs c) = true := by simp [hwd]
          rw [hany]
          simp only [and_true]
          match ds with
          | [] =>
            simp [contValue, chomp] at hh
          | [e] =>
            constructor
            · intro h'; simp [endsCRLF] at h'
            · intro h'
              exfalso
              obtain ⟨u, hu⟩ := (endsCRLF_iff _).1 h'
              have hu0 : u = [] := by
                cases u with
                | nil => rfl
                | cons a t => have := congrArg List.length hu; simp at this
              rw [hu0] at hu
              have : d = 13 := by simp at hu; exact hu.1
              subst this; exact hwd (by decide)
          | e :: f :: g => rw [endsCRLF_cons (c := d) (by simp)]
    rw [key cs htl v nl hs]
    have hany : (c :: cs).any (fun c => !isWs c) = cs.any (fun c => !isWs c) := by simp [hw]
    unfold contClean
    rw [hany, Bool.and_eq_true]
    constructor
    · rintro ⟨h1, h2⟩
      refine ⟨?_, h2⟩
      obtain ⟨u, rfl⟩ := (endsCRLF_iff _).1 h1
      rw [endsCRLF_iff]
      exact ⟨c :: u, rfl⟩
    · rintro ⟨h1, h2⟩
      refine ⟨?_, h2⟩
      match cs with
      | [] => simp at h2
      | [e] =>
        exfalso
        obtain ⟨u, hu⟩ := (endsCRLF_iff _).1 h1
        have hu0 : u = [] := by
          cases u with
          | nil => rfl
          | cons a t => have := congrArg List.length hu; simp at this
        rw [hu0] at hu
        have : e = 10 := by simp at hu; exact hu.2
        subst this; simp [isWs] at h2
      | e :: f :: g => rw [endsCRLF_cons (c := c) (by simp)] at h1; exact h1


/-! ### the loops -/

theorem followLoop_clean (fuel : Nat) (l : Bytes) (value : List Bytes) (errors : List Err) (s s' : Stream)
    (next : Bytes) (value' : List Bytes) (errors' : List Err) (h : Cur l s)
    (hr : WarcParser.followLoop fuel l value errors s = .ok (next, value', errors') s') :
    Cur next s' ∧ Spec.lines (next ++ s'.fh.rest) = (Spec.lines (l ++ s.fh.rest)).dropWhile contLine ∧
    (errors' = [] ↔ errors = [] ∧ ((Spec.lines (l ++ s.fh.rest)).takeWhile contLine).all contClean = true) := by
  induction fuel generalizing l value errors s with
  | zero => simp [WarcParser.followLoop] at hr
  | succ fuel ih =>
    have hfs := fspec_isSome h.like
    by_cases hl : l = []
    · subst hl
      simp only [WarcParser.followLoop, pmatch_valueRx] at hr
      simp [fspec] at hr
      obtain ⟨⟨rfl, rfl, rfl⟩, rfl⟩ := hr
      refine ⟨h, ?_, ?_⟩
      · rw [h.nil rfl]; simp [Spec.lines]
      · rw [h.nil rfl]; simp [Spec.lines]
    · rw [h.lines hl]
      cases hs : fspec l with
      | none =>
        rw [hs] at hfs
        simp only [WarcParser.followLoop, pmatch_valueRx, hs] at hr
        simp at hr
        obtain ⟨⟨rfl, rfl, rfl⟩, rfl⟩ := hr
        have hc : ¬ contLine l = true := by simp [← hfs]
        refine ⟨h, ?_, ?_⟩
        · rw [h.lines hl, List.dropWhile_cons, if_neg hc]
        · rw [List.takeWhile_cons, if_neg hc]; simp
      | some p =>
        rw [hs] at hfs
        obtain ⟨l', s1, hrl, hcur, hcat, _, _⟩ := h.next
        have hc : contLine l = true := by simp [← hfs]
        rw [List.dropWhile_cons, if_pos hc, List.takeWhile_cons, if_pos hc, ← hcat]
        simp only [WarcParser.followLoop, pmatch_valueRx, hs, Option.map_some, M.bind_apply, hrl] at hr
        obtain ⟨h1, h2, h3⟩ := ih l' _ _ s1 hcur hr
        refine ⟨h1, h2, ?_⟩
        rw [h3, List.all_cons, Bool.and_eq_true]
        obtain ⟨pv, pn⟩ := p
        have hnl := fspec_nl h.like hs
        constructor
        · rintro ⟨a, b⟩
          by_cases hn : pn = CRLF
          · simp [hn] at a
            exact ⟨a, hnl.1 hn, b⟩
          · simp [hn] at a
        · rintro ⟨a, b, c⟩
          have hn := hnl.2 b
          exact ⟨by simp [hn, a], c⟩

theorem cleanBlock_true (ls : List Bytes) :
    cleanBlock true ls = ((ls.takeWhile contLine).all contClean && cleanBlock false (ls.dropWhile contLine)) := by
  induction ls with
  | nil => simp [cleanBlock]
  | cons l ls ih =>
    rw [List.dropWhile_cons, List.takeWhile_cons]
    by_cases h : contLine l = true
    · rw [if_pos h, if_pos h, cleanBlock, ih]; simp [h, Bool.and_assoc]
    · rw [if_neg h, if_neg h]; simp [cleanBlock, h]

theorem addHeader_errors (st : WarcParser.HState) (k v : Bytes) (hk : 10 ∉ k) :
    (WarcParser.addHeader st k v).errors = [] ↔ st.errors = [] ∧ ValueOk (k, v) := by
  unfold WarcParser.addHeader ValueOk
  simp only [rxTest_type k hk, rxTest_length k hk]
  by_cases h1 : lower k = b! "content-type"
  · have : ¬ lower k = b! "content-length" := by rw [h1]; decide
    by_cases hv : v = []
    · subst hv
      simp [h1]
    · simp [h1, hv]
  · by_cases h2 : lower k = b! "content-length"
    · cases hp : pyInt 10 v with
      | none => simp [h2]
      | some n => simp [h2]
    · simp [h1, h2]

theorem headerLoop_clean (fuel : Nat) (l : Bytes) (st st' : WarcParser.HState) (s s' : Stream) (h : Cur l s)
    (hr : WarcParser.headerLoop fuel l st s = .ok st' s') :
    ∃ new, st'.headers = st.headers ++ new ∧
      (st'.errors = [] ↔ st.errors = [] ∧ cleanBlock false (Spec.lines (l ++ s.fh.rest)) = true ∧
        ∀ x ∈ new, ValueOk x) := by
  induction fuel generalizing l st s with
  | zero => simp [WarcParser.headerLoop] at hr
  | succ fuel ih =>
    by_cases hl : l = []
    · have hrest := h.nil hl
      subst hl
      simp [WarcParser.headerLoop] at hr
      obtain ⟨rfl, rfl⟩ := hr
      exact ⟨[], by simp, by simp [hrest, Spec.lines, cleanBlock]⟩
    · rw [h.lines hl, cleanBlock]
      simp only [Bool.false_and, Bool.false_eq_true, if_false]
      simp only [WarcParser.headerLoop, nlRx_isBlank] at hr
      by_cases hb : blankLine l = true
      · have hb' : isBlank l = true := hb
        rw [if_pos (Or.inr hb')] at hr
        rw [if_pos hb]
        simp at hr
        obtain ⟨rfl, rfl⟩ := hr
        exact ⟨[], by simp, by simp⟩
      · have hb' : ¬ (l = [] ∨ isBlank l = true) := by
          rintro (e | e)
          · exact hl e
          · exact hb e
        rw [if_neg hb]
        rw [if_neg hb', pmatch_headerRx] at hr
        cases hs : hspec l with
        | none =>
          rw [hs] at hr
          simp only [Option.map_none] at hr
          have := ih l st s h hr
          have hbad := (headerLoop_lines fuel l st s h).1
          rw [h.lines hl, stuck] at hbad
          have hsome := hspec_isSome h.like
          rw [hs] at hsome
          simp [hb, ← hsome] at hbad
          rw [hbad] at hr; cases hr
        | some p =>
          rw [hs] at hr
          obtain ⟨l', s1, hrl, hc, hcat, _, _⟩ := h.next
          simp only [Option.map_some, M.bind_apply, M.get_apply, hrl] at hr
          obtain ⟨pn, pv, pnl⟩ := p
          have hnl := hspec_nl h.like hs
          split at hr
          · rename_i x s2 hq
            obtain ⟨next, value', errors'⟩ := x
            obtain ⟨h1, h2, h3⟩ := followLoop_clean _ _ _ _ _ _ _ _ _ hc hq
            obtain ⟨new, h4, h5⟩ := ih next _ s2 h1 hr
            refine ⟨(strip pn, join [32] value') :: new, ?_, ?_⟩
            · rw [h4, addHeader_headers]
              simp only [List.append_assoc, List.cons_append, List.nil_append, hgrp_name]
            · rw [h5, addHeader_errors _ _ _ (by
                intro hm
                exact hspec_name hs (mem_strip (by simpa only [hgrp_name] using hm)))]
              simp only [hgrp_name, hgrp_nl] at h3 ⊢
              rw [h3, cleanBlock_true, ← hcat, h2]
              simp only [Bool.and_eq_true, List.mem_cons, forall_eq_or_imp]
              constructor
              · rintro ⟨⟨⟨a, b⟩, c⟩, d, e⟩
                by_cases hn : pnl = CRLF
                · have a' : st.errors = [] := by
                    simpa [hn] using a
                  exact ⟨a', ⟨hnl.1 hn, b, d⟩, c, e⟩
                · exfalso
                  have : (if pnl ≠ CRLF then st.errors ++ [Err.badNlHeader pnl] else st.errors) ≠ [] := by
                    rw [if_pos hn]; simp
                  exact this a
              · rintro ⟨a, ⟨f, b, d⟩, c, e⟩
                have hn := hnl.2 f
                refine ⟨⟨⟨?_, b⟩, c⟩, d, e⟩
                simp [hn, a]
          · cases hr
          · cases hr


theorem vspec_none_iff {l : Bytes} (h : LineLike l) : vspec l = none ↔ (versionNumber l).isNone = true := by
  rw [← vspec_number h]; simp

theorem versionLoop_clean (fuel : Nat) (l : Bytes) (errors : List Err) (off : Option Nat) (s s' : Stream)
    (mt : Match) (e : List Err) (o : Option Nat) (h : Cur l s)
    (hr : WarcParser.versionLoop fuel l errors off s = .ok (.found mt e o) s') :
    ∃ vl p, mt = vmatch p ∧ vspec vl = some p ∧ LineLike vl ∧ s'.eoc = none ∧ s'.fh.fault = none ∧
      (Spec.lines (l ++ s.fh.rest)).dropWhile (fun l => (versionNumber l).isNone) = vl :: Spec.lines s'.fh.rest ∧
      e = errors ++ (junkLines (Spec.lines (l ++ s.fh.rest))).map Err.ignoredLine := by
  induction fuel generalizing l errors off s with
  | zero => simp [WarcParser.versionLoop] at hr
  | succ fuel ih =>
    by_cases hl : l = []
    · subst hl
      simp [WarcParser.versionLoop] at hr
    · rw [h.lines hl]
      have hn := vspec_none_iff h.like
      simp only [WarcParser.versionLoop, if_neg hl, pmatch_versionRx'] at hr
      cases hv : vspec l with
      | some p =>
        rw [hv] at hr hn
        have hsome : ¬ (versionNumber l).isNone = true := by rw [← hn]; simp
        simp only [Option.map_some, M.pure_apply, Res.ok.injEq, WarcParser.VLoop.found.injEq] at hr
        obtain ⟨⟨rfl, rfl, rfl⟩, rfl⟩ := hr
        refine ⟨l, p, rfl, hv, h.like, h.1, h.2.1, ?_, ?_⟩
        · rw [List.dropWhile_cons, if_neg hsome]
        · rw [junkLines, List.takeWhile_cons, if_neg hsome]; simp
      | none =>
        have hnone : (versionNumber l).isNone = true := hn.1 hv
        rw [hv] at hr
        simp only [Option.map_none, nlRx_isBlank] at hr
        obtain ⟨l', s1, hrl, hc, hcat, _, _⟩ := h.next
        rw [List.dropWhile_cons, if_pos hnone, junkLines, List.takeWhile_cons, if_pos hnone, List.filter_cons]
        by_cases hb : isBlank l = true
        · have hb' : blankLine l = true := hb
          rw [if_pos hb] at hr
          simp only [M.bind_apply, hrl] at hr
          obtain ⟨vl, p, h1, h2, h3, h4, h5, h6, h7⟩ := ih l' errors _ s1 hc hr
          rw [hcat] at h6 h7
          rw [if_neg (by simp [hb'])]
          exact ⟨vl, p, h1, h2, h3, h4, h5, h6, h7⟩
        · have hb' : blankLine l = false := by
            cases hq : blankLine l with
            | false => rfl
            | true => exact absurd hq hb
          rw [if_neg hb] at hr
          split at hr
          · simp at hr
          · simp only [M.bind_apply, hrl] at hr
            obtain ⟨vl, p, h1, h2, h3, h4, h5, h6, h7⟩ := ih l' _ _ s1 hc hr
            rw [hcat] at h6 h7
            rw [if_pos (by simp [hb'])]
            refine ⟨vl, p, h1, h2, h3, h4, h5, h6, ?_⟩
            rw [h7, junkLines]
            simp

/-- prefix and newline of a version line -/
theorem vspec_clean {l : Bytes} {p} (h : LineLike l) (hv : vspec l = some p) :
    (p.2.2.2 = CRLF ∧ p.1 = []) ↔ versionClean l = true := by
  have hat : ∀ x : Bytes, LineLike x → ∀ v n nl, versionAt x = some (v, n, nl) → (nl = CRLF ↔ endsCRLF x = true) := by
    intro x hx v n nl hva
    unfold versionAt at hva
    cases hs : stripI (b! "WARC/") (x.dropWhile isWs) with
    | none => simp [hs] at hva
    | some r =>
      obtain ⟨t, ht, htl⟩ := stripI_append hs
      simp only [hs, Option.bind_some] at hva
      cases hch : chomp r with
      | none => simp [hch] at hva
      | some q =>
        simp only [hch, Option.map_some, Option.some.injEq, Prod.mk.injEq] at hva
        obtain ⟨-, -, rfl⟩ := hva
        have hsuf : x = (x.takeWhile isWs ++ t) ++ r := by
          rw [List.append_assoc, ← ht, List.takeWhile_append_dropWhile]
        have hll : LineLike r := by rw [hsuf] at hx; exact lineLike_suffix hx
        rw [chomp_crlf_iff hll hch]
        constructor
        · intro he
          obtain ⟨u, rfl⟩ := (endsCRLF_iff _).1 he
          rw [endsCRLF_iff]
          exact ⟨(x.takeWhile isWs ++ t) ++ u, by rw [List.append_assoc]; exact hsuf⟩
        · intro he
          match r with
          | [] => simp [chomp] at hch
          | [a] =>
            exfalso
            obtain ⟨u, hu⟩ := (endsCRLF_iff _).1 he
            rw [hsuf, show u ++ CRLF = (u ++ [13]) ++ [10] by simp] at hu
            have := List.append_inj_left' hu rfl
            have hlast : (x.takeWhile isWs ++ t).getLast? = some 13 := by rw [this]; simp
            have ht5 : (lower t).getLast? = some 47 := by rw [htl]; decide
            have hne : t ≠ [] := by intro e; subst e; simp [lower] at ht5
            rw [List.getLast?_append] at hlast
            cases hg : t.getLast? with
            | none => simp at hg; exact hne hg
            | some g =>
              rw [hg] at hlast
              simp at hlast
              subst hlast
              simp [lower, List.getLast?_map, hg] at ht5
              exact absurd ht5 (by decide)
          | a :: b :: c =>
            rw [hsuf, endsCRLF_append (by simp)] at he
            exact he
  have hpre : ∀ x : Bytes, LineLike x → ∀ p, vspec x = some p → (p.2.2.2 = CRLF ↔ endsCRLF x = true) := by
    intro x
    induction x with
    | nil => intro _ p hp; simp [vspec] at hp
    | cons c cs ih =>
      intro hx p hp
      rw [vspec] at hp
      cases hva : versionAt (c :: cs) with
      | some q =>
        obtain ⟨a, b, d⟩ := q
        rw [hva] at hp
        simp only [Option.some.injEq] at hp
        subst hp
        exact hat _ hx a b d hva
      | none =>
        rw [hva] at hp
        simp only at hp
        split at hp
        · simp at hp
        · cases hq : vspec cs with
          | none => simp [hq] at hp
          | some q =>
            obtain ⟨a, b, d, e⟩ := q
            simp only [hq, Option.map_some, Option.some.injEq] at hp
            subst hp
            have := ih (lineLike_tail hx) _ hq
            simp only at this ⊢
            rw [this, endsCRLF_cons]
            -- a version line has more than one byte
            match cs with
            | [] => simp [vspec] at hq
            | [y] =>
              exfalso
              have hs5 : ∀ z : Bytes, stripI (b! "WARC/") z ≠ none → 5 ≤ z.length := by
                intro z hz
                cases hq : stripI (b! "WARC/") z with
                | none => exact absurd hq hz
                | some r =>
                  obtain ⟨t, ht, htl⟩ := stripI_append hq
                  have : (lower t).length = 5 := by rw [htl]; decide
                  simp at this
                  rw [ht]; simp; omega
              have hsn : stripI (b! "WARC/") ([y].dropWhile isWs) = none := by
                cases hq2 : stripI (b! "WARC/") ([y].dropWhile isWs) with
                | none => rfl
                | some r =>
                  have := hs5 _ (by rw [hq2]; simp)
                  have h2 := (List.dropWhile_sublist isWs (l := [y])).length_le
                  simp at h2
                  omega
              simp [vspec, versionAt, hsn] at hq
            | y :: z :: w => simp
  have hp0 : p.1 = [] ↔ lower ((l.dropWhile isWs).take 5) = b! "warc/" := by
    cases l with
    | nil => simp [vspec] at hv
    | cons c cs =>
      have hcomp : complete (c :: cs) = true := by
        cases hq : complete (c :: cs) with
        | true => rfl
        | false => rw [vspec_incomplete h hq] at hv; cases hv
      rw [vspec] at hv
      cases hva : versionAt (c :: cs) with
      | some q =>
        obtain ⟨a, b, d⟩ := q
        rw [hva] at hv
        simp only [Option.some.injEq] at hv
        subst hv
        simp only [true_iff]
        unfold versionAt at hva
        rw [stripI_tag] at hva
        split at hva
        · assumption
        · simp at hva
      | none =>
        rw [hva] at hv
        simp only at hv
        split at hv
        · simp at hv
        · cases hq : vspec cs with
          | none => simp [hq] at hv
          | some q =>
            obtain ⟨a, b, d, e⟩ := q
            simp only [hq, Option.map_some, Option.some.injEq] at hv
            subst hv
            simp only [reduceCtorEq, false_iff]
            intro ht
            -- then the version would have been found here
            unfold versionAt at hva
            rw [stripI_tag, if_pos ht] at hva
            simp only [Option.bind_some] at hva
            have hsuf : (c :: cs) = ((c :: cs).takeWhile isWs ++ ((c :: cs).dropWhile isWs).take 5) ++
                ((c :: cs).dropWhile isWs).drop 5 := by
              rw [List.append_assoc, List.take_append_drop, List.takeWhile_append_dropWhile]
            have hll : LineLike (((c :: cs).dropWhile isWs).drop 5) := by
              rw [hsuf] at h; exact lineLike_suffix h
            have hnone : chomp (((c :: cs).dropWhile isWs).drop 5) = none := by
              cases hch : chomp (((c :: cs).dropWhile isWs).drop 5) with
              | none => rfl
              | some q => rw [hch] at hva; simp at hva
            have hinc := chomp_isSome hll
            rw [hnone] at hinc
            have hlast : (lower (((c :: cs).dropWhile isWs).take 5)).getLast? = some 47 := by rw [ht]; decide
            cases hr : ((c :: cs).dropWhile isWs).drop 5 with
            | nil =>
              rw [hr, List.append_nil] at hsuf
              rw [hsuf] at hcomp
              simp only [complete, List.getLast?_append] at hcomp
              simp only [lower, List.getLast?_map] at hlast
              cases hg : (((c :: cs).dropWhile isWs).take 5).getLast? with
              | none => rw [hg] at hlast; simp at hlast
              | some g =>
                rw [hg] at hlast hcomp
                simp only [Option.map_some, Option.some.injEq, Option.some_or, Bool.or_eq_true, beq_iff_eq] at hlast hcomp
                rcases hcomp with rfl | rfl <;> exact absurd hlast (by decide)
            | cons x y =>
              rw [hr] at hinc hsuf
              rw [hsuf] at hcomp
              have : complete ((c :: cs).takeWhile isWs ++ ((c :: cs).dropWhile isWs).take 5 ++ x :: y) = complete (x :: y) := by
                simp only [complete, List.getLast?_append]
                cases hg : (x :: y).getLast? with
                | none => simp at hg
                | some g => simp
              rw [this, ← hinc] at hcomp
              simp at hcomp
  rw [hpre l h p hv, hp0, versionClean, Bool.and_eq_true, beq_iff_eq]
  exact And.comm

/-- C12 at the level of the parser -/
theorem parse_clean (off : Option Nat) (l : Bytes) (s s' : Stream) (r : Rec) (es : List Err)
    (off' : Option Nat) (h : Cur l s) (hp : WarcParser.parse off l s = .ok (some r, es, off') s') :
    ∃ vl block, (Spec.lines (l ++ s.fh.rest)).dropWhile (fun l => (versionNumber l).isNone) = vl :: block ∧
      (r.errors = [] ↔ junkLines (Spec.lines (l ++ s.fh.rest)) = [] ∧ versionClean vl = true ∧
        cleanBlock false block = true ∧ ∀ x ∈ r.headers, ValueOk x) := by
  unfold WarcParser.parse at hp
  simp only [M.bind_apply, M.get_apply] at hp
  cases hvl : WarcParser.versionLoop (s.fh.rest.length + 2) l [] off s with
  | hang => simp [hvl] at hp
  | raise e s1 => simp [hvl] at hp
  | ok v s1 =>
    rw [hvl] at hp
    simp only at hp
    cases v with
    | eof => simp at hp
    | giveUp => simp at hp
    | found mt e o =>
      obtain ⟨vl, p, rfl, hv, hll, he, hfa, hls, hjunk⟩ := versionLoop_clean _ _ _ _ _ _ _ _ _ h hvl
      simp only at hp
      refine ⟨vl, Spec.lines s1.fh.rest, hls, ?_⟩
      by_cases hk : p.2.2.1 ∈ knownVersions
      · rw [versionErrors_known p e hk] at hp
        simp only [M.bind_apply, M.get_apply] at hp
        rw [readline_ok s1 he (Or.inl hfa)] at hp
        simp only at hp
        have hc : Cur (File.firstLine s1.fh.rest) (s1.adv (File.firstLine s1.fh.rest).length) :=
          ⟨he, hfa, by simp only [adv_fh, File.advance_rest]; rw [File.firstLine_append_drop]⟩
        have hcat : File.firstLine s1.fh.rest ++ (s1.adv (File.firstLine s1.fh.rest).length).fh.rest = s1.fh.rest := by
          simp only [adv_fh, File.advance_rest]; rw [File.firstLine_append_drop]
        split at hp
        · rename_i st' s2 hh
          obtain ⟨new, h1, h2⟩ := headerLoop_clean _ _ _ _ _ _ hc hh
          rw [hcat] at h2
          simp only [M.modify_apply, M.pure_apply, Res.ok.injEq, Prod.mk.injEq, Option.some.injEq] at hp
          obtain ⟨⟨rfl, -, -⟩, -⟩ := hp
          simp only [List.nil_append] at h1
          simp only [h2, h1]
          simp only [List.append_eq_nil_iff, hjunk, List.nil_append, List.map_eq_nil_iff, versionErrs]
          rw [← vspec_clean hll hv]
          constructor
          · rintro ⟨⟨a, b, c⟩, d, e⟩
            refine ⟨a, ⟨?_, ?_⟩, d, e⟩
            · by_cases hx : p.2.2.2 = CRLF
              · exact hx
              · rw [if_pos hx] at b; simp at b
            · by_cases hx : p.1 = []
              · exact hx
              · rw [if_pos hx] at c; simp at c
          · rintro ⟨a, ⟨b, c⟩, d, e⟩
            exact ⟨⟨a, by simp [b], by simp [c]⟩, d, e⟩
        · cases hp
        · cases hp
      · rw [versionErrors_unknown p e hk] at hp
        simp at hp

end Warc
