import Verif.Proofs.Grammar
import Verif.Proofs.ReadRecord
set_option linter.all false
namespace Warc
open Rx Stream Spec

theorem sizeOf_cons (l : Bytes) (ls : List Bytes) : Spec.sizeOf (l :: ls) = l.length + Spec.sizeOf ls := by simp [Spec.sizeOf]
@[simp] theorem sizeOf_nil : Spec.sizeOf [] = 0 := rfl

theorem Cur.step {l : Bytes} {s : Stream} (h : Cur l s) : ∃ l', Stream.readline none s = .ok l' (s.adv l'.length) ∧ Cur l' (s.adv l'.length) ∧
    l' ++ (s.adv l'.length).fh.rest = s.fh.rest := by
  refine ⟨_, readline_ok s h.1 (Or.inl h.2.1), ⟨h.1, h.2.1, ?_⟩, ?_⟩
  · simp only [adv_fh, File.advance_rest]; rw [File.firstLine_append_drop]
  · simp only [adv_fh, File.advance_rest]; rw [File.firstLine_append_drop]

/-- errors of continuation lines -/
def contFlaws (ls : List Bytes) : List Err := ls.flatMap fun l => if contEnd l = CRLF then [] else [Err.badNlFollow l (contEnd l)]

theorem followLoop_exact (fuel : Nat) (l : Bytes) (value : List Bytes) (errors : List Err) (s : Stream)
    (h : Cur l s) (hf : (Spec.lines (l ++ s.fh.rest)).length < fuel) :
    ∃ next k, WarcParser.followLoop fuel l value errors s =
        .ok (next, value ++ ((Spec.lines (l ++ s.fh.rest)).takeWhile contLine).map strip,
          errors ++ contFlaws ((Spec.lines (l ++ s.fh.rest)).takeWhile contLine)) (s.adv k) ∧
      Cur next (s.adv k) ∧ Spec.lines (next ++ (s.adv k).fh.rest) = (Spec.lines (l ++ s.fh.rest)).dropWhile contLine ∧
      l.length + k = Spec.sizeOf ((Spec.lines (l ++ s.fh.rest)).takeWhile contLine) + next.length := by
  induction fuel generalizing l value errors s with
  | zero => omega
  | succ fuel ih =>
    have hfs := fspec_isSome h.like
    by_cases hl : l = []
    · subst hl
      refine ⟨[], 0, ?_, h, ?_, ?_⟩
      · simp only [WarcParser.followLoop, pmatch_valueRx]
        rw [h.nil rfl]
        simp [fspec, Spec.lines, contFlaws]
      · rw [adv_zero, h.nil rfl]; simp [Spec.lines]
      · rw [h.nil rfl]; simp [Spec.lines]
    · rw [h.lines hl] at hf ⊢
      cases hs : fspec l with
      | none =>
        rw [hs] at hfs
        have hc : ¬ contLine l = true := by simp [← hfs]
        refine ⟨l, 0, ?_, h, ?_, ?_⟩
        · simp only [WarcParser.followLoop, pmatch_valueRx, hs]
          rw [List.takeWhile_cons, if_neg hc]
          simp [contFlaws]
        · rw [adv_zero, h.lines hl, List.dropWhile_cons, if_neg hc]
        · rw [List.takeWhile_cons, if_neg hc]; simp
      | some p =>
        rw [hs] at hfs
        have hc : contLine l = true := by simp [← hfs]
        obtain ⟨l', hr, hcur, hcat⟩ := h.step
        have hex := fspec_exact h.like (show fspec l = some (p.1, p.2) from hs)
        rw [List.dropWhile_cons, if_pos hc, List.takeWhile_cons, if_pos hc]
        simp only [WarcParser.followLoop, pmatch_valueRx, hs, Option.map_some, M.bind_apply, hr]
        obtain ⟨next, k, h1, h2, h3, h4⟩ := ih l' (value ++ [strip l])
          (errors ++ if contEnd l = CRLF then [] else [Err.badNlFollow l (contEnd l)]) _ hcur (by rw [hcat]; simpa using hf)
        rw [hcat] at h1 h3 h4
        refine ⟨next, l'.length + k, ?_, ?_, ?_, ?_⟩
        · have e1 : (if p.2 ≠ CRLF then errors ++ [Err.badNlFollow l p.2] else errors) =
              errors ++ if contEnd l = CRLF then [] else [Err.badNlFollow l (contEnd l)] := by
            rw [hex.2]
            by_cases hq : contEnd l = CRLF
            · rw [if_neg (by simp [hq]), if_pos hq]; simp
            · rw [if_pos hq, if_neg hq]
          show WarcParser.followLoop fuel l' (value ++ [strip p.1]) (if p.2 ≠ CRLF then errors ++ [Err.badNlFollow l p.2] else errors) _ = _
          rw [e1, hex.1, h1, ← adv_adv]
          simp [contFlaws]
        · rw [← adv_adv]; exact h2
        · rw [← adv_adv]; exact h3
        · rw [sizeOf_cons]; omega

theorem blockLines_split (ls : List Bytes) : blockLines true ls = ls.takeWhile contLine ++ blockLines false (ls.dropWhile contLine) := by
  induction ls with
  | nil => rfl
  | cons l ls ih =>
    rw [List.takeWhile_cons, List.dropWhile_cons]
    by_cases h : contLine l = true
    · rw [if_pos h, if_pos h, blockLines]
      simp [h, ih]
    · rw [if_neg h, if_neg h]
      simp [blockLines, h]

theorem cutFields_conts (cs b : List Bytes) (h : ∀ l ∈ cs, contLine l = true) :
    cutFields (cs ++ b) = (cs ++ (cutFields b).1, (cutFields b).2) := by
  induction cs with
  | nil => rfl
  | cons l cs ih =>
    rw [List.cons_append, cutFields, if_pos (h l (by simp)), ih fun x hx => h x (by simp [hx])]
    simp

theorem mem_takeWhile_cont (ls : List Bytes) : ∀ l ∈ ls.takeWhile contLine, contLine l = true := by
  induction ls with
  | nil => simp
  | cons d ds ih =>
    rw [List.takeWhile_cons]
    by_cases h : contLine d = true
    · rw [if_pos h]
      intro l hl
      rcases List.mem_cons.1 hl with rfl | hl
      · exact h
      · exact ih l hl
    · rw [if_neg h]; simp

/-- a block whose first line is no continuation -/
theorem cutFields_block (b : List Bytes) (h : ∀ l ls, b = l :: ls → contLine l = false) : cutFields b = ([], fields b) := by
  cases b with
  | nil => rfl
  | cons l ls => rw [cutFields, if_neg (by simp [h l ls rfl]), fields]

theorem dropWhile_head (ls : List Bytes) (l : Bytes) (t : List Bytes) (h : ls.dropWhile contLine = l :: t) : contLine l = false := by
  induction ls with
  | nil => simp at h
  | cons d ds ih =>
    rw [List.dropWhile_cons] at h
    by_cases hd : contLine d = true
    · rw [if_pos hd] at h; exact ih h
    · rw [if_neg hd] at h; simp only [List.cons.injEq] at h; rw [← h.1]; simpa using hd

theorem blockLines_head (ls : List Bytes) (l : Bytes) (t : List Bytes) (h : blockLines false ls = l :: t) : ∃ t', ls = l :: t' := by
  cases ls with
  | nil => simp [blockLines] at h
  | cons d ds =>
    rw [blockLines] at h
    simp only [Bool.false_and, Bool.false_eq_true, if_false] at h
    split at h
    · simp at h
    · simp only [List.cons.injEq] at h; exact ⟨ds, by rw [h.1]⟩

/-- one field and the rest of the block -/
theorem fields_cons (l : Bytes) (ls : List Bytes) (hb : blankLine l = false) :
    fields (blockLines false (l :: ls)) = (l, ls.takeWhile contLine) :: fields (blockLines false (ls.dropWhile contLine)) := by
  rw [blockLines]
  simp only [Bool.false_and, Bool.false_eq_true, if_false, hb]
  rw [fields, blockLines_split, cutFields_conts _ _ (mem_takeWhile_cont ls), cutFields_block]
  · simp
  · intro x xs hx
    obtain ⟨t', ht⟩ := blockLines_head _ _ _ hx
    exact dropWhile_head _ _ _ ht

theorem blockSize_cons (l : Bytes) (ls : List Bytes) (hb : blankLine l = false) :
    blockSize (l :: ls) = l.length + Spec.sizeOf (ls.takeWhile contLine) + blockSize (ls.dropWhile contLine) := by
  unfold blockSize
  rw [blockLines]
  simp only [Bool.false_and, Bool.false_eq_true, if_false, hb]
  rw [blockLines_split]
  have e : (l :: (ls.takeWhile contLine ++ blockLines false (ls.dropWhile contLine))).length + 1 =
      ((ls.takeWhile contLine).length + ((blockLines false (ls.dropWhile contLine)).length + 1)) + 1 := by simp; omega
  rw [e, List.take_succ_cons]
  conv => lhs; rw [← List.takeWhile_append_dropWhile (p := contLine) (l := ls)]
  have e2 : ∀ (a b : List Bytes) (n : Nat), (a ++ b).take (a.length + n) = a ++ b.take n := by
    intro a b n; rw [List.take_append, List.take_of_length_le (by omega)]; simp
  have e3 : ((ls.takeWhile contLine ++ ls.dropWhile contLine).takeWhile contLine) = ls.takeWhile contLine := by
    rw [List.takeWhile_append_dropWhile]
  have e4 : ((ls.takeWhile contLine ++ ls.dropWhile contLine).dropWhile contLine) = ls.dropWhile contLine := by
    rw [List.takeWhile_append_dropWhile]
  rw [e3, e4, e2]
  simp [Spec.sizeOf]
  omega

theorem fieldName_noLF {l : Bytes} (h : LineLike l) (hf : fieldLine l = true) : 10 ∉ (fieldHeader (l, [])).1 := by
  cases hs : hspec l with
  | none => have := hspec_isSome h; rw [hs, hf] at this; simp at this
  | some p =>
    obtain ⟨n, v, nl⟩ := p
    intro hm
    have hex := hspec_exact h hs
    have hn : 10 ∈ n := by rw [hex.1]; exact mem_strip hm
    -- the name part stands before the colon
    have : ∀ (l : Bytes) n, LineLike l → hspec l = some (n, v, nl) → 10 ∉ n := by
      intro l
      induction l with
      | nil => intro n _ h; simp [hspec] at h
      | cons c cs ih =>
        intro n hl h
        rw [hspec] at h
        split at h
        · simp at h; rw [h.1]; simp
        · split at h
          · simp at h
          · rename_i hc
            cases hq : hspec cs with
            | none => rw [hq] at h; simp at h
            | some q =>
              rw [hq] at h
              simp only [Option.map_some, Option.some.injEq, Prod.mk.injEq] at h
              obtain ⟨rfl, h2, h3⟩ := h
              simp only [List.mem_cons, not_or]
              exact ⟨fun e => hc e.symm, ih _ (lineLike_tail hl) (by rw [hq]; simp [← h2, ← h3])⟩
    exact this l n h hs hn

/-- what `addHeader` does, without regular expressions -/
theorem addHeader_exact (st : WarcParser.HState) (k v : Bytes) (hk : 10 ∉ k) :
    WarcParser.addHeader st k v = ⟨st.headers ++ [(k, v)], st.errors ++ (if ValueOk (k, v) then [] else [.invalidHeader k v]),
      if lower k = b! "content-length" then (pyInt 10 v).getD st.contentLength else st.contentLength⟩ := by
  unfold WarcParser.addHeader
  simp only [rxTest_type k hk, rxTest_length k hk]
  by_cases h1 : lower k = b! "content-type"
  · have h2 : ¬ lower k = b! "content-length" := by rw [h1]; decide
    by_cases hv : v = []
    · have : ¬ ValueOk (k, v) := by intro h; exact h.1 h1 hv
      rw [if_neg this, if_neg h2]; simp [h1, hv]
    · have : ValueOk (k, v) := ⟨fun _ => hv, fun h => absurd h h2⟩
      rw [if_pos this, if_neg h2]; simp [h1, hv]
  · by_cases h2 : lower k = b! "content-length"
    · cases hp : pyInt 10 v with
      | none =>
        have : ¬ ValueOk (k, v) := by intro h; have := h.2 h2; simp only [hp] at this; simp at this
        rw [if_neg this, if_pos h2]; simp [h2]
      | some n =>
        have : ValueOk (k, v) := ⟨fun h => absurd h h1, fun _ => by simp [hp]⟩
        rw [if_pos this, if_pos h2]; simp [h2]
    · have : ValueOk (k, v) := ⟨fun h => absurd h h1, fun h => absurd h h2⟩
      rw [if_pos this, if_neg h2]; simp [h1, h2]

/-- the length that the headers announce, if `n` was announced before -/
def lengthAfter (n : Int) (hs : List Header) : Int :=
  hs.foldl (fun acc h => if lower h.1 = b! "content-length" then (pyInt 10 h.2).getD acc else acc) n

theorem headerLoop_exact (fuel : Nat) (l : Bytes) (st : WarcParser.HState) (s : Stream) (h : Cur l s)
    (hst : stuck false (Spec.lines (l ++ s.fh.rest)) = false) (hf : (Spec.lines (l ++ s.fh.rest)).length < fuel) :
    ∃ k, WarcParser.headerLoop fuel l st s =
        .ok ⟨st.headers ++ (fields (blockLines false (Spec.lines (l ++ s.fh.rest)))).map fieldHeader,
          st.errors ++ (fields (blockLines false (Spec.lines (l ++ s.fh.rest)))).flatMap fieldErrors,
          lengthAfter st.contentLength ((fields (blockLines false (Spec.lines (l ++ s.fh.rest)))).map fieldHeader)⟩ (s.adv k) ∧
      l.length + k = blockSize (Spec.lines (l ++ s.fh.rest)) := by
  induction fuel generalizing l st s with
  | zero => omega
  | succ fuel ih =>
    by_cases hl : l = []
    · have hr := h.nil hl
      subst hl
      rw [hr]
      refine ⟨0, ?_, ?_⟩
      · simp [WarcParser.headerLoop, Spec.lines, blockLines, fields, lengthAfter]
      · simp [Spec.lines, blockSize]
    · rw [h.lines hl] at hst hf ⊢
      simp only [WarcParser.headerLoop, nlRx_isBlank]
      rw [stuck] at hst
      simp only [Bool.false_and, Bool.false_eq_true, if_false] at hst
      by_cases hb : blankLine l = true
      · have hb' : isBlank l = true := hb
        rw [if_pos (Or.inr hb')]
        refine ⟨0, ?_, ?_⟩
        · simp [blockLines, hb, fields, lengthAfter]
        · simp [blockSize, blockLines, hb]
      · have hb' : ¬ (l = [] ∨ isBlank l = true) := by
          rintro (e | e)
          · exact hl e
          · exact hb e
        have hbf : blankLine l = false := by simpa using hb
        rw [if_neg hb] at hst
        have hsome := hspec_isSome h.like
        cases hs : hspec l with
        | none => rw [hs] at hsome; rw [if_neg (by simp [← hsome])] at hst; simp at hst
        | some p =>
          obtain ⟨n, v, nl⟩ := p
          rw [hs] at hsome
          have hfl : fieldLine l = true := by simp [← hsome]
          rw [if_pos hfl] at hst
          have hex := hspec_exact h.like hs
          obtain ⟨l', hr, hcur, hcat⟩ := h.step
          rw [if_neg hb', pmatch_headerRx, hs]
          simp only [Option.map_some, M.bind_apply, M.get_apply, hr]
          have e1 : (if nl ≠ CRLF then st.errors ++ [Err.badNlHeader nl] else st.errors) =
              st.errors ++ if fieldEnd l = CRLF then [] else [Err.badNlHeader (fieldEnd l)] := by
            rw [hex.2.2]
            by_cases hq : fieldEnd l = CRLF
            · rw [if_neg (by simp [hq]), if_pos hq]; simp
            · rw [if_pos hq, if_neg hq]
          obtain ⟨next, k, h1, h2, h3, h4⟩ := followLoop_exact (s.fh.rest.length + 2) l' [strip v]
            (st.errors ++ if fieldEnd l = CRLF then [] else [Err.badNlHeader (fieldEnd l)]) _ hcur (by
              rw [hcat]; have := lines_length s.fh.rest; omega)
          rw [hcat] at h1 h3 h4
          have hdl : ((Spec.lines s.fh.rest).dropWhile contLine).length ≤ (Spec.lines s.fh.rest).length :=
            (List.dropWhile_sublist contLine (l := Spec.lines s.fh.rest)).length_le
          simp only [List.length_cons] at hf
          obtain ⟨k2, h5, h6⟩ := ih next (WarcParser.addHeader (⟨st.headers, st.errors ++ (if fieldEnd l = CRLF then [] else [Err.badNlHeader (fieldEnd l)]) ++
              contFlaws ((Spec.lines s.fh.rest).takeWhile contLine), st.contentLength⟩ : WarcParser.HState) (strip n) (join [32] (strip v :: ((Spec.lines s.fh.rest).takeWhile contLine).map strip))) _ h2
            (by rw [h3, ← stuck_dropWhile]; exact hst) (by rw [h3]; omega)
          rw [h3] at h5 h6
          refine ⟨l'.length + (k + k2), ?_, ?_⟩
          · have hname : (fieldHeader (l, (Spec.lines s.fh.rest).takeWhile contLine)) =
                (strip n, join [32] (strip v :: ((Spec.lines s.fh.rest).takeWhile contLine).map strip)) := by
              rw [fieldHeader, hex.1, hex.2.1]
            have hlf : 10 ∉ strip n := by
              have := fieldName_noLF h.like hfl
              rw [fieldHeader, ← hex.1] at this
              exact this
            have g1 : ({ caps := [(Grp.nl, nl), (Grp.value, v), (Grp.name, n)], rest := [] } : Match).grp .value = v := rfl
            have g2 : ({ caps := [(Grp.nl, nl), (Grp.value, v), (Grp.name, n)], rest := [] } : Match).grp .nl = nl := rfl
            have g3 : ({ caps := [(Grp.nl, nl), (Grp.value, v), (Grp.name, n)], rest := [] } : Match).grp .name = n := rfl
            rw [g1, g2, g3, e1, h1]
            simp only
            rw [List.singleton_append, h5, fields_cons l _ hbf, addHeader_exact _ _ _ hlf, adv_adv, adv_adv]
            simp only [List.map_cons, hname, List.flatMap_cons, fieldErrors, lengthAfter, List.foldl_cons, List.append_assoc, List.singleton_append, contFlaws]
          · rw [blockSize_cons l _ hbf]; omega

/-! ### the version line -/

theorem versionLoop_exact (fuel : Nat) (l : Bytes) (errors : List Err) (off : Option Nat) (s : Stream)
    (h : Cur l s) (hf : (Spec.lines (l ++ s.fh.rest)).length < fuel) (he : errors.length ≤ 5) :
    (match look errors.length (Spec.lines (l ++ s.fh.rest)) with
     | .nothing over => ∃ k, WarcParser.versionLoop fuel l errors off s = .ok (.eof (errors ++ ignored over) (off.map (· + Spec.sizeOf over))) (s.adv k) ∧
        l.length + k = Spec.sizeOf over
     | .tooMany over => ∃ k, WarcParser.versionLoop fuel l errors off s =
          .ok (.giveUp (errors ++ ignored over ++ [.tooMany]) (off.map (· + Spec.sizeOf over))) (s.adv k) ∧
        l.length + k = Spec.sizeOf over
     | .found over line rest => ∃ p k, WarcParser.versionLoop fuel l errors off s =
          .ok (.found (vmatch p) (errors ++ ignored over) (off.map (· + (Spec.sizeOf over + (versionPrefix line).length)))) (s.adv k) ∧
        l.length + k = Spec.sizeOf over + line.length ∧ Spec.lines (s.adv k).fh.rest = rest ∧
        p.1 = versionPrefix line ∧ p.2.1 = versionText line ∧ versionNumber line = some p.2.2.1 ∧ p.2.2.2 = lineEnd line) := by
  induction fuel generalizing l errors off s with
  | zero => omega
  | succ fuel ih =>
    by_cases hl : l = []
    · have hr := h.nil hl
      subst hl
      rw [hr]
      refine ⟨0, ?_, ?_⟩
      · simp [WarcParser.versionLoop, ignored]
      · simp
    · rw [h.lines hl] at hf ⊢
      have hn := vspec_number h.like
      rw [look, ← hn]
      simp only [WarcParser.versionLoop, if_neg hl, pmatch_versionRx']
      cases hv : vspec l with
      | some p =>
        have hex := vspec_exact h.like hv
        rw [if_pos (by simp)]
        refine ⟨p, 0, ?_, by simp, by rw [adv_zero], hex⟩
        have g : (vmatch p).grp .prefix_ = p.1 := rfl
        simp only [Option.map_some, g, ← hex.1, ignored, adv_zero]
        simp
      | none =>
        simp only [Option.map_none, nlRx_isBlank, Option.isSome_none, Bool.false_eq_true, if_false]
        obtain ⟨l', hr, hc, hcat⟩ := h.step
        simp only [List.length_cons] at hf
        by_cases hb : blankLine l = true
        · have hb' : isBlank l = true := hb
          rw [if_pos hb, if_pos hb']
          simp only [M.bind_apply, hr]
          have hi := ih l' errors (off.map (· + l.length)) _ hc (by rw [hcat]; omega) he
          rw [hcat] at hi
          cases hlk : look errors.length (Spec.lines s.fh.rest) with
          | nothing over =>
            rw [hlk] at hi; obtain ⟨k, h1, h2⟩ := hi
            refine ⟨l'.length + k, ?_, by rw [sizeOf_cons]; omega⟩
            rw [h1, adv_adv]
            simp [ignored, hb, sizeOf_cons, Option.map_map, Function.comp_def, Nat.add_assoc]
          | tooMany over =>
            rw [hlk] at hi; obtain ⟨k, h1, h2⟩ := hi
            refine ⟨l'.length + k, ?_, by rw [sizeOf_cons]; omega⟩
            rw [h1, adv_adv]
            simp [ignored, hb, sizeOf_cons, Option.map_map, Function.comp_def, Nat.add_assoc]
          | found over line rest =>
            rw [hlk] at hi; obtain ⟨p, k, h1, h2, h3, h4⟩ := hi
            refine ⟨p, l'.length + k, ?_, by rw [sizeOf_cons]; omega, by rw [← adv_adv]; exact h3, h4⟩
            rw [h1, adv_adv]
            simp [ignored, hb, sizeOf_cons, Option.map_map, Function.comp_def, Nat.add_assoc]
        · have hb' : ¬ isBlank l = true := hb
          rw [if_neg hb, if_neg hb']
          by_cases h5 : errors.length = 5
          · rw [if_pos h5, if_pos (by simp [badLines, h5])]
            refine ⟨0, ?_, by simp [sizeOf_cons]⟩
            simp [ignored, hb, sizeOf_cons]
          · rw [if_neg h5, if_neg (by simp [badLines]; omega)]
            simp only [M.bind_apply, hr]
            have hi := ih l' (errors ++ [Err.ignoredLine l]) (off.map (· + l.length)) _ hc (by rw [hcat]; omega) (by simp; omega)
            rw [hcat] at hi
            simp only [List.length_append, List.length_singleton] at hi
            cases hlk : look (errors.length + 1) (Spec.lines s.fh.rest) with
            | nothing over =>
              rw [hlk] at hi; obtain ⟨k, h1, h2⟩ := hi
              refine ⟨l'.length + k, ?_, by rw [sizeOf_cons]; omega⟩
              rw [h1, adv_adv]
              simp [ignored, hb, sizeOf_cons, Option.map_map, Function.comp_def, Nat.add_assoc]
            | tooMany over =>
              rw [hlk] at hi; obtain ⟨k, h1, h2⟩ := hi
              refine ⟨l'.length + k, ?_, by rw [sizeOf_cons]; omega⟩
              rw [h1, adv_adv]
              simp [ignored, hb, sizeOf_cons, Option.map_map, Function.comp_def, Nat.add_assoc]
            | found over line rest =>
              rw [hlk] at hi; obtain ⟨p, k, h1, h2, h3, h4⟩ := hi
              refine ⟨p, l'.length + k, ?_, by rw [sizeOf_cons]; omega, by rw [← adv_adv]; exact h3, h4⟩
              rw [h1, adv_adv]
              simp [ignored, hb, sizeOf_cons, Option.map_map, Function.comp_def, Nat.add_assoc]

/-! ### the parser -/

theorem parse_exact (off : Option Nat) (l : Bytes) (s : Stream) (h : Cur l s) :
    (match look 0 (Spec.lines (l ++ s.fh.rest)) with
     | .nothing over => ∃ k, WarcParser.parse off l s = .ok (none, ignored over, off.map (· + Spec.sizeOf over)) (s.adv k) ∧ l.length + k = Spec.sizeOf over
     | .tooMany over => ∃ k, WarcParser.parse off l s = .ok (none, ignored over ++ [.tooMany], off.map (· + Spec.sizeOf over)) (s.adv k) ∧
        l.length + k = Spec.sizeOf over
     | .found over line rest =>
       if versionNumber line ∈ [some (b! "1.0"), some (b! "0.17"), some (b! "0.18")] then
         if stuck false rest then WarcParser.parse off l s = .hang
         else ∃ k, WarcParser.parse off l s =
           .ok (some { parsed (versionText line) ((fields (blockLines false rest)).map fieldHeader) with
               errors := ignored over ++ versionFlaws line ++ (fields (blockLines false rest)).flatMap fieldErrors }, [],
             off.map (· + (Spec.sizeOf over + (versionPrefix line).length)))
             { s.adv k with eoc := some (declaredLength ((fields (blockLines false rest)).map fieldHeader)) } ∧
           l.length + k = Spec.sizeOf over + line.length + blockSize rest
       else ∃ s', WarcParser.parse off l s = .raise .typeError s') := by
  have hlen : (Spec.lines (l ++ s.fh.rest)).length < s.fh.rest.length + 2 := by
    by_cases hl : l = []
    · rw [hl, h.nil hl]; simp [Spec.lines]
    · rw [h.lines hl]; have := lines_length s.fh.rest; simp; omega
  have hm := versionLoop_exact (s.fh.rest.length + 2) l [] off s h hlen (by simp)
  simp only [List.length_nil, List.nil_append] at hm
  unfold WarcParser.parse
  simp only [M.bind_apply, M.get_apply]
  cases hfv : look 0 (Spec.lines (l ++ s.fh.rest)) with
  | nothing over =>
    rw [hfv] at hm; obtain ⟨k, h1, h2⟩ := hm
    exact ⟨k, by rw [h1]; rfl, h2⟩
  | tooMany over =>
    rw [hfv] at hm; obtain ⟨k, h1, h2⟩ := hm
    exact ⟨k, by rw [h1]; rfl, h2⟩
  | found over line rest =>
    rw [hfv] at hm; obtain ⟨p, k, h1, h2, h3, h4, h5, h6, h7⟩ := hm
    simp only [h1]
    have hkn : (versionNumber line ∈ [some (b! "1.0"), some (b! "0.17"), some (b! "0.18")]) ↔ p.2.2.1 ∈ knownVersions := by
      rw [h6]; simp [knownVersions]
    by_cases hk : p.2.2.1 ∈ knownVersions
    · rw [if_pos (hkn.2 hk), versionErrors_known p _ hk]
      simp only [M.bind_apply, M.get_apply]
      have he1 : (s.adv k).eoc = none := h.1
      have hf1 : (s.adv k).fh.fault = none := h.2.1
      have hrl := readline_ok (s.adv k) he1 (Or.inl hf1)
      rw [hrl]
      simp only
      have hc : Cur (File.firstLine (s.adv k).fh.rest) ((s.adv k).adv (File.firstLine (s.adv k).fh.rest).length) :=
        ⟨he1, hf1, by simp only [adv_fh, File.advance_rest]; rw [File.firstLine_append_drop]⟩
      have hcat : File.firstLine (s.adv k).fh.rest ++ ((s.adv k).adv (File.firstLine (s.adv k).fh.rest).length).fh.rest = (s.adv k).fh.rest := by
        simp only [adv_fh, File.advance_rest]; rw [File.firstLine_append_drop]
      by_cases hst : stuck false rest = true
      · rw [if_pos hst]
        have hh := headerLoop_lines ((s.adv k).fh.rest.length + 2) _ ⟨[], ignored over ++ versionErrs p, 0⟩ _ hc
        rw [hcat, h3] at hh
        rw [hh.1 hst]
      · rw [if_neg hst]
        have hst' : stuck false rest = false := by simpa using hst
        have hh := headerLoop_exact ((s.adv k).fh.rest.length + 2) _ ⟨[], ignored over ++ versionErrs p, 0⟩ _ hc
        rw [hcat, h3] at hh
        obtain ⟨k2, g1, g2⟩ := hh hst' (by rw [← h3]; have := lines_length (s.adv k).fh.rest; omega)
        refine ⟨k + (File.firstLine (s.adv k).fh.rest).length + k2, ?_, by omega⟩
        have hvf : versionErrs p = versionFlaws line := by
          rw [versionErrs, versionFlaws, h4, h7]
          by_cases q1 : lineEnd line = CRLF <;> by_cases q2 : versionPrefix line = [] <;> simp [q1, q2]
        have hver : (vmatch p).grp .version = p.2.1 := rfl
        rw [g1]
        simp only [M.bind_apply, M.modify_apply, M.pure_apply, hver, h5, hvf, adv_adv, List.nil_append, parsed, declaredLength, lengthAfter]
    · rw [if_neg (fun e => hk (hkn.1 e)), versionErrors_unknown p _ hk]
      exact ⟨_, rfl⟩

/-! ### a whole attempt to read a record -/

theorem sizeOf_lines (b : Bytes) : Spec.sizeOf (Spec.lines b) = b.length := by
  have h : ∀ n (b : Bytes), b.length ≤ n → Spec.sizeOf (Spec.lines b) = b.length := by
    intro n
    induction n with
    | zero => intro b hb; have : b = [] := List.eq_nil_of_length_eq_zero (by omega); subst this; simp [Spec.lines]
    | succ n ih =>
      intro b hb
      by_cases hm : b = []
      · subst hm; simp [Spec.lines]
      · have h1 := congrArg List.length (File.firstLine_append_drop b)
        have h2 : File.firstLine b ≠ [] := fun e => hm (File.firstLine_eq_nil.1 e)
        have h3 := List.length_pos_iff.2 h2
        simp only [List.length_append] at h1
        rw [lines_first hm, sizeOf_cons, ih _ (by omega)]
        omega
  exact h b.length b (Nat.le_refl _)

theorem sizeOf_dropWhile (p : Bytes → Bool) (ls : List Bytes) : Spec.sizeOf (ls.dropWhile p) ≤ Spec.sizeOf ls := by
  induction ls with
  | nil => simp
  | cons l ls ih => 
    rw [List.dropWhile_cons]
    by_cases h : p l = true
    · rw [if_pos h, sizeOf_cons]; omega
    · rw [if_neg h]; omega

theorem sizeOf_dropTerminators (b : Bytes) : Spec.sizeOf (dropTerminators (Spec.lines b)) ≤ b.length := by
  have := sizeOf_dropWhile (fun l => l.all fun c => c == 13 || c == 10) (Spec.lines b)
  rw [sizeOf_lines] at this
  exact this

theorem blankLoop_exact (offs : Bool) (fuel : Nat) (s : Stream) (he : s.eoc = none) (hfa : s.fh.fault = none)
    (hf : (Spec.lines s.fh.rest).length < fuel) :
    ∃ l k, blankLoop offs fuel s = .ok (if offs then some (s.fh.pos + (s.fh.rest.length - Spec.sizeOf (dropTerminators (Spec.lines s.fh.rest)))) else none, l) (s.adv k) ∧
      Cur l (s.adv k) ∧ Spec.lines (l ++ (s.adv k).fh.rest) = dropTerminators (Spec.lines s.fh.rest) ∧
      k = s.fh.rest.length - Spec.sizeOf (dropTerminators (Spec.lines s.fh.rest)) + l.length := by
  induction fuel generalizing s with
  | zero => omega
  | succ fuel ih =>
    simp only [blankLoop, M.bind_apply, M.get_apply]
    rw [onFile_readline_ok s (Or.inl hfa)]
    simp only [blankLineRx_isTerm]
    have hcat : File.firstLine s.fh.rest ++ (s.adv (File.firstLine s.fh.rest).length).fh.rest = s.fh.rest := by
      simp only [adv_fh, File.advance_rest]; rw [File.firstLine_append_drop]
    by_cases ht : isTerm (File.firstLine s.fh.rest) = true
    · rw [if_pos ht]
      have hne : s.fh.rest ≠ [] := by
        intro e; rw [e] at ht; simp [File.firstLine, isTerm] at ht
      have hls := lines_first hne
      have hrest : (s.adv (File.firstLine s.fh.rest).length).fh.rest =
          s.fh.rest.drop (File.firstLine s.fh.rest).length := by simp
      have hall : ((File.firstLine s.fh.rest).all fun c => c == 13 || c == 10) = true := by
        simp only [isTerm, Bool.and_eq_true] at ht; exact ht.2
      have hdt : dropTerminators (Spec.lines s.fh.rest) = dropTerminators (Spec.lines (s.fh.rest.drop (File.firstLine s.fh.rest).length)) := by
        rw [hls, dropTerminators, List.dropWhile_cons, if_pos hall]; rfl
      obtain ⟨l, k, h1, h2, h3, h4⟩ := ih (s.adv (File.firstLine s.fh.rest).length) he hfa (by
        rw [hrest]; rw [hls] at hf; simpa using hf)
      rw [hrest, ← hdt] at h1 h3 h4
      have hsz := sizeOf_dropTerminators (s.fh.rest.drop (File.firstLine s.fh.rest).length)
      rw [← hdt] at hsz
      have hlen := congrArg List.length hcat
      rw [hrest] at hlen
      simp only [List.length_append] at hlen
      refine ⟨l, (File.firstLine s.fh.rest).length + k, ?_, ?_, ?_, by omega⟩
      · rw [h1, adv_adv]
        have hp : (s.adv (File.firstLine s.fh.rest).length).fh.pos = s.fh.pos + (File.firstLine s.fh.rest).length := rfl
        rw [hp, Nat.add_assoc]
        congr 4
        omega
      · rw [← adv_adv]; exact h2
      · rw [← adv_adv]; exact h3
    · rw [if_neg ht]
      have hdt : dropTerminators (Spec.lines s.fh.rest) = Spec.lines s.fh.rest := by
        by_cases hm : s.fh.rest = []
        · rw [hm]; simp [Spec.lines, dropTerminators]
        · rw [lines_first hm, dropTerminators, List.dropWhile_cons, if_neg]
          intro hall
          apply ht
          have : File.firstLine s.fh.rest ≠ [] := fun e => hm (File.firstLine_eq_nil.1 e)
          simp only [isTerm, Bool.and_eq_true]
          refine ⟨by simpa using this, hall⟩
      rw [hdt, sizeOf_lines]
      refine ⟨_, _, ?_, ⟨he, hfa, by rw [hcat]⟩, by rw [hcat], by omega⟩
      simp [File.tell]

theorem look_nothing (bad : Nat) (ls over : List Bytes) (h : look bad ls = .nothing over) : Spec.sizeOf over = Spec.sizeOf ls := by
  induction ls generalizing bad over with
  | nil => simp only [look, Looked.nothing.injEq] at h; rw [← h]
  | cons l ls ih =>
    rw [look] at h
    by_cases h1 : (versionNumber l).isSome = true
    · rw [if_pos h1] at h; simp at h
    · rw [if_neg h1] at h
      by_cases h2 : blankLine l = true
      · rw [if_pos h2] at h
        cases hq : look bad ls with
        | nothing o => rw [hq] at h; simp only [Looked.behind, Looked.nothing.injEq] at h; rw [← h, sizeOf_cons, sizeOf_cons, ih _ _ hq]
        | tooMany o => rw [hq] at h; simp [Looked.behind] at h
        | found o a b => rw [hq] at h; simp [Looked.behind] at h
      · rw [if_neg h2] at h
        by_cases h3 : bad = 5
        · rw [if_pos h3] at h; simp at h
        · rw [if_neg h3] at h
          cases hq : look (bad + 1) ls with
          | nothing o => rw [hq] at h; simp only [Looked.behind, Looked.nothing.injEq] at h; rw [← h, sizeOf_cons, sizeOf_cons, ih _ _ hq]
          | tooMany o => rw [hq] at h; simp [Looked.behind] at h
          | found o a b => rw [hq] at h; simp [Looked.behind] at h

/-- **the whole reader**: what an attempt to read a record does, for every sequence of bytes -/
theorem readRecord_exact' (offs : Bool) (s : Stream)
    (hp : s.parser = .warc ∨ ((∃ st, s.parser = .mixed st) ∧ b! "WARC" <+: (dropTerminators (Spec.lines s.fh.rest)).headD [])) (hk : s.kind ≠ .gzipFile)
    (he : s.eoc = none) (hfa : s.fh.fault = none) :
    (match next s.fh.rest with
     | .none errors size => readRecord offs s = .ok ⟨reported s.kind offs (s.fh.pos + size), none, errors⟩ (s.adv size)
     | .record start version headers errors size => readRecord offs s =
         .ok ⟨reported s.kind offs (s.fh.pos + start), some { parsed version headers with errors := errors }, []⟩
           { s.adv size with eoc := some (declaredLength headers) }
     | .unknown => ∃ s', readRecord offs s = .raise .typeError s'
     | .stuck => readRecord offs s = .hang) := by
  have hset : { s with eoc := none } = s := by
    obtain ⟨fh, eoc, kind, parser⟩ := s; simp at he; subst he; rfl
  have hlen : (Spec.lines s.fh.rest).length < s.fh.rest.length + 2 := by
    have := lines_length s.fh.rest; omega
  have hsz := sizeOf_dropTerminators s.fh.rest
  obtain ⟨sk, hsk⟩ : ∃ sk, sk = s.fh.rest.length - Spec.sizeOf (dropTerminators (Spec.lines s.fh.rest)) := ⟨_, rfl⟩
  have key : ∀ offs2, ∃ l k, blankLoop offs2 (s.fh.rest.length + 2) s = .ok (if offs2 then some (s.fh.pos + sk) else none, l) (s.adv k) ∧
      k = sk + l.length ∧
      (∀ o, match look 0 (dropTerminators (Spec.lines s.fh.rest)) with
     | .nothing over => ∃ k', parseWith o l (s.adv k) = .ok (none, ignored over, o.map (· + Spec.sizeOf over)) (s.adv (k + k')) ∧ l.length + k' = Spec.sizeOf over
     | .tooMany over => ∃ k', parseWith o l (s.adv k) = .ok (none, ignored over ++ [.tooMany], o.map (· + Spec.sizeOf over)) (s.adv (k + k')) ∧
        l.length + k' = Spec.sizeOf over
     | .found over line rest =>
       if versionNumber line ∈ [some (b! "1.0"), some (b! "0.17"), some (b! "0.18")] then
         if stuck false rest then parseWith o l (s.adv k) = .hang
         else ∃ k', parseWith o l (s.adv k) =
           .ok (some { parsed (versionText line) ((fields (blockLines false rest)).map fieldHeader) with
               errors := ignored over ++ versionFlaws line ++ (fields (blockLines false rest)).flatMap fieldErrors }, [],
             o.map (· + (Spec.sizeOf over + (versionPrefix line).length)))
             { s.adv (k + k') with eoc := some (declaredLength ((fields (blockLines false rest)).map fieldHeader)) } ∧
           l.length + k' = Spec.sizeOf over + line.length + blockSize rest
       else ∃ s', parseWith o l (s.adv k) = .raise .typeError s') := by
    intro offs2
    obtain ⟨l, k, h1, h2, h3, h4⟩ := blankLoop_exact offs2 _ s he hfa hlen
    rw [← hsk] at h1 h4
    refine ⟨l, k, h1, h4, fun o => ?_⟩
    have hmode : WarcMode (s.adv k) l := by
      rcases hp with hp | ⟨hp1, hp2⟩
      · exact Or.inl hp
      · refine Or.inr ⟨hp1, ?_⟩
        rw [← h3] at hp2
        by_cases hl : l = []
        · rw [hl, h2.nil hl] at hp2
          exact absurd hp2 (by simp [Spec.lines])
        · rw [h2.lines hl] at hp2
          exact List.isPrefixOf_iff_prefix.2 hp2
    rw [parseWith_warc _ _ _ hmode, ← h3]
    have := parse_exact o l (s.adv k) h2
    simp only [adv_adv] at this
    exact this
  have hnothing : ∀ over, look 0 (dropTerminators (Spec.lines s.fh.rest)) = .nothing over →
      Spec.sizeOf over = Spec.sizeOf (dropTerminators (Spec.lines s.fh.rest)) := fun over h => look_nothing _ _ _ h
  unfold readRecord next
  simp only [M.bind_apply, M.get_apply, he, M.pure_apply, M.modify_apply, hset, ← hsk]
  have hkk : s.kind = .plain ∨ s.kind = .gzipRecord := by cases h : s.kind <;> simp_all
  have main : ∀ (offs2 : Bool), ∃ l k, blankLoop offs2 (s.fh.rest.length + 2) s = .ok (if offs2 then some (s.fh.pos + sk) else none, l) (s.adv k) ∧ True := by
    intro o; obtain ⟨l, k, h, _⟩ := key o; exact ⟨l, k, h, trivial⟩
  rcases hkk with hkind | hkind
  · rw [hkind]
    obtain ⟨l, k, hb, hkl, hq⟩ := key offs
    simp only [M.bind_apply, hb]
    have hq := hq (if offs = true then some (s.fh.pos + sk) else none)
    have hrep : ∀ n m, sk + n = m → (if offs = true then some (s.fh.pos + sk) else none).map (· + n) = reported .plain offs (s.fh.pos + m) := by
      intro n m e; subst e; cases offs <;> simp [reported, Nat.add_assoc]
    cases hlk : look 0 (dropTerminators (Spec.lines s.fh.rest)) with
    | nothing over =>
      rw [hlk] at hq; obtain ⟨k', h1, h2⟩ := hq
      have := hnothing over hlk
      simp only
      rw [h1]; simp only [M.pure_apply]
      rw [hrep _ s.fh.rest.length (by omega), show k + k' = s.fh.rest.length by omega]
    | tooMany over =>
      rw [hlk] at hq; obtain ⟨k', h1, h2⟩ := hq
      simp only
      rw [h1]; simp only [M.pure_apply]
      rw [hrep _ _ rfl, show k + k' = sk + Spec.sizeOf over by omega]
    | found over line rest =>
      rw [hlk] at hq
      simp only at hq ⊢
      by_cases c1 : versionNumber line ∈ [some (b! "1.0"), some (b! "0.17"), some (b! "0.18")]
      · rw [if_pos c1] at hq ⊢
        by_cases c2 : stuck false rest = true
        · rw [if_pos c2] at hq ⊢
          simp only; rw [hq]
        · rw [if_neg c2] at hq ⊢
          obtain ⟨k', h1, h2⟩ := hq
          simp only
          rw [h1]; simp only [M.pure_apply]
          rw [hrep _ (sk + Spec.sizeOf over + (versionPrefix line).length) (by omega),
            show k + k' = sk + Spec.sizeOf over + line.length + blockSize rest by omega]
      · rw [if_neg c1] at hq ⊢
        obtain ⟨s', h1⟩ := hq
        simp only; rw [h1]; exact ⟨_, rfl⟩
  · rw [hkind]
    obtain ⟨l, k, hb, hkl, hq⟩ := key false
    simp only [M.bind_apply, hb]
    have hq := hq none
    have hrep : ∀ m, none = reported .gzipRecord offs m := by intro m; rfl
    cases hlk : look 0 (dropTerminators (Spec.lines s.fh.rest)) with
    | nothing over =>
      rw [hlk] at hq; obtain ⟨k', h1, h2⟩ := hq
      have := hnothing over hlk
      simp only
      rw [h1]; simp only [M.pure_apply]
      rw [← hrep, show k + k' = s.fh.rest.length by omega]
    | tooMany over =>
      rw [hlk] at hq; obtain ⟨k', h1, h2⟩ := hq
      simp only
      rw [h1]; simp only [M.pure_apply]
      rw [← hrep, show k + k' = sk + Spec.sizeOf over by omega]
    | found over line rest =>
      rw [hlk] at hq
      simp only at hq ⊢
      by_cases c1 : versionNumber line ∈ [some (b! "1.0"), some (b! "0.17"), some (b! "0.18")]
      · rw [if_pos c1] at hq ⊢
        by_cases c2 : stuck false rest = true
        · rw [if_pos c2] at hq ⊢
          simp only; rw [hq]
        · rw [if_neg c2] at hq ⊢
          obtain ⟨k', h1, h2⟩ := hq
          simp only
          rw [h1]; simp only [M.pure_apply]
          rw [← hrep, show k + k' = sk + Spec.sizeOf over + line.length + blockSize rest by omega]
      · rw [if_neg c1] at hq ⊢
        obtain ⟨s', h1⟩ := hq
        simp only; rw [h1]; exact ⟨_, rfl⟩

theorem readRecord_exact (offs : Bool) (s : Stream) (hp : s.parser = .warc) (hk : s.kind ≠ .gzipFile)
    (he : s.eoc = none) (hfa : s.fh.fault = none) :
    (match next s.fh.rest with
     | .none errors size => readRecord offs s = .ok ⟨reported s.kind offs (s.fh.pos + size), none, errors⟩ (s.adv size)
     | .record start version headers errors size => readRecord offs s =
         .ok ⟨reported s.kind offs (s.fh.pos + start), some { parsed version headers with errors := errors }, []⟩
           { s.adv size with eoc := some (declaredLength headers) }
     | .unknown => ∃ s', readRecord offs s = .raise .typeError s'
     | .stuck => readRecord offs s = .hang) := readRecord_exact' offs s (Or.inl hp) hk he hfa

end Warc
