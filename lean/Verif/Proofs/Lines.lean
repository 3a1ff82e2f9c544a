import Verif.Spec.Lines
import Verif.Proofs.Inv
set_option linter.all false
namespace Warc
open Rx Stream Spec

/-- a line as `readline` returns it: LF only at the end -/
def LineLike (l : Bytes) : Prop := 10 ∉ l.dropLast

theorem lineLike_tail {c : Byte} {cs : Bytes} (h : LineLike (c :: cs)) : LineLike cs := by
  cases cs with
  | nil => simp [LineLike]
  | cons d ds => simp [LineLike] at h ⊢; exact h.2

theorem lineLike_head {c : Byte} {cs : Bytes} (h : LineLike (c :: cs)) (hc : cs ≠ []) : c ≠ 10 := by
  cases cs with
  | nil => exact absurd rfl hc
  | cons d ds => simp [LineLike] at h; exact fun e => h.1 e.symm

theorem lineLike_suffix {a b : Bytes} (h : LineLike (a ++ b)) : LineLike b := by
  induction a with
  | nil => exact h
  | cons c a ih => exact ih (lineLike_tail h)

theorem complete_cons {c : Byte} {cs : Bytes} (h : cs ≠ []) : complete (c :: cs) = complete cs := by
  cases cs with
  | nil => exact absurd rfl h
  | cons d ds => simp [complete]

theorem firstLine_lineLike (x : Bytes) : LineLike (File.firstLine x) := by
  induction x with
  | nil => simp [File.firstLine, LineLike]
  | cons c cs ih =>
    unfold File.firstLine
    split
    · simp [LineLike]
    · rename_i hc
      cases hf : File.firstLine cs with
      | nil => simp [LineLike]
      | cons d ds => rw [hf] at ih; simp [LineLike] at ih ⊢; exact ⟨fun e => hc (by simp [← e]), ih⟩

/-- `chomp` succeeds exactly on complete lines and removes the line end -/
theorem chomp_line {l : Bytes} (h : LineLike l) :
    (chomp l).map (·.1) = if complete l then some (dropNewline l) else none := by
  induction l with
  | nil => simp [chomp, complete]
  | cons c cs ih =>
    have ih := ih (lineLike_tail h)
    rw [chomp]
    by_cases h1 : c :: cs = CRLF
    · rw [if_pos h1, h1]; decide
    · rw [if_neg h1]
      by_cases h2 : c :: cs = [13]
      · rw [if_pos h2, h2]; decide
      · rw [if_neg h2]
        by_cases h3 : c :: cs = [10]
        · rw [if_pos h3, h3]; decide
        · rw [if_neg h3]
          by_cases hcs : cs = []
          · subst hcs
            have hc : ¬ c = 10 := by simpa using h3
            have hc' : ¬ c = 13 := by simpa using h2
            simp [hc, chomp, complete, hc']
          · rw [if_neg (lineLike_head h hcs), complete_cons hcs]
            have hd : dropNewline (c :: cs) = c :: dropNewline cs := by
              match cs, hcs with
              | [d], _ =>
                have : ¬ ([c, d] = CRLF) := h1
                simp [dropNewline, this]
              | d :: e :: f, _ =>
                have hl : (c :: d :: e :: f).length - 2 = ((d :: e :: f).length - 2) + 1 := by simp
                unfold dropNewline
                rw [hl]
                simp only [List.drop_succ_cons, List.take_succ_cons]
                by_cases hx : List.drop ((d :: e :: f).length - 2) (d :: e :: f) = CRLF
                · rw [if_pos ⟨by simp, hx⟩, if_pos ⟨by simp, hx⟩]
                · rw [if_neg (fun q => hx q.2), if_neg (fun q => hx q.2)]
                  simp
            rw [hd]
            cases hch : chomp cs with
            | none => rw [hch] at ih; split at ih <;> simp_all
            | some p =>
              rw [hch] at ih
              simp only [Option.map_some] at ih ⊢
              split at ih
              · rename_i hco; simp [hco]; simpa using ih
              · simp at ih

theorem chomp_isSome {l : Bytes} (h : LineLike l) : (chomp l).isSome = complete l := by
  have := chomp_line h
  cases hc : complete l <;> rw [hc] at this <;> cases hh : chomp l <;> simp_all

theorem hspec_isSome {l : Bytes} (h : LineLike l) : (hspec l).isSome = fieldLine l := by
  induction l with
  | nil => simp [hspec, fieldLine]
  | cons c cs ih =>
    have ih := ih (lineLike_tail h)
    have htl := lineLike_tail h
    rw [hspec]
    by_cases hcs : cs = []
    · subst hcs
      by_cases hc : c = 58
      · subst hc; decide
      · simp [hc, hspec, fieldLine, complete]
        intro h'; exact absurd h'.symm hc
    · by_cases hc : c = 58
      · subst hc
        have hfl : fieldLine (58 :: cs) = complete cs := by
          simp [fieldLine, complete_cons hcs]
        rw [hfl]
        have hac : (afterColon cs).isSome = complete cs := by
          cases cs with
          | nil => exact absurd rfl hcs
          | cons d ds =>
            unfold afterColon
            simp only
            by_cases hw : isWs d = true
            · rw [if_pos hw]
              cases hch : chomp ds with
              | some p =>
                have := chomp_isSome (lineLike_tail htl)
                rw [hch] at this
                have hne : ds ≠ [] := by intro e; subst e; simp [chomp] at hch
                rw [complete_cons hne, ← this]
              | none => simp only; exact chomp_isSome htl
            · rw [if_neg hw]; exact chomp_isSome htl
        cases ha : afterColon cs with
        | some p => rw [ha] at hac; simp [← hac]
        | none =>
          rw [ha] at hac
          simp only [if_true, ha]
          have : hspec cs = none := by
            cases hq : hspec cs with
            | none => rfl
            | some q =>
              rw [hq] at ih
              simp [fieldLine, ← hac] at ih
          simp [this, ← hac]
      · rw [if_neg hc]
        simp only
        rw [if_neg (lineLike_head h hcs)]
        have : fieldLine (c :: cs) = fieldLine cs := by
          simp only [fieldLine, complete_cons hcs, List.contains_cons]
          have : (58 == c) = false := by simpa using fun e => hc e.symm
          simp [this]
        rw [this, ← ih]
        cases hspec cs <;> simp

theorem fspec_isSome {l : Bytes} (h : LineLike l) : (fspec l).isSome = contLine l := by
  cases l with
  | nil => simp [fspec, contLine]
  | cons c cs =>
    unfold fspec contLine
    simp only
    by_cases hw : isWs c = true
    · rw [if_pos hw]
      simp only [hw, Bool.true_and]
      have hcv : ∀ x, LineLike x → (contValue x).isSome = (complete x && decide (2 ≤ x.length)) := by
        intro x hx
        cases x with
        | nil => simp [contValue, complete]
        | cons d ds =>
          rw [contValue]
          by_cases hds : ds = []
          · subst hds; simp [chomp]
          · rw [if_neg (lineLike_head hx hds), Option.isSome_map, chomp_isSome (lineLike_tail hx), complete_cons hds]
            have : 1 ≤ ds.length := List.length_pos_iff.2 hds
            have : decide (2 ≤ (d :: ds).length) = true := by simp; omega
            rw [this, Bool.and_true]
      have hws : ∀ x, LineLike x → (wsStar x).isSome = (complete x && decide (2 ≤ x.length)) := by
        intro x
        induction x with
        | nil => intro _; simp [wsStar, complete]
        | cons d ds ih =>
          intro hx
          have ih := ih (lineLike_tail hx)
          rw [wsStar]
          split
          · rw [Option.isSome_or, ih, hcv _ hx]
            by_cases hds : ds = []
            · subst hds; simp [complete]
            · rw [complete_cons hds]
              cases complete ds with
              | false => simp
              | true => simp; omega
          · exact hcv _ hx
      rw [hws cs (lineLike_tail h)]
      by_cases hcs : cs = []
      · subst hcs; simp [complete]
      · rw [complete_cons hcs]
        congr 1
        simp
    · rw [if_neg hw]
      simp [hw]

theorem vspec_incomplete {l : Bytes} (h : LineLike l) (hi : complete l = false) : vspec l = none := by
  have key : ∀ x, LineLike x → complete x = false → versionAt x = none := by
    intro x hx hc
    unfold versionAt
    cases hs : stripI (b! "WARC/") (x.dropWhile isWs) with
    | none => rfl
    | some r =>
      obtain ⟨p, hp, _⟩ := stripI_append hs
      have hsuf : ∃ a, x = a ++ r := by
        refine ⟨x.takeWhile isWs ++ p, ?_⟩
        rw [List.append_assoc, ← hp, List.takeWhile_append_dropWhile]
      obtain ⟨a, rfl⟩ := hsuf
      have : chomp r = none := by
        have h1 := chomp_isSome (lineLike_suffix hx)
        have h2 : complete r = false := by
          cases r with
          | nil => simp [complete]
          | cons e es =>
            rw [← hc]
            simp only [complete, List.getLast?_append]
            cases hg : (e :: es).getLast? with
            | none => simp at hg
            | some g => simp
        rw [h2] at h1
        simpa using h1
      simp [this]
  induction l with
  | nil => simp [vspec]
  | cons c cs ih =>
    rw [vspec, key _ h hi]
    simp only
    split
    · rfl
    · by_cases hcs : cs = []
      · subst hcs; simp [vspec]
      · rw [ih (lineLike_tail h) (by rw [← complete_cons hcs (c := c)]; exact hi)]
        rfl

theorem stripI_tag (x : Bytes) :
    stripI (b! "WARC/") x = if lower (x.take 5) = b! "warc/" then some (x.drop 5) else none := by
  match x with
  | [] => decide
  | [a] => simp [stripI, lower]
  | [a, b] => simp [stripI, lower]
  | [a, b, c] => simp [stripI, lower]
  | [a, b, c, d] => simp [stripI, lower]
  | a :: b :: c :: d :: e :: r =>
    simp only [stripI, lower, List.take_succ_cons, List.take_zero, List.map_cons, List.map_nil, List.cons.injEq,
      and_true, List.drop_succ_cons, List.drop_zero, 
      show lowerByte 87 = 119 by decide, show lowerByte 65 = 97 by decide,
      show lowerByte 82 = 114 by decide, show lowerByte 67 = 99 by decide, show lowerByte 47 = 47 by decide]
    by_cases h1 : lowerByte a = 119 <;> by_cases h2 : lowerByte b = 97 <;> by_cases h3 : lowerByte c = 114 <;>
      by_cases h4 : lowerByte d = 99 <;> by_cases h5 : lowerByte e = 47 <;> simp [h1, h2, h3, h4, h5]

theorem vspec_number {l : Bytes} (h : LineLike l) : (vspec l).map (·.2.2.1) = versionNumber l := by
  cases hcomp : complete l
  case false =>
    rw [vspec_incomplete h (by simpa using hcomp)]
    simp [versionNumber, hcomp]
  rw [versionNumber, if_pos hcomp]
  induction l with
  | nil => simp [vspec, afterTag]
  | cons c cs ih =>
    by_cases hcs : cs = []
    · subst hcs
      simp only [complete, List.getLast?_singleton, Bool.or_eq_true, beq_iff_eq, Option.some.injEq] at hcomp
      rcases hcomp with rfl | rfl <;> decide
    · have hc10 := lineLike_head h hcs
      have hct : complete cs = true := by rw [← complete_cons hcs (c := c)]; exact hcomp
      have ih := ih (lineLike_tail h) hct
      by_cases hw : isWs c = true
      · -- white space: the same as at the next position
        have hat : afterTag (c :: cs) = afterTag cs := by
          rw [afterTag, if_neg]
          rcases isWs_cases hw with rfl | rfl | rfl | rfl | rfl | rfl <;> simp [lower, lowerByte]
        rw [hat, ← ih]
        have hv : (versionAt (c :: cs)).map (·.2.1) = (versionAt cs).map (·.2.1) := by
          unfold versionAt
          rw [List.dropWhile_cons, if_pos hw]
          cases stripI (b! "WARC/") (cs.dropWhile isWs) with
          | none => rfl
          | some r => cases hch : chomp r <;> simp [hch]
        rw [vspec]
        cases hva : versionAt (c :: cs) with
        | some q =>
          obtain ⟨q1, q2, q3⟩ := q
          rw [hva] at hv
          simp only [Option.map_some]
          cases cs with
          | nil => exact absurd rfl hcs
          | cons d ds =>
            rw [vspec]
            cases hvb : versionAt (d :: ds) with
            | none => rw [hvb] at hv; simp at hv
            | some q' =>
              obtain ⟨r1, r2, r3⟩ := q'
              rw [hvb] at hv
              simpa using hv
        | none =>
          simp only [if_neg hc10, Option.map_map]
          rfl
      · have hdw : (c :: cs).dropWhile isWs = c :: cs := by
          rw [List.dropWhile_cons, if_neg hw]
        rw [vspec, versionAt, hdw, stripI_tag, afterTag]
        by_cases ht : lower ((c :: cs).take 5) = b! "warc/"
        · rw [if_pos ht, if_pos ht]
          have hll : LineLike ((c :: cs).drop 5) := by
            apply lineLike_suffix (a := (c :: cs).take 5)
            rw [List.take_append_drop]; exact h
          have hcl : complete ((c :: cs).drop 5) = true := by
            have hne : (c :: cs).drop 5 ≠ [] := by
              intro e
              have hlen : ((c :: cs).take 5).length = 5 := by
                have := congrArg List.length ht
                simpa [lower] using this
              have heq : (c :: cs).take 5 = c :: cs := by
                have := List.take_append_drop 5 (c :: cs)
                rw [e] at this; simpa using this
              rw [heq] at ht
              have hlast : (lower (c :: cs)).getLast? = some 47 := by rw [ht]; decide
              simp only [complete] at hcomp
              simp only [lower, List.getLast?_map] at hlast
              cases hg : (c :: cs).getLast? with
              | none => simp [hg] at hlast
              | some g =>
                rw [hg] at hlast hcomp
                simp only [Option.map_some, Option.some.injEq] at hlast
                simp only [Bool.or_eq_true, beq_iff_eq, Option.some.injEq] at hcomp
                rcases hcomp with rfl | rfl <;> revert hlast <;> decide
            have h2 : complete ((c :: cs).take 5 ++ (c :: cs).drop 5) = complete ((c :: cs).drop 5) := by
              simp only [complete, List.getLast?_append]
              cases hg : ((c :: cs).drop 5).getLast? with
              | none => simp at hg; exact absurd (by simpa using hg) hne
              | some g => simp
            rw [← h2, List.take_append_drop]; exact hcomp
          have := chomp_line hll
          rw [hcl, if_pos rfl] at this
          simp only [Option.bind_some]
          cases hch : chomp ((c :: cs).drop 5) with
          | none => rw [hch] at this; simp at this
          | some p => rw [hch] at this; simpa using this
        · rw [if_neg ht, if_neg ht]
          simp only [Option.bind_none, if_neg hc10, Option.map_map]
          rw [← ih]
          rfl

/-! ### reading lines -/

theorem lines_first {x : Bytes} (h : x ≠ []) :
    lines x = File.firstLine x :: lines (x.drop (File.firstLine x).length) := by
  induction x with
  | nil => exact absurd rfl h
  | cons c cs ih =>
    rw [lines, File.firstLine]
    by_cases hc : c = 10
    · subst hc; simp
    · rw [if_neg hc]
      have : (c == 10) = false := by simpa using hc
      simp only [this, Bool.false_eq_true, if_false, List.length_cons, List.drop_succ_cons]
      by_cases hcs : cs = []
      · subst hcs; simp [lines, File.firstLine]
      · rw [ih hcs]

/-- the loops hold a line that was just read -/
def Cur (l : Bytes) (s : Stream) : Prop :=
  s.eoc = none ∧ s.fh.fault = none ∧ l = File.firstLine (l ++ s.fh.rest)

theorem Cur.like {l s} (h : Cur l s) : LineLike l := by
  rw [h.2.2]; exact firstLine_lineLike _

theorem Cur.lines {l : Bytes} {s : Stream} (h : Cur l s) (hl : l ≠ []) : Spec.lines (l ++ s.fh.rest) = l :: Spec.lines s.fh.rest := by
  rw [lines_first (by simp [hl]), ← h.2.2]
  simp

theorem Cur.nil {l : Bytes} {s : Stream} (h : Cur l s) (hl : l = []) : s.fh.rest = [] := by
  have := h.2.2
  rw [hl, List.nil_append] at this
  exact File.firstLine_eq_nil.1 this.symm

theorem Cur.next {l : Bytes} {s : Stream} (h : Cur l s) : ∃ l' s', Stream.readline none s = .ok l' s' ∧ Cur l' s' ∧
    l' ++ s'.fh.rest = s.fh.rest ∧ s'.kind = s.kind ∧ s'.parser = s.parser := by
  refine ⟨_, _, readline_ok s h.1 (Or.inl h.2.1), ⟨h.1, h.2.1, ?_⟩, ?_, rfl, rfl⟩
  · simp only [adv_fh, File.advance_rest]; rw [File.firstLine_append_drop]
  · simp only [adv_fh, File.advance_rest]; rw [File.firstLine_append_drop]

theorem lines_length (x : Bytes) : (Spec.lines x).length ≤ x.length := by
  induction x with
  | nil => simp [Spec.lines]
  | cons c cs ih =>
    rw [Spec.lines]
    split
    · simp; exact ih
    · cases hl : Spec.lines cs with
      | nil => simp
      | cons a b => rw [hl] at ih; simp at ih ⊢; omega

/-- the continuation loop on lines -/
theorem followLoop_lines (fuel : Nat) (l : Bytes) (value : List Bytes) (errors : List Err) (s : Stream)
    (h : Cur l s) (hf : (Spec.lines (l ++ s.fh.rest)).length < fuel) :
    ∃ next value' errors' s', WarcParser.followLoop fuel l value errors s = .ok (next, value', errors') s' ∧
      Cur next s' ∧ Spec.lines (next ++ s'.fh.rest) = (Spec.lines (l ++ s.fh.rest)).dropWhile contLine := by
  induction fuel generalizing l value errors s with
  | zero => omega
  | succ fuel ih =>
    have hfs := fspec_isSome h.like
    by_cases hl : l = []
    · subst hl
      refine ⟨[], value, errors, s, ?_, h, ?_⟩
      · simp only [WarcParser.followLoop, pmatch_valueRx]
        simp [fspec]
      · rw [h.nil rfl]; simp [Spec.lines]
    · rw [h.lines hl] at hf ⊢
      cases hs : fspec l with
      | none =>
        rw [hs] at hfs
        refine ⟨l, value, errors, s, ?_, h, ?_⟩
        · simp only [WarcParser.followLoop, pmatch_valueRx, hs]
          simp
        · rw [h.lines hl, List.dropWhile_cons, if_neg (by simp [← hfs])]
      | some p =>
        rw [hs] at hfs
        obtain ⟨l', s1, hr, hc, hcat, _, _⟩ := h.next
        rw [List.dropWhile_cons, if_pos (by simp [← hfs]), ← hcat]
        simp only [WarcParser.followLoop, pmatch_valueRx, hs, Option.map_some, M.bind_apply, hr]
        exact ih l' _ _ s1 hc (by rw [hcat]; simpa using hf)

theorem followLoop_lines' {fuel : Nat} {l : Bytes} {value : List Bytes} {errors : List Err} {s : Stream} {r}
    (e : WarcParser.followLoop fuel l value errors s = r)
    (h : Cur l s) (hf : (Spec.lines (l ++ s.fh.rest)).length < fuel) :
    ∃ next value' errors' s', r = .ok (next, value', errors') s' ∧
      Cur next s' ∧ Spec.lines (next ++ s'.fh.rest) = (Spec.lines (l ++ s.fh.rest)).dropWhile contLine := by
  rw [← e]; exact followLoop_lines _ _ _ _ _ h hf

theorem stuck_dropWhile (ls : List Bytes) : stuck true ls = stuck false (ls.dropWhile contLine) := by
  induction ls with
  | nil => simp [stuck]
  | cons l ls ih =>
    rw [List.dropWhile_cons]
    by_cases h : contLine l = true
    · rw [if_pos h, stuck, ← ih]; simp [h]
    · rw [if_neg h]; simp [stuck, h]

/-- the header loop never returns exactly when the block is stuck; with less fuel it cannot be told
apart from a hang, with more nothing changes -/
theorem headerLoop_lines (fuel : Nat) (l : Bytes) (st : WarcParser.HState) (s : Stream) (h : Cur l s) :
    (stuck false (Spec.lines (l ++ s.fh.rest)) = true → WarcParser.headerLoop fuel l st s = .hang) ∧
    (stuck false (Spec.lines (l ++ s.fh.rest)) = false → (Spec.lines (l ++ s.fh.rest)).length < fuel →
      ∃ st' s', WarcParser.headerLoop fuel l st s = .ok st' s') := by
  induction fuel generalizing l st s with
  | zero => exact ⟨fun _ => rfl, fun _ h => absurd h (by omega)⟩
  | succ fuel ih =>
    by_cases hl : l = []
    · have hr := h.nil hl
      subst hl
      rw [hr]
      refine ⟨fun hh => by simp [Spec.lines, stuck] at hh, fun _ _ => ⟨st, s, ?_⟩⟩
      simp [WarcParser.headerLoop]
    · rw [h.lines hl, stuck]
      simp only [Bool.false_and, Bool.false_eq_true, if_false, WarcParser.headerLoop, nlRx_isBlank]
      by_cases hb : blankLine l = true
      · have hb' : isBlank l = true := hb
        rw [if_pos hb, if_pos (Or.inr hb')]
        exact ⟨fun hh => by simp at hh, fun _ _ => ⟨st, s, rfl⟩⟩
      · have hb' : ¬ (l = [] ∨ isBlank l = true) := by
          rintro (e | e)
          · exact hl e
          · exact hb e
        rw [if_neg hb, if_neg hb', pmatch_headerRx]
        have hsome := hspec_isSome h.like
        cases hs : hspec l with
        | none =>
          rw [hs] at hsome
          rw [if_neg (by simp [← hsome])]
          refine ⟨fun _ => ?_, fun hh => by simp at hh⟩
          simp only [Option.map_none]
          refine (ih l st s h).1 ?_
          rw [h.lines hl, stuck]
          simp [hb, ← hsome]
        | some p =>
          rw [hs] at hsome
          rw [if_pos (by simp [← hsome])]
          obtain ⟨l', s1, hr, hc, hcat, _, _⟩ := h.next
          simp only [Option.map_some, M.bind_apply, M.get_apply, hr]
          generalize hq : WarcParser.followLoop (s.fh.rest.length + 2) l' _ _ s1 = q
          obtain ⟨next, v', e', s2, rfl, hc2, hcat2⟩ := followLoop_lines' hq hc
            (by rw [hcat]; have := lines_length s.fh.rest; omega)
          simp only
          rw [stuck_dropWhile, ← hcat, ← hcat2]
          have := fun st2 => ih next st2 s2 hc2
          refine ⟨(this _).1, fun h1 h2 => (this _).2 h1 ?_⟩
          rw [hcat2]
          have h3 := (List.dropWhile_sublist contLine (l := Spec.lines (l' ++ s1.fh.rest))).length_le
          simp only [List.length_cons] at h2
          omega


/-! ### the version line -/

theorem versionLoop_lines (fuel : Nat) (l : Bytes) (errors : List Err) (off : Option Nat) (s : Stream)
    (h : Cur l s) (hf : (Spec.lines (l ++ s.fh.rest)).length < fuel) (he : errors.length ≤ 5) :
    ∃ v s', WarcParser.versionLoop fuel l errors off s = .ok v s' ∧ s'.eoc = none ∧ s'.fh.fault = none ∧
      (match findVersion errors.length (Spec.lines (l ++ s.fh.rest)) with
       | .nothing => ∃ e o, v = .eof e o
       | .tooManyBadLines => ∃ e o, v = .giveUp e o
       | .version n ls => ∃ p e o, v = .found (vmatch p) e o ∧ p.2.2.1 = n ∧ Spec.lines s'.fh.rest = ls) := by
  induction fuel generalizing l errors off s with
  | zero => omega
  | succ fuel ih =>
    by_cases hl : l = []
    · have hr := h.nil hl
      subst hl
      rw [hr]
      exact ⟨.eof errors off, s, by simp [WarcParser.versionLoop], h.1, h.2.1, _, _, rfl⟩
    · rw [h.lines hl] at hf ⊢
      have hn := vspec_number h.like
      rw [findVersion, ← hn]
      simp only [WarcParser.versionLoop, if_neg hl, pmatch_versionRx']
      cases hv : vspec l with
      | some p =>
        exact ⟨_, s, rfl, h.1, h.2.1, p, _, _, rfl, rfl, rfl⟩
      | none =>
        simp only [Option.map_none, nlRx_isBlank]
        obtain ⟨l', s1, hr, hc, hcat, _, _⟩ := h.next
        by_cases hb : blankLine l = true
        · have hb' : isBlank l = true := hb
          rw [if_pos hb, if_pos hb']
          simp only [M.bind_apply, hr]
          rw [← hcat]
          exact ih l' errors _ s1 hc (by rw [hcat]; simpa using hf) he
        · have hb' : ¬ isBlank l = true := hb
          rw [if_neg hb, if_neg hb']
          by_cases h5 : errors.length = 5
          · rw [if_pos h5, if_pos (by simp [badLines, h5])]
            exact ⟨_, s, rfl, h.1, h.2.1, _, _, rfl⟩
          · rw [if_neg h5, if_neg (by simp [badLines]; omega)]
            simp only [M.bind_apply, hr]
            rw [← hcat]
            have := ih l' (errors ++ [Err.ignoredLine l]) (off.map (· + l.length)) s1 hc
              (by rw [hcat]; simpa using hf) (by simp; omega)
            simpa using this

/-- all outcomes of the parser -/
theorem parse_lines (off : Option Nat) (l : Bytes) (s : Stream) (h : Cur l s) :
    (match findVersion 0 (Spec.lines (l ++ s.fh.rest)) with
     | .nothing => ∃ es o s', WarcParser.parse off l s = .ok (none, es, o) s'
     | .tooManyBadLines => ∃ es o s', WarcParser.parse off l s = .ok (none, es, o) s'
     | .version n ls =>
       if n ∈ knownVersions then
         if stuck false ls then WarcParser.parse off l s = .hang
         else ∃ r o s', WarcParser.parse off l s = .ok (some r, [], o) s'
       else ∃ s', WarcParser.parse off l s = .raise .typeError s') := by
  have hlen : (Spec.lines (l ++ s.fh.rest)).length < s.fh.rest.length + 2 := by
    by_cases hl : l = []
    · rw [hl, h.nil hl]; simp [Spec.lines]
    · rw [h.lines hl]; have := lines_length s.fh.rest; simp; omega
  obtain ⟨v, s1, hv, he, hfa, hm⟩ := versionLoop_lines (s.fh.rest.length + 2) l [] off s h hlen (by simp)
  simp only [List.length_nil] at hm
  unfold WarcParser.parse
  simp only [M.bind_apply, M.get_apply, hv]
  cases hfv : findVersion 0 (Spec.lines (l ++ s.fh.rest)) with
  | nothing =>
    rw [hfv] at hm; obtain ⟨e, o, rfl⟩ := hm
    exact ⟨_, _, _, rfl⟩
  | tooManyBadLines =>
    rw [hfv] at hm; obtain ⟨e, o, rfl⟩ := hm
    exact ⟨_, _, _, rfl⟩
  | version n ls =>
    rw [hfv] at hm; obtain ⟨p, e, o, rfl, hp, hls⟩ := hm
    simp only
    by_cases hk : n ∈ knownVersions
    · rw [if_pos hk]
      rw [← hp] at hk
      rw [versionErrors_known p e hk]
      simp only [M.bind_apply, M.get_apply]
      have hcur : Cur [] s1 ∨ True := Or.inr trivial
      have hrl := readline_ok s1 he (Or.inl hfa)
      rw [hrl]
      simp only
      have hc : Cur (File.firstLine s1.fh.rest) (s1.adv (File.firstLine s1.fh.rest).length) :=
        ⟨he, hfa, by simp only [adv_fh, File.advance_rest]; rw [File.firstLine_append_drop]⟩
      have hcat : File.firstLine s1.fh.rest ++ (s1.adv (File.firstLine s1.fh.rest).length).fh.rest = s1.fh.rest := by
        simp only [adv_fh, File.advance_rest]; rw [File.firstLine_append_drop]
      have hh := headerLoop_lines (s1.fh.rest.length + 2) _ ⟨[], e ++ versionErrs p, 0⟩ _ hc
      rw [hcat, hls] at hh
      by_cases hst : stuck false ls = true
      · rw [if_pos hst, hh.1 hst]
      · rw [if_neg hst]
        have hst' : stuck false ls = false := by simpa using hst
        obtain ⟨st', s', hok⟩ := hh.2 hst' (by rw [← hls]; have := lines_length s1.fh.rest; omega)
        rw [hok]
        exact ⟨_, _, _, rfl⟩
    · rw [if_neg hk]
      rw [← hp] at hk
      rw [versionErrors_unknown p e hk]
      exact ⟨_, rfl⟩

/-! ### a whole attempt to read a record -/

theorem blankLoop_lines (offs : Bool) (fuel : Nat) (s : Stream) (he : s.eoc = none) (hfa : s.fh.fault = none)
    (hf : (Spec.lines s.fh.rest).length < fuel) :
    ∃ off l s', blankLoop offs fuel s = .ok (off, l) s' ∧ Cur l s' ∧ s'.kind = s.kind ∧ s'.parser = s.parser ∧
      Spec.lines (l ++ s'.fh.rest) = dropTerminators (Spec.lines s.fh.rest) := by
  induction fuel generalizing s with
  | zero => omega
  | succ fuel ih =>
    simp only [blankLoop, M.bind_apply, M.get_apply]
    rw [onFile_readline_ok s (Or.inl hfa)]
    simp only [blankLineRx_isTerm]
    have hcat : File.firstLine s.fh.rest ++ (s.adv (File.firstLine s.fh.rest).length).fh.rest = s.fh.rest := by
      simp only [adv_fh, File.advance_rest]; rw [File.firstLine_append_drop]
    by_cases ht : isTerm (File.firstLine s.fh.rest) = true
    · rw [if_pos ht]
      have hne : s.fh.rest ≠ [] := by
        intro e; rw [e] at ht; simp [File.firstLine, isTerm] at ht
      have hls := lines_first hne
      have hrest : (s.adv (File.firstLine s.fh.rest).length).fh.rest =
          s.fh.rest.drop (File.firstLine s.fh.rest).length := by simp
      obtain ⟨off, l, s', h1, h2, h3, h4, h5⟩ := ih (s.adv (File.firstLine s.fh.rest).length) he hfa (by
        rw [hrest]; rw [hls] at hf; simpa using hf)
      refine ⟨off, l, s', h1, h2, h3, h4, ?_⟩
      rw [h5, hrest, hls]
      have hall : ((File.firstLine s.fh.rest).all fun c => c == 13 || c == 10) = true := by
        simp only [isTerm, Bool.and_eq_true] at ht; exact ht.2
      conv => rhs; rw [dropTerminators, List.dropWhile_cons, if_pos hall]
      rfl
    · rw [if_neg ht]
      refine ⟨_, _, _, rfl, ⟨he, hfa, by rw [hcat]⟩, rfl, rfl, ?_⟩
      rw [hcat]
      by_cases hm : s.fh.rest = []
      · rw [hm]; simp [Spec.lines, dropTerminators]
      · rw [lines_first hm, dropTerminators, List.dropWhile_cons, if_neg]
        intro hall
        apply ht
        have : File.firstLine s.fh.rest ≠ [] := fun e => hm (File.firstLine_eq_nil.1 e)
        simp only [isTerm, Bool.and_eq_true]
        refine ⟨by simpa using this, hall⟩

/-- all outcomes of an attempt to read a WARC record -/
theorem readRecord_lines (offs : Bool) (s : Stream) (hp : s.parser = .warc) (hk : s.kind ≠ .gzipFile)
    (he : s.eoc = none) (hfa : s.fh.fault = none) :
    (match findVersion 0 (dropTerminators (Spec.lines s.fh.rest)) with
     | .nothing => ∃ e s', readRecord offs s = .ok e s' ∧ e.rcd = none
     | .tooManyBadLines => ∃ e s', readRecord offs s = .ok e s' ∧ e.rcd = none
     | .version n ls =>
       if n ∈ knownVersions then
         if stuck false ls then readRecord offs s = .hang
         else ∃ e r s', readRecord offs s = .ok e s' ∧ e.rcd = some r
       else ∃ s', readRecord offs s = .raise .typeError s') := by
  have hset : { s with eoc := none } = s := by
    obtain ⟨fh, eoc, kind, parser⟩ := s; simp at he; subst he; rfl
  have hlen : (Spec.lines s.fh.rest).length < s.fh.rest.length + 2 := by
    have := lines_length s.fh.rest; omega
  have key : ∀ offs2, ∃ off l s1, blankLoop offs2 (s.fh.rest.length + 2) s = .ok (off, l) s1 ∧ 
    (∀ o, (match findVersion 0 (dropTerminators (Spec.lines s.fh.rest)) with
     | .nothing => ∃ es o' s', parseWith o l s1 = .ok (none, es, o') s'
     | .tooManyBadLines => ∃ es o' s', parseWith o l s1 = .ok (none, es, o') s'
     | .version n ls =>
       if n ∈ knownVersions then
         if stuck false ls then parseWith o l s1 = .hang
         else ∃ r o' s', parseWith o l s1 = .ok (some r, [], o') s'
       else ∃ s', parseWith o l s1 = .raise .typeError s')) := by
    intro offs2
    obtain ⟨off, l, s1, h1, h2, h3, h4, h5⟩ := blankLoop_lines offs2 _ s he hfa hlen
    refine ⟨off, l, s1, h1, fun o => ?_⟩
    rw [parseWith_warc _ _ _ (Or.inl (by rw [h4, hp])), ← h5]
    exact parse_lines o l s1 h2
  unfold readRecord
  simp only [M.bind_apply, M.get_apply, he, M.pure_apply, M.modify_apply, hset]
  cases hkind : s.kind with
  | gzipFile => exact absurd hkind hk
  | plain =>
    obtain ⟨off, l, s1, hb, hq⟩ := key offs
    simp only [M.bind_apply, hb]
    have hq := hq off
    split at hq
    · obtain ⟨es, o', s', hh⟩ := hq; rw [hh]; exact ⟨_, _, rfl, rfl⟩
    · obtain ⟨es, o', s', hh⟩ := hq; rw [hh]; exact ⟨_, _, rfl, rfl⟩
    · split at hq
      · split at hq
        · rename_i h1 h2; rw [if_pos h1, if_pos h2, hq]
        · rename_i h1 h2; rw [if_pos h1, if_neg h2]; obtain ⟨r, o', s', hh⟩ := hq; rw [hh]; exact ⟨_, _, _, rfl, rfl⟩
      · rename_i h1; rw [if_neg h1]; obtain ⟨s', hh⟩ := hq; rw [hh]; exact ⟨_, rfl⟩
  | gzipRecord =>
    obtain ⟨off, l, s1, hb, hq⟩ := key false
    simp only [M.bind_apply, hb]
    have hq := hq none
    split at hq
    · obtain ⟨es, o', s', hh⟩ := hq; rw [hh]; exact ⟨_, _, rfl, rfl⟩
    · obtain ⟨es, o', s', hh⟩ := hq; rw [hh]; exact ⟨_, _, rfl, rfl⟩
    · split at hq
      · split at hq
        · rename_i h1 h2; rw [if_pos h1, if_pos h2, hq]
        · rename_i h1 h2; rw [if_pos h1, if_neg h2]; obtain ⟨r, o', s', hh⟩ := hq; rw [hh]; exact ⟨_, _, _, rfl, rfl⟩
      · rename_i h1; rw [if_neg h1]; obtain ⟨s', hh⟩ := hq; rw [hh]; exact ⟨_, rfl⟩

end Warc
