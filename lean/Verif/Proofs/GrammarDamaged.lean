import Verif.Proofs.ReadAll
import Verif.Proofs.Extend
import Verif.Proofs.Grow
import Verif.Spec.GrammarDamaged
set_option linter.all false
/-
  The parser on damaged data.
-/
namespace Warc
open Rx Stream Spec

theorem whole_last {x : Bytes} (h : (File.firstLine x).getLast? = some 10) :
    wholeLines x = File.firstLine x :: wholeLines (x.drop (File.firstLine x).length) := by
  have hx : x ≠ [] := by rintro rfl; simp [File.firstLine] at h
  rw [wholeLines, lines_first hx, List.filter_cons, if_pos (by simp [h])]; rfl

theorem whole_none {x : Bytes} (h : (File.firstLine x).getLast? ≠ some 10) : wholeLines x = [] := by
  by_cases hx : x = []
  · subst hx; rfl
  · have hlen : ¬ (File.firstLine x).length < x.length := fun hl => h (firstLine_short x hl)
    rw [wholeLines, lines_first hx, List.filter_cons, if_neg (by simpa using h), List.drop_of_length_le (by omega)]
    rfl

/-- the loops hold a complete line that was just read from damaged data -/
structure CurB (e : Exc) (l : Bytes) (s : Stream) : Prop where
  bad : Bad e s
  eoc : s.eoc = none
  like : LineLike l
  last : l.getLast? = some 10

theorem CurB.ne {e : Exc} {l : Bytes} {s : Stream} (h : CurB e l s) : l ≠ [] := by
  intro e; have := h.last; rw [e] at this; simp at this

theorem bad_adv {e : Exc} {s : Stream} (h : Bad e s) : Bad e (s.adv (File.firstLine s.fh.rest).length) := by
  refine ⟨h.fault, ?_⟩
  have h1 := File.firstLine_length_le s.fh.rest
  have h2 := h.pos
  simp only [Stream.adv, File.advance, File.rest, List.length_drop] at *
  omega

theorem newline_mem {x : Bytes} (h : (File.firstLine x).getLast? = some 10) : (10 : UInt8) ∈ x :=
  (File.firstLine_prefix x).subset (List.mem_of_getLast? h)

theorem step_bad {e : Exc} {s : Stream} (h : Bad e s) (he : s.eoc = none) :
    (∃ l s', Stream.readline none s = .ok l s' ∧ CurB e l s' ∧ wholeLines s.fh.rest = l :: wholeLines s'.fh.rest) ∨
    (∃ s', Stream.readline none s = .raise e s' ∧ wholeLines s.fh.rest = []) := by
  by_cases hl : (File.firstLine s.fh.rest).getLast? = some 10
  · left
    refine ⟨_, _, readline_ok s he (Or.inr (newline_mem hl)), ⟨bad_adv h, he, firstLine_lineLike _, hl⟩, ?_⟩
    rw [whole_last hl]; simp
  · right
    have : ∃ s', onFile (File.readline none) s = .raise e s' := by
      simp only [onFile, File.readline, File.deliver, h.fault, ne_eq, hl, not_false_eq_true, decide_true, if_true]
      exact ⟨_, rfl⟩
    obtain ⟨s', hs⟩ := this
    refine ⟨s', ?_, whole_none hl⟩
    simp only [Stream.readline, M.bind_apply, M.get_apply, he, limitOf, hs]

theorem followLoop_bad {e : Exc} (fuel : Nat) (l : Bytes) (v : List Bytes) (es : List Err) (s : Stream) (h : CurB e l s)
    (hf : (l :: wholeLines s.fh.rest).length < fuel) :
    (match (l :: wholeLines s.fh.rest).dropWhile contLine with
     | [] => ∃ s', WarcParser.followLoop fuel l v es s = .raise e s'
     | next :: rest => ∃ v' es' s', WarcParser.followLoop fuel l v es s = .ok (next, v', es') s' ∧ CurB e next s' ∧ wholeLines s'.fh.rest = rest) := by
  induction fuel generalizing l v es s with
  | zero => omega
  | succ fuel ih =>
    have hfs := fspec_isSome h.like
    cases hs : fspec l with
    | none =>
      rw [hs] at hfs
      have hc : ¬ contLine l = true := by simp [← hfs]
      rw [List.dropWhile_cons, if_neg hc]
      refine ⟨v, es, s, ?_, h, rfl⟩
      simp only [WarcParser.followLoop, pmatch_valueRx, hs]
      rfl
    | some p =>
      rw [hs] at hfs
      have hc : contLine l = true := by simp [← hfs]
      rw [List.dropWhile_cons, if_pos hc]
      simp only [WarcParser.followLoop, pmatch_valueRx, hs, Option.map_some, M.bind_apply]
      rcases step_bad h.bad h.eoc with ⟨l', s', hr, hcur, hw⟩ | ⟨s', hr, hw⟩
      · rw [hr, hw]
        simp only
        exact ih l' _ _ s' hcur (by rw [hw] at hf; simp at hf ⊢; omega)
      · rw [hr, hw]
        exact ⟨s', rfl⟩

theorem blockLines_ne_blank (l : Bytes) (W : List Bytes) (hb : blankLine l = false) :
    (blockLines false (l :: W)).length = (l :: W).length ↔ (blockLines false (W.dropWhile contLine)).length = (W.dropWhile contLine).length := by
  have h1 : blockLines false (l :: W) = l :: blockLines true W := by simp [blockLines, hb]
  have h2 := congrArg List.length (List.takeWhile_append_dropWhile (p := contLine) (l := W))
  rw [h1, blockLines_split]
  simp only [List.length_cons, List.length_append] at h2 ⊢
  omega

theorem headerLoop_bad {e : Exc} (fuel : Nat) (l : Bytes) (st : WarcParser.HState) (s : Stream) (h : CurB e l s)
    (hf : (l :: wholeLines s.fh.rest).length < fuel) :
    (Spec.stuck false (l :: wholeLines s.fh.rest) = true → WarcParser.headerLoop fuel l st s = .hang) ∧
    (Spec.stuck false (l :: wholeLines s.fh.rest) = false →
      ((blockLines false (l :: wholeLines s.fh.rest)).length = (l :: wholeLines s.fh.rest).length → ∃ s', WarcParser.headerLoop fuel l st s = .raise e s') ∧
      ((blockLines false (l :: wholeLines s.fh.rest)).length ≠ (l :: wholeLines s.fh.rest).length → ∃ st' s', WarcParser.headerLoop fuel l st s = .ok st' s')) := by
  induction fuel generalizing l st s with
  | zero => omega
  | succ fuel ih =>
    by_cases hb : blankLine l = true
    · have hb' : rxTest nlRx l = true := by rw [nlRx_isBlank]; exact hb
      have e1 : WarcParser.headerLoop (fuel + 1) l st s = .ok st s := by
        simp only [WarcParser.headerLoop]; rw [if_pos (Or.inr hb')]; rfl
      refine ⟨fun hst => ?_, fun _ => ⟨fun hlen => ?_, fun _ => ⟨_, _, e1⟩⟩⟩
      · simp [Spec.stuck, hb] at hst
      · simp [blockLines, hb] at hlen
    · have hbf : blankLine l = false := by simpa using hb
      have hb' : ¬ (l = [] ∨ rxTest nlRx l = true) := by
        rw [nlRx_isBlank]
        rintro (e | e)
        · exact h.ne e
        · exact hb e
      have hsome := hspec_isSome h.like
      cases hs : hspec l with
      | none =>
        rw [hs] at hsome
        have hfl : fieldLine l = false := by simp [← hsome]
        have hst : Spec.stuck false (l :: wholeLines s.fh.rest) = true := by simp [Spec.stuck, hbf, hfl]
        refine ⟨fun _ => ?_, fun hst' => by rw [hst] at hst'; cases hst'⟩
        exact headerLoop_stuck _ _ _ _ hb' (by rw [pmatch_headerRx, hs]; rfl)
      | some p =>
        obtain ⟨n, v, nl⟩ := p
        rw [hs] at hsome
        have hfl : fieldLine l = true := by simp [← hsome]
        have hst1 : Spec.stuck false (l :: wholeLines s.fh.rest) = Spec.stuck false ((wholeLines s.fh.rest).dropWhile contLine) := by
          rw [← stuck_dropWhile]; simp [Spec.stuck, hbf, hfl]
        simp only [ne_eq]
        rw [hst1, blockLines_ne_blank l _ hbf]
        simp only [WarcParser.headerLoop, if_neg hb', pmatch_headerRx, hs, Option.map_some, M.bind_apply, M.get_apply]
        rcases step_bad h.bad h.eoc with ⟨l', s', hr, hcur, hw⟩ | ⟨s', hr, hw⟩
        · rw [hr]
          simp only
          have hfo := followLoop_bad (s.fh.rest.length + 2) l' [strip (Match.grp ({ caps := [(Grp.nl, nl), (Grp.value, v), (Grp.name, n)], rest := [] } : Match) .value)]
            (if Match.grp ({ caps := [(Grp.nl, nl), (Grp.value, v), (Grp.name, n)], rest := [] } : Match) .nl ≠ CRLF
              then st.errors ++ [Err.badNlHeader (Match.grp ({ caps := [(Grp.nl, nl), (Grp.value, v), (Grp.name, n)], rest := [] } : Match) .nl)] else st.errors) s' hcur (by
              rw [← hw]
              have h1 : (wholeLines s.fh.rest).length ≤ (Spec.lines s.fh.rest).length := List.length_filter_le _ _
              have h2 := lines_length s.fh.rest
              omega)
          rw [← hw] at hfo
          cases hd : (wholeLines s.fh.rest).dropWhile contLine with
          | nil =>
            rw [hd] at hfo
            obtain ⟨s'', hf2⟩ := hfo
            rw [hf2]
            refine ⟨fun h => by simp [Spec.stuck] at h, fun _ => ⟨fun _ => ⟨_, rfl⟩, fun h => by simp [blockLines] at h⟩⟩
          | cons next rest =>
            rw [hd] at hfo
            obtain ⟨v', es', s'', hf2, hc2, hw2⟩ := hfo
            rw [hf2]
            simp only
            have hle : ((wholeLines s.fh.rest).dropWhile contLine).length ≤ (wholeLines s.fh.rest).length :=
              (List.dropWhile_sublist contLine (l := wholeLines s.fh.rest)).length_le
            have := ih next (WarcParser.addHeader { st with errors := es' } (strip (Match.grp ({ caps := [(Grp.nl, nl), (Grp.value, v), (Grp.name, n)], rest := [] } : Match) .name)) (join [32] v')) s'' hc2
              (by rw [hw2, ← hd]; simp only [List.length_cons] at hf; omega)
            rw [hw2] at this
            simp only [ne_eq] at this
            exact this
        · rw [hr, hw]
          refine ⟨fun h => by simp [Spec.stuck] at h, fun _ => ⟨fun _ => ⟨_, rfl⟩, fun h => by simp [blockLines] at h⟩⟩

theorem versionLoop_bad {e : Exc} (fuel : Nat) (l : Bytes) (errors : List Err) (off : Option Nat) (s : Stream) (h : CurB e l s)
    (hf : (l :: wholeLines s.fh.rest).length < fuel) (he : errors.length ≤ 5) :
    (match look errors.length (l :: wholeLines s.fh.rest) with
     | .nothing _ => ∃ s', WarcParser.versionLoop fuel l errors off s = .raise e s'
     | .tooMany _ => ∃ es' o' s', WarcParser.versionLoop fuel l errors off s = .ok (.giveUp es' o') s'
     | .found _ line rest => ∃ p es' o' s', WarcParser.versionLoop fuel l errors off s = .ok (.found (vmatch p) es' o') s' ∧
         versionNumber line = some p.2.2.1 ∧ Bad e s' ∧ s'.eoc = none ∧ wholeLines s'.fh.rest = rest) := by
  induction fuel generalizing l errors off s with
  | zero => omega
  | succ fuel ih =>
    have hn := vspec_number h.like
    rw [look, ← hn]
    simp only [WarcParser.versionLoop, if_neg h.ne, pmatch_versionRx']
    cases hv : vspec l with
    | some p =>
      have hex := vspec_exact h.like hv
      rw [if_pos (by simp)]
      exact ⟨p, _, _, s, rfl, hex.2.2.1, h.bad, h.eoc, rfl⟩
    | none =>
      simp only [Option.map_none, nlRx_isBlank, Option.isSome_none, Bool.false_eq_true, if_false]
      have go : ∀ (es : List Err) (o : Option Nat), es.length ≤ 5 →
          (match look es.length (wholeLines s.fh.rest) with
           | .nothing _ => ∃ s', (Stream.readline none >>= fun l => WarcParser.versionLoop fuel l es o) s = .raise e s'
           | .tooMany _ => ∃ es' o' s', (Stream.readline none >>= fun l => WarcParser.versionLoop fuel l es o) s = .ok (.giveUp es' o') s'
           | .found _ line rest => ∃ p es' o' s', (Stream.readline none >>= fun l => WarcParser.versionLoop fuel l es o) s = .ok (.found (vmatch p) es' o') s' ∧
               versionNumber line = some p.2.2.1 ∧ Bad e s' ∧ s'.eoc = none ∧ wholeLines s'.fh.rest = rest) := by
        intro es o hes
        simp only [M.bind_apply]
        rcases step_bad h.bad h.eoc with ⟨l', s', hr, hcur, hw⟩ | ⟨s', hr, hw⟩
        · rw [hr, hw]
          exact ih l' es o s' hcur (by rw [hw] at hf; simp at hf ⊢; omega) hes
        · rw [hr, hw]
          exact ⟨s', rfl⟩
      by_cases hb : blankLine l = true
      · have hb' : isBlank l = true := hb
        rw [if_pos hb, if_pos hb']
        have := go errors (off.map (· + l.length)) he
        cases hlk : look errors.length (wholeLines s.fh.rest) with
        | nothing over => rw [hlk] at this; exact this
        | tooMany over => rw [hlk] at this; exact this
        | found over line rest => rw [hlk] at this; exact this
      · have hb' : ¬ isBlank l = true := hb
        rw [if_neg hb, if_neg hb']
        by_cases h5 : errors.length = 5
        · rw [if_pos h5, if_pos (by simp [badLines, h5])]
          exact ⟨_, _, s, rfl⟩
        · rw [if_neg h5, if_neg (by simp [badLines]; omega)]
          have := go (errors ++ [Err.ignoredLine l]) (off.map (· + l.length)) (by simp; omega)
          have e1 : (errors ++ [Err.ignoredLine l]).length = errors.length + 1 := by simp
          rw [e1] at this
          cases hlk : look (errors.length + 1) (wholeLines s.fh.rest) with
          | nothing over => rw [hlk] at this; exact this
          | tooMany over => rw [hlk] at this; exact this
          | found over line rest => rw [hlk] at this; exact this

/-- what the WARC parser does with damaged data -/
theorem parse_bad {e : Exc} (off : Option Nat) (l : Bytes) (s : Stream) (h : CurB e l s) :
    (match look 0 (l :: wholeLines s.fh.rest) with
     | .nothing _ => ∃ s', WarcParser.parse off l s = .raise e s'
     | .tooMany _ => ∃ q s', WarcParser.parse off l s = .ok q s'
     | .found _ line rest =>
       if versionNumber line ∈ [some (b! "1.0"), some (b! "0.17"), some (b! "0.18")] then
         if Spec.stuck false rest = true then WarcParser.parse off l s = .hang
         else if (blockLines false rest).length = rest.length then ∃ s', WarcParser.parse off l s = .raise e s'
         else ∃ q s', WarcParser.parse off l s = .ok q s'
       else ∃ s', WarcParser.parse off l s = .raise .typeError s') := by
  have hwl : (wholeLines s.fh.rest).length ≤ s.fh.rest.length :=
    Nat.le_trans (List.length_filter_le _ _) (lines_length s.fh.rest)
  have hv := versionLoop_bad (s.fh.rest.length + 2) l [] off s h (by simp; omega) (by simp)
  simp only [List.length_nil] at hv
  simp only [WarcParser.parse, M.bind_apply, M.get_apply]
  cases hlk : look 0 (l :: wholeLines s.fh.rest) with
  | nothing over => rw [hlk] at hv; obtain ⟨s', hv⟩ := hv; rw [hv]; exact ⟨s', rfl⟩
  | tooMany over => rw [hlk] at hv; obtain ⟨es, o, s', hv⟩ := hv; rw [hv]; exact ⟨_, s', rfl⟩
  | found over line rest =>
    rw [hlk] at hv
    obtain ⟨p, es, o, s1, hv, hnum, hb1, he1, hw1⟩ := hv
    rw [hv]
    simp only
    have hnumber : (vmatch p).grp .number = p.2.2.1 := rfl
    have hknown : knownVersions.contains ((vmatch p).grp .number) = true ↔ versionNumber line ∈ [some (b! "1.0"), some (b! "0.17"), some (b! "0.18")] := by
      rw [hnumber, hnum]; simp [knownVersions]
    by_cases hk : versionNumber line ∈ [some (b! "1.0"), some (b! "0.17"), some (b! "0.18")]
    · rw [if_pos hk]
      have hk' := hknown.2 hk
      obtain ⟨es2, hes2⟩ : ∃ es2, WarcParser.versionErrors (vmatch p) es = some es2 := by
        simp only [WarcParser.versionErrors, hk', if_true]; exact ⟨_, rfl⟩
      rw [hes2]
      simp only [M.bind_apply, M.get_apply]
      rcases step_bad hb1 he1 with ⟨l', s2, hr, hcur, hw⟩ | ⟨s2, hr, hw⟩
      · rw [hr]
        simp only
        have hwl1 : (wholeLines s1.fh.rest).length ≤ s1.fh.rest.length :=
          Nat.le_trans (List.length_filter_le _ _) (lines_length s1.fh.rest)
        obtain ⟨g1, g2⟩ := headerLoop_bad (s1.fh.rest.length + 2) l' ⟨[], es2, 0⟩ s2 hcur (by rw [← hw]; omega)
        rw [← hw, hw1] at g1 g2
        by_cases hst : Spec.stuck false rest = true
        · rw [if_pos hst, g1 hst]
        · rw [if_neg hst]
          obtain ⟨g3, g4⟩ := g2 (by simpa using hst)
          by_cases hbl : (blockLines false rest).length = rest.length
          · rw [if_pos hbl]; obtain ⟨s3, g⟩ := g3 hbl; rw [g]; exact ⟨s3, rfl⟩
          · rw [if_neg hbl]; obtain ⟨st, s3, g⟩ := g4 hbl; rw [g]; exact ⟨_, _, rfl⟩
      · rw [hr]
        rw [← hw1, hw]
        simp [Spec.stuck, blockLines]
    · rw [if_neg hk]
      have hk' : knownVersions.contains ((vmatch p).grp .number) = false := by
        cases hc : knownVersions.contains ((vmatch p).grp .number) with
        | false => rfl
        | true => exact absurd (hknown.1 hc) hk
      have : WarcParser.versionErrors (vmatch p) es = none := by
        simp only [WarcParser.versionErrors, hk']; simp
      rw [this]
      exact ⟨s1, rfl⟩

theorem blankLoop_bad' {e : Exc} (offs : Bool) (fuel : Nat) (s : Stream) (h : Bad e s) (he : s.eoc = none) (hf : (wholeLines s.fh.rest).length + 1 < fuel + 1) (h0 : 0 < fuel) :
    (match dropTerminators (wholeLines s.fh.rest) with
     | [] => ∃ s', blankLoop offs fuel s = .raise e s'
     | l :: rest => ∃ o s', blankLoop offs fuel s = .ok (o, l) s' ∧ CurB e l s' ∧ wholeLines s'.fh.rest = rest ∧ s'.parser = s.parser ∧ s'.kind = s.kind) := by
  induction fuel generalizing s with
  | zero => omega
  | succ fuel ih =>
    simp only [blankLoop, M.bind_apply, M.get_apply]
    by_cases hl : (File.firstLine s.fh.rest).getLast? = some 10
    · rw [onFile_readline_ok s (Or.inr (newline_mem hl))]
      simp only [blankLineRx_isTerm]
      have hw := whole_last hl
      have hr : (s.adv (File.firstLine s.fh.rest).length).fh.rest = s.fh.rest.drop (File.firstLine s.fh.rest).length := by simp
      have hne : File.firstLine s.fh.rest ≠ [] := by intro h; rw [h] at hl; simp at hl
      by_cases ht : isTerm (File.firstLine s.fh.rest) = true
      · rw [if_pos ht]
        have hall : ((File.firstLine s.fh.rest).all fun c => c == 13 || c == 10) = true := by
          simp only [isTerm, Bool.and_eq_true] at ht; exact ht.2
        have := ih (s.adv (File.firstLine s.fh.rest).length) (bad_adv h) he (by rw [hr]; rw [hw] at hf; simpa using hf) (by rw [hw] at hf; simp at hf; omega)
        rw [hr] at this
        rw [hw, dropTerminators, List.dropWhile_cons, if_pos hall]
        exact this
      · rw [if_neg ht]
        rw [hw, dropTerminators, List.dropWhile_cons, if_neg (by
          intro hall
          apply ht
          simp only [isTerm, Bool.and_eq_true]
          exact ⟨by simpa using hne, hall⟩)]
        exact ⟨_, _, rfl, ⟨bad_adv h, he, firstLine_lineLike _, hl⟩, by rw [hr], rfl, rfl⟩
    · rw [whole_none hl]
      have : ∃ s', onFile (File.readline none) s = .raise e s' := by
        simp only [onFile, File.readline, File.deliver, h.fault, ne_eq, hl, not_false_eq_true, decide_true, if_true]
        exact ⟨_, rfl⟩
      obtain ⟨s', hs⟩ := this
      rw [hs]
      exact ⟨s', rfl⟩

/-- is there a record, or does the exception come? -/
theorem readRecord_verdict {e : Exc} (offs : Bool) (s : Stream) (h : Bad e s) (hp : s.parser = .warc) (hk : s.kind ≠ .gzipFile) (he : s.eoc = none) :
    (match look 0 (dropTerminators (wholeLines s.fh.rest)) with
     | .nothing _ => ∃ s', readRecord offs s = .raise e s'
     | .tooMany _ => ∃ q s', readRecord offs s = .ok q s'
     | .found _ line rest =>
       if versionNumber line ∈ [some (b! "1.0"), some (b! "0.17"), some (b! "0.18")] then
         if Spec.stuck false rest = true then readRecord offs s = .hang
         else if (blockLines false rest).length = rest.length then ∃ s', readRecord offs s = .raise e s'
         else ∃ q s', readRecord offs s = .ok q s'
       else ∃ s', readRecord offs s = .raise .typeError s') := by
  have hs : ({ s with eoc := none } : Stream) = s := by obtain ⟨fh, eoc, kind, parser⟩ := s; simp at he; subst he; rfl
  have key : ∀ (o : Bool) (k : Option Nat → Option Nat) (f : Option Nat → Option Nat),
      (match look 0 (dropTerminators (wholeLines s.fh.rest)) with
       | .nothing _ => ∃ s', (blankLoop o (s.fh.rest.length + 2) >>= fun a => parseWith (k a.1) a.2 >>= fun b =>
            (pure (⟨f b.2.2, b.1, b.2.1⟩ : Entry) : M Stream Entry)) s = .raise e s'
       | .tooMany _ => ∃ q s', (blankLoop o (s.fh.rest.length + 2) >>= fun a => parseWith (k a.1) a.2 >>= fun b =>
            (pure (⟨f b.2.2, b.1, b.2.1⟩ : Entry) : M Stream Entry)) s = .ok q s'
       | .found _ line rest =>
         if versionNumber line ∈ [some (b! "1.0"), some (b! "0.17"), some (b! "0.18")] then
           if Spec.stuck false rest = true then (blankLoop o (s.fh.rest.length + 2) >>= fun a => parseWith (k a.1) a.2 >>= fun b =>
            (pure (⟨f b.2.2, b.1, b.2.1⟩ : Entry) : M Stream Entry)) s = .hang
           else if (blockLines false rest).length = rest.length then ∃ s', (blankLoop o (s.fh.rest.length + 2) >>= fun a => parseWith (k a.1) a.2 >>= fun b =>
            (pure (⟨f b.2.2, b.1, b.2.1⟩ : Entry) : M Stream Entry)) s = .raise e s'
           else ∃ q s', (blankLoop o (s.fh.rest.length + 2) >>= fun a => parseWith (k a.1) a.2 >>= fun b =>
            (pure (⟨f b.2.2, b.1, b.2.1⟩ : Entry) : M Stream Entry)) s = .ok q s'
         else ∃ s', (blankLoop o (s.fh.rest.length + 2) >>= fun a => parseWith (k a.1) a.2 >>= fun b =>
            (pure (⟨f b.2.2, b.1, b.2.1⟩ : Entry) : M Stream Entry)) s = .raise .typeError s') := by
    intro o k f
    have hwl : (wholeLines s.fh.rest).length ≤ s.fh.rest.length :=
      Nat.le_trans (List.length_filter_le _ _) (lines_length s.fh.rest)
    have hbl := blankLoop_bad' o (s.fh.rest.length + 2) s h he (by omega) (by omega)
    simp only [M.bind_apply, M.pure_apply]
    cases hd : dropTerminators (wholeLines s.fh.rest) with
    | nil =>
      rw [hd] at hbl
      obtain ⟨s', hbl⟩ := hbl
      rw [hbl]
      exact ⟨s', rfl⟩
    | cons l rest =>
      rw [hd] at hbl
      obtain ⟨o', s', hbl, hcur, hw, hpp, hkk⟩ := hbl
      rw [hbl]
      simp only
      have hpw : parseWith (k o') l s' = WarcParser.parse (k o') l s' := by
        simp only [parseWith, M.bind_apply, M.get_apply, hpp, hp]
      have hpb := parse_bad (k o') l s' hcur
      rw [hw] at hpb
      rw [hpw]
      cases hlk : look 0 (l :: rest) with
      | nothing over => rw [hlk] at hpb; obtain ⟨t, hpb⟩ := hpb; rw [hpb]; exact ⟨t, rfl⟩
      | tooMany over => rw [hlk] at hpb; obtain ⟨q, t, hpb⟩ := hpb; rw [hpb]; exact ⟨_, t, rfl⟩
      | found over line rest =>
        rw [hlk] at hpb
        simp only at hpb ⊢
        by_cases hkn : versionNumber line ∈ [some (b! "1.0"), some (b! "0.17"), some (b! "0.18")]
        · rw [if_pos hkn] at hpb ⊢
          by_cases hst : Spec.stuck false rest = true
          · rw [if_pos hst] at hpb ⊢; rw [hpb]
          · rw [if_neg hst] at hpb ⊢
            by_cases hbk : (blockLines false rest).length = rest.length
            · rw [if_pos hbk] at hpb ⊢; obtain ⟨t, hpb⟩ := hpb; rw [hpb]; exact ⟨t, rfl⟩
            · rw [if_neg hbk] at hpb ⊢; obtain ⟨q, t, hpb⟩ := hpb; rw [hpb]; exact ⟨_, t, rfl⟩
        · rw [if_neg hkn] at hpb ⊢; obtain ⟨t, hpb⟩ := hpb; rw [hpb]; exact ⟨t, rfl⟩
  have hrr : readRecord offs s = readFresh offs s := by rw [readRecord_fresh, he]
  rw [hrr]
  unfold readFresh
  simp only [M.bind_apply, M.modify_apply, M.get_apply, hs]
  cases hkd : s.kind with
  | plain => have := key offs (fun o => o) (fun o => o); simpa only [M.bind_apply] using this
  | gzipRecord => have := key false (fun _ => none) (fun _ => none); simpa only [M.bind_apply] using this
  | gzipFile => exact absurd hkd hk


theorem ext_adv {s s' : Stream} {x : Exc} (n : Nat) (eo : Option Int) (hb : Bad x s) (hb' : Bad x s')
    (h : ext [] none s' = { (ext [] none s).adv n with eoc := eo }) : s' = { s.adv n with eoc := eo } := by
  obtain ⟨⟨d, p, sn, f⟩, eoc, kd, ps⟩ := s
  obtain ⟨⟨d', p', sn', f'⟩, eoc', kd', ps'⟩ := s'
  have hf := hb.fault
  have hf' := hb'.fault
  simp only at hf hf'
  subst hf hf'
  simp only [ext, Stream.adv, File.advance, List.append_nil, Stream.mk.injEq, File.mk.injEq] at h ⊢
  obtain ⟨⟨rfl, rfl, rfl, -⟩, rfl, rfl, rfl⟩ := h
  simp

/-- what asking for the next record does on damaged data -/
theorem readRecord_damaged {e : Exc} (offs : Bool) (s : Stream) (h : Bad e s) (hp : s.parser = .warc) (hk : s.kind ≠ .gzipFile) (he : s.eoc = none) :
    (match nextDamaged s.fh.rest with
     | none => ∃ s', readRecord offs s = .raise e s'
     | some (.none errors size) => readRecord offs s = .ok ⟨reported s.kind offs (s.fh.pos + size), none, errors⟩ (s.adv size) ∧ Bad e (s.adv size)
     | some (.record start version headers errors size) => readRecord offs s =
         .ok ⟨reported s.kind offs (s.fh.pos + start), some { parsed version headers with errors := errors }, []⟩
           { s.adv size with eoc := some (declaredLength headers) } ∧ Bad e (s.adv size) ∧ next s.fh.rest = .record start version headers errors size
     | some .unknown => ∃ s', readRecord offs s = .raise .typeError s'
     | some .stuck => readRecord offs s = .hang) := by
  have hv := readRecord_verdict offs s h hp hk he
  have hok : ∀ q s', readRecord offs s = .ok q s' →
      (match next s.fh.rest with
       | .none errors size => readRecord offs s = .ok ⟨reported s.kind offs (s.fh.pos + size), none, errors⟩ (s.adv size) ∧ Bad e (s.adv size)
       | .record start version headers errors size => readRecord offs s =
           .ok ⟨reported s.kind offs (s.fh.pos + start), some { parsed version headers with errors := errors }, []⟩
             { s.adv size with eoc := some (declaredLength headers) } ∧ Bad e (s.adv size)
       | _ => False) := by
    intro q s' hr
    have hl := like_readRecord (more := []) (g := none) offs h
    simp only [Like, hr] at hl
    obtain ⟨hl, hb', -⟩ := hl
    have hx := readRecord_exact offs (ext [] none s) hp hk he rfl
    have hrest : (ext [] none s).fh.rest = s.fh.rest := by rw [ext_rest h]; simp
    rw [hrest, hl] at hx
    cases hn : next s.fh.rest with
    | stuck => rw [hn] at hx; simp at hx
    | unknown => rw [hn] at hx; simp at hx
    | none es size =>
      rw [hn] at hx
      simp only [Res.ok.injEq] at hx ⊢
      obtain ⟨rfl, hx⟩ := hx
      have : s' = { s.adv size with eoc := none } := ext_adv size none h hb' (by rw [hx]; simp [Stream.adv, ext, he])
      have e2 : ({ s.adv size with eoc := none } : Stream) = s.adv size := by simp [Stream.adv, he]
      rw [e2] at this
      subst this
      exact ⟨hr, hb'⟩
    | record start v hs es size =>
      rw [hn] at hx
      simp only [Res.ok.injEq] at hx ⊢
      obtain ⟨rfl, hx⟩ := hx
      have : s' = { s.adv size with eoc := some (declaredLength hs) } := ext_adv size _ h hb' hx
      subst this
      exact ⟨hr, hb'.fault, hb'.pos⟩
  unfold nextDamaged
  cases hlk : look 0 (dropTerminators (wholeLines s.fh.rest)) with
  | nothing over => rw [hlk] at hv; exact hv
  | tooMany over =>
    rw [hlk] at hv
    obtain ⟨q, s', hr⟩ := hv
    have := hok q s' hr
    cases hn : next s.fh.rest with
    | stuck => rw [hn] at this; exact this.elim
    | unknown => rw [hn] at this; exact this.elim
    | none es size => rw [hn] at this; simp only at this ⊢; exact this
    | record start v hs es size => rw [hn] at this; simp only at this ⊢; exact ⟨this.1, this.2, trivial⟩
  | found over line rest =>
    rw [hlk] at hv
    simp only at hv ⊢
    by_cases hkn : versionNumber line ∈ [some (b! "1.0"), some (b! "0.17"), some (b! "0.18")]
    · rw [if_pos hkn] at hv ⊢
      by_cases hst : Spec.stuck false rest = true
      · rw [if_pos hst] at hv ⊢; exact hv
      · rw [if_neg hst] at hv ⊢
        by_cases hbk : (blockLines false rest).length = rest.length
        · rw [if_pos hbk] at hv ⊢; exact hv
        · rw [if_neg hbk] at hv ⊢
          obtain ⟨q, s', hr⟩ := hv
          have := hok q s' hr
          cases hn : next s.fh.rest with
          | stuck => rw [hn] at this; exact this.elim
          | unknown => rw [hn] at this; exact this.elim
          | none es size => rw [hn] at this; simp only at this ⊢; exact this
          | record start v hs es size => rw [hn] at this; simp only at this ⊢; exact ⟨this.1, this.2, trivial⟩
    · rw [if_neg hkn] at hv ⊢; exact hv

/-- what `record.content` gives right behind the head of a record of damaged data -/
theorem content_damaged {e : Exc} (s : Stream) (v : Bytes) (hs : List Header) (es : List Err) (h : Bad e s) (hneg : s.fh.strictNeg = true)
    (he : s.eoc = some (declaredLength hs)) :
    (declaredLength hs < -1 → ∃ w, World.content ⟨s, { parsed v hs with errors := es }, []⟩ = .raise .valueError w) ∧
    (declaredLength hs = -1 ∨ ¬ declaredLength hs < -1 ∧ (s.fh.rest).length < (declaredLength hs).toNat →
      ∃ w, World.content ⟨s, { parsed v hs with errors := es }, []⟩ = .raise e w) ∧
    (0 ≤ declaredLength hs → ¬ (s.fh.rest).length < (declaredLength hs).toNat → ∃ w, World.content ⟨s, { parsed v hs with errors := es }, []⟩ =
        .ok (firstValue (b! "Content-Type") hs, some (s.fh.rest.take (declaredLength hs).toNat)) w ∧
        w.strm = { s.adv (declaredLength hs).toNat with eoc := some ((0 : Nat) : Int) }) := by
  have hgt : ({ parsed v hs with errors := es } : Rec).getHeader ({ parsed v hs with errors := es } : Rec).cls.contentTypeName = firstValue (b! "Content-Type") hs := by
    simp [Rec.getHeader, lookupHeader_eq, parsed, Cls.contentTypeName, WH.CONTENT_TYPE]
  have hc : ({ parsed v hs with errors := es } : Rec).content = none := rfl
  have hcf : ({ parsed v hs with errors := es } : Rec).cfile = .stream := rfl
  refine ⟨fun h1 => ?_, fun h1 => ?_, fun h1 hn => ?_⟩
  · have hr : Stream.read none s = .raise .valueError s := by
      have h0 : ¬ (0 : Int) ≤ declaredLength hs := by omega
      have h2 : ¬ (declaredLength hs = -1 ∨ s.fh.strictNeg = false) := by rw [hneg]; simp; omega
      simp only [Stream.read, M.bind_apply, M.get_apply, he, limitOf, rawRead, onFile, File.read, if_neg h0, if_neg h2]
      rw [← he]
    simp only [World.content, hc, World.cfileRead, hcf, World.onStream, hr]
    exact ⟨_, rfl⟩
  · have hr : ∃ t, Stream.read none s = .raise e t := by
      by_cases h2 : declaredLength hs = -1
      · have h0 : ¬ (0 : Int) ≤ declaredLength hs := by omega
        simp only [Stream.read, M.bind_apply, M.get_apply, he, limitOf, rawRead, onFile, File.read, if_neg h0, if_pos (Or.inl h2), File.deliver, h.fault]
        exact ⟨_, rfl⟩
      · obtain ⟨h3, h4⟩ := h1.resolve_left h2
        have h0 : (0 : Int) ≤ declaredLength hs := by omega
        have h5 : (s.fh.rest.take (declaredLength hs).toNat).length < (declaredLength hs).toNat := by
          rw [List.length_take]; omega
        simp only [Stream.read, M.bind_apply, M.get_apply, he, limitOf, rawRead, onFile, File.read, if_pos h0, File.deliver, h.fault]
        rw [decide_eq_true h4]
        exact ⟨_, rfl⟩
    obtain ⟨t, hr⟩ := hr
    simp only [World.content, hc, World.cfileRead, hcf, World.onStream, hr]
    exact ⟨_, rfl⟩
  · obtain ⟨n, hn'⟩ : ∃ n : Nat, declaredLength hs = (n : Int) := ⟨_, (Int.toNat_of_nonneg h1).symm⟩
    rw [hn'] at he
    have ht : (declaredLength hs).toNat = n := by rw [hn']; rfl
    have hop := op_run (.read none) s n he (Or.inl (by omega))
    simp only [ReadOp.run, ReadOp.result, Option.map_none] at hop
    have hl : (s.fh.rest.take n).length = n := by simp; omega
    simp only [hl, Nat.sub_self] at hop
    rw [ht]
    simp only [World.content, hc, World.cfileRead, hcf, World.onStream, hop, hgt]
    exact ⟨_, rfl, rfl⟩

/-- reading the whole of a damaged file -/
theorem collect_damaged {e : Exc} (offs : Bool) (rounds : Nat) (s : Stream) (hp : s.parser = .warc) (hk : s.kind = .gzipRecord) (he : s.eoc = none)
    (h : Bad e s) (hneg : s.fh.strictNeg = true) (hr : s.fh.rest.length < rounds) :
    collect offs rounds s = meaningDamaged e rounds s.fh.rest := by
  induction rounds generalizing s with
  | zero => omega
  | succ rounds ih =>
    have hx := readRecord_damaged offs s h hp (by rw [hk]; simp) he
    have hrep : ∀ p, reported s.kind offs p = none := by intro p; rw [hk]; rfl
    simp only [hrep] at hx
    rw [collect, meaningDamaged]
    cases hd : nextDamaged s.fh.rest with
    | none => rw [hd] at hx; obtain ⟨s', hx⟩ := hx; rw [hx]
    | some n =>
      cases n with
      | stuck => rw [hd] at hx; simp only at hx ⊢; rw [hx]
      | unknown => rw [hd] at hx; simp only at hx ⊢; obtain ⟨s', hx⟩ := hx; rw [hx]
      | none es size => rw [hd] at hx; simp only at hx ⊢; rw [hx.1]
      | record start v hs es size =>
        rw [hd] at hx; simp only at hx ⊢
        obtain ⟨hx, hb, hn⟩ := hx
        rw [hx]
        simp only
        obtain ⟨hsz1, hsz2⟩ := next_size hn
        have hrest : ({ s.adv size with eoc := some (declaredLength hs) } : Stream).fh.rest = s.fh.rest.drop size := by simp
        have hb2 : Bad e ({ s.adv size with eoc := some (declaredLength hs) } : Stream) := ⟨hb.fault, hb.pos⟩
        obtain ⟨c1, c2, c4⟩ := content_damaged ({ s.adv size with eoc := some (declaredLength hs) } : Stream) v hs es hb2 hneg rfl
        rw [hrest] at c2 c4
        by_cases h1 : declaredLength hs < -1
        · obtain ⟨w, hw⟩ := c1 h1
          rw [if_pos h1, hw]
        · rw [if_neg h1]
          by_cases h3 : declaredLength hs = -1 ∨ (s.fh.rest.drop size).length < (declaredLength hs).toNat
          · obtain ⟨w, hw⟩ := c2 (h3.imp id fun h3 => ⟨h1, h3⟩)
            rw [if_pos h3, hw]
          · have h4 : ¬ (s.fh.rest.drop size).length < (declaredLength hs).toNat := fun h => h3 (Or.inr h)
            obtain ⟨w, hw, hws⟩ := c4 (by have : ¬ declaredLength hs = -1 := fun h => h3 (Or.inl h); omega) h4
            rw [if_neg h3, hw]
            simp only [hws]
            have ee := collect_eoc offs rounds (({ s.adv size with eoc := some (declaredLength hs) } : Stream).adv (declaredLength hs).toNat)
              ((0 : Nat) : Int) (by omega)
            rw [ee]
            generalize ht : ({ ({ s.adv size with eoc := some (declaredLength hs) } : Stream).adv (declaredLength hs).toNat with eoc := none } : Stream) = t
            have ht1 : t.fh.rest = (s.fh.rest.drop size).drop (declaredLength hs).toNat := by subst ht; simp
            have htb : Bad e t := by
              subst ht
              refine ⟨h.fault, ?_⟩
              have h5 := h.pos
              simp only [Stream.adv, File.advance, File.rest, List.length_drop] at h4 hsz2 ⊢
              omega
            rw [ih t (by subst ht; exact hp) (by subst ht; exact hk) (by subst ht; rfl) htb (by subst ht; exact hneg)
              (by rw [ht1]; simp; omega), ht1]
            rfl

end Warc
