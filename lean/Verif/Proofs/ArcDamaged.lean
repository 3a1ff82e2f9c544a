import Verif.Proofs.GrammarDamaged
import Verif.Proofs.ArcReadAll
import Verif.Props.ValidAny
import Verif.Spec.ArcDamaged
set_option linter.all false
/-
  The ARC parser and the mixed parser on damaged data.
-/
namespace Warc
open Rx Stream Spec

theorem ext_rest0 (s : Stream) : (ext [] none s).fh.rest = s.fh.rest := by simp [ext, File.rest]

/-- an exception that comes on the damaged file comes on the undamaged one with the same data, too -/
def SameRaise {α : Type} (p : M Stream α) (s : Stream) : Prop := ∀ x s', p s = .raise x s' → ∃ t, p (ext [] none s) = .raise x t

namespace SameRaise
variable {α β : Type} {e : Exc} {s s1 : Stream}

theorem throw (x : Exc) : SameRaise (M.throw x : M Stream α) s := by
  intro y s' h
  simp only [M.throw] at h ⊢
  cases h; exact ⟨_, rfl⟩

theorem pure (a : α) : SameRaise (Pure.pure a : M Stream α) s := by intro y s' h; simp at h

theorem modify (f : Stream → Stream) : SameRaise (M.modify f) s := by intro y s' h; simp at h

theorem bind {p : M Stream α} {f : α → M Stream β} {a : α} (hl : Like [] none e s p p) (hp : p s = .ok a s1) (hf : SameRaise (f a) s1) :
    SameRaise (p >>= f) s := by
  intro x s' h
  simp only [Like, hp] at hl
  simp only [M.bind_apply, hp] at h
  simp only [M.bind_apply, hl.1]
  exact hf x s' h

end SameRaise

theorem skipBlank_bad {e : Exc} (fuel : Nat) (l : Bytes) (s : Stream) (h : CurB e l s) (hf : (l :: wholeLines s.fh.rest).length < fuel) :
    (match (l :: wholeLines s.fh.rest).dropWhile white with
     | [] => ∃ s', ArcParser.skipBlank fuel l s = .raise e s'
     | l' :: rest => ∃ s', ArcParser.skipBlank fuel l s = .ok (some l') s' ∧ CurB e l' s' ∧ wholeLines s'.fh.rest = rest) := by
  induction fuel generalizing l s with
  | zero => omega
  | succ fuel ih =>
    simp only [ArcParser.skipBlank]
    by_cases hw : white l = true
    · rw [if_pos ((rstrip_white l).2 hw), if_neg h.ne, List.dropWhile_cons, if_pos hw]
      simp only [M.bind_apply]
      rcases step_bad h.bad h.eoc with ⟨l', s', hr, hcur, hw'⟩ | ⟨s', hr, hw'⟩
      · rw [hr, hw']
        exact ih l' s' hcur (by rw [hw'] at hf; simp at hf ⊢; omega)
      · rw [hr, hw']
        exact ⟨s', rfl⟩
    · rw [if_neg (fun q => hw ((rstrip_white l).1 q)), List.dropWhile_cons, if_neg hw]
      exact ⟨s, rfl, h, rfl⟩

/-- the ARC parser: does the exception of the decompressor come, or is all that is needed there? -/
theorem arcParse_verdict {e : Exc} (st : ArcSt) (setSt : ArcSt → M Stream Unit) (hs : SetsOnly setSt) (off : Option Nat) (l : Bytes) (s : Stream)
    (h : CurB e l s) :
    (match (l :: wholeLines s.fh.rest).dropWhile white with
     | [] => ∃ s', ArcParser.parse st setSt off l s = .raise e s'
     | l' :: behind =>
       if b! "filedesc:" <+: l' ∧ behind.length < 2 then ∃ s', ArcParser.parse st setSt off l s = .raise e s'
       else SameRaise (ArcParser.parse st setSt off l) s) := by
  have hwl : (wholeLines s.fh.rest).length ≤ s.fh.rest.length :=
    Nat.le_trans (List.length_filter_le _ _) (lines_length s.fh.rest)
  have hb := skipBlank_bad (s.fh.rest.length + 2) l s h (by simp; omega)
  cases hd : (l :: wholeLines s.fh.rest).dropWhile white with
  | nil =>
    rw [hd] at hb
    obtain ⟨s', hb⟩ := hb
    simp only [ArcParser.parse, M.bind_apply, M.get_apply, hb]
    exact ⟨s', rfl⟩
  | cons l' behind =>
    rw [hd] at hb
    obtain ⟨s1, hb, hc, hw⟩ := hb
    by_cases hfd : b! "filedesc:" <+: l'
    · have hsw : startsWith l' ArcParser.filedescTag = true := List.isPrefixOf_iff_prefix.2 hfd
      simp only [hfd, true_and]
      rcases step_bad hc.bad hc.eoc with ⟨v, s2, hr, hc2, hw2⟩ | ⟨s2, hr, hw2⟩
      · rcases step_bad hc2.bad hc2.eoc with ⟨n, s3, hr3, hc3, hw3⟩ | ⟨s3, hr3, hw3⟩
        · have hlen : ¬ behind.length < 2 := by rw [← hw, hw2, hw3]; simp
          rw [if_neg hlen]
          intro x s' hx
          have hl1 := like_skipBlank (more := []) (g := none) (s.fh.rest.length + 2) (s.fh.rest.length + 2) l h.bad h.eoc (by omega) (Nat.le_refl _)
          simp only [Like, hb] at hl1
          have hl2 := like_readline (more := []) (g := none) hc.bad none
          simp only [Like, hr] at hl2
          have hl3 := like_readline (more := []) (g := none) hc2.bad none
          simp only [Like, hr3] at hl3
          simp only [ArcParser.parse, M.bind_apply, M.get_apply, hb, hsw, if_true, hr, hr3] at hx
          simp only [ArcParser.parse, M.bind_apply, M.get_apply, ext_rest0, hl1.1, hsw, if_true, hl2.1, hl3.1]
          cases hv : splitWs (strip v) with
          | nil =>
            simp only [hv] at hx
            exact SameRaise.throw _ x s' hx
          | cons v1 vs =>
            simp only [hv, M.bind_apply] at hx ⊢
            obtain ⟨f, hfset⟩ := hs.eq ⟨some v1, splitWs (strip n)⟩
            simp only [hfset, M.modify_apply] at hx ⊢
            cases hpl : ArcParser.parseHeaderList (splitWs (strip n)) l' with
            | error y =>
              simp only [hpl] at hx
              obtain ⟨t, ht⟩ := SameRaise.throw (α := WarcParser.ParseOut) y x s' hx
              simp only [M.throw] at ht ⊢
              cases ht; exact ⟨_, rfl⟩
            | ok hds =>
              simp only [hpl] at hx
              simp only
              cases hch : ArcParser.contentHeaders hds (none, []) with
              | mk len es =>
                simp only [hch] at hx
                cases len with
                | none =>
                  simp only at hx ⊢
                  obtain ⟨t, ht⟩ := SameRaise.throw (α := WarcParser.ParseOut) _ x s' hx
                  simp only [M.throw] at ht ⊢
                  cases ht; exact ⟨_, rfl⟩
                | some k => simp at hx
        · have hlen : behind.length < 2 := by rw [← hw, hw2, hw3]; simp
          rw [if_pos hlen]
          simp only [ArcParser.parse, M.bind_apply, M.get_apply, hb, hsw, if_true, hr, hr3]
          exact ⟨s3, rfl⟩
      · have hlen : behind.length < 2 := by rw [← hw, hw2]; simp
        rw [if_pos hlen]
        simp only [ArcParser.parse, M.bind_apply, M.get_apply, hb, hsw, if_true, hr]
        exact ⟨s2, rfl⟩
    · have hsw : startsWith l' ArcParser.filedescTag = false := by
        cases hq : startsWith l' ArcParser.filedescTag with
        | false => rfl
        | true => exact absurd (List.isPrefixOf_iff_prefix.1 hq) hfd
      simp only [hfd, false_and, if_false]
      have hl1 := like_skipBlank (more := []) (g := none) (s.fh.rest.length + 2) (s.fh.rest.length + 2) l h.bad h.eoc (by omega) (Nat.le_refl _)
      simp only [Like, hb] at hl1
      intro x s' hx
      simp only [ArcParser.parse, M.bind_apply, M.get_apply, hb, hsw] at hx
      simp only [ArcParser.parse, M.bind_apply, M.get_apply, ext_rest0, hl1.1, hsw]
      by_cases hh : st.headers = []
      · simp only [hh, if_true] at hx ⊢
        exact SameRaise.throw _ x s' hx
      · simp only [hh, if_false, Bool.false_eq_true] at hx ⊢
        cases hp : ArcParser.parseHeaderList st.headers l' with
        | error y =>
          rw [hp] at hx
          exact SameRaise.throw _ x s' hx
        | ok hds =>
          rw [hp] at hx
          simp at hx

/-! ### WARC records in mixed files -/

theorem head_whole {x p : Bytes} (h : p <+: (dropTerminators (wholeLines x)).headD []) (hp : p ≠ []) : p <+: (dropTerminators (Spec.lines x)).headD [] := by
  obtain ⟨t, ht⟩ := lines_whole x.length x (Nat.le_refl _)
  cases hd : dropTerminators (wholeLines x) with
  | nil => rw [hd] at h; exact absurd (List.prefix_nil.1 h) hp
  | cons l ls =>
    rw [ht, dropTerminators_more _ _ (by rw [hd]; simp), hd]
    rw [hd] at h; exact h

/-- is there a record, or does the exception come? -/
theorem readRecord_verdict' {e : Exc} (offs : Bool) (s : Stream) (h : Bad e s) (hp : s.parser = .warc ∨ ((∃ st, s.parser = .mixed st) ∧ b! "WARC" <+: (dropTerminators (wholeLines s.fh.rest)).headD [])) (hk : s.kind ≠ .gzipFile) (he : s.eoc = none) :
    (match look 0 (dropTerminators (wholeLines s.fh.rest)) with
     | .nothing _ => ∃ s', readRecord offs s = .raise e s'
     | .tooMany _ => ∃ q s', readRecord offs s = .ok q s'
     | .found _ line rest =>
       if versionNumber line ∈ [some (b! "1.0"), some (b! "0.17"), some (b! "0.18")] then
         if Spec.stuck false rest = true then readRecord offs s = .hang
         else if (blockLines false rest).length = rest.length then ∃ s', readRecord offs s = .raise e s'
         else ∃ q s', readRecord offs s = .ok q s'
       else ∃ s', readRecord offs s = .raise .typeError s') := by
  have hs : ({ s with eoc := none } : Stream) = s := by obtain ⟨fh, eoc, kind, parser⟩ := s; simp at he; subst he; rfl
  have key : ∀ (o : Bool) (k : Option Nat → Option Nat) (f : Option Nat → Option Nat),
      (match look 0 (dropTerminators (wholeLines s.fh.rest)) with
       | .nothing _ => ∃ s', (blankLoop o (s.fh.rest.length + 2) >>= fun a => parseWith (k a.1) a.2 >>= fun b =>
            (pure (⟨f b.2.2, b.1, b.2.1⟩ : Entry) : M Stream Entry)) s = .raise e s'
       | .tooMany _ => ∃ q s', (blankLoop o (s.fh.rest.length + 2) >>= fun a => parseWith (k a.1) a.2 >>= fun b =>
            (pure (⟨f b.2.2, b.1, b.2.1⟩ : Entry) : M Stream Entry)) s = .ok q s'
       | .found _ line rest =>
         if versionNumber line ∈ [some (b! "1.0"), some (b! "0.17"), some (b! "0.18")] then
           if Spec.stuck false rest = true then (blankLoop o (s.fh.rest.length + 2) >>= fun a => parseWith (k a.1) a.2 >>= fun b =>
            (pure (⟨f b.2.2, b.1, b.2.1⟩ : Entry) : M Stream Entry)) s = .hang
           else if (blockLines false rest).length = rest.length then ∃ s', (blankLoop o (s.fh.rest.length + 2) >>= fun a => parseWith (k a.1) a.2 >>= fun b =>
            (pure (⟨f b.2.2, b.1, b.2.1⟩ : Entry) : M Stream Entry)) s = .raise e s'
           else ∃ q s', (blankLoop o (s.fh.rest.length + 2) >>= fun a => parseWith (k a.1) a.2 >>= fun b =>
            (pure (⟨f b.2.2, b.1, b.2.1⟩ : Entry) : M Stream Entry)) s = .ok q s'
         else ∃ s', (blankLoop o (s.fh.rest.length + 2) >>= fun a => parseWith (k a.1) a.2 >>= fun b =>
            (pure (⟨f b.2.2, b.1, b.2.1⟩ : Entry) : M Stream Entry)) s = .raise .typeError s') := by
    intro o k f
    have hwl : (wholeLines s.fh.rest).length ≤ s.fh.rest.length :=
      Nat.le_trans (List.length_filter_le _ _) (lines_length s.fh.rest)
    have hbl := blankLoop_bad' o (s.fh.rest.length + 2) s h he (by omega) (by omega)
    simp only [M.bind_apply, M.pure_apply]
    cases hd : dropTerminators (wholeLines s.fh.rest) with
    | nil =>
      rw [hd] at hbl
      obtain ⟨s', hbl⟩ := hbl
      rw [hbl]
      exact ⟨s', rfl⟩
    | cons l rest =>
      rw [hd] at hbl
      obtain ⟨o', s', hbl, hcur, hw, hpp, hkk⟩ := hbl
      rw [hbl]
      simp only
      have hpw : parseWith (k o') l s' = WarcParser.parse (k o') l s' := by
        rcases hp with hp | ⟨⟨st, hp⟩, hpre⟩
        · simp only [parseWith, M.bind_apply, M.get_apply, hpp, hp]
        · rw [hd] at hpre
          have hsw : startsWith l (b! "WARC") = true := List.isPrefixOf_iff_prefix.2 hpre
          simp only [parseWith, M.bind_apply, M.get_apply, hpp, hp, MixedParser.parse, if_neg hcur.ne, hsw, if_true]
      have hpb := parse_bad (k o') l s' hcur
      rw [hw] at hpb
      rw [hpw]
      cases hlk : look 0 (l :: rest) with
      | nothing over => rw [hlk] at hpb; obtain ⟨t, hpb⟩ := hpb; rw [hpb]; exact ⟨t, rfl⟩
      | tooMany over => rw [hlk] at hpb; obtain ⟨q, t, hpb⟩ := hpb; rw [hpb]; exact ⟨_, t, rfl⟩
      | found over line rest =>
        rw [hlk] at hpb
        simp only at hpb ⊢
        by_cases hkn : versionNumber line ∈ [some (b! "1.0"), some (b! "0.17"), some (b! "0.18")]
        · rw [if_pos hkn] at hpb ⊢
          by_cases hst : Spec.stuck false rest = true
          · rw [if_pos hst] at hpb ⊢; rw [hpb]
          · rw [if_neg hst] at hpb ⊢
            by_cases hbk : (blockLines false rest).length = rest.length
            · rw [if_pos hbk] at hpb ⊢; obtain ⟨t, hpb⟩ := hpb; rw [hpb]; exact ⟨t, rfl⟩
            · rw [if_neg hbk] at hpb ⊢; obtain ⟨q, t, hpb⟩ := hpb; rw [hpb]; exact ⟨_, t, rfl⟩
        · rw [if_neg hkn] at hpb ⊢; obtain ⟨t, hpb⟩ := hpb; rw [hpb]; exact ⟨t, rfl⟩
  have hrr : readRecord offs s = readFresh offs s := by rw [readRecord_fresh, he]
  rw [hrr]
  unfold readFresh
  simp only [M.bind_apply, M.modify_apply, M.get_apply, hs]
  cases hkd : s.kind with
  | plain => have := key offs (fun o => o) (fun o => o); simpa only [M.bind_apply] using this
  | gzipRecord => have := key false (fun _ => none) (fun _ => none); simpa only [M.bind_apply] using this
  | gzipFile => exact absurd hkd hk


/-- what asking for the next record does on damaged data -/
theorem readRecord_damaged' {e : Exc} (offs : Bool) (s : Stream) (h : Bad e s) (hp : s.parser = .warc ∨ ((∃ st, s.parser = .mixed st) ∧ b! "WARC" <+: (dropTerminators (wholeLines s.fh.rest)).headD [])) (hk : s.kind ≠ .gzipFile) (he : s.eoc = none) :
    (match nextDamaged s.fh.rest with
     | none => ∃ s', readRecord offs s = .raise e s'
     | some (.none errors size) => readRecord offs s = .ok ⟨reported s.kind offs (s.fh.pos + size), none, errors⟩ (s.adv size) ∧ Bad e (s.adv size)
     | some (.record start version headers errors size) => readRecord offs s =
         .ok ⟨reported s.kind offs (s.fh.pos + start), some { parsed version headers with errors := errors }, []⟩
           { s.adv size with eoc := some (declaredLength headers) } ∧ Bad e (s.adv size) ∧ next s.fh.rest = .record start version headers errors size
     | some .unknown => ∃ s', readRecord offs s = .raise .typeError s'
     | some .stuck => readRecord offs s = .hang) := by
  have hv := readRecord_verdict' offs s h hp hk he
  have hok : ∀ q s', readRecord offs s = .ok q s' →
      (match next s.fh.rest with
       | .none errors size => readRecord offs s = .ok ⟨reported s.kind offs (s.fh.pos + size), none, errors⟩ (s.adv size) ∧ Bad e (s.adv size)
       | .record start version headers errors size => readRecord offs s =
           .ok ⟨reported s.kind offs (s.fh.pos + start), some { parsed version headers with errors := errors }, []⟩
             { s.adv size with eoc := some (declaredLength headers) } ∧ Bad e (s.adv size)
       | _ => False) := by
    intro q s' hr
    have hl := like_readRecord (more := []) (g := none) offs h
    simp only [Like, hr] at hl
    obtain ⟨hl, hb', -⟩ := hl
    have hx := readRecord_exact' offs (ext [] none s) (hp.imp id fun h => ⟨h.1, by rw [ext_rest0]; exact head_whole h.2 (by decide)⟩) hk he rfl
    have hrest : (ext [] none s).fh.rest = s.fh.rest := by rw [ext_rest h]; simp
    rw [hrest, hl] at hx
    cases hn : next s.fh.rest with
    | stuck => rw [hn] at hx; simp at hx
    | unknown => rw [hn] at hx; simp at hx
    | none es size =>
      rw [hn] at hx
      simp only [Res.ok.injEq] at hx ⊢
      obtain ⟨rfl, hx⟩ := hx
      have : s' = { s.adv size with eoc := none } := ext_adv size none h hb' (by rw [hx]; simp [Stream.adv, ext, he])
      have e2 : ({ s.adv size with eoc := none } : Stream) = s.adv size := by simp [Stream.adv, he]
      rw [e2] at this
      subst this
      exact ⟨hr, hb'⟩
    | record start v hs es size =>
      rw [hn] at hx
      simp only [Res.ok.injEq] at hx ⊢
      obtain ⟨rfl, hx⟩ := hx
      have : s' = { s.adv size with eoc := some (declaredLength hs) } := ext_adv size _ h hb' hx
      subst this
      exact ⟨hr, hb'.fault, hb'.pos⟩
  unfold nextDamaged
  cases hlk : look 0 (dropTerminators (wholeLines s.fh.rest)) with
  | nothing over => rw [hlk] at hv; exact hv
  | tooMany over =>
    rw [hlk] at hv
    obtain ⟨q, s', hr⟩ := hv
    have := hok q s' hr
    cases hn : next s.fh.rest with
    | stuck => rw [hn] at this; exact this.elim
    | unknown => rw [hn] at this; exact this.elim
    | none es size => rw [hn] at this; simp only at this ⊢; exact this
    | record start v hs es size => rw [hn] at this; simp only at this ⊢; exact ⟨this.1, this.2, trivial⟩
  | found over line rest =>
    rw [hlk] at hv
    simp only at hv ⊢
    by_cases hkn : versionNumber line ∈ [some (b! "1.0"), some (b! "0.17"), some (b! "0.18")]
    · rw [if_pos hkn] at hv ⊢
      by_cases hst : Spec.stuck false rest = true
      · rw [if_pos hst] at hv ⊢; exact hv
      · rw [if_neg hst] at hv ⊢
        by_cases hbk : (blockLines false rest).length = rest.length
        · rw [if_pos hbk] at hv ⊢; exact hv
        · rw [if_neg hbk] at hv ⊢
          obtain ⟨q, s', hr⟩ := hv
          have := hok q s' hr
          cases hn : next s.fh.rest with
          | stuck => rw [hn] at this; exact this.elim
          | unknown => rw [hn] at this; exact this.elim
          | none es size => rw [hn] at this; simp only at this ⊢; exact this
          | record start v hs es size => rw [hn] at this; simp only at this ⊢; exact ⟨this.1, this.2, trivial⟩
    · rw [if_neg hkn] at hv ⊢; exact hv


/-! ### the next record -/

/-- what asking the stream `s` for the next record does, if the bytes in front of the damage mean `m` -/
def Spec.DescribesInDamaged (e : Exc) (m : Option Meant) (offs : Bool) (s : Stream) : Prop :=
  match m with
  | none => ∃ s', readRecord offs s = .raise e s'
  | some m => m.Describes offs s

/-- either the exception of the decompressor comes, or whatever exception comes is that of the undamaged file -/
theorem readRecord_arc_verdict {e : Exc} (offs : Bool) (s : Stream) (st : ArcSt) (hp : s.parser.arcSt? = some st)
    (hw : ¬ (s.parser.isMixed = true ∧ b! "WARC" <+: (dropTerminators (wholeLines s.fh.rest)).headD []))
    (h : Bad e s) (hk : s.kind ≠ .gzipFile) (he : s.eoc = none) :
    (match (dropTerminators (wholeLines s.fh.rest)).dropWhile white with
     | [] => ∃ s', readRecord offs s = .raise e s'
     | l :: behind => if b! "filedesc:" <+: l ∧ behind.length < 2 then ∃ s', readRecord offs s = .raise e s' else SameRaise (readRecord offs) s) := by
  have hset : ({ s with eoc := none } : Stream) = s := by obtain ⟨fh, eoc, kind, parser⟩ := s; simp at he; subst he; rfl
  have hset2 : ({ ext [] none s with eoc := none } : Stream) = ext [] none s := by rw [ext, he]
  have key : ∀ (o : Bool) (k : Option Nat → Option Nat) (f : Option Nat → Option Nat),
      (match (dropTerminators (wholeLines s.fh.rest)).dropWhile white with
       | [] => ∃ s', (blankLoop o (s.fh.rest.length + 2) >>= fun a => parseWith (k a.1) a.2 >>= fun b =>
            (pure (⟨f b.2.2, b.1, b.2.1⟩ : Entry) : M Stream Entry)) s = .raise e s'
       | l :: behind =>
         if b! "filedesc:" <+: l ∧ behind.length < 2 then ∃ s', (blankLoop o (s.fh.rest.length + 2) >>= fun a => parseWith (k a.1) a.2 >>= fun b =>
            (pure (⟨f b.2.2, b.1, b.2.1⟩ : Entry) : M Stream Entry)) s = .raise e s'
         else SameRaise (blankLoop o (s.fh.rest.length + 2) >>= fun a => parseWith (k a.1) a.2 >>= fun b =>
            (pure (⟨f b.2.2, b.1, b.2.1⟩ : Entry) : M Stream Entry)) s) := by
    intro o k f
    have hwl : (wholeLines s.fh.rest).length ≤ s.fh.rest.length :=
      Nat.le_trans (List.length_filter_le _ _) (lines_length s.fh.rest)
    have hbl := blankLoop_bad' o (s.fh.rest.length + 2) s h he (by omega) (by omega)
    simp only [M.bind_apply, M.pure_apply]
    cases hd : dropTerminators (wholeLines s.fh.rest) with
    | nil =>
      rw [hd] at hbl
      obtain ⟨s', hbl⟩ := hbl
      rw [hbl]
      exact ⟨s', rfl⟩
    | cons l rest =>
      rw [hd] at hbl hw
      obtain ⟨o', s', hbl, hcur, hww, hpp, hkk⟩ := hbl
      have hnt := dropWhile_first _ _ _ _ hd
      have hb : l ≠ [10] ∧ l ≠ [13, 10] ∧ l ≠ [13] := by
        refine ⟨?_, ?_, ?_⟩ <;> (rintro rfl; simp at hnt)
      have hpw := parseWith_arc s' st (k o') l (by rw [hpp]; exact hp) hcur.ne (fun hm hpre => hw ⟨by rw [← hpp]; exact hm, hpre⟩) hb
      have hv := arcParse_verdict st (fun st' => M.modify fun t => { t with parser := s'.parser.withArc st' }) ⟨fun st => ⟨fun _ => s'.parser.withArc st, rfl⟩⟩ (k o') l s' hcur
      rw [hww] at hv
      have hl1 := like_blankLoop (more := []) (g := none) o (s.fh.rest.length + 2) (s.fh.rest.length + 2) h (by omega) (Nat.le_refl _)
      simp only [Like, hbl] at hl1
      rw [hbl]
      simp only
      rw [hpw]
      cases hdd : (l :: rest).dropWhile white with
      | nil => rw [hdd] at hv; obtain ⟨t, hv⟩ := hv; rw [hv]; exact ⟨t, rfl⟩
      | cons l' behind =>
        rw [hdd] at hv
        simp only at hv ⊢
        by_cases hc : b! "filedesc:" <+: l' ∧ behind.length < 2
        · rw [if_pos hc] at hv ⊢; obtain ⟨t, hv⟩ := hv; rw [hv]; exact ⟨t, rfl⟩
        · rw [if_neg hc] at hv ⊢
          intro x t hx
          simp only [M.bind_apply, hbl, M.pure_apply, hpw] at hx
          simp only [M.bind_apply, hl1.1, M.pure_apply]
          have hpw2 := parseWith_arc (ext [] none s') st (k o') l (by show s'.parser.arcSt? = _; rw [hpp]; exact hp) hcur.ne
            (fun hm hpre => hw ⟨by rw [← hpp]; exact hm, hpre⟩) hb
          rw [hpw2]
          cases hq : ArcParser.parse st (fun st' => M.modify fun t => { t with parser := s'.parser.withArc st' }) (k o') l s' with
          | hang => rw [hq] at hx; simp at hx
          | ok a b => rw [hq] at hx; simp at hx
          | raise y t' =>
            rw [hq] at hx
            simp only [Res.raise.injEq] at hx
            obtain ⟨t2, ht2⟩ := hv y t' hq
            have hpe : (ext [] none s').parser = s'.parser := rfl
            rw [hpe, ht2]
            exact ⟨t2, by rw [hx.1]⟩
  have hrr : readRecord offs s = readFresh offs s := by rw [readRecord_fresh, he]
  have hrr2 : readRecord offs (ext [] none s) = readFresh offs (ext [] none s) := by
    rw [readRecord_fresh]; rw [show (ext [] none s).eoc = none from he]
  have hsr : SameRaise (readRecord offs) s ↔ SameRaise (readFresh offs) s := by simp only [SameRaise, hrr, hrr2]
  rw [hrr, hsr]
  simp only [SameRaise]
  unfold readFresh
  simp only [M.bind_apply, M.modify_apply, M.get_apply, hset, hset2, ext_rest0]
  have hke : (ext [] none s).kind = s.kind := rfl
  rw [hke]
  cases hkd : s.kind with
  | plain => have := key offs (fun o => o) (fun o => o); simpa only [M.bind_apply, SameRaise] using this
  | gzipRecord => have := key false (fun _ => none) (fun _ => none); simpa only [M.bind_apply, SameRaise] using this
  | gzipFile => exact absurd hkd hk

theorem ext_adv_parser {s s' : Stream} {x : Exc} (n : Nat) (eo : Option Int) (p : Parser) (hb : Bad x s) (hb' : Bad x s')
    (h : ext [] none s' = { (ext [] none s).adv n with eoc := eo, parser := p }) : s' = { s.adv n with eoc := eo, parser := p } := by
  obtain ⟨⟨d, q, sn, f⟩, eoc, kd, ps⟩ := s
  obtain ⟨⟨d', q', sn', f'⟩, eoc', kd', ps'⟩ := s'
  have hf := hb.fault
  have hf' := hb'.fault
  simp only at hf hf'
  subst hf hf'
  simp only [ext, Stream.adv, File.advance, List.append_nil, Stream.mk.injEq, File.mk.injEq] at h ⊢
  obtain ⟨⟨rfl, rfl, rfl, -⟩, rfl, rfl, rfl⟩ := h
  simp

/-- what asking for the next record of a damaged ARC file or mixed file does -/
theorem readRecord_arc_damaged {e : Exc} (offs : Bool) (s : Stream) (st : ArcSt) (hp : s.parser.arcSt? = some st) (hn : ∀ n ∈ st.headers, 10 ∉ n)
    (h : Bad e s) (hk : s.kind ≠ .gzipFile) (he : s.eoc = none) :
    DescribesInDamaged e (nextInDamaged s.parser.isMixed st.headers s.fh.rest) offs s ∧
    (∀ f, nextInDamaged s.parser.isMixed st.headers s.fh.rest = some (.record f) →
      nextIn s.parser.isMixed st.headers s.fh.rest = .record f ∧ Bad e (s.adv f.size)) := by
  unfold nextInDamaged
  by_cases hw : s.parser.isMixed = true ∧ b! "WARC" <+: (dropTerminators (wholeLines s.fh.rest)).headD []
  · rw [if_pos hw]
    have hmix : ∃ st, s.parser = .mixed st := by
      cases hq : s.parser with
      | warc => rw [hq] at hw; simp [Parser.isMixed] at hw
      | arc x => rw [hq] at hw; simp [Parser.isMixed] at hw
      | mixed x => exact ⟨x, rfl⟩
    have hr := readRecord_damaged' offs s h (Or.inr ⟨hmix, hw.2⟩) hk he
    have hni : nextIn s.parser.isMixed st.headers s.fh.rest = ofWarc st.headers (next s.fh.rest) := by
      rw [nextIn, if_pos ⟨hw.1, head_whole hw.2 (by decide)⟩]
    cases hx : nextDamaged s.fh.rest with
    | none => rw [hx] at hr; exact ⟨hr, fun f hf => by cases hf⟩
    | some m =>
      rw [hx] at hr
      cases m with
      | none a b => exact ⟨hr.1, fun f hf => by cases hf⟩
      | unknown => exact ⟨hr, fun f hf => by cases hf⟩
      | stuck => exact ⟨hr, fun f hf => by cases hf⟩
      | record a b c d z =>
        obtain ⟨h1, h2, h3⟩ := hr
        refine ⟨⟨st.version, ?_⟩, fun f hf => ?_⟩
        · rw [withArc_self _ _ hp]; exact h1
        · simp only [Option.map_some, ofWarc, Option.some.injEq, Meant.record.injEq] at hf
          subst hf
          exact ⟨by rw [hni, h3]; rfl, h2⟩
  · rw [if_neg hw]
    have hv := readRecord_arc_verdict offs s st hp hw h hk he
    unfold nextArcDamaged
    cases hd : (dropTerminators (wholeLines s.fh.rest)).dropWhile white with
    | nil => rw [hd] at hv; exact ⟨hv, fun f hf => by cases hf⟩
    | cons l behind =>
      rw [hd] at hv
      simp only at hv ⊢
      by_cases hc : b! "filedesc:" <+: l ∧ behind.length < 2
      · rw [if_pos hc] at hv ⊢; exact ⟨hv, fun f hf => by cases hf⟩
      · rw [if_neg hc] at hv ⊢
        have hni : nextIn s.parser.isMixed st.headers s.fh.rest = nextArc st.headers s.fh.rest := by
          rw [nextIn, if_neg]
          rintro ⟨hm, hpre⟩
          apply hw
          refine ⟨hm, ?_⟩
          obtain ⟨t, ht⟩ := lines_whole s.fh.rest.length s.fh.rest (Nat.le_refl _)
          have hne : dropTerminators (wholeLines s.fh.rest) ≠ [] := by intro q; rw [q] at hd; simp at hd
          rw [ht, dropTerminators_more _ _ hne] at hpre
          cases hq : dropTerminators (wholeLines s.fh.rest) with
          | nil => exact absurd hq hne
          | cons a as => rw [hq] at hpre; exact hpre
        have hx := readRecord_arc_exact offs (ext [] none s) st hp hn hk he rfl
        have hm : (ext [] none s).parser.isMixed = s.parser.isMixed := rfl
        rw [hm, ext_rest0, hni] at hx
        have hl := like_readRecord (more := []) (g := none) offs h
        simp only [Like] at hl
        rw [hni]
        simp only [DescribesInDamaged, Meant.Describes] at hx ⊢
        cases hr : readRecord offs s with
        | hang =>
          rw [hr] at hl
          simp only at hl
          rw [hl] at hx
          cases hna : nextArc st.headers s.fh.rest with
          | nothing a b c => rw [hna] at hx; simp at hx
          | record f => rw [hna] at hx; simp at hx
          | raises x => rw [hna] at hx; simp at hx
          | stuck => exact ⟨rfl, fun f hf => by cases hf⟩
        | raise y s' =>
          obtain ⟨t, ht⟩ := hv y s' hr
          rw [ht] at hx
          cases hna : nextArc st.headers s.fh.rest with
          | nothing a b c => rw [hna] at hx; simp at hx
          | record f => rw [hna] at hx; simp at hx
          | stuck => rw [hna] at hx; simp at hx
          | raises x =>
            rw [hna] at hx
            simp only [Res.raise.injEq] at hx
            obtain ⟨t', hx, -⟩ := hx
            exact ⟨⟨s', by rw [hx]⟩, fun f hf => by cases hf⟩
        | ok q s' =>
          rw [hr] at hl
          obtain ⟨hl, hb', -⟩ := hl
          rw [hl] at hx
          cases hna : nextArc st.headers s.fh.rest with
          | stuck => rw [hna] at hx; simp at hx
          | raises x => rw [hna] at hx; simp at hx
          | nothing a b c =>
            rw [hna] at hx
            simp only [Res.ok.injEq] at hx ⊢
            obtain ⟨rfl, hx⟩ := hx
            refine ⟨⟨rfl, ?_⟩, fun f hf => by cases hf⟩
            have := ext_adv c none h hb' (by rw [hx]; simp [Stream.adv, ext, he])
            rw [this]; simp [Stream.adv, he]
          | record f =>
            rw [hna] at hx
            simp only [Res.ok.injEq] at hx ⊢
            obtain ⟨ver, rfl, hx⟩ := hx
            have := ext_adv_parser f.size f.length (s.parser.withArc ⟨ver, f.names⟩) h hb' hx
            refine ⟨⟨ver, rfl, this⟩, fun g hg => ?_⟩
            simp only [Option.some.injEq, Meant.record.injEq] at hg
            subst hg
            refine ⟨rfl, ?_⟩
            rw [this] at hb'
            exact ⟨hb'.fault, hb'.pos⟩


/-! ### a whole file -/

/-- what `record.content` gives right behind the head of a record of damaged data -/
theorem content_located_damaged {e : Exc} (s : Stream) (f : Located) (hct : f.cls.contentTypeName = b! "Content-Type" ∨ f.cls.contentTypeName = b! "Content-type")
    (h : Bad e s) (hneg : s.fh.strictNeg = true) (he : s.eoc = f.length) :
    ((f.length = none ∨ f.length = some (-1)) → ∃ w, World.content ⟨s, f.rcd, []⟩ = .raise e w) ∧
    (∀ n, f.length = some n → n < -1 → ∃ w, World.content ⟨s, f.rcd, []⟩ = .raise .valueError w) ∧
    (∀ n, f.length = some n → 0 ≤ n → s.fh.rest.length < n.toNat → ∃ w, World.content ⟨s, f.rcd, []⟩ = .raise e w) ∧
    (∀ n, f.length = some n → 0 ≤ n → ¬ s.fh.rest.length < n.toNat → ∃ w, World.content ⟨s, f.rcd, []⟩ =
        .ok (firstValue (b! "Content-Type") f.headers, some (s.fh.rest.take n.toNat)) w ∧ w.strm = { s.adv n.toNat with eoc := some 0 }) := by
  have hgt : f.rcd.getHeader f.rcd.cls.contentTypeName = firstValue (b! "Content-Type") f.headers := by
    have h1 : f.rcd.getHeader f.rcd.cls.contentTypeName = firstValue f.cls.contentTypeName f.headers := by
      simp [Rec.getHeader, lookupHeader_eq, Spec.Located.rcd]
    rw [h1]
    have h2 : ∀ (a b : Bytes) (hs : List Header), lower a = lower b → firstValue a hs = firstValue b hs := by
      intro a b hs e
      induction hs with
      | nil => rfl
      | cons h hs ih => simp only [firstValue, e, ih]
    rcases hct with h | h
    · rw [h]
    · rw [h]; exact h2 _ _ _ (by decide)
  have hc : f.rcd.content = none := rfl
  have hcf : f.rcd.cfile = .stream := rfl
  refine ⟨fun h1 => ?_, fun n h1 hn => ?_, fun n h1 h0 hlt => ?_, fun n h1 h0 hlt => ?_⟩
  · have hr : ∃ t, Stream.read none s = .raise e t := by
      rcases h1 with h1 | h1
      · rw [h1] at he
        simp only [Stream.read, M.bind_apply, M.get_apply, he, limitOf, rawRead, onFile, File.read, File.deliver, h.fault]
        exact ⟨_, rfl⟩
      · rw [h1] at he
        have h0 : ¬ (0 : Int) ≤ -1 := by omega
        simp only [Stream.read, M.bind_apply, M.get_apply, he, limitOf, rawRead, onFile, File.read, if_neg h0, true_or, if_true, File.deliver, h.fault]
        exact ⟨_, rfl⟩
    obtain ⟨t, hr⟩ := hr
    simp only [World.content, hc, World.cfileRead, hcf, World.onStream, hr]
    exact ⟨_, rfl⟩
  · rw [h1] at he
    have hr : Stream.read none s = .raise .valueError s := by
      have h0 : ¬ (0 : Int) ≤ n := by omega
      have h2 : ¬ (n = -1 ∨ s.fh.strictNeg = false) := by rw [hneg]; simp; omega
      simp only [Stream.read, M.bind_apply, M.get_apply, he, limitOf, rawRead, onFile, File.read, if_neg h0, if_neg h2]
      rw [← he]
    simp only [World.content, hc, World.cfileRead, hcf, World.onStream, hr]
    exact ⟨_, rfl⟩
  · rw [h1] at he
    have hr : ∃ t, Stream.read none s = .raise e t := by
      have h5 : (s.fh.rest.take n.toNat).length < n.toNat := by rw [List.length_take]; omega
      simp only [Stream.read, M.bind_apply, M.get_apply, he, limitOf, rawRead, onFile, File.read, if_pos h0, File.deliver, h.fault]
      rw [decide_eq_true hlt]
      exact ⟨_, rfl⟩
    obtain ⟨t, hr⟩ := hr
    simp only [World.content, hc, World.cfileRead, hcf, World.onStream, hr]
    exact ⟨_, rfl⟩
  · obtain ⟨m, rfl⟩ : ∃ m : Nat, n = (m : Int) := ⟨_, (Int.toNat_of_nonneg h0).symm⟩
    rw [h1] at he
    simp only [Int.toNat_natCast] at hlt ⊢
    have hop := op_run (.read none) s m he (Or.inl (by omega))
    simp only [ReadOp.run, ReadOp.result, Option.map_none] at hop
    have hl : (s.fh.rest.take m).length = m := by simp; omega
    simp only [hl, Nat.sub_self] at hop
    simp only [World.content, hc, World.cfileRead, hcf, World.onStream, hop, hgt]
    exact ⟨_, rfl, rfl⟩

/-- reading the whole of a damaged ARC file or mixed file -/
theorem collect_arc_damaged {e : Exc} (offs : Bool) (rounds : Nat) (s : Stream) (st : ArcSt) (hp : s.parser.arcSt? = some st) (hn : ∀ n ∈ st.headers, 10 ∉ n)
    (hk : s.kind = .gzipRecord) (he : s.eoc = none) (h : Bad e s) (hneg : s.fh.strictNeg = true) (hr : s.fh.rest.length < rounds) :
    collect offs rounds s = meaningInDamaged e s.parser.isMixed rounds st.headers s.fh.rest := by
  induction rounds generalizing s st with
  | zero => omega
  | succ rounds ih =>
    obtain ⟨hx, hrec⟩ := readRecord_arc_damaged offs s st hp hn h (by rw [hk]; simp) he
    have hrep : ∀ p, reported s.kind offs p = none := by intro p; rw [hk]; rfl
    rw [collect, meaningInDamaged]
    cases hm : nextInDamaged s.parser.isMixed st.headers s.fh.rest with
    | none => rw [hm] at hx; simp only [DescribesInDamaged] at hx ⊢; obtain ⟨s', hx⟩ := hx; rw [hx]
    | some m =>
      rw [hm] at hx hrec
      simp only [DescribesInDamaged] at hx
      cases m with
      | stuck => simp only [Meant.Describes] at hx ⊢; rw [hx]
      | raises x => simp only [Meant.Describes] at hx ⊢; obtain ⟨s', hx⟩ := hx; rw [hx]
      | nothing p es size => simp only [Meant.Describes, hrep] at hx ⊢; rw [hx]
      | record f =>
        simp only [Meant.Describes, hrep] at hx ⊢
        obtain ⟨ver, hx⟩ := hx
        obtain ⟨hni, hb⟩ := hrec f rfl
        rw [hx]
        simp only
        obtain ⟨hsz1, hsz2, hnames, hct⟩ := nextIn_size hn hni
        generalize hs1 : ({ s.adv f.size with eoc := f.length, parser := s.parser.withArc ⟨ver, f.names⟩ } : Stream) = s1
        have hrest : s1.fh.rest = s.fh.rest.drop f.size := by subst hs1; simp
        have hk1 : s1.kind = .gzipRecord := by subst hs1; exact hk
        have hp1 : s1.parser.arcSt? = some ⟨ver, f.names⟩ := by subst hs1; exact withArc_arcSt _ st _ hp
        have hm1 : s1.parser.isMixed = s.parser.isMixed := by subst hs1; exact withArc_isMixed _ _
        have hb1 : Bad e s1 := by subst hs1; exact ⟨hb.fault, hb.pos⟩
        have hneg1 : s1.fh.strictNeg = true := by subst hs1; exact hneg
        have he1 : s1.eoc = f.length := by subst hs1; rfl
        clear hs1
        obtain ⟨c1, c2, c3, c4⟩ := content_located_damaged s1 f hct hb1 hneg1 he1
        cases hl : f.length with
        | none =>
          obtain ⟨w, hw⟩ := c1 (Or.inl hl)
          simp only [hw]
        | some n =>
          simp only
          by_cases h1 : n < -1
          · obtain ⟨w, hw⟩ := c2 n hl h1
            rw [if_pos h1, hw]
          · rw [if_neg h1]
            by_cases h2 : n = -1
            · obtain ⟨w, hw⟩ := c1 (Or.inr (by rw [hl, h2]))
              rw [if_pos (Or.inl h2), hw]
            · by_cases h3 : (s.fh.rest.drop f.size).length < n.toNat
              · obtain ⟨w, hw⟩ := c3 n hl (by omega) (by rw [hrest]; exact h3)
                rw [if_pos (Or.inr h3), hw]
              · obtain ⟨w, hw, hws⟩ := c4 n hl (by omega) (by rw [hrest]; exact h3)
                rw [if_neg (by rintro (q | q) <;> contradiction), hw]
                simp only [hws]
                have ee := collect_eoc offs rounds (s1.adv n.toNat) 0 (by omega)
                rw [ee]
                generalize ht : ({ s1.adv n.toNat with eoc := none } : Stream) = t
                have ht1 : t.fh.rest = (s.fh.rest.drop f.size).drop n.toNat := by subst ht; rw [← hrest]; simp
                have ht4 : t.parser.isMixed = s.parser.isMixed := by subst ht; exact hm1
                have htb : Bad e t := by
                  subst ht
                  refine ⟨hb1.fault, ?_⟩
                  have h5 := hb1.pos
                  have h6 : ¬ s1.fh.rest.length < n.toNat := by rw [hrest]; exact h3
                  simp only [Stream.adv, File.advance, File.rest, List.length_drop] at h5 h6 ⊢
                  omega
                rw [ih t ⟨ver, f.names⟩ (by subst ht; exact hp1) hnames (by subst ht; exact hk1) (by subst ht; rfl) htb (by subst ht; exact hneg1)
                  (by rw [ht1, List.length_drop, List.length_drop]; omega), ht1, ht4, hrest]
                rfl

end Warc
