import Verif.Proofs.EndsHttp
import Verif.Proofs.ToolDemo
import Verif.Proofs.Arc2WarcDemo
/-
  C61: the tools always end, except on the inputs that make a parser loop.
-/
set_option linter.all false
namespace Warc
open Rx Stream Spec

/-! ### records come straight from the file -/

/-- records that were just parsed -/
def Gives (x : M Stream WarcParser.ParseOut) : Prop :=
  ∀ s a s' r, x s = .ok a s' → a.1 = some r → r.content = none ∧ r.cfile = .stream

namespace Gives
theorem bind {α : Type} {x : M Stream α} {f : α → M Stream WarcParser.ParseOut} (hf : ∀ a, Gives (f a)) : Gives (x >>= f) := by
  intro s a s' r h hr
  rw [M.bind_apply] at h
  cases hq : x s with
  | hang => rw [hq] at h; cases h
  | raise e s1 => rw [hq] at h; cases h
  | ok b s1 => rw [hq] at h; exact hf b s1 a s' r h hr
theorem throw (e : Exc) : Gives (M.throw e) := by intro s a s' r h; cases h
theorem diverge : Gives M.diverge := by intro s a s' r h; cases h
theorem none (es : List Err) (o : Option Nat) : Gives (pure (none, es, o)) := by
  intro s a s' r h hr; cases h; cases hr
theorem some {r : Rec} (h1 : r.content = .none) (h2 : r.cfile = .stream) (es : List Err) (o : Option Nat) : Gives (pure (some r, es, o)) := by
  intro s a s' r' h hr; cases h; cases hr; exact ⟨h1, h2⟩
theorem ite {p : Prop} [Decidable p] {x y : M Stream WarcParser.ParseOut} (hx : Gives x) (hy : Gives y) : Gives (if p then x else y) := by
  by_cases h : p
  · rw [if_pos h]; exact hx
  · rw [if_neg h]; exact hy
end Gives

theorem gives_warcParse (off : Option Nat) (line : Bytes) : Gives (WarcParser.parse off line) := by
  refine Gives.bind fun s => Gives.bind fun v => ?_
  cases v with
  | eof e o => exact Gives.none _ _
  | giveUp e o => exact Gives.none _ _
  | found mt e o =>
    simp only
    cases WarcParser.versionErrors mt e with
    | none => exact Gives.throw _
    | some e => exact Gives.bind fun s => Gives.bind fun l => Gives.bind fun st => Gives.bind fun _ => Gives.some rfl rfl _ _

theorem gives_arcParse (st : ArcSt) (setSt : ArcSt → M Stream Unit) (off : Option Nat) (line : Bytes) :
    Gives (ArcParser.parse st setSt off line) := by
  refine Gives.bind fun s => Gives.bind fun v => ?_
  cases v with
  | none => exact Gives.none _ _
  | some line =>
    refine Gives.ite ?_ (Gives.ite (Gives.throw _) ?_)
    · refine Gives.bind fun l1 => Gives.bind fun l2 => ?_
      simp only
      cases splitWs (strip l1) with
      | nil => exact Gives.throw _
      | cons v vs =>
        refine Gives.bind fun _ => ?_
        cases ArcParser.parseHeaderList (splitWs (strip l2)) line with
        | error e => exact Gives.throw _
        | ok hs =>
          simp only
          cases ArcParser.contentHeaders hs (none, []) with
          | mk len es =>
            cases len with
            | none => exact Gives.throw _
            | some n => exact Gives.bind fun _ => Gives.some rfl rfl _ _
    · cases ArcParser.parseHeaderList st.headers line with
      | error e => exact Gives.throw _
      | ok hs => exact Gives.bind fun _ => Gives.some rfl rfl _ _

theorem gives_mixedParse (st : ArcSt) (setSt : ArcSt → M Stream Unit) (off : Option Nat) (fuel : Nat) (line : Bytes) :
    Gives (MixedParser.parse st setSt off fuel line) := by
  induction fuel generalizing line with
  | zero => exact Gives.diverge
  | succ fuel ih =>
    exact Gives.ite (Gives.none _ _) (Gives.ite (gives_warcParse _ _) (Gives.ite (gives_arcParse st setSt off line)
      (Gives.bind fun l => ih l)))

theorem gives_parseWith (off : Option Nat) (line : Bytes) : Gives (parseWith off line) := by
  refine Gives.bind fun s => ?_
  cases s.parser with
  | warc => exact gives_warcParse _ _
  | arc st => exact gives_arcParse _ _ _ _
  | mixed st => exact gives_mixedParse _ _ _ _ _

theorem readRecord_own (offs : Bool) (s s' : Stream) (e : Entry) (r : Rec) (out : Bytes) (h : readRecord offs s = .ok e s') (hr : e.rcd = some r) :
    Own s.fh.data ⟨s', r, out⟩ := by
  obtain ⟨s0, off, line, s1, off', _, _, _, _, _, _, _, _, hb, hparse, _⟩ := readRecord_inv offs s s' e h
  obtain ⟨h1, h2⟩ := gives_parseWith _ _ _ _ _ r hparse hr
  refine ⟨(readRecord_uses offs s s' e r h hr).1.data, fun _ => h2, ?_⟩
  intro ct b hc
  simp only at hc
  rw [h1] at hc; cases hc

/-! ### the loops -/

/-- A loop `for record in fh` hangs only if reading a record hangs or the body does. -/
theorem forEach_hang {body : M World Unit} (hb : FwdOn World.strm body) (fuel : Nat) (t : Tool)
    (hf : t.strm.fh.rest.length < fuel) (h : Tool.forEach body fuel t = .hang) :
    (∃ s, After t.strm s ∧ readRecord false s = .hang) ∨ ∃ w, Own t.strm.fh.data w ∧ body w = .hang := by
  induction fuel generalizing t with
  | zero => omega
  | succ fuel ih =>
    simp only [Tool.forEach, M.bind_apply, Tool.onStream] at h
    cases hq : readRecord false t.strm with
    | hang => exact Or.inl ⟨t.strm, After.refl _, hq⟩
    | raise e s1 => rw [hq] at h; cases h
    | ok e s1 =>
      rw [hq] at h
      simp only at h
      cases hr : e.rcd with
      | none => rw [hr] at h; simp only at h; split at h <;> cases h
      | some r =>
        rw [hr] at h
        simp only [M.bind_apply, Tool.withRecord] at h
        obtain ⟨ha, hlt⟩ := readRecord_uses _ _ _ _ _ hq hr
        have hown := readRecord_own false t.strm s1 e r t.out hq hr
        cases hx : body ⟨s1, r, t.out⟩ with
        | hang => exact Or.inr ⟨_, hown, hx⟩
        | raise e2 w => rw [hx] at h; cases h
        | ok u w =>
          rw [hx] at h
          simp only at h
          have hw := hb ⟨s1, r, t.out⟩
          rw [hx] at hw
          have hd : w.strm.fh.data = t.strm.fh.data := by rw [hw.data, ha.data]
          have hle := After.rest hw
          simp only at hle
          rcases ih ⟨w.strm, w.out⟩ (by simp only; omega) h with ⟨s, h1, h2⟩ | ⟨w2, h1, h2⟩
          · exact Or.inl ⟨s, After.trans ha (After.trans hw h1), h2⟩
          · exact Or.inr ⟨w2, by simp only [hd] at h1; exact h1, h2⟩

/-- The bound that the model puts on the number of rounds is never reached: any larger bound gives the same result. -/
theorem forEach_fuel {body : M World Unit} (hb : FwdOn World.strm body) (fuel fuel' : Nat) (t : Tool)
    (hf : t.strm.fh.rest.length < fuel) (hf' : t.strm.fh.rest.length < fuel') :
    Tool.forEach body fuel t = Tool.forEach body fuel' t := by
  induction fuel generalizing fuel' t with
  | zero => omega
  | succ fuel ih =>
    obtain ⟨k, rfl⟩ : ∃ k, fuel' = k + 1 := ⟨fuel' - 1, by omega⟩
    simp only [Tool.forEach, M.bind_apply, Tool.onStream]
    cases hq : readRecord false t.strm with
    | hang => rfl
    | raise e s1 => rfl
    | ok e s1 =>
      simp only
      cases hr : e.rcd with
      | none => rfl
      | some r =>
        simp only [M.bind_apply, Tool.withRecord]
        obtain ⟨ha, hlt⟩ := readRecord_uses _ _ _ _ _ hq hr
        have hw := hb ⟨s1, r, t.out⟩
        cases hx : body ⟨s1, r, t.out⟩ with
        | hang => rfl
        | raise e2 w => rfl
        | ok u w =>
          rw [hx] at hw
          have hle := After.rest hw
          simp only at hle
          exact ih k ⟨w.strm, w.out⟩ (by simp only; omega) (by simp only; omega)

/-- the same for `for … in fh.read_records(…)` -/
theorem forRecords_hang {body : Option Nat → M World Unit} (hb : ∀ o, FwdOn World.strm (body o)) (offs : Bool) (fuel : Nat) (limit : Option Nat) (t : Tool)
    (hf : t.strm.fh.rest.length < fuel) (h : Tool.forRecords offs body fuel limit t = .hang) :
    (∃ s, After t.strm s ∧ readRecord offs s = .hang) ∨ ∃ o w, Own t.strm.fh.data w ∧ body o w = .hang := by
  induction fuel generalizing t limit with
  | zero => omega
  | succ fuel ih =>
    simp only [Tool.forRecords, Stream.forRecords] at h
    split at h
    · cases h
    simp only [M.bind_apply, Tool.onStream] at h
    cases hq : readRecord offs t.strm with
    | hang => exact Or.inl ⟨t.strm, After.refl _, hq⟩
    | raise e s1 => rw [hq] at h; cases h
    | ok e s1 =>
      rw [hq] at h
      simp only at h
      cases hr : e.rcd with
      | none => rw [hr] at h; cases h
      | some r =>
        rw [hr] at h
        simp only [Tool.withRecord] at h
        obtain ⟨ha, hlt⟩ := readRecord_uses _ _ _ _ _ hq hr
        have hown := readRecord_own offs t.strm s1 e r t.out hq hr
        cases hx : body e.offset ⟨s1, r, t.out⟩ with
        | hang => exact Or.inr ⟨_, _, hown, hx⟩
        | raise e2 w => rw [hx] at h; cases h
        | ok u w =>
          rw [hx] at h
          simp only [Option.isNone_some, Bool.false_eq_true, if_false] at h
          have hw := hb e.offset ⟨s1, r, t.out⟩
          rw [hx] at hw
          have hd : w.strm.fh.data = t.strm.fh.data := by rw [hw.data, ha.data]
          have hle := After.rest hw
          simp only at hle
          rcases ih _ ⟨w.strm, w.out⟩ (by simp only; omega) h with ⟨s, h1, h2⟩ | ⟨o, w2, h1, h2⟩
          · exact Or.inl ⟨s, After.trans ha (After.trans hw h1), h2⟩
          · exact Or.inr ⟨o, w2, by simp only [hd] at h1; exact h1, h2⟩

theorem forRecords_fuel {body : Option Nat → M World Unit} (hb : ∀ o, FwdOn World.strm (body o)) (offs : Bool) (fuel fuel' : Nat) (limit : Option Nat) (t : Tool)
    (hf : t.strm.fh.rest.length < fuel) (hf' : t.strm.fh.rest.length < fuel') :
    Tool.forRecords offs body fuel limit t = Tool.forRecords offs body fuel' limit t := by
  induction fuel generalizing fuel' t limit with
  | zero => omega
  | succ fuel ih =>
    obtain ⟨k, rfl⟩ : ∃ k, fuel' = k + 1 := ⟨fuel' - 1, by omega⟩
    simp only [Tool.forRecords, Stream.forRecords]
    split
    · rfl
    simp only [M.bind_apply, Tool.onStream]
    cases hq : readRecord offs t.strm with
    | hang => rfl
    | raise e s1 => rfl
    | ok e s1 =>
      simp only
      cases hr : e.rcd with
      | none => rfl
      | some r =>
        simp only [Tool.withRecord]
        obtain ⟨ha, hlt⟩ := readRecord_uses _ _ _ _ _ hq hr
        have hw := hb e.offset ⟨s1, r, t.out⟩
        cases hx : body e.offset ⟨s1, r, t.out⟩ with
        | hang => rfl
        | raise e2 w => rfl
        | ok u w =>
          rw [hx] at hw
          have hle := After.rest hw
          simp only at hle
          simp only [Option.isNone_some, Bool.false_eq_true, if_false]
          exact ih k _ ⟨w.strm, w.out⟩ (by simp only; omega) (by simp only; omega)

theorem checkEntries_hang (fuel : Nat) (s : Stream) (hf : s.fh.rest.length < fuel) (h : WarcValid.checkEntries fuel s = .hang) :
    ∃ s', After s s' ∧ readRecord true s' = .hang := by
  induction fuel generalizing s with
  | zero => omega
  | succ fuel ih =>
    simp only [WarcValid.checkEntries, M.bind_apply] at h
    cases hq : readRecord true s with
    | hang => exact ⟨s, After.refl _, hq⟩
    | raise e s1 => rw [hq] at h; cases h
    | ok e s1 =>
      rw [hq] at h
      simp only at h
      split at h
      · split at h <;> cases h
      · cases hr : e.rcd with
        | none => rw [hr] at h; cases h
        | some r =>
          rw [hr] at h
          simp only at h
          obtain ⟨ha, hlt⟩ := readRecord_uses _ _ _ _ _ hq hr
          split at h
          · split at h <;> cases h
          · obtain ⟨s', h1, h2⟩ := ih s1 (by omega) h
            exact ⟨s', After.trans ha h1, h2⟩

theorem checkEntries_value (fuel : Nat) (s s' : Stream) : WarcValid.checkEntries fuel s ≠ .ok .hangs s' := by
  induction fuel generalizing s with
  | zero => simp [WarcValid.checkEntries]
  | succ fuel ih =>
    intro h
    simp only [WarcValid.checkEntries, M.bind_apply] at h
    cases hq : readRecord true s with
    | hang => rw [hq] at h; cases h
    | raise e s1 => rw [hq] at h; cases h
    | ok e s1 =>
      rw [hq] at h
      simp only at h
      split at h
      · split at h <;> cases h
      · cases hr : e.rcd with
        | none => rw [hr] at h; cases h
        | some r =>
          rw [hr] at h
          simp only at h
          split at h
          · split at h <;> cases h
          · exact ih s1 h

theorem checkEntries_fuel (fuel fuel' : Nat) (s : Stream) (hf : s.fh.rest.length < fuel) (hf' : s.fh.rest.length < fuel') :
    WarcValid.checkEntries fuel s = WarcValid.checkEntries fuel' s := by
  induction fuel generalizing fuel' s with
  | zero => omega
  | succ fuel ih =>
    obtain ⟨k, rfl⟩ : ∃ k, fuel' = k + 1 := ⟨fuel' - 1, by omega⟩
    simp only [WarcValid.checkEntries, M.bind_apply]
    cases hq : readRecord true s with
    | hang => rfl
    | raise e s1 => rfl
    | ok e s1 =>
      simp only
      split
      · rfl
      · cases hr : e.rcd with
        | none => rfl
        | some r =>
          simp only
          obtain ⟨ha, hlt⟩ := readRecord_uses _ _ _ _ _ hq hr
          split
          · rfl
          · exact ih k s1 (by omega) (by omega)

namespace Arc2Warc

theorem loop_hang (c : Codec) (g : Cfg) (gz : Bool) (fuel : Nat) (s : Tool × St) (hf : s.1.strm.fh.rest.length < fuel)
    (h : loop c g gz fuel s = .hang) :
    (∃ t, After s.1.strm t ∧ readRecord false t = .hang) ∨ ∃ x : XW, Own s.1.strm.fh.data x.1 ∧ handle c g gz x = .hang := by
  induction fuel generalizing s with
  | zero => omega
  | succ fuel ih =>
    simp only [loop] at h
    cases hq : readRecord false s.1.strm with
    | hang => exact Or.inl ⟨_, After.refl _, hq⟩
    | raise e s1 => rw [hq] at h; cases h
    | ok e s1 =>
      rw [hq] at h
      simp only at h
      cases hr : e.rcd with
      | none => rw [hr] at h; simp only at h; split at h <;> cases h
      | some r =>
        rw [hr] at h
        simp only at h
        obtain ⟨ha, hlt⟩ := readRecord_uses _ _ _ _ _ hq hr
        have hown := readRecord_own false s.1.strm s1 e r s.1.out hq hr
        have hw := fwd_handle c g gz (⟨s1, r, s.1.out⟩, s.2)
        cases hx : handle c g gz (⟨s1, r, s.1.out⟩, s.2) with
        | hang => exact Or.inr ⟨_, hown, hx⟩
        | raise e2 w => rw [hx] at h; cases h
        | ok u w =>
          rw [hx] at h hw
          simp only at h
          have hw' : After s1 w.1.strm := hw
          have hd : w.1.strm.fh.data = s.1.strm.fh.data := by rw [hw'.data, ha.data]
          have hle := After.rest hw'
          rcases ih (⟨w.1.strm, w.1.out⟩, w.2) (by simp only; omega) h with ⟨t, h1, h2⟩ | ⟨x, h1, h2⟩
          · exact Or.inl ⟨t, After.trans ha (After.trans hw' h1), h2⟩
          · exact Or.inr ⟨x, by simp only [hd] at h1; exact h1, h2⟩

theorem loop_fuel (c : Codec) (g : Cfg) (gz : Bool) (fuel fuel' : Nat) (s : Tool × St) (hf : s.1.strm.fh.rest.length < fuel)
    (hf' : s.1.strm.fh.rest.length < fuel') : loop c g gz fuel s = loop c g gz fuel' s := by
  induction fuel generalizing s fuel' with
  | zero => omega
  | succ fuel ih =>
    obtain ⟨k, rfl⟩ : ∃ k, fuel' = k + 1 := ⟨fuel' - 1, by omega⟩
    simp only [loop]
    cases hq : readRecord false s.1.strm with
    | hang => rfl
    | raise e s1 => rfl
    | ok e s1 =>
      simp only
      cases hr : e.rcd with
      | none => rfl
      | some r =>
        simp only
        obtain ⟨ha, hlt⟩ := readRecord_uses _ _ _ _ _ hq hr
        have hw := fwd_handle c g gz (⟨s1, r, s.1.out⟩, s.2)
        cases hx : handle c g gz (⟨s1, r, s.1.out⟩, s.2) with
        | hang => rfl
        | raise e2 w => rfl
        | ok u w =>
          rw [hx] at hw
          simp only
          have hw' : After s1 w.1.strm := hw
          have hle := After.rest hw'
          exact ih k (⟨w.1.strm, w.1.out⟩, w.2) (by simp only; omega) (by simp only; omega)

end Arc2Warc

/-! ### C61 -/

/-- **C61** A read of one record hangs only if, somewhere in the (decompressed) file, a WARC version line is followed by a
header block with a line that is neither blank nor a field nor a continuation.  This holds for every parser (WARC, ARC,
mixed), every kind of stream, and also for files that raise in the middle. -/
theorem C61_read (offs : Bool) (s : Stream) (h : ¬ StuckData s.fh.data) : readRecord offs s ≠ .hang :=
  fun hh => h (readRecord_hang offs s hh)

theorem After.stuck {s s' : Stream} (h : After s s') (hs : ¬ StuckData s.fh.data) (offs : Bool) : readRecord offs s' ≠ .hang :=
  C61_read offs s' (by rw [h.data]; exact hs)

/-- **C61** The number of rounds of a loop over an archive is bounded by the number of bytes left in the file: with any two
bounds above it, the tools do the same.  So the bound in the model (and `hang` when it runs out) stands for nothing. -/
theorem C61_rounds (t : Tool) (n n' : Nat) (hn : t.strm.fh.rest.length < n) (hn' : t.strm.fh.rest.length < n') :
    (∀ c search o, Tool.forEach (WarcFilter.filterRecord c search o) n t = Tool.forEach (WarcFilter.filterRecord c search o) n' t) ∧
    (∀ c z o, Tool.forEach (Warc2Warc.process c z o) n t = Tool.forEach (Warc2Warc.process c z o) n' t) ∧
    (∀ name limit, Tool.forRecords true (WarcIndex.indexRecord name) n limit t = Tool.forRecords true (WarcIndex.indexRecord name) n' limit t) ∧
    (WarcValid.checkEntries n t.strm = WarcValid.checkEntries n' t.strm) ∧
    (∀ c g gz st, Arc2Warc.loop c g gz n (t, st) = Arc2Warc.loop c g gz n' (t, st)) :=
  ⟨fun c search o => forEach_fuel (fwd_filterRecord c search o) _ _ _ hn hn',
   fun c z o => forEach_fuel (fwd_process c z o) _ _ _ hn hn',
   fun name limit => forRecords_fuel (fwd_indexRecord name) true _ _ _ _ hn hn',
   checkEntries_fuel _ _ _ hn hn',
   fun c g gz st => Arc2Warc.loop_fuel c g gz _ _ _ hn hn'⟩

/-- the loop over several files -/
theorem forFiles_no_hang (f : Bytes → M Bytes Unit) (names : List Bytes) (h : ∀ name ∈ names, ∀ out, f name out ≠ .hang) (out : Bytes) :
    forFiles f names out ≠ .hang := by
  induction names generalizing out with
  | nil => simp [forFiles]
  | cons n ns ih =>
    simp only [forFiles, M.bind_apply]
    cases hq : f n out with
    | hang => exact absurd hq (h n (by simp) out)
    | raise e o => simp
    | ok u o => exact ih (fun name hn => h name (by simp [hn])) o

theorem onArchive_no_hang (c : Codec) (fs : FS) (cls : RecClass) (off : Option Nat) (name : Bytes) (loop : M Tool Unit)
    (h : ∀ s out, openName c fs cls off name = .ok s → loop ⟨s, out⟩ ≠ .hang) (out : Bytes) :
    onArchive c fs cls off name loop out ≠ .hang := by
  simp only [onArchive]
  cases ho : openName c fs cls off name with
  | error e => simp
  | ok s =>
    simp only
    cases hq : loop ⟨s, out⟩ with
    | hang => exact absurd hq (h s out ho)
    | ok u t => simp
    | raise e t => simp

/-- **C61** `warcvalid` ends, whatever the files contain, unless one of them has a stuck header block. -/
theorem C61_warcvalid (c : Codec) (fs : FS) (names : List Bytes)
    (h : ∀ name ∈ names, ∀ s, openName c fs .warc none name = .ok s → ¬ StuckData s.fh.data) :
    WarcValid.main c fs names ≠ none := by
  have main : ∀ correct, WarcValid.run c fs correct names ≠ none := by
    induction names with
    | nil => intro correct; simp [WarcValid.run]
    | cons n ns ih =>
      intro correct
      have ih' := ih fun name hn => h name (by simp [hn])
      simp only [WarcValid.run]
      have hne : WarcValid.checkFile c fs n ≠ .hangs := by
        simp only [WarcValid.checkFile]
        cases ho : openName c fs .warc none n with
        | error e => simp
        | ok s =>
          simp only
          have hs := h n (by simp) s ho
          cases hq : WarcValid.checkEntries (s.fh.rest.length + 2) s with
          | hang =>
            obtain ⟨s', h1, h2⟩ := checkEntries_hang _ s (by omega) hq
            exact absurd h2 (h1.stuck hs _)
          | raise e t => simp
          | ok v t =>
            rintro rfl
            exact checkEntries_value _ s t hq
      cases hv : WarcValid.checkFile c fs n with
      | clean => exact ih' _
      | broken => exact ih' _
      | raised => simp
      | hangs => exact absurd hv hne
  exact main true

/-- **C61** `warcindex` ends unless one of the files has a stuck header block. -/
theorem C61_warcindex (c : Codec) (fs : FS) (names : List Bytes) (out : Bytes)
    (h : ∀ name ∈ names, ∀ s, openName c fs .warc none name = .ok s → ¬ StuckData s.fh.data) :
    WarcIndex.main c fs names out ≠ .hang := by
  simp only [WarcIndex.main, M.bind_apply, M.modify_apply]
  apply forFiles_no_hang
  intro name hn out
  apply onArchive_no_hang
  intro s out ho hh
  rcases forRecords_hang (fwd_indexRecord name) true _ none ⟨s, out⟩ (by simp only [Tool.rounds]; omega) hh with ⟨s', h1, h2⟩ | ⟨o, w, _, h2⟩
  · exact h1.stuck (h name hn s ho) _ h2
  · exact calm_indexRecord name o w h2

/-- **C61** `warcfilter` ends unless one of the files has a stuck header block or, with `-H`, a negative chunk size. -/
theorem C61_warcfilter (c : Codec) (fs : FS) (search : Bytes → Bool) (o : WarcFilter.Opts) (names : List Bytes) (out : Bytes)
    (h : ∀ name ∈ names, ∀ s, openName c fs .warc none name = .ok s →
      ¬ StuckData s.fh.data ∧ (o.httpContentType = true → ¬ NegativeChunk s.fh.data)) :
    WarcFilter.main c fs search o names out ≠ .hang := by
  apply forFiles_no_hang
  intro name hn out
  apply onArchive_no_hang
  intro s out ho hh
  obtain ⟨g1, g2⟩ := h name hn s ho
  rcases forEach_hang (fwd_filterRecord c search o) _ ⟨s, out⟩ (by simp only [Tool.rounds]; omega) hh with ⟨s', h1, h2⟩ | ⟨w, h1, h2⟩
  · exact h1.stuck g1 _ h2
  · obtain ⟨h3, h4⟩ := filterRecord_hang h1 h2
    exact g2 h3 h4

/-- **C61** `warc2warc` ends unless one of the files has a stuck header block or, with `-D`, a negative chunk size. -/
theorem C61_warc2warc (c : Codec) (z : Http.Zlib) (fs : FS) (o : Warc2Warc.Opts) (names : List Bytes) (out : Bytes)
    (h : ∀ name ∈ names, ∀ s, openName c fs .warc none name = .ok s →
      ¬ StuckData s.fh.data ∧ (o.decode = true → ¬ NegativeChunk s.fh.data)) :
    Warc2Warc.main c z fs o names out ≠ .hang := by
  apply forFiles_no_hang
  intro name hn out
  apply onArchive_no_hang
  intro s out ho hh
  obtain ⟨g1, g2⟩ := h name hn s ho
  rcases forEach_hang (fwd_process c z o) _ ⟨s, out⟩ (by simp only [Tool.rounds]; omega) hh with ⟨s', h1, h2⟩ | ⟨w, h1, h2⟩
  · exact h1.stuck g1 _ h2
  · obtain ⟨h3, h4⟩ := process_hang h1 h2
    exact g2 h3 h4

/-- **C61** `arc2warc` ends unless one of the files has a stuck header block or a negative chunk size. -/
theorem C61_arc2warc (c : Codec) (fs : FS) (g : Arc2Warc.Cfg) (gz : Bool) (names : List Bytes) (s : Bytes × Arc2Warc.St)
    (h : ∀ name ∈ names, ∀ s, openName c fs .mixed none name = .ok s → ¬ StuckData s.fh.data ∧ ¬ NegativeChunk s.fh.data) :
    Arc2Warc.main c fs g gz names s ≠ .hang := by
  induction names generalizing s with
  | nil => simp [Arc2Warc.main]
  | cons n ns ih =>
    simp only [Arc2Warc.main]
    cases ho : openName c fs .mixed none n with
    | error e => simp
    | ok t =>
      simp only
      obtain ⟨g1, g2⟩ := h n (by simp) t ho
      cases hq : Arc2Warc.loop c g gz (t.fh.rest.length + 2) (⟨t, s.1⟩, s.2) with
      | hang =>
        rcases Arc2Warc.loop_hang c g gz _ _ (by simp only; omega) hq with ⟨s', h1, h2⟩ | ⟨x, h1, h2⟩
        · exact absurd h2 (h1.stuck g1 _)
        · exact absurd (Arc2Warc.handle_hang h1 h2) g2
      | raise e u => simp
      | ok u v => exact ih _ fun name hn => h name (by simp [hn])

/-- **C61** `warcextract` ends unless the data after the offset has a stuck header block. -/
theorem C61_warcextract (c : Codec) (fs : FS) (name : Bytes) (offset : Nat) (out : Bytes)
    (h : ∀ s s', openName c fs .warc none name = .ok s → WarcExtract.seekFresh c ((fs name).getD []) offset s = .ok () s' →
      ¬ StuckData s'.fh.data) :
    WarcExtract.main c fs name offset out ≠ .hang := by
  apply onArchive_no_hang
  intro s out ho
  simp only [M.bind_apply, Tool.onStream]
  cases hq : WarcExtract.seekFresh c ((fs name).getD []) offset s with
  | hang =>
    simp only [WarcExtract.seekFresh] at hq
    split at hq
    · simp only [Stream.seek, onFile, File.seek] at hq
      simp at hq
    · cases hq
  | raise e s1 => simp
  | ok u s1 =>
    simp only [WarcExtract.dumpRecord, M.bind_apply, Tool.onStream]
    cases hr : readRecord false s1 with
    | hang => exact absurd hr (C61_read _ _ (h s s1 ho hq))
    | raise e s2 => simp
    | ok e s2 =>
      simp only
      cases e.rcd with
      | none => simp only; split <;> simp
      | some r =>
        simp only [Tool.withRecord]
        have := Calm.bind calm_contentBytes (fun b => World.calm_write b) ⟨s2, r, out⟩
        cases hx : (do let b ← WarcFilter.contentBytes; World.write b : M World Unit) ⟨s2, r, out⟩ with
        | hang => exact absurd hx this
        | ok u w => simp
        | raise e w => simp

/-- **C61** `warcpayload` ends unless the file has a stuck header block, provided that `http.client` does. -/
theorem C61_warcpayload (c : Codec) (fs : FS) (http : M World Unit) (hhttp : Calm http) (name : Bytes) (offset : Nat) (out : Bytes)
    (h : ∀ s, openName c fs .warc (some offset) name = .ok s → ¬ StuckData s.fh.data) :
    WarcPayload.main c fs http name offset out ≠ .hang := by
  apply onArchive_no_hang
  intro s out ho
  simp only [WarcPayload.dumpStream, M.bind_apply, Tool.onStream]
  cases hr : readRecord false s with
  | hang => exact absurd hr (C61_read _ _ (h s ho))
  | raise e s2 => simp
  | ok e s2 =>
    simp only
    cases e.rcd with
    | none => simp only; split <;> simp
    | some r =>
      simp only [Tool.withRecord]
      have : WarcPayload.dumpPayload http ⟨s2, r, out⟩ ≠ .hang := by
        simp only [WarcPayload.dumpPayload, M.bind_apply, M.get_apply]
        split
        · simp only [M.bind_apply]
          cases hx : World.contentType ⟨s2, r, out⟩ with
          | hang => exact absurd hx (World.calm_contentType _)
          | raise e w => simp
          | ok t w =>
            cases t with
            | none => simp
            | some t =>
              simp only
              split
              · exact hhttp w
              · simp only [M.bind_apply, M.get_apply]
                exact World.copyLoop_no_hang _ _ (by omega)
        · exact World.copyLoop_no_hang _ _ (by omega)
      cases hx : WarcPayload.dumpPayload http ⟨s2, r, out⟩ with
      | hang => exact absurd hx this
      | ok u w => simp
      | raise e w => simp

/-! ### the hypotheses, and what happens without them -/

/-- does the header block at this position get stuck? -/
def stuckAt (data : Bytes) (pos : Nat) : Bool :=
  match findVersion 0 (lines (data.drop pos)) with
  | .version n ls => (n = b! "1.0" || n = b! "0.17" || n = b! "0.18") && stuck false ls
  | _ => false

theorem not_stuckData {data : Bytes} (h : ((List.range (data.length + 1)).all fun p => !stuckAt data p) = true) : ¬ StuckData data := by
  rintro ⟨pos, n, ls, h1, h2, h3⟩
  rw [List.all_eq_true] at h
  have key : ∀ p, findVersion 0 (lines (data.drop p)) = .version n ls → p ≤ data.length → False := by
    intro p hp hle
    have := h p (by simp; omega)
    simp only [stuckAt, hp, h3, Bool.and_true] at this
    simp only [List.mem_cons, List.not_mem_nil, or_false] at h2
    rcases h2 with rfl | rfl | rfl <;> simp at this
  by_cases hle : pos ≤ data.length
  · exact key pos h1 hle
  · apply key data.length _ (by omega)
    rw [List.drop_of_length_le (by omega)]
    rw [List.drop_of_length_le (by omega)] at h1
    exact h1

/-- does the rest of the line at this position give a negative size? -/
def negativeAt (data : Bytes) (pos : Nat) : Bool :=
  match pyInt 16 ((File.firstLine (data.drop pos)).takeWhile (· ≠ 59)) with
  | some n => n < 0
  | none => false

theorem not_negativeChunk {data : Bytes} (h : ((List.range (data.length + 1)).all fun p => !negativeAt data p) = true) :
    ¬ NegativeChunk data := by
  rintro ⟨a, line, b, n, rfl, h10, h1, h2⟩
  rw [List.all_eq_true] at h
  have := h a.length (by simp; omega)
  have e : (a ++ line ++ 10 :: b).drop a.length = line ++ 10 :: b := by
    rw [List.append_assoc, List.drop_left]
  simp only [negativeAt, e, File.firstLine_append line b h10, h1] at this
  simp [h2] at this

/-- two records, the second with a chunked HTTP response: nothing to get stuck on -/
def Spec.calmFile : Bytes :=
  b! "WARC/1.0\r\nWARC-Type: warcinfo\r\nContent-Length: 4\r\n\r\nab\r\n\r\n\r\nWARC/1.0\r\nWARC-Type: response\r\nContent-Length: 56\r\n\r\nHTTP/1.1 200 OK\r\nTransfer-Encoding: chunked\r\n\r\n0\r\n\r\n\r\n\r\n"

example : ¬ StuckData calmFile := not_stuckData (by decide +kernel)
example : ¬ NegativeChunk calmFile := not_negativeChunk (by decide +kernel)

/-- with the hypotheses met: `warc2warc -D` on this file ends -/
example (z : Http.Zlib) : Warc2Warc.main toy z (fun _ => some calmFile) { decode := true } [b! "a.warc"] [] ≠ .hang := by
  apply C61_warc2warc
  intro name hn s hs
  have e : s.fh.data = calmFile := by
    have : (match openName toy (fun _ => some calmFile) .warc none (b! "a.warc") with | .ok s => s.fh.data == calmFile | _ => true) = true := by
      decide +kernel
    simp only [List.mem_cons, List.not_mem_nil, or_false] at hn
    rw [← hn, hs] at this
    simpa using this
  rw [e]
  exact ⟨not_stuckData (by decide +kernel), fun _ => not_negativeChunk (by decide +kernel)⟩

/-- **C61** (exception) A header line without a colon makes every tool loop for ever. -/
theorem C61_stuck_hangs : ∃ data, StuckData data ∧
    (∀ z o, o.decode = false → Warc2Warc.main toy z (fun _ => some data) o [b! "a.warc"] [] = .hang) ∧
    WarcIndex.main toy (fun _ => some data) [b! "a.warc"] [] = .hang ∧
    WarcValid.main toy (fun _ => some data) [b! "a.warc"] = none := by
  refine ⟨b! "WARC/1.0\r\nno colon\r\n\r\n", ⟨0, b! "1.0", [b! "no colon\r\n", b! "\r\n"], by decide +kernel, by decide, by decide +kernel⟩, ?_, by decide +kernel, by decide +kernel⟩
  intro z o ho
  have h1 : ∀ body : M World Unit, onArchive toy (fun _ => some (b! "WARC/1.0\r\nno colon\r\n\r\n")) .warc none (b! "a.warc") (Tool.each body) [] = .hang := by
    intro body
    have h2 : (match openName toy (fun _ => some (b! "WARC/1.0\r\nno colon\r\n\r\n")) .warc none (b! "a.warc") with
      | .ok s => decide (readRecord false s = .hang) | _ => false) = true := by decide +kernel
    cases ho : openName toy (fun _ => some (b! "WARC/1.0\r\nno colon\r\n\r\n")) .warc none (b! "a.warc") with
    | error e => rw [ho] at h2; cases h2
    | ok s =>
      rw [ho] at h2
      simp only [decide_eq_true_eq] at h2
      simp only [onArchive, ho, Tool.each, Tool.rounds, Tool.forEach, M.bind_apply, Tool.onStream, h2]
  simp only [Warc2Warc.main, forFiles, M.bind_apply, h1]

end Warc
