import Verif.Proofs.AnyFile
/-
  Asking for offsets changes nothing but the offsets.
-/
set_option linter.all false
namespace Warc
open Rx Stream Spec

/-- the same result with the value changed -/
def Res.mapVal {σ α β : Type} (f : α → β) : Res σ α → Res σ β
  | .ok a s => .ok (f a) s
  | .raise e s => .raise e s
  | .hang => .hang

theorem mapVal_bind {σ α β γ δ : Type} (x : M σ α) (f : α → M σ β) (g : β → γ) (s : σ) :
    Res.mapVal g ((x >>= f) s) = (x >>= fun a s' => Res.mapVal g (f a s')) s := by
  simp only [M.bind_apply]
  cases x s <;> rfl

/-- the search for the version line without the offset -/
def WarcParser.VLoop.noOffset : WarcParser.VLoop → WarcParser.VLoop
  | .found mt es _ => .found mt es none
  | .giveUp es _ => .giveUp es none
  | .eof es _ => .eof es none

theorem versionLoop_offset (fuel : Nat) (line : Bytes) (es : List Err) (off : Option Nat) (s : Stream) :
    Res.mapVal WarcParser.VLoop.noOffset (WarcParser.versionLoop fuel line es off s) =
      Res.mapVal WarcParser.VLoop.noOffset (WarcParser.versionLoop fuel line es none s) := by
  induction fuel generalizing line es off s with
  | zero => rfl
  | succ fuel ih =>
    simp only [WarcParser.versionLoop]
    by_cases hl : line = []
    · simp [hl, Res.mapVal, WarcParser.VLoop.noOffset]
    · simp only [hl, if_false]
      cases hm : pmatch versionRx line with
      | some mt => simp [Res.mapVal, WarcParser.VLoop.noOffset]
      | none =>
        simp only
        by_cases hn : rxTest nlRx line = true
        · simp only [hn, if_true, M.bind_apply]
          cases hr : Stream.readline none s with
          | hang => rfl
          | raise e t => rfl
          | ok l t => simp only; rw [ih l es _ t]; rw [ih l es (Option.map _ none) t]
        · simp only [hn, Bool.false_eq_true, if_false]
          by_cases hb : badLines < (es ++ [Err.ignoredLine line]).length
          · simp only [hb, if_true]; rfl
          · simp only [hb, if_false, M.bind_apply]
            cases hr : Stream.readline none s with
            | hang => rfl
            | raise e t => rfl
            | ok l t => simp only; rw [ih l _ _ t]; rw [ih l _ (Option.map _ none) t]

/-- the result of a parser without the offset -/
def noOff (q : WarcParser.ParseOut) : WarcParser.ParseOut := (q.1, q.2.1, none)

theorem warcParse_offset (off : Option Nat) (line : Bytes) (s : Stream) :
    Res.mapVal noOff (WarcParser.parse off line s) = Res.mapVal noOff (WarcParser.parse none line s) := by
  have h := versionLoop_offset (s.fh.rest.length + 2) line [] off s
  simp only [WarcParser.parse, M.bind_apply, M.get_apply]
  have key : ∀ (v v' : WarcParser.VLoop) (t : Stream), v.noOffset = v'.noOffset →
      Res.mapVal noOff ((match v with
        | .eof errors offset => pure (none, errors, offset)
        | .giveUp errors offset => pure (none, errors, offset)
        | .found mt errors offset =>
          match WarcParser.versionErrors mt errors with
          | none => M.throw .typeError
          | some errors => do
            let s ← M.get
            let line ← Stream.readline none
            let st ← WarcParser.headerLoop (s.fh.rest.length + 2) line ⟨[], errors, 0⟩
            M.modify fun s => { s with eoc := some st.contentLength }
            pure (some { cls := .warc, version := mt.grp .version, headers := st.headers,
                         errors := st.errors, content := none, cfile := .stream, cfileValid := true },
                  [], offset) : M Stream WarcParser.ParseOut) t) =
      Res.mapVal noOff ((match v' with
        | .eof errors offset => pure (none, errors, offset)
        | .giveUp errors offset => pure (none, errors, offset)
        | .found mt errors offset =>
          match WarcParser.versionErrors mt errors with
          | none => M.throw .typeError
          | some errors => do
            let s ← M.get
            let line ← Stream.readline none
            let st ← WarcParser.headerLoop (s.fh.rest.length + 2) line ⟨[], errors, 0⟩
            M.modify fun s => { s with eoc := some st.contentLength }
            pure (some { cls := .warc, version := mt.grp .version, headers := st.headers,
                         errors := st.errors, content := none, cfile := .stream, cfileValid := true },
                  [], offset) : M Stream WarcParser.ParseOut) t) := by
    intro v v' t hv
    cases v <;> cases v' <;> simp only [WarcParser.VLoop.noOffset, reduceCtorEq, WarcParser.VLoop.found.injEq,
      WarcParser.VLoop.giveUp.injEq, WarcParser.VLoop.eof.injEq, and_true] at hv
    · obtain ⟨rfl, rfl⟩ := hv
      rename_i mt es o1 o2
      simp only
      cases WarcParser.versionErrors mt es with
      | none => rfl
      | some es =>
        simp only [M.bind_apply, M.get_apply]
        cases Stream.readline none t with
        | hang => rfl
        | raise e t => rfl
        | ok l t =>
          simp only
          cases WarcParser.headerLoop _ l ⟨[], es, 0⟩ t with
          | hang => rfl
          | raise e t => rfl
          | ok st t => rfl
    · subst hv; rfl
    · subst hv; rfl
  cases h1 : WarcParser.versionLoop (s.fh.rest.length + 2) line [] off s with
  | hang =>
    cases h2 : WarcParser.versionLoop (s.fh.rest.length + 2) line [] none s with
    | hang => rfl
    | raise e t => rw [h1, h2] at h; cases h
    | ok v t => rw [h1, h2] at h; cases h
  | raise e t =>
    cases h2 : WarcParser.versionLoop (s.fh.rest.length + 2) line [] none s with
    | hang => rw [h1, h2] at h; cases h
    | raise e t => rw [h1, h2] at h; cases h; rfl
    | ok v t => rw [h1, h2] at h; cases h
  | ok v t =>
    cases h2 : WarcParser.versionLoop (s.fh.rest.length + 2) line [] none s with
    | hang => rw [h1, h2] at h; cases h
    | raise e t => rw [h1, h2] at h; cases h
    | ok v' t' =>
      rw [h1, h2] at h
      simp only [Res.mapVal, Res.ok.injEq] at h
      obtain ⟨hv, rfl⟩ := h
      exact key v v' t hv

theorem arcParse_offset (st : ArcSt) (f : ArcSt → M Stream Unit) (off : Option Nat) (line : Bytes) (s : Stream) :
    Res.mapVal noOff (ArcParser.parse st f off line s) = Res.mapVal noOff (ArcParser.parse st f none line s) := by
  simp only [ArcParser.parse, M.bind_apply, M.get_apply]
  cases ArcParser.skipBlank (s.fh.rest.length + 2) line s with
  | hang => rfl
  | raise e t => rfl
  | ok o t =>
    cases o with
    | none => rfl
    | some line =>
      simp only
      by_cases hf : startsWith line ArcParser.filedescTag = true
      · simp only [hf, if_true, M.bind_apply]
        cases Stream.readline none t with
        | hang => rfl
        | raise e t => rfl
        | ok v t =>
          simp only
          cases Stream.readline none t with
          | hang => rfl
          | raise e t => rfl
          | ok n t =>
            simp only
            cases splitWs (strip v) with
            | nil => rfl
            | cons a as =>
              simp only [M.bind_apply]
              cases f ⟨some a, splitWs (strip n)⟩ t with
              | hang => rfl
              | raise e t => rfl
              | ok u t =>
                simp only
                cases ArcParser.parseHeaderList (splitWs (strip n)) line with
                | error e => rfl
                | ok hs =>
                  simp only
                  cases ArcParser.contentHeaders hs (none, []) with
                  | mk len es => cases len <;> rfl
      · simp only [hf, Bool.false_eq_true, if_false]
        by_cases hh : st.headers = []
        · simp only [hh, if_true]
        · simp only [hh, if_false]
          cases ArcParser.parseHeaderList st.headers line with
          | error e => rfl
          | ok hs => rfl

theorem mixedParse_offset (st : ArcSt) (f : ArcSt → M Stream Unit) (off : Option Nat) (fuel : Nat) (line : Bytes) (s : Stream) :
    Res.mapVal noOff (MixedParser.parse st f off fuel line s) = Res.mapVal noOff (MixedParser.parse st f none fuel line s) := by
  induction fuel generalizing line s with
  | zero => rfl
  | succ fuel ih =>
    simp only [MixedParser.parse]
    by_cases h1 : line = []
    · simp only [h1, if_true]; rfl
    · simp only [h1, if_false]
      by_cases h2 : startsWith line (b! "WARC") = true
      · simp only [h2, if_true]; exact warcParse_offset off line s
      · simp only [h2, Bool.false_eq_true, if_false]
        by_cases h3 : line ≠ [10] ∧ line ≠ [13, 10] ∧ line ≠ [13]
        · rw [if_pos h3, if_pos h3]; exact arcParse_offset st f off line s
        · rw [if_neg h3, if_neg h3]
          simp only [M.bind_apply]
          cases Stream.readline none s with
          | hang => rfl
          | raise e t => rfl
          | ok l t => exact ih l t

theorem parseWith_offset (off : Option Nat) (line : Bytes) (s : Stream) :
    Res.mapVal noOff (parseWith off line s) = Res.mapVal noOff (parseWith none line s) := by
  simp only [parseWith, M.bind_apply, M.get_apply]
  cases s.parser with
  | warc => exact warcParse_offset off line s
  | arc st => exact arcParse_offset st _ off line s
  | mixed st => exact mixedParse_offset st _ off _ line s

theorem blankLoop_offset (fuel : Nat) (s : Stream) :
    Res.mapVal (fun q : Option Nat × Bytes => q.2) (blankLoop true fuel s) =
      Res.mapVal (fun q : Option Nat × Bytes => q.2) (blankLoop false fuel s) := by
  induction fuel generalizing s with
  | zero => rfl
  | succ fuel ih =>
    simp only [blankLoop, M.bind_apply, M.get_apply]
    cases onFile (File.readline none) s with
    | hang => rfl
    | raise e t => rfl
    | ok l t =>
      simp only
      by_cases hb : rxTest blankLineRx l = true
      · simp only [hb, if_true]; exact ih t
      · simp only [hb, Bool.false_eq_true, if_false]; rfl

/-- an entry without its offset -/
def _root_.Warc.Stream.Entry.noOffset (e : Entry) : Entry := { e with offset := none }

theorem versionLoop_none (fuel : Nat) (line : Bytes) (es : List Err) (s s' : Stream) (v : WarcParser.VLoop)
    (h : WarcParser.versionLoop fuel line es none s = .ok v s') : v.noOffset = v := by
  induction fuel generalizing line es s with
  | zero => cases h
  | succ fuel ih =>
    simp only [WarcParser.versionLoop] at h
    by_cases hl : line = []
    · simp only [hl, if_true, M.pure_apply, Res.ok.injEq] at h
      rw [← h.1]; rfl
    · simp only [hl, if_false] at h
      cases hm : pmatch versionRx line with
      | some mt =>
        simp only [hm, M.pure_apply, Res.ok.injEq] at h
        rw [← h.1]; rfl
      | none =>
        simp only [hm] at h
        by_cases hn : rxTest nlRx line = true
        · simp only [hn, if_true, M.bind_apply] at h
          cases hr : Stream.readline none s with
          | hang => simp [hr] at h
          | raise e t => simp [hr] at h
          | ok l t => rw [hr] at h; exact ih l es t h
        · simp only [hn, Bool.false_eq_true, if_false] at h
          by_cases hb : badLines < (es ++ [Err.ignoredLine line]).length
          · simp only [hb, if_true, M.pure_apply, Res.ok.injEq] at h
            rw [← h.1]; rfl
          · simp only [hb, if_false, M.bind_apply] at h
            cases hr : Stream.readline none s with
            | hang => simp [hr] at h
            | raise e t => simp [hr] at h
            | ok l t => rw [hr] at h; exact ih l _ t h

theorem warcParse_none (line : Bytes) (s s' : Stream) (q : WarcParser.ParseOut)
    (h : WarcParser.parse none line s = .ok q s') : q.2.2 = none := by
  simp only [WarcParser.parse, M.bind_apply, M.get_apply] at h
  cases hv : WarcParser.versionLoop (s.fh.rest.length + 2) line [] none s with
  | hang => simp [hv] at h
  | raise e t => simp [hv] at h
  | ok v t =>
    have hvn := versionLoop_none _ _ _ _ _ _ hv
    simp only [hv] at h
    cases v with
    | eof es o =>
      simp only [M.pure_apply, Res.ok.injEq] at h
      simp only [WarcParser.VLoop.noOffset, WarcParser.VLoop.eof.injEq, true_and] at hvn
      rw [← h.1]; exact hvn.symm
    | giveUp es o =>
      simp only [M.pure_apply, Res.ok.injEq] at h
      simp only [WarcParser.VLoop.noOffset, WarcParser.VLoop.giveUp.injEq, true_and] at hvn
      rw [← h.1]; exact hvn.symm
    | found mt es o =>
      simp only [WarcParser.VLoop.noOffset, WarcParser.VLoop.found.injEq, true_and] at hvn
      simp only at h
      cases he : WarcParser.versionErrors mt es with
      | none => simp [he] at h
      | some es =>
        simp only [he, M.bind_apply, M.get_apply] at h
        cases hr : Stream.readline none t with
        | hang => simp [hr] at h
        | raise e t => simp [hr] at h
        | ok l t2 =>
          simp only [hr] at h
          cases hh : WarcParser.headerLoop (t.fh.rest.length + 2) l ⟨[], es, 0⟩ t2 with
          | hang => simp [hh] at h
          | raise e t => simp [hh] at h
          | ok st t =>
            simp only [hh, M.modify_apply, M.pure_apply, Res.ok.injEq] at h
            rw [← h.1]; exact hvn.symm

theorem arcParse_none (st : ArcSt) (f : ArcSt → M Stream Unit) (line : Bytes) (s s' : Stream) (q : WarcParser.ParseOut)
    (h : ArcParser.parse st f none line s = .ok q s') : q.2.2 = none := by
  simp only [ArcParser.parse, M.bind_apply, M.get_apply] at h
  cases h0 : ArcParser.skipBlank (s.fh.rest.length + 2) line s with
  | hang => simp [h0] at h
  | raise e t => simp [h0] at h
  | ok o t =>
    simp only [h0] at h
    cases o with
    | none =>
      simp only [M.pure_apply, Res.ok.injEq] at h
      rw [← h.1]
    | some line =>
      simp only at h
      by_cases hf : startsWith line ArcParser.filedescTag = true
      · simp only [hf, if_true, M.bind_apply] at h
        cases h1 : Stream.readline none t with
        | hang => simp [h1] at h
        | raise e t => simp [h1] at h
        | ok v t =>
          simp only [h1] at h
          cases h2 : Stream.readline none t with
          | hang => simp [h2] at h
          | raise e t => simp [h2] at h
          | ok n t =>
            simp only [h2] at h
            cases h3 : splitWs (strip v) with
            | nil => simp [h3] at h
            | cons a as =>
              simp only [h3, M.bind_apply] at h
              cases h4 : f ⟨some a, splitWs (strip n)⟩ t with
              | hang => simp [h4] at h
              | raise e t => simp [h4] at h
              | ok u t =>
                simp only [h4] at h
                cases h5 : ArcParser.parseHeaderList (splitWs (strip n)) line with
                | error e => simp [h5] at h
                | ok hs =>
                  simp only [h5] at h
                  cases h6 : ArcParser.contentHeaders hs (none, []) with
                  | mk len es =>
                    cases len with
                    | none => simp [h6] at h
                    | some n =>
                      simp only [h6, M.bind_apply, M.modify_apply, M.pure_apply, Res.ok.injEq] at h
                      rw [← h.1]
      · simp only [hf, Bool.false_eq_true, if_false] at h
        by_cases hh : st.headers = []
        · simp [hh] at h
        · simp only [hh, if_false] at h
          cases h5 : ArcParser.parseHeaderList st.headers line with
          | error e => simp [h5] at h
          | ok hs =>
            simp only [h5, M.bind_apply, M.modify_apply, M.pure_apply, Res.ok.injEq] at h
            rw [← h.1]

theorem mixedParse_none (st : ArcSt) (f : ArcSt → M Stream Unit) (fuel : Nat) (line : Bytes) (s s' : Stream)
    (q : WarcParser.ParseOut) (h : MixedParser.parse st f none fuel line s = .ok q s') : q.2.2 = none := by
  induction fuel generalizing line s with
  | zero => cases h
  | succ fuel ih =>
    simp only [MixedParser.parse] at h
    by_cases h1 : line = []
    · simp only [h1, if_true, M.pure_apply, Res.ok.injEq] at h
      rw [← h.1]
    · simp only [h1, if_false] at h
      by_cases h2 : startsWith line (b! "WARC") = true
      · simp only [h2, if_true] at h; exact warcParse_none line s s' q h
      · simp only [h2, Bool.false_eq_true, if_false] at h
        by_cases h3 : line ≠ [10] ∧ line ≠ [13, 10] ∧ line ≠ [13]
        · rw [if_pos h3] at h; exact arcParse_none st f line s s' q h
        · rw [if_neg h3] at h
          simp only [M.bind_apply] at h
          cases hr : Stream.readline none s with
          | hang => simp [hr] at h
          | raise e t => simp [hr] at h
          | ok l t => rw [hr] at h; exact ih l t h

theorem parseWith_none (line : Bytes) (s s' : Stream) (q : WarcParser.ParseOut) (h : parseWith none line s = .ok q s') :
    q.2.2 = none := by
  simp only [parseWith, M.bind_apply, M.get_apply] at h
  cases hp : s.parser with
  | warc => rw [hp] at h; exact warcParse_none line s s' q h
  | arc st => rw [hp] at h; exact arcParse_none st _ line s s' q h
  | mixed st => rw [hp] at h; exact mixedParse_none st _ _ line s s' q h

theorem blankLoop_false (fuel : Nat) (s s' : Stream) (q : Option Nat × Bytes) (h : blankLoop false fuel s = .ok q s') :
    q.1 = none := by
  induction fuel generalizing s with
  | zero => cases h
  | succ fuel ih =>
    simp only [blankLoop, M.bind_apply, M.get_apply] at h
    cases hr : onFile (File.readline none) s with
    | hang => simp [hr] at h
    | raise e t => simp [hr] at h
    | ok l t =>
      simp only [hr] at h
      by_cases hb : rxTest blankLineRx l = true
      · simp only [hb, if_true] at h; exact ih t h
      · simp only [hb, Bool.false_eq_true, if_false, M.pure_apply, Res.ok.injEq] at h
        rw [← h.1]

/-- one record, with and without offsets -/
theorem readRecord_offset (s : Stream) :
    readRecord false s = Res.mapVal Entry.noOffset (readRecord true s) := by
  have key : ∀ s : Stream, (do
      let s ← M.get
      match s.kind with
      | .plain =>
        let (offset, line) ← blankLoop false (s.fh.rest.length + 2)
        let (r, errors, offset) ← parseWith offset line
        pure ⟨offset, r, errors⟩
      | .gzipRecord =>
        let (_, line) ← blankLoop false (s.fh.rest.length + 2)
        let (r, errors, _) ← parseWith none line
        pure ⟨none, r, errors⟩
      | .gzipFile =>
        let (_, line) ← blankLoop false (s.fh.rest.length + 2)
        let _ ← parseWith none line
        M.throw .nameError : M Stream Entry) s = Res.mapVal Entry.noOffset ((do
      let s ← M.get
      match s.kind with
      | .plain =>
        let (offset, line) ← blankLoop true (s.fh.rest.length + 2)
        let (r, errors, offset) ← parseWith offset line
        pure ⟨offset, r, errors⟩
      | .gzipRecord =>
        let (_, line) ← blankLoop false (s.fh.rest.length + 2)
        let (r, errors, _) ← parseWith none line
        pure ⟨none, r, errors⟩
      | .gzipFile =>
        let (_, line) ← blankLoop false (s.fh.rest.length + 2)
        let _ ← parseWith none line
        M.throw .nameError : M Stream Entry) s) := by
    intro s
    simp only [M.bind_apply, M.get_apply]
    cases s.kind with
    | plain =>
      simp only [M.bind_apply]
      have hb := blankLoop_offset (s.fh.rest.length + 2) s
      cases h1 : blankLoop true (s.fh.rest.length + 2) s with
      | hang =>
        cases h2 : blankLoop false (s.fh.rest.length + 2) s with
        | hang => rfl
        | raise e t => rw [h1, h2] at hb; cases hb
        | ok v t => rw [h1, h2] at hb; cases hb
      | raise e t =>
        cases h2 : blankLoop false (s.fh.rest.length + 2) s with
        | hang => rw [h1, h2] at hb; cases hb
        | raise e t => rw [h1, h2] at hb; cases hb; rfl
        | ok v t => rw [h1, h2] at hb; cases hb
      | ok v t =>
        obtain ⟨o, l⟩ := v
        cases h2 : blankLoop false (s.fh.rest.length + 2) s with
        | hang => rw [h1, h2] at hb; cases hb
        | raise e t => rw [h1, h2] at hb; cases hb
        | ok v' t' =>
          obtain ⟨o', l'⟩ := v'
          have ho' := blankLoop_false _ _ _ _ h2
          rw [h1, h2] at hb
          simp only [Res.mapVal, Res.ok.injEq] at hb
          obtain ⟨rfl, rfl⟩ := hb
          simp only at ho'
          subst ho'
          simp only
          have hp := parseWith_offset o l t
          cases h3 : parseWith o l t with
          | hang =>
            cases h4 : parseWith none l t with
            | hang => rfl
            | raise e t => rw [h3, h4] at hp; cases hp
            | ok v t => rw [h3, h4] at hp; cases hp
          | raise e u =>
            cases h4 : parseWith none l t with
            | hang => rw [h3, h4] at hp; cases hp
            | raise e' u' => rw [h3, h4] at hp; cases hp; rfl
            | ok v t => rw [h3, h4] at hp; cases hp
          | ok v u =>
            cases h4 : parseWith none l t with
            | hang => rw [h3, h4] at hp; cases hp
            | raise e t => rw [h3, h4] at hp; cases hp
            | ok v' u' =>
              have hn := parseWith_none _ _ _ _ h4
              obtain ⟨r, es, o1⟩ := v
              obtain ⟨r', es', o1'⟩ := v'
              rw [h3, h4] at hp
              simp only [Res.mapVal, noOff, Res.ok.injEq, Prod.mk.injEq, and_true] at hp
              obtain ⟨⟨rfl, rfl⟩, rfl⟩ := hp
              simp only at hn
              subst hn
              rfl
    | gzipRecord =>
      simp only [M.bind_apply]
      cases blankLoop false (s.fh.rest.length + 2) s with
      | hang => rfl
      | raise e t => rfl
      | ok v t =>
        obtain ⟨o, l⟩ := v
        simp only
        cases parseWith none l t with
        | hang => rfl
        | raise e t => rfl
        | ok v t => rfl
    | gzipFile =>
      simp only [M.bind_apply]
      cases blankLoop false (s.fh.rest.length + 2) s with
      | hang => rfl
      | raise e t => rfl
      | ok v t =>
        obtain ⟨o, l⟩ := v
        simp only
        cases parseWith none l t with
        | hang => rfl
        | raise e t => rfl
        | ok v t => rfl
  cases he : s.eoc with
  | none =>
    simp only [readRecord, M.bind_apply, M.get_apply, he, M.pure_apply, M.modify_apply]
    exact key { s with eoc := none }
  | some n =>
    simp only [readRecord, M.bind_apply, M.get_apply, he, M.modify_apply]
    cases skipToEoc s with
    | hang => rfl
    | raise e t => rfl
    | ok u t => exact key { t with eoc := none }

end Warc
