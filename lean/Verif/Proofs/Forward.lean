import Verif.Props.Parsing
import Verif.Model.Arc2Warc
/-
  Reading only moves forward, whatever the parser; reading a record uses up at least one byte.
-/
set_option linter.all false
namespace Warc
open Rx Stream Spec

/-- the same file, read further -/
structure After (s s' : Stream) : Prop where
  data : s'.fh.data = s.fh.data
  pos : s.fh.pos ≤ s'.fh.pos
  kind : s'.kind = s.kind
  fault : s'.fh.fault = s.fh.fault

theorem After.refl (s : Stream) : After s s := ⟨rfl, Nat.le_refl _, rfl, rfl⟩

theorem After.trans {a b c : Stream} (h1 : After a b) (h2 : After b c) : After a c :=
  ⟨by rw [h2.data, h1.data], Nat.le_trans h1.pos h2.pos, by rw [h2.kind, h1.kind], by rw [h2.fault, h1.fault]⟩

theorem After.rest {s s' : Stream} (h : After s s') : s'.fh.rest.length ≤ s.fh.rest.length := by
  have := h.pos
  simp only [File.rest, List.length_drop, h.data]; omega

/-- what a result is about -/
def Res.All {σ α : Type} (P : σ → Prop) : Res σ α → Prop
  | .ok _ s => P s
  | .raise _ s => P s
  | .hang => True

/-- code that only reads forward -/
def Fwd {α : Type} (x : M Stream α) : Prop := ∀ s, (x s).All (After s)

namespace Fwd
variable {α β : Type}

theorem pure (a : α) : Fwd (pure a : M Stream α) := fun s => After.refl s
theorem throw (e : Exc) : Fwd (M.throw e : M Stream α) := fun s => After.refl s
theorem diverge : Fwd (M.diverge : M Stream α) := fun s => trivial
theorem get : Fwd (M.get : M Stream Stream) := fun s => After.refl s
theorem modify {f : Stream → Stream} (h : ∀ s, After s (f s)) : Fwd (M.modify f) := fun s => h s

theorem bind {x : M Stream α} {f : α → M Stream β} (hx : Fwd x) (hf : ∀ a, Fwd (f a)) : Fwd (x >>= f) := by
  intro s
  have h := hx s
  rw [M.bind_apply]
  cases hq : x s with
  | hang => trivial
  | raise e s1 => rw [hq] at h; exact h
  | ok a s1 =>
    rw [hq] at h
    have h2 := hf a s1
    simp only
    cases hr : f a s1 with
    | hang => trivial
    | raise e s2 => rw [hr] at h2; exact After.trans h h2
    | ok b s2 => rw [hr] at h2; exact After.trans h h2

theorem ite {p : Prop} [Decidable p] {x y : M Stream α} (hx : Fwd x) (hy : Fwd y) : Fwd (if p then x else y) := by
  by_cases h : p
  · rw [if_pos h]; exact hx
  · rw [if_neg h]; exact hy

end Fwd

/-- file operations that only move forward -/
def FwdFile {α : Type} (x : M File α) : Prop := ∀ f, (x f).All fun f' => f'.data = f.data ∧ f.pos ≤ f'.pos ∧ f'.fault = f.fault

theorem fwd_deliver (out : Bytes) (short : Bool) : FwdFile (File.deliver out short) := by
  intro f
  simp only [File.deliver]
  split
  · exact ⟨rfl, Nat.le_add_right _ _, rfl⟩
  · exact ⟨rfl, Nat.le_add_right _ _, rfl⟩

theorem fwd_fileRead (n : Option Int) : FwdFile (File.read n) := by
  intro f
  simp only [File.read]
  cases n with
  | none => exact fwd_deliver _ _ f
  | some n =>
    simp only
    by_cases h : 0 ≤ n
    · rw [if_pos h]; exact fwd_deliver _ _ f
    · rw [if_neg h]
      by_cases h : n = -1 ∨ f.strictNeg = false
      · rw [if_pos h]; exact fwd_deliver _ _ f
      · rw [if_neg h]; exact ⟨rfl, Nat.le_refl _, rfl⟩

theorem fwd_fileReadline (n : Option Int) : FwdFile (File.readline n) := by
  intro f
  simp only [File.readline]
  cases n with
  | none => exact fwd_deliver _ _ f
  | some n =>
    simp only
    by_cases h : 0 ≤ n
    · rw [if_pos h]; exact fwd_deliver _ _ f
    · rw [if_neg h]; exact fwd_deliver _ _ f

theorem fwd_onFile {α : Type} {x : M File α} (h : FwdFile x) : Fwd (onFile x) := by
  intro s
  have hf := h s.fh
  simp only [onFile]
  cases hx : x s.fh with
  | hang => trivial
  | ok a f => rw [hx] at hf; exact ⟨hf.1, hf.2.1, rfl, hf.2.2⟩
  | raise e f => rw [hx] at hf; exact ⟨hf.1, hf.2.1, rfl, hf.2.2⟩

theorem fwd_consume (n : Nat) : Fwd (consume n) := Fwd.modify fun s => ⟨rfl, Nat.le_refl _, rfl, rfl⟩

theorem fwd_rawRead (n : Option Int) : Fwd (rawRead n) :=
  (fwd_onFile (fwd_fileRead n)).bind fun r => (fwd_consume _).bind fun _ => Fwd.pure _

theorem fwd_read (n : Option Int) : Fwd (Stream.read n) := Fwd.get.bind fun s => fwd_rawRead _

theorem fwd_readline (n : Option Int) : Fwd (Stream.readline n) :=
  Fwd.get.bind fun s => (fwd_onFile (fwd_fileReadline _)).bind fun r => (fwd_consume _).bind fun _ => Fwd.pure _

theorem fwd_skipLoop (fuel : Nat) : Fwd (skipLoop fuel) := by
  induction fuel with
  | zero => exact Fwd.diverge
  | succ fuel ih =>
    refine Fwd.get.bind fun s => ?_
    cases s.eoc with
    | none => exact Fwd.throw _
    | some e =>
      exact Fwd.ite ((fwd_rawRead _).bind fun buf => Fwd.ite (Fwd.throw _) ih) (Fwd.pure _)

theorem fwd_skipToEoc : Fwd skipToEoc := by
  refine Fwd.get.bind fun s => ?_
  cases s.eoc with
  | none => exact Fwd.throw _
  | some e => exact fwd_skipLoop _

theorem fwd_blankLoop (offs : Bool) (fuel : Nat) : Fwd (blankLoop offs fuel) := by
  induction fuel with
  | zero => exact Fwd.diverge
  | succ fuel ih =>
    exact Fwd.get.bind fun s => (fwd_onFile (fwd_fileReadline none)).bind fun line => Fwd.ite ih (Fwd.pure _)

theorem fwd_versionLoop (fuel : Nat) (line : Bytes) (errs : List Err) (off : Option Nat) : Fwd (WarcParser.versionLoop fuel line errs off) := by
  induction fuel generalizing line errs off with
  | zero => exact Fwd.diverge
  | succ fuel ih =>
    simp only [WarcParser.versionLoop]
    refine Fwd.ite (Fwd.pure _) ?_
    cases pmatch versionRx line with
    | some mt => exact Fwd.pure _
    | none =>
      exact Fwd.ite ((fwd_readline none).bind fun l => ih _ _ _) (Fwd.ite (Fwd.pure _) ((fwd_readline none).bind fun l => ih _ _ _))

theorem fwd_followLoop (fuel : Nat) (line : Bytes) (v : List Bytes) (errs : List Err) : Fwd (WarcParser.followLoop fuel line v errs) := by
  induction fuel generalizing line v errs with
  | zero => exact Fwd.diverge
  | succ fuel ih =>
    simp only [WarcParser.followLoop]
    cases pmatch valueRx line with
    | none => exact Fwd.pure _
    | some mt => exact (fwd_readline none).bind fun l => ih _ _ _

theorem fwd_headerLoop (fuel : Nat) (line : Bytes) (st : WarcParser.HState) : Fwd (WarcParser.headerLoop fuel line st) := by
  induction fuel generalizing line st with
  | zero => exact Fwd.diverge
  | succ fuel ih =>
    simp only [WarcParser.headerLoop]
    refine Fwd.ite (Fwd.pure _) ?_
    cases pmatch headerRx line with
    | none => exact ih _ _
    | some mt => exact Fwd.get.bind fun s => (fwd_readline none).bind fun l => (fwd_followLoop _ _ _ _).bind fun q => ih _ _

theorem fwd_setEoc (f : Stream → Option Int) : Fwd (M.modify fun s => { s with eoc := f s }) :=
  Fwd.modify fun s => ⟨rfl, Nat.le_refl _, rfl, rfl⟩

theorem fwd_warcParse (off : Option Nat) (line : Bytes) : Fwd (WarcParser.parse off line) := by
  refine Fwd.get.bind fun s => (fwd_versionLoop _ _ _ _).bind fun v => ?_
  cases v with
  | eof e o => exact Fwd.pure _
  | giveUp e o => exact Fwd.pure _
  | found mt e o =>
    simp only
    cases WarcParser.versionErrors mt e with
    | none => exact Fwd.throw _
    | some e => exact Fwd.get.bind fun s => (fwd_readline none).bind fun l => (fwd_headerLoop _ _ _).bind fun st =>
        (fwd_setEoc _).bind fun _ => Fwd.pure _

theorem fwd_skipBlank (fuel : Nat) (line : Bytes) : Fwd (ArcParser.skipBlank fuel line) := by
  induction fuel generalizing line with
  | zero => exact Fwd.diverge
  | succ fuel ih =>
    exact Fwd.ite (Fwd.ite (Fwd.pure _) ((fwd_readline none).bind fun l => ih l)) (Fwd.pure _)

theorem fwd_arcParse (st : ArcSt) (setSt : ArcSt → M Stream Unit) (hset : ∀ st, Fwd (setSt st)) (off : Option Nat) (line : Bytes) :
    Fwd (ArcParser.parse st setSt off line) := by
  refine Fwd.get.bind fun s => (fwd_skipBlank _ _).bind fun v => ?_
  cases v with
  | none => exact Fwd.pure _
  | some line =>
    refine Fwd.ite ?_ (Fwd.ite (Fwd.throw _) ?_)
    · refine (fwd_readline none).bind fun l1 => (fwd_readline none).bind fun l2 => ?_
      simp only
      cases splitWs (strip l1) with
      | nil => exact Fwd.throw _
      | cons v vs =>
        refine (hset _).bind fun _ => ?_
        cases ArcParser.parseHeaderList (splitWs (strip l2)) line with
        | error e => exact Fwd.throw _
        | ok hs =>
          simp only
          cases ArcParser.contentHeaders hs (none, []) with
          | mk len es =>
            cases len with
            | none => exact Fwd.throw _
            | some n => exact (fwd_setEoc _).bind fun _ => Fwd.pure _
    · cases ArcParser.parseHeaderList st.headers line with
      | error e => exact Fwd.throw _
      | ok hs =>
        simp only
        exact (fwd_setEoc _).bind fun _ => Fwd.pure _

theorem fwd_mixedParse (st : ArcSt) (setSt : ArcSt → M Stream Unit) (hset : ∀ st, Fwd (setSt st)) (off : Option Nat) (fuel : Nat) (line : Bytes) :
    Fwd (MixedParser.parse st setSt off fuel line) := by
  induction fuel generalizing line with
  | zero => exact Fwd.diverge
  | succ fuel ih =>
    exact Fwd.ite (Fwd.pure _) (Fwd.ite (fwd_warcParse _ _) (Fwd.ite (fwd_arcParse st setSt hset off line)
      ((fwd_readline none).bind fun l => ih l)))

theorem fwd_parseWith (off : Option Nat) (line : Bytes) : Fwd (parseWith off line) := by
  refine Fwd.get.bind fun s => ?_
  cases s.parser with
  | warc => exact fwd_warcParse _ _
  | arc st =>
    exact fwd_arcParse st (fun st' => M.modify fun s => { s with parser := .arc st' })
      (fun st => Fwd.modify fun s => ⟨rfl, Nat.le_refl _, rfl, rfl⟩) off line
  | mixed st =>
    exact fwd_mixedParse st (fun st' => M.modify fun s => { s with parser := .mixed st' })
      (fun st => Fwd.modify fun s => ⟨rfl, Nat.le_refl _, rfl, rfl⟩) off _ line

theorem fwd_readRecord (offs : Bool) : Fwd (readRecord offs) := by
  refine Fwd.get.bind fun s => ?_
  have tail : Fwd (do
      M.modify fun s => { s with eoc := none }
      let s ← M.get
      match s.kind with
      | .plain =>
        let (offset, line) ← blankLoop offs (s.fh.rest.length + 2)
        let (r, errors, offset) ← parseWith offset line
        pure (⟨offset, r, errors⟩ : Entry)
      | .gzipRecord =>
        let (_, line) ← blankLoop false (s.fh.rest.length + 2)
        let (r, errors, _) ← parseWith none line
        pure ⟨none, r, errors⟩
      | .gzipFile =>
        let (_, line) ← blankLoop false (s.fh.rest.length + 2)
        let _ ← parseWith none line
        M.throw .nameError : M Stream Entry) := by
    refine (fwd_setEoc fun _ => none).bind fun _ => Fwd.get.bind fun s => ?_
    cases s.kind with
    | plain => exact (fwd_blankLoop _ _).bind fun q => (fwd_parseWith _ _).bind fun _ => Fwd.pure _
    | gzipRecord => exact (fwd_blankLoop _ _).bind fun q => (fwd_parseWith _ _).bind fun _ => Fwd.pure _
    | gzipFile => exact (fwd_blankLoop _ _).bind fun q => (fwd_parseWith _ _).bind fun _ => Fwd.throw _
  cases s.eoc with
  | none => exact (Fwd.pure ()).bind fun _ => tail
  | some e => exact fwd_skipToEoc.bind fun _ => tail

/-- an empty line gives no record -/
theorem parseWith_nil (off off' : Option Nat) (s s' : Stream) (r : Option Rec) (es : List Err)
    (h : parseWith off [] s = .ok (r, es, off') s') : r = none := by
  simp only [parseWith, M.bind_apply, M.get_apply] at h
  cases hp : s.parser with
  | warc =>
    simp [hp, WarcParser.parse, WarcParser.versionLoop] at h
    exact h.1.1.symm
  | arc st =>
    rw [hp] at h
    have e : (rstrip ([] : Bytes)) = [] := by decide
    simp [ArcParser.parse, ArcParser.skipBlank, e] at h
    exact h.1.1.symm
  | mixed st =>
    rw [hp] at h
    simp [MixedParser.parse] at h
    exact h.1.1.symm

/-- reading a record uses up at least one byte, whatever the parser -/
theorem readRecord_uses (offs : Bool) (s s' : Stream) (e : Entry) (r : Rec) (h : readRecord offs s = .ok e s') (hr : e.rcd = some r) :
    After s s' ∧ s'.fh.rest.length < s.fh.rest.length := by
  have hfwd := fwd_readRecord offs s
  rw [h] at hfwd
  refine ⟨hfwd, ?_⟩
  obtain ⟨s0, off, line, s1, off', h1, h2, h3, h4, h5, h6, _, _, hb, hparse, _⟩ := readRecord_inv offs s s' e h
  obtain ⟨T, more, hT1, _, hT3, _, hs1, _⟩ := blankLoop_inv _ _ _ _ _ _ hb
  have hline : line ≠ [] := by
    rintro rfl
    have := parseWith_nil _ _ _ _ _ _ hparse
    rw [hr] at this; cases this
  have hp := fwd_parseWith off line s1
  rw [hparse] at hp
  have hrest := After.rest hp
  have e1 : s1.fh.rest.length = s0.fh.rest.length - (T ++ line).length := by
    rw [hs1]; simp [adv_fh, File.advance_rest]
  have hlen : 0 < line.length := List.length_pos_iff.2 hline
  have h0 : s0.fh.rest.length ≤ s.fh.rest.length := by
    simp only [File.rest, List.length_drop, h4]; omega
  have : line.length ≤ more.length := by rw [hT3]; exact File.firstLine_length_le more
  have : s0.fh.rest.length = T.length + more.length := by rw [hT1]; simp
  simp only [List.length_append] at e1
  omega

end Warc
