import Verif.Proofs.Forward
import Verif.Spec.Stuck
/-
  Reading a record hangs only in front of a stuck header block, whatever the parser, the kind of stream and the state of the file.
-/
set_option linter.all false
namespace Warc
open Rx Stream Spec

/-- the same stream on an undamaged file -/
def nf (s : Stream) : Stream := { s with fh := { s.fh with fault := none } }

/-- code that, unless it raises, does on a damaged file what it does on the undamaged one -/
def Sim {α : Type} (x : M Stream α) : Prop := ∀ s,
  match x s with
  | .hang => x (nf s) = .hang
  | .ok a s' => x (nf s) = .ok a (nf s')
  | .raise _ _ => True

namespace Sim
variable {α β : Type}

theorem pure (a : α) : Sim (pure a : M Stream α) := fun s => rfl
theorem throw (e : Exc) : Sim (M.throw e : M Stream α) := fun s => trivial
theorem diverge : Sim (M.diverge : M Stream α) := fun s => rfl
theorem modify {f : Stream → Stream} (h : ∀ s, f (nf s) = nf (f s)) : Sim (M.modify f) := fun s => by
  simp only [M.modify_apply, h]

theorem bind {x : M Stream α} {f : α → M Stream β} (hx : Sim x) (hf : ∀ a, Sim (f a)) : Sim (x >>= f) := by
  intro s
  have h := hx s
  simp only [M.bind_apply]
  cases hq : x s with
  | hang => rw [hq] at h; simp only at h; simp only [h]
  | raise e s1 => trivial
  | ok a s1 =>
    rw [hq] at h
    simp only at h
    simp only [h]
    exact hf a s1

theorem get {f : Stream → M Stream β} (h : ∀ s, f (nf s) = f s) (hf : ∀ s, Sim (f s)) : Sim (M.get >>= f) := by
  intro s
  simp only [M.bind_apply, M.get_apply, h]
  exact hf s s

theorem ite {p : Prop} [Decidable p] {x y : M Stream α} (hx : Sim x) (hy : Sim y) : Sim (if p then x else y) := by
  by_cases h : p
  · rw [if_pos h]; exact hx
  · rw [if_neg h]; exact hy

end Sim

theorem sim_deliver (out : Bytes) (short : Bool) (f : File) :
    match File.deliver out short f with
    | .hang => False
    | .ok a f' => File.deliver out short { f with fault := none } = .ok a { f' with fault := none }
    | .raise _ _ => True := by
  simp only [File.deliver]
  cases short <;> cases f.fault <;> simp [File.advance]

theorem sim_readline (n : Option Int) : Sim (Stream.readline n) := by
  refine Sim.get (fun s => rfl) fun s => Sim.bind ?_ fun r => Sim.bind (Sim.modify fun s => rfl) fun _ => Sim.pure _
  intro t
  generalize limitOf s.eoc n = lim
  have key : match File.readline lim t.fh with
    | .hang => False
    | .ok a f' => File.readline lim { t.fh with fault := none } = .ok a { f' with fault := none }
    | .raise _ _ => True := by
    simp only [File.readline]
    have e : ({ t.fh with fault := none } : File).rest = t.fh.rest := rfl
    rw [e]
    cases lim with
    | none => exact sim_deliver _ _ _
    | some k =>
      by_cases h : 0 ≤ k
      · simp only [if_pos h]; exact sim_deliver _ _ _
      · simp only [if_neg h]; exact sim_deliver _ _ _
  simp only [onFile, nf]
  cases hq : File.readline lim t.fh with
  | hang => rw [hq] at key; exact key.elim
  | raise e f => trivial
  | ok a f => rw [hq] at key; simp only at key; simp only [key]

theorem sim_versionLoop (fuel : Nat) (line : Bytes) (errs : List Err) (off : Option Nat) : Sim (WarcParser.versionLoop fuel line errs off) := by
  induction fuel generalizing line errs off with
  | zero => exact Sim.diverge
  | succ fuel ih =>
    simp only [WarcParser.versionLoop]
    refine Sim.ite (Sim.pure _) ?_
    cases pmatch versionRx line with
    | some mt => exact Sim.pure _
    | none =>
      exact Sim.ite ((sim_readline none).bind fun l => ih _ _ _) (Sim.ite (Sim.pure _) ((sim_readline none).bind fun l => ih _ _ _))

theorem sim_followLoop (fuel : Nat) (line : Bytes) (v : List Bytes) (errs : List Err) : Sim (WarcParser.followLoop fuel line v errs) := by
  induction fuel generalizing line v errs with
  | zero => exact Sim.diverge
  | succ fuel ih =>
    simp only [WarcParser.followLoop]
    cases pmatch valueRx line with
    | none => exact Sim.pure _
    | some mt => exact (sim_readline none).bind fun l => ih _ _ _

theorem sim_headerLoop (fuel : Nat) (line : Bytes) (st : WarcParser.HState) : Sim (WarcParser.headerLoop fuel line st) := by
  induction fuel generalizing line st with
  | zero => exact Sim.diverge
  | succ fuel ih =>
    simp only [WarcParser.headerLoop]
    refine Sim.ite (Sim.pure _) ?_
    cases pmatch headerRx line with
    | none => exact ih _ _
    | some mt => exact Sim.get (fun s => rfl) fun s => (sim_readline none).bind fun l => (sim_followLoop _ _ _ _).bind fun q => ih _ _

theorem sim_warcParse (off : Option Nat) (line : Bytes) : Sim (WarcParser.parse off line) := by
  refine Sim.get (fun s => rfl) fun s => (sim_versionLoop _ _ _ _).bind fun v => ?_
  cases v with
  | eof e o => exact Sim.pure _
  | giveUp e o => exact Sim.pure _
  | found mt e o =>
    simp only
    cases WarcParser.versionErrors mt e with
    | none => exact Sim.throw _
    | some e => exact Sim.get (fun s => rfl) fun s => (sim_readline none).bind fun l => (sim_headerLoop _ _ _).bind fun st =>
        (Sim.modify (f := fun s => { s with eoc := some st.contentLength }) fun s => rfl).bind fun _ => Sim.pure _

/-- the line at hand was just read from the file -/
def Just (l : Bytes) (s : Stream) : Prop := s.eoc = none ∧ l = File.firstLine (l ++ s.fh.rest) ∧
  ∃ pos, l ++ s.fh.rest = s.fh.data.drop pos

theorem warcParse_hang (off : Option Nat) (l : Bytes) (s : Stream) (hj : Just l s) (h : WarcParser.parse off l s = .hang) :
    StuckData s.fh.data := by
  have hs := sim_warcParse off l s
  rw [h] at hs
  have hc : Cur l (nf s) := ⟨hj.1, rfl, hj.2.1⟩
  have hm := parse_lines off l (nf s) hc
  obtain ⟨pos, hpos⟩ := hj.2.2
  have e : (nf s).fh.rest = s.fh.rest := rfl
  rw [e, hpos] at hm
  simp only at hs
  rw [hs] at hm
  cases hfv : findVersion 0 (Spec.lines (s.fh.data.drop pos)) with
  | nothing => rw [hfv] at hm; obtain ⟨_, _, _, h⟩ := hm; cases h
  | tooManyBadLines => rw [hfv] at hm; obtain ⟨_, _, _, h⟩ := hm; cases h
  | version n ls =>
    rw [hfv] at hm
    simp only at hm
    by_cases hn : n ∈ knownVersions
    · rw [if_pos hn] at hm
      by_cases hst : stuck false ls = true
      · exact ⟨pos, n, ls, hfv, hn, hst⟩
      · rw [if_neg hst] at hm; obtain ⟨_, _, _, h⟩ := hm; cases h
    · rw [if_neg hn] at hm; obtain ⟨_, h⟩ := hm; cases h

/-- a line just read is the first line of what was left -/
theorem readline_just {l' : Bytes} {s s' : Stream} (he : s.eoc = none) (h : Stream.readline none s = .ok l' s') :
    Just l' s' ∧ s'.fh.data = s.fh.data ∧ s'.fh.rest.length + l'.length = s.fh.rest.length := by
  have hs := sim_readline none s
  rw [h] at hs
  simp only at hs
  have e1 := readline_ok (nf s) he (Or.inl rfl)
  rw [hs] at e1
  simp only [Res.ok.injEq] at e1
  obtain ⟨e1, e2⟩ := e1
  have e3 : (nf s).fh.rest = s.fh.rest := rfl
  rw [e3] at e1 e2
  have hd : s'.fh.data = s.fh.data := by
    have := congrArg (fun t => t.fh.data) e2
    simpa [nf, adv_fh] using this
  have hp : s'.fh.pos = s.fh.pos + l'.length := by
    have := congrArg (fun t => t.fh.pos) e2
    rw [e1]
    simpa [nf, adv_fh, File.advance] using this
  have hE : s'.eoc = none := by
    have := congrArg (fun t => t.eoc) e2
    simpa [nf, adv, he] using this
  have hr : l' ++ s'.fh.rest = s.fh.rest := by
    rw [e1]
    simp only [File.rest, hd, hp, ← List.drop_drop]
    rw [e1]
    exact File.firstLine_append_drop _
  refine ⟨⟨hE, by rw [hr]; exact e1, s.fh.pos, by rw [hr, hd]; rfl⟩, hd, ?_⟩
  rw [← hr]; simp; omega

theorem skipBlank_no_hang (fuel : Nat) (l : Bytes) (s : Stream) (hf : s.fh.rest.length + 1 < fuel) :
    ArcParser.skipBlank fuel l s ≠ .hang := by
  induction fuel generalizing l s with
  | zero => omega
  | succ fuel ih =>
    simp only [ArcParser.skipBlank]
    by_cases h1 : rstrip l = []
    · rw [if_pos h1]
      by_cases h2 : l = []
      · rw [if_pos h2]; simp
      · rw [if_neg h2]
        simp only [M.bind_apply]
        cases hq : Stream.readline none s with
        | hang => exact absurd hq (readline_no_hang _ _)
        | raise e s1 => simp
        | ok l1 s1 =>
          simp only
          obtain ⟨e1, hpre⟩ := readline_shape hq
          by_cases hl : l1 = []
          · subst hl
            obtain ⟨k, rfl⟩ : ∃ k, fuel = k + 1 := ⟨fuel - 1, by omega⟩
            have : rstrip ([] : Bytes) = [] := by decide
            simp [ArcParser.skipBlank, this]
          · apply ih
            have : 0 < l1.length := List.length_pos_iff.2 hl
            have h3 : s1.fh.rest.length = s.fh.rest.length - l1.length := by rw [e1]; simp [File.advance_rest]
            have h4 := hpre.length_le
            omega
    · rw [if_neg h1]; simp

theorem arcParse_no_hang (st : ArcSt) (setSt : ArcSt → M Stream Unit) (hset : ∀ st s, setSt st s ≠ .hang) (off : Option Nat)
    (l : Bytes) (s : Stream) : ArcParser.parse st setSt off l s ≠ .hang := by
  simp only [ArcParser.parse, M.bind_apply, M.get_apply]
  cases hq : ArcParser.skipBlank (s.fh.rest.length + 2) l s with
  | hang => exact absurd hq (skipBlank_no_hang _ _ _ (by omega))
  | raise e s1 => simp
  | ok v s1 =>
    simp only
    cases v with
    | none => simp
    | some line =>
      simp only
      by_cases h1 : startsWith line ArcParser.filedescTag
      · rw [if_pos h1]
        simp only [M.bind_apply]
        cases hr : Stream.readline none s1 with
        | hang => exact absurd hr (readline_no_hang _ _)
        | raise e s2 => simp
        | ok l1 s2 =>
          simp only
          cases hr2 : Stream.readline none s2 with
          | hang => exact absurd hr2 (readline_no_hang _ _)
          | raise e s3 => simp
          | ok l2 s3 =>
            simp only
            cases splitWs (strip l1) with
            | nil => simp
            | cons v vs =>
              simp only [M.bind_apply]
              cases hs : setSt ⟨some v, splitWs (strip l2)⟩ s3 with
              | hang => exact absurd hs (hset _ _)
              | raise e s4 => simp
              | ok u s4 =>
                simp only
                cases ArcParser.parseHeaderList (splitWs (strip l2)) line with
                | error e => simp
                | ok hs =>
                  simp only
                  cases ArcParser.contentHeaders hs (none, []) with
                  | mk len es => cases len <;> simp
      · rw [if_neg h1]
        by_cases h2 : st.headers = []
        · rw [if_pos h2]; simp
        · rw [if_neg h2]
          cases ArcParser.parseHeaderList st.headers line with
          | error e => simp
          | ok hs => simp

theorem mixedParse_hang (st : ArcSt) (setSt : ArcSt → M Stream Unit) (hset : ∀ st s, setSt st s ≠ .hang) (off : Option Nat)
    (fuel : Nat) (l : Bytes) (s : Stream) (hj : Just l s) (hf : s.fh.rest.length + 1 < fuel)
    (h : MixedParser.parse st setSt off fuel l s = .hang) : StuckData s.fh.data := by
  induction fuel generalizing l s with
  | zero => omega
  | succ fuel ih =>
    simp only [MixedParser.parse] at h
    by_cases h1 : l = []
    · rw [if_pos h1] at h; simp at h
    · rw [if_neg h1] at h
      by_cases h2 : startsWith l (b! "WARC")
      · rw [if_pos h2] at h; exact warcParse_hang off l s hj h
      · rw [if_neg h2] at h
        by_cases h3 : l ≠ [10] ∧ l ≠ [13, 10] ∧ l ≠ [13]
        · rw [if_pos h3] at h; exact absurd h (arcParse_no_hang _ _ hset _ _ _)
        · rw [if_neg h3] at h
          simp only [M.bind_apply] at h
          cases hq : Stream.readline none s with
          | hang => exact absurd hq (readline_no_hang _ _)
          | raise e s1 => rw [hq] at h; cases h
          | ok l1 s1 =>
            rw [hq] at h
            simp only at h
            obtain ⟨hj1, hd, hlen⟩ := readline_just hj.1 hq
            rw [← hd]
            by_cases hl : l1 = []
            · subst hl
              obtain ⟨k, rfl⟩ : ∃ k, fuel = k + 1 := ⟨fuel - 1, by omega⟩
              simp [MixedParser.parse] at h
            · have : 0 < l1.length := List.length_pos_iff.2 hl
              exact ih l1 s1 hj1 (by omega) h

theorem parseWith_hang (off : Option Nat) (l : Bytes) (s : Stream) (hj : Just l s) (h : parseWith off l s = .hang) :
    StuckData s.fh.data := by
  simp only [parseWith, M.bind_apply, M.get_apply] at h
  cases hp : s.parser with
  | warc => rw [hp] at h; exact warcParse_hang off l s hj h
  | arc st =>
    rw [hp] at h
    exact absurd h (arcParse_no_hang st (fun st' => M.modify fun s => { s with parser := .arc st' }) (fun st s => by simp) _ _ _)
  | mixed st =>
    rw [hp] at h
    exact mixedParse_hang st (fun st' => M.modify fun s => { s with parser := .mixed st' }) (fun st s => by simp) off _ l s hj (by omega) h

/-- skipping the unread payload never hangs -/
theorem skipToEoc_no_hang (s : Stream) : skipToEoc s ≠ .hang := by
  cases hE : s.eoc with
  | none => simp [skipToEoc, hE]
  | some e =>
    by_cases hneg : e ≤ 0
    · rw [skipToEoc_neg e s hE hneg]; simp
    · obtain ⟨m, rfl⟩ : ∃ m : Nat, e = (m : Int) := ⟨e.toNat, by omega⟩
      by_cases hm : m ≤ s.fh.rest.length
      · rw [skipToEoc_ok m s hE hm]; simp
      · obtain ⟨exc, q, h1⟩ := skipToEoc_short m s hE (by omega)
        intro h
        have := h1.1
        rw [h] at this; cases this

theorem readRecord_hang (offs : Bool) (s : Stream) (h : readRecord offs s = .hang) : StuckData s.fh.data := by
  have tail : ∀ t : Stream, t.eoc = none → ∀ (offs' : Bool) (off : Option Nat → Option Nat),
      (do
        let q ← blankLoop offs' (t.fh.rest.length + 2)
        parseWith (off q.1) q.2 : M Stream WarcParser.ParseOut) t = .hang → StuckData t.fh.data := by
    intro t he offs' off h
    simp only [M.bind_apply] at h
    cases hb : blankLoop offs' (t.fh.rest.length + 2) t with
    | hang => exact absurd hb (blankLoop_no_hang _ _ _ (by omega))
    | raise e u => rw [hb] at h; cases h
    | ok q u => 
      rw [hb] at h
      simp only at h
      obtain ⟨T, more, hT1, _, hT3, _, hs1, _⟩ := blankLoop_inv _ _ _ _ q.1 q.2 (by exact hb)
      have hd : u.fh.data = t.fh.data := by rw [hs1]; simp [adv_fh]
      rw [← hd]
      have hm : more = t.fh.data.drop (t.fh.pos + T.length) := by
        have := congrArg (List.drop T.length) hT1
        simp only [List.drop_left, File.rest, List.drop_drop] at this
        exact this.symm
      have hcat : q.2 ++ u.fh.rest = more := by
        rw [hs1]
        simp only [adv_fh, File.advance_rest, hT1, ← List.drop_drop, List.drop_left]
        rw [hT3]; exact File.firstLine_append_drop _
      refine parseWith_hang _ _ u ⟨by rw [hs1]; simpa using he, by rw [hcat]; exact hT3, t.fh.pos + T.length, ?_⟩ h
      rw [hcat, hd, hm]
  have main : ∀ t : Stream, readRecord offs { t with eoc := none } = .hang → StuckData t.fh.data := by
    intro t h
    simp only [readRecord, M.bind_apply, M.get_apply, M.pure_apply, M.modify_apply] at h
    have htail := tail { t with eoc := none } rfl
    simp only [M.bind_apply] at htail
    cases hk : t.kind with
    | plain =>
      simp only [hk, M.bind_apply] at h htail
      apply htail offs id
      cases hb : blankLoop offs (t.fh.rest.length + 2) ⟨t.fh, none, .plain, t.parser⟩ with
      | hang => rfl
      | raise e u => rw [hb] at h; cases h
      | ok q u =>
        rw [hb] at h
        simp only [id] at h ⊢
        cases hp : parseWith q.1 q.2 u with
        | hang => rfl
        | raise e v => rw [hp] at h; cases h
        | ok a v => rw [hp] at h; cases h
    | gzipRecord =>
      simp only [hk, M.bind_apply] at h htail
      apply htail false (fun _ => none)
      cases hb : blankLoop false (t.fh.rest.length + 2) ⟨t.fh, none, .gzipRecord, t.parser⟩ with
      | hang => rfl
      | raise e u => rw [hb] at h; cases h
      | ok q u =>
        rw [hb] at h
        simp only at h ⊢
        cases hp : parseWith none q.2 u with
        | hang => rfl
        | raise e v => rw [hp] at h; cases h
        | ok a v => rw [hp] at h; cases h
    | gzipFile =>
      simp only [hk, M.bind_apply] at h htail
      apply htail false (fun _ => none)
      cases hb : blankLoop false (t.fh.rest.length + 2) ⟨t.fh, none, .gzipFile, t.parser⟩ with
      | hang => rfl
      | raise e u => rw [hb] at h; cases h
      | ok q u =>
        rw [hb] at h
        simp only at h ⊢
        cases hp : parseWith none q.2 u with
        | hang => rfl
        | raise e v => rw [hp] at h; cases h
        | ok a v => rw [hp] at h; cases h
  cases hE : s.eoc with
  | none =>
    have : s = { s with eoc := none } := by obtain ⟨a, b, c, d⟩ := s; simp at hE; subst hE; rfl
    exact main s (by rw [← this]; exact h)
  | some e =>
    have h2 := h
    simp only [readRecord, M.bind_apply, M.get_apply, hE] at h2
    cases hq : skipToEoc s with
    | hang => exact absurd hq (skipToEoc_no_hang s)
    | raise e u => rw [hq] at h2; cases h2
    | ok a u =>
      have hf := fwd_skipToEoc s
      rw [hq] at hf
      rw [hq] at h2
      rw [← hf.data]
      apply main u
      simp only [readRecord, M.bind_apply, M.get_apply, M.pure_apply]
      exact h2

end Warc
