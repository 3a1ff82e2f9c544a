import Verif.Proofs.Convert
import Verif.Proofs.Arc2WarcDemo
/-
  C91: arc2warc on files with any contents.
-/
set_option linter.all false
namespace Warc
open Rx Stream Spec

/-- the pieces of a stream that ends normally do not depend on the fuel -/
theorem pieces_unique (j k : Nat) (s : Stream) (ps qs : List Piece) (h1 : pieces j s = (ps, true)) (h2 : pieces k s = (qs, true)) : ps = qs := by
  induction j generalizing k s ps qs with
  | zero => cases h1
  | succ j ih =>
    cases k with
    | zero => cases h2
    | succ k =>
      rw [pieces] at h1 h2
      cases hq : readRecord false s with
      | hang => simp [hq] at h1
      | raise e t => simp [hq] at h1
      | ok e t =>
        cases hr : e.rcd with
        | none =>
          simp only [hq, hr, Prod.mk.injEq] at h1 h2
          rw [← h1.1, ← h2.1]
        | some r =>
          cases hc : World.content ⟨t, r, []⟩ with
          | hang => simp [hq, hr, hc] at h1
          | raise e w => simp [hq, hr, hc] at h1
          | ok x w =>
            simp only [hq, hr, hc, Prod.mk.injEq] at h1 h2
            have := ih k w.strm (pieces j w.strm).1 (pieces k w.strm).1 (Prod.ext rfl h1.2) (Prod.ext rfl h2.2)
            rw [← h1.1, ← h2.1, this]

theorem becomesAll_append {c : Codec} {g : Arc2Warc.Cfg} {st st1 st2 : Arc2Warc.St} {ps qs : List Piece} {rs rs' : List R}
    (h1 : BecomesAll c g st ps rs st1) (h2 : BecomesAll c g st1 qs rs' st2) : BecomesAll c g st (ps ++ qs) (rs ++ rs') st2 := by
  induction h1 with
  | nil st => exact h2
  | cons h _ ih =>
    rw [List.cons_append, List.append_assoc]
    exact .cons h (ih h2)

theorem mixed_clean {c : Codec} {fs : FS} {name : Bytes} {t : Stream} (h : openName c fs .mixed none name = .ok t) : CleanNames t.parser := by
  simp only [openName] at h
  cases hf : fs name with
  | none => simp [hf] at h
  | some contents =>
    simp only [hf] at h
    exact live_clean (c := c) (.opened h)

/-- **C91** Whenever arc2warc returns, whatever the files contain: every file was read to its end, and the output holds, in order, what
each of the records that a reader gets from the files becomes; nothing is left out, nothing added. -/
theorem C91_returns (c : Codec) (fs : FS) (g : Arc2Warc.Cfg) (gzip : Bool) (names : List Bytes) (out out' : Bytes) (st st' : Arc2Warc.St)
    (h : Arc2Warc.main c fs g gzip names (out, st) = .ok () (out', st')) :
    ∃ files : List (Bytes × List Piece), files.map Prod.fst = names ∧ (∀ f ∈ files, Pieces c fs f.1 f.2) ∧
      ∃ rs, BecomesAll c g st (files.flatMap Prod.snd) rs st' ∧ out' = out ++ written c gzip rs := by
  induction names generalizing out st with
  | nil =>
    cases h
    exact ⟨[], rfl, by simp, [], .nil _, by simp [written]⟩
  | cons name names ih =>
    simp only [Arc2Warc.main] at h
    cases ho : openName c fs .mixed none name with
    | error e => simp [ho] at h
    | ok t =>
      simp only [ho] at h
      obtain ⟨h1, -⟩ := Arc2Warc.loop_inv c g gzip (t.fh.rest.length + 2) t out st (mixed_clean ho)
      cases hl : Arc2Warc.loop c g gzip (t.fh.rest.length + 2) (⟨t, out⟩, st) with
      | hang => simp [hl] at h
      | raise e u => simp [hl] at h
      | ok u z =>
        simp only [hl] at h
        obtain ⟨k, ps, rs, h2, h3, h4⟩ := h1 u z hl
        obtain ⟨files, h5, h6, rs', h7, h8⟩ := ih z.1.out z.2 h
        refine ⟨(name, ps) :: files, by simp [h5], ?_, rs ++ rs', becomesAll_append h3 h7, ?_⟩
        · intro f hf
          rcases List.mem_cons.1 hf with rfl | hf
          · exact ⟨t, k, ho, h2⟩
          · exact h6 f hf
        · rw [h8, h4, Arc2Warc.written_append, List.append_assoc]

/-- **C91** And whenever it stops with an exception: the output holds what the records of the files before the current one, and the first
records of the current file, become, and after that at most the beginning of one more record (nothing, when compressing). -/
theorem C91_stops (c : Codec) (fs : FS) (g : Arc2Warc.Cfg) (gzip : Bool) (names : List Bytes) (out out' : Bytes) (st st' : Arc2Warc.St) (ex : Exc)
    (h : Arc2Warc.main c fs g gzip names (out, st) = .raise ex (out', st')) :
    ∃ (files : List (Bytes × List Piece)) (name : Bytes) (later : List Bytes) (ps : List Piece) (p : Bytes),
      names = files.map Prod.fst ++ name :: later ∧ (∀ f ∈ files, Pieces c fs f.1 f.2) ∧
      ((∃ next, FirstPieces c fs name ps next ∧ Begun g gzip next p) ∨ (openName c fs .mixed none name = .error ex ∧ ps = [] ∧ p = [])) ∧
      ∃ rs st1, BecomesAll c g st (files.flatMap Prod.snd ++ ps) rs st1 ∧ out' = out ++ written c gzip rs ++ p := by
  induction names generalizing out st with
  | nil => cases h
  | cons name names ih =>
    simp only [Arc2Warc.main] at h
    cases ho : openName c fs .mixed none name with
    | error e =>
      simp only [ho, Res.raise.injEq, Prod.mk.injEq] at h
      obtain ⟨rfl, rfl, -⟩ := h
      exact ⟨[], name, names, [], [], rfl, by simp, Or.inr ⟨ho, rfl, rfl⟩, [], st, .nil st, by simp [written]⟩
    | ok t =>
      simp only [ho] at h
      obtain ⟨h1, h2⟩ := Arc2Warc.loop_inv c g gzip (t.fh.rest.length + 2) t out st (mixed_clean ho)
      cases hl : Arc2Warc.loop c g gzip (t.fh.rest.length + 2) (⟨t, out⟩, st) with
      | hang => simp [hl] at h
      | raise e u =>
        simp only [hl, Res.raise.injEq, Prod.mk.injEq] at h
        obtain ⟨-, rfl, -⟩ := h
        obtain ⟨k, ps, rs, st1, p, h3, h4, h5, h6⟩ := h2 e u hl
        exact ⟨[], name, names, ps, p, rfl, by simp, Or.inl ⟨_, ⟨t, k, ho, h3, rfl⟩, h6⟩, rs, st1, h4, h5⟩
      | ok u z =>
        simp only [hl] at h
        obtain ⟨k, ps, rs, h3, h4, h5⟩ := h1 u z hl
        obtain ⟨files, n, later, qs, p, g1, g2, g3, rs', st1, g4, g5⟩ := ih z.1.out z.2 h
        refine ⟨(name, ps) :: files, n, later, qs, p, by simp [g1], ?_, g3, rs ++ rs', st1, ?_, ?_⟩
        · intro f hf
          rcases List.mem_cons.1 hf with rfl | hf
          · exact ⟨t, k, ho, h3⟩
          · exact g2 f hf
        · rw [List.flatMap_cons, List.append_assoc]
          exact becomesAll_append h4 g4
        · rw [g5, h5, Arc2Warc.written_append]; simp

/-! ### instances -/

/-- an odd file: a WARC record with two lengths, a date that is short of a digit, a WARC record without a length, a negative length -/
def oddArc : Bytes := b! "filedesc://x 0.0.0.0 20000101 text/plain 62\n1 0 A\nURL IP-address Archive-date Content-type Archive-length\n\nWARC/1.0\r\nContent-Length: 2\r\nX: y\r\nContent-Length: 1\r\n\r\nx\nftp://h/ 1.1.1.1 2012111 a 2\nhi\r\n\r\nWARC/1.0\nA: b\n\ndns:h x 20121111 a -1\nthe rest\n"

/-- this file, and the same file cut off in the header line of its third record -/
def oddFS : FS := fun n => if n = b! "o.arc" then some oddArc else if n = b! "cut.arc" then some (oddArc.take 172) else none

/-- how a run ends, and the number of bytes written -/
def outcome (r : Res (Bytes × Arc2Warc.St) Unit) : Option (Bool × Nat) :=
  match r with
  | .ok _ z => some (true, z.1.length)
  | .raise _ z => some (false, z.1.length)
  | .hang => none

theorem odd_runs : outcome (Arc2Warc.main toy oddFS demoCfg false [b! "o.arc"] ([], {})) = some (true, 1361) := by decide +kernel
theorem odd_stops : outcome (Arc2Warc.main toy oddFS demoCfg false [b! "cut.arc"] ([], {})) = some (false, 755) := by decide +kernel

/-- the records of the odd file are converted to 1361 bytes -/
example : ∃ ps rs st', Pieces toy oddFS (b! "o.arc") ps ∧ BecomesAll toy demoCfg {} ps rs st' ∧ (written toy false rs).length = 1361 := by
  have h := odd_runs
  cases hm : Arc2Warc.main toy oddFS demoCfg false [b! "o.arc"] ([], {}) with
  | hang => rw [hm] at h; cases h
  | raise e z => rw [hm] at h; simp [outcome] at h
  | ok u z =>
    rw [hm] at h
    obtain ⟨out', st'⟩ := z
    obtain ⟨files, h1, h2, rs, h3, h4⟩ := C91_returns toy oddFS demoCfg false _ [] out' {} st' hm
    obtain ⟨⟨n, ps⟩, rfl⟩ : ∃ f, files = [f] := by
      have := congrArg List.length h1
      exact List.length_eq_one_iff.1 (by simpa using this)
    simp only [List.map_cons, List.map_nil, List.cons.injEq, and_true] at h1
    subst h1
    have h3' : BecomesAll toy demoCfg {} ps rs st' := by
      have e : List.flatMap Prod.snd [((b! "o.arc" : Bytes), ps)] = ps := by rw [List.flatMap_cons, List.flatMap_nil, List.append_nil]
      rw [e] at h3; exact h3
    refine ⟨ps, rs, st', h2 (b! "o.arc", ps) (List.mem_singleton.2 rfl), h3', ?_⟩
    simp only [outcome, Option.some.injEq, Prod.mk.injEq, true_and, h4, List.nil_append] at h
    exact h

/-- of the file that is cut off, something is written: two records -/
example : ∃ ps next rs st1 p, FirstPieces toy oddFS (b! "cut.arc") ps next ∧ BecomesAll toy demoCfg {} ps rs st1 ∧ Begun demoCfg false next p ∧
    (written toy false rs ++ p).length = 755 := by
  have h := odd_stops
  cases hm : Arc2Warc.main toy oddFS demoCfg false [b! "cut.arc"] ([], {}) with
  | hang => rw [hm] at h; cases h
  | ok e z => rw [hm] at h; simp [outcome] at h
  | raise e z =>
    rw [hm] at h
    obtain ⟨out', st'⟩ := z
    obtain ⟨files, name, later, ps, p, h1, h2, h3, rs, st1, h4, h5⟩ := C91_stops toy oddFS demoCfg false _ [] out' {} st' e hm
    cases files with
    | cons f fl =>
      have := congrArg List.length h1
      simp at this
    | nil =>
      simp only [List.map_nil, List.nil_append, List.cons.injEq] at h1
      obtain ⟨rfl, -⟩ := h1
      simp only [outcome, Option.some.injEq, Prod.mk.injEq, true_and, h5, List.nil_append] at h
      rcases h3 with ⟨next, h3, h6⟩ | ⟨-, rfl, rfl⟩
      · exact ⟨ps, next, rs, st1, p, h3, by simpa using h4, h6, h⟩
      · exfalso
        simp only [List.flatMap_nil, List.append_nil] at h4
        cases h4
        simp [written] at h

end Warc
