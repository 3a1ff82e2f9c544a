import Verif.Proofs.ConvertFwd
/-
  C91: arc2warc on files with any contents; that it returns.
-/
set_option linter.all false
namespace Warc
open Rx Stream Spec

theorem becomesAll_split {c : Codec} {g : Arc2Warc.Cfg} {st st2 : Arc2Warc.St} (ps qs : List Piece) {rs : List R}
    (h : BecomesAll c g st (ps ++ qs) rs st2) :
    ∃ st1 rs1 rs2, BecomesAll c g st ps rs1 st1 ∧ BecomesAll c g st1 qs rs2 st2 ∧ rs = rs1 ++ rs2 := by
  induction ps generalizing st rs with
  | nil => exact ⟨st, [], rs, .nil st, h, rfl⟩
  | cons p ps ih =>
    cases h with
    | cons h1 h2 =>
      obtain ⟨st1, rs1, rs2, h3, h4, rfl⟩ := ih h2
      exact ⟨st1, _, rs2, .cons h1 h3, h4, by rw [List.append_assoc]⟩

/-- **C91** Conversely: if every file can be read to its end, every record of theirs, in this order, becomes something, and no WARC record
announces a negative length, then arc2warc returns, and what the records become is what it has written. -/
theorem C91_converts (c : Codec) (fs : FS) (g : Arc2Warc.Cfg) (gzip : Bool) (files : List (Bytes × List Piece)) (out : Bytes)
    (st st' : Arc2Warc.St) (h : ∀ f ∈ files, Pieces c fs f.1 f.2)
    (hn : ∀ f ∈ files, ∀ p ∈ f.2, p.cls = .warc → 0 ≤ declaredLength p.headers)
    (rs : List R) (hb : BecomesAll c g st (files.flatMap Prod.snd) rs st') :
    Arc2Warc.main c fs g gzip (files.map Prod.fst) (out, st) = .ok () (out ++ written c gzip rs, st') := by
  induction files generalizing out st rs with
  | nil =>
    cases hb
    simp [Arc2Warc.main, written]
  | cons f files ih =>
    obtain ⟨name, ps⟩ := f
    rw [List.flatMap_cons] at hb
    obtain ⟨st1, rs1, rs2, h1, h2, rfl⟩ := becomesAll_split _ _ hb
    obtain ⟨t, fuel, ho, hp⟩ := h _ (List.mem_cons_self ..)
    obtain ⟨t', hl⟩ := Arc2Warc.loop_fwd c g gzip fuel t out st st1 (mixed_clean ho) ps hp rs1 h1
      (hn (name, ps) (List.mem_cons_self ..)) (t.fh.rest.length + 2) (by omega)
    have := ih (out ++ written c gzip rs1) st1 (fun f hf => h f (List.mem_cons_of_mem _ hf))
      (fun f hf => hn f (List.mem_cons_of_mem _ hf)) rs2 h2
    simp only [List.map_cons, Arc2Warc.main, ho, hl, this, Arc2Warc.written_append, List.append_assoc]

/-! ### instance -/

/-- the odd file of Props/Convert, whose records are converted to 1361 bytes, converted twice in one run, and compressed: the files can be read,
no WARC record in them has a negative length -/
theorem odd_lengths : (match openName toy oddFS .mixed none (b! "o.arc") with
    | .ok t => (pieces 9 t).2 && (pieces 9 t).1.all (fun p => decide (0 ≤ declaredLength p.headers)) && (pieces 9 t).1.length == 5
    | .error _ => false) = true := by decide +kernel

theorem odd_ok : ∃ ps, Pieces toy oddFS (b! "o.arc") ps ∧ (∀ p ∈ ps, 0 ≤ declaredLength p.headers) ∧ ps.length = 5 := by
  have h := odd_lengths
  cases ho : openName toy oddFS .mixed none (b! "o.arc") with
  | error e => rw [ho] at h; cases h
  | ok t =>
    rw [ho] at h
    simp only [Bool.and_eq_true, List.all_eq_true, decide_eq_true_eq, beq_iff_eq] at h
    exact ⟨(pieces 9 t).1, ⟨t, 9, ho, Prod.ext rfl h.1.1⟩, h.1.2, h.2⟩

theorem pieces_of {c : Codec} {fs : FS} {name : Bytes} {ps qs : List Piece} (h1 : Pieces c fs name ps) (h2 : Pieces c fs name qs) : ps = qs := by
  obtain ⟨t, k, ho, hp⟩ := h1
  obtain ⟨t', k', ho', hp'⟩ := h2
  rw [ho] at ho'
  cases ho'
  exact pieces_unique _ _ _ _ _ hp hp'

theorem odd_twice : outcome (Arc2Warc.main toy oddFS demoCfg false [b! "o.arc", b! "o.arc"] ([], {})) = some (true, 2722) := by decide +kernel

example : ∃ ps rs st', ps.length = 5 ∧ Pieces toy oddFS (b! "o.arc") ps ∧ BecomesAll toy demoCfg {} (ps ++ ps) rs st' ∧
    Arc2Warc.main toy oddFS demoCfg true [b! "o.arc", b! "o.arc"] (b! "earlier", {}) = .ok () (b! "earlier" ++ written toy true rs, st') := by
  obtain ⟨ps, h1, h2, h3⟩ := odd_ok
  have h := odd_twice
  cases hm : Arc2Warc.main toy oddFS demoCfg false [b! "o.arc", b! "o.arc"] ([], {}) with
  | hang => rw [hm] at h; cases h
  | raise e z => rw [hm] at h; simp [outcome] at h
  | ok u z =>
    obtain ⟨out', st'⟩ := z
    obtain ⟨files, h4, h5, rs, h6, -⟩ := C91_returns toy oddFS demoCfg false _ [] out' {} st' hm
    have hf : files = [(b! "o.arc", ps), (b! "o.arc", ps)] := by
      match files, h4, h5 with
      | [], h4, _ => cases h4
      | [_], h4, _ => simp at h4
      | _ :: _ :: _ :: _, h4, _ => simp at h4
      | [(n, x), (m, y)], h4, h5 =>
        simp only [List.map_cons, List.map_nil, List.cons.injEq, and_true] at h4
        obtain ⟨rfl, rfl⟩ := h4
        have e1 : x = ps := pieces_of (h5 _ (List.mem_cons_self ..)) h1
        have e2 : y = ps := pieces_of (h5 (b! "o.arc", y) (by simp)) h1
        rw [e1, e2]
    subst hf
    have h7 := C91_converts toy oddFS demoCfg true [(b! "o.arc", ps), (b! "o.arc", ps)] (b! "earlier") {} st' h5
      (by intro f hf p hp _
          simp only [List.mem_cons, List.not_mem_nil, or_false, or_self] at hf
          subst hf
          exact h2 p hp) rs h6
    refine ⟨ps, rs, st', h3, h1, ?_, h7⟩
    simpa using h6

end Warc
