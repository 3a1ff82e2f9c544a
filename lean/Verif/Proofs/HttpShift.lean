import Verif.Proofs.HttpPieces
/-
  A message behind other text.
-/
set_option linter.all false
namespace Warc.Http
open Rx

/-- the code does not depend on what is in front -/
def Moves {α : Type} (p : Bytes) (is : List Hdr) (x : M Msg α) : Prop := ∀ m, x (m.behind p is) = onState (Msg.behind p is) (x m)

variable {p : Bytes} {is : List Hdr}

theorem Moves.pure {α : Type} (a : α) : Moves p is (Pure.pure a : M Msg α) := fun _ => rfl
theorem Moves.throw {α : Type} (e : Exc) : Moves p is (M.throw e : M Msg α) := fun _ => rfl
theorem Moves.bind {α β : Type} {x : M Msg α} {f : α → M Msg β} (hx : Moves p is x) (hf : ∀ a, Moves p is (f a)) : Moves p is (x >>= f) := by
  intro m
  rw [M.bind_apply, M.bind_apply, hx m]
  cases x m with
  | hang => rfl
  | raise e m1 => rfl
  | ok a m1 => exact hf a m1
theorem Moves.modify {f : Msg → Msg} (h : ∀ m, f (m.behind p is) = (f m).behind p is) : Moves p is (M.modify f) := by
  intro m
  show Res.ok () (f (m.behind p is)) = .ok () ((f m).behind p is)
  rw [h]
theorem Moves.mode (x : Mode) : Moves p is (M.modify fun m : Msg => { m with mode := x }) := fun _ => rfl
theorem Moves.setChunk (cr : ChunkSt) : Moves p is (Http.setChunk cr) := fun _ => rfl
theorem Moves.onHeader {α : Type} (x : M Hdr α) : Moves p is (Http.onHeader x) := by
  intro m
  unfold Http.onHeader
  rw [show (m.behind p is).header = m.header from rfl]
  cases x m.header <;> rfl
theorem Moves.diverge {α : Type} : Moves p is (M.diverge : M Msg α) := fun _ => rfl
theorem Moves.ite {α : Type} {c : Prop} [Decidable c] {x y : M Msg α} (hx : Moves p is x) (hy : Moves p is y) : Moves p is (if c then x else y) := by
  split <;> assumption

theorem moves_feedLine (t : Bytes) : Moves p is (feedLine t) := by
  intro m
  unfold feedLine
  have h1 : ((m.behind p is).buffer ++ t).drop (m.behind p is).offset = (m.buffer ++ t).drop m.offset := by
    simp only [Msg.behind]
    rw [List.append_assoc, ← List.drop_drop, List.drop_left]
  have h2 : ((m.behind p is).buffer ++ t).take (m.behind p is).offset = p ++ (m.buffer ++ t).take m.offset := by
    simp only [Msg.behind]
    rw [List.append_assoc, List.take_append, List.take_of_length_le (by omega)]
    congr 2; omega
  simp only [h1, h2]
  cases splitLine ((m.buffer ++ t).drop m.offset) with
  | none => simp [onState, Msg.behind]
  | some lr => simp [onState, Msg.behind, Nat.add_assoc]

theorem moves_feedLength (t : Bytes) (n : Int) : Moves p is (feedLength t n) := by
  intro m
  simp [feedLength, onState, Msg.behind, Nat.add_assoc]

theorem moves_feedStart (t : Bytes) : Moves p is (feedStart t) := by
  unfold feedStart
  refine (moves_feedLine t).bind fun ⟨l, t⟩ => ?_
  cases l with
  | none => exact .pure _
  | some l => exact .ite (.pure _) ((Moves.onHeader _).bind fun _ => (Moves.mode _).bind fun _ => .pure _)

theorem moves_feedHeaders (f : Nat) (t : Bytes) : Moves p is (feedHeaders f t) := by
  induction f generalizing t with
  | zero => exact .diverge
  | succ f ih =>
    unfold feedHeaders
    refine .ite (.pure _) ?_
    refine (moves_feedLine t).bind fun ⟨l, t⟩ => ?_
    cases l with
    | none => exact ih _
    | some l =>
      exact (Moves.onHeader _).bind fun _ => .ite ((Moves.mode _).bind fun _ => .pure _) (ih _)

theorem moves_chunkStart (cr : ChunkSt) (t : Bytes) : Moves p is (chunkStart cr t) := by
  intro m
  simp only [chunkStart, M.bind_apply, M.get_apply, moves_feedLine t m]
  have hbuf : (m.behind p is).buffer.length = p.length + m.buffer.length := by simp [Msg.behind]
  rw [hbuf]
  cases feedLine t m with
  | hang => rfl
  | raise e m1 => rfl
  | ok x m1 =>
    obtain ⟨l, t⟩ := x
    simp only [onState]
    cases l with
    | none => rfl
    | some l =>
      have htk : (m1.behind p is).buffer.take (p.length + m.buffer.length) = p ++ m1.buffer.take m.buffer.length := by
        simp only [Msg.behind]
        rw [List.take_append, List.take_of_length_le (by omega)]
        congr 2; omega
      cases hsp : splitOnce 59 l with
      | none =>
        cases hp : pyInt 16 l with
        | none => cases cr.start <;> simp [hsp, hp, htk] <;> simp [Msg.behind, onState]
        | some n => simp [hsp, hp] <;> simp [Msg.behind, onState]
      | some ab =>
        cases hp : pyInt 16 ab.1 with
        | none => cases cr.start <;> simp [hsp, hp, htk] <;> simp [Msg.behind, onState]
        | some n => simp [hsp, hp] <;> simp [Msg.behind, onState]

theorem moves_chunkData (cr : ChunkSt) (t : Bytes) : Moves p is (chunkData cr t) := by
  unfold chunkData
  refine Moves.bind (.ite (moves_feedLength _ _) (.pure _)) fun ⟨rem, t⟩ => ?_
  refine .ite ?_ (.pure _)
  refine (moves_feedLine t).bind fun ⟨l, t⟩ => ?_
  match l with
  | none => exact .pure _
  | some [] => exact .pure _
  | some (_ :: _) => exact .pure _

theorem moves_chunkTrailer (cr : ChunkSt) (t : Bytes) : Moves p is (chunkTrailer cr t) := by
  unfold chunkTrailer
  refine (moves_feedLine t).bind fun ⟨l, t⟩ => ?_
  cases l with
  | none => exact .pure _
  | some l => exact (Moves.onHeader _).bind fun _ => .pure _

theorem moves_chunkStage (g : Bool) {f : ChunkSt → Bytes → M Msg (ChunkSt × Bytes)} (hf : ∀ cr t, Moves p is (f cr t)) (cr : ChunkSt) (t : Bytes) :
    Moves p is (chunkStage g f cr t) := by
  unfold chunkStage
  refine .ite ?_ (.pure _)
  exact (hf cr t).bind fun ⟨cr, t⟩ => (Moves.setChunk _).bind fun _ => .pure _

theorem moves_chunkFeed (f : Nat) (cr : ChunkSt) (t : Bytes) : Moves p is (chunkFeed f cr t) := by
  induction f generalizing cr t with
  | zero => exact .diverge
  | succ f ih =>
    unfold chunkFeed
    refine .ite (.pure _) ?_
    refine (moves_chunkStage _ moves_chunkStart _ _).bind fun ⟨cr, t⟩ => ?_
    refine (moves_chunkStage _ moves_chunkData _ _).bind fun ⟨cr, t⟩ => ?_
    refine (moves_chunkStage _ moves_chunkTrailer _ _).bind fun ⟨cr, t⟩ => ?_
    exact .ite ((Moves.mode _).bind fun _ => .pure _) (ih _ _)

theorem moves_lengthFeed (n : Int) (t : Bytes) : Moves p is (lengthFeed n t) := by
  unfold lengthFeed
  refine Moves.bind (.ite (moves_feedLength _ _) (.pure _)) fun ⟨rem, t⟩ => ?_
  exact (Moves.modify fun m => by by_cases h : rem ≤ 0 <;> simp [h, Msg.behind]).bind fun _ => .pure _

theorem moves_zipFeed (z : Option Bytes) (n : Int) (t : Bytes) : Moves p is (zipFeed z n t) := by
  unfold zipFeed
  refine Moves.bind (.ite (moves_feedLength _ _) (.pure _)) fun ⟨rem, t⟩ => ?_
  exact (Moves.modify fun m => by by_cases h : rem ≤ 0 <;> simp [h, Msg.behind]).bind fun _ => .pure _

theorem moves_closeFeed (t : Bytes) : Moves p is (closeFeed t) := by
  intro m
  unfold closeFeed
  rw [show (m.behind p is).bodyChunks = m.bodyChunks.map fun x => (p.length + x.1, x.2) from rfl]
  generalize hL : m.bodyChunks = L
  match L with
  | [] => rfl
  | [(o, n)] => simp [onState, Msg.behind, Nat.add_assoc]
  | _ :: _ :: _ => rfl

theorem moves_setupBody (c : Codec) (t : Bytes) : Moves p is (setupBody c t) := by
  have hfin : ∀ (r : Reader) (rem : Int), Moves p is (M.modify fun m : Msg => { m with
            reader := some r, bodyChunks := [(m.offset, rem)],
            mode := if rem = 0 then .end_ else m.mode }) := by
    intro r rem
    exact .modify fun m => by by_cases h : rem = 0 <;> simp [h, Msg.behind]
  intro m
  unfold setupBody
  rw [M.bind_apply, M.bind_apply, M.get_apply, M.get_apply]
  simp only
  rw [show (m.behind p is).mode = m.mode from rfl, show (m.behind p is).header = m.header from rfl]
  by_cases h1 : m.mode = .body
  · rw [if_pos h1]
    cases m.header.hasBody with
    | false => rfl
    | true =>
      cases m.header.bodyIsChunked with
      | true => rfl
      | false =>
        simp only [Bool.not_true, Bool.false_eq_true, if_false]
        cases m.header.bodyLength with
        | none => rfl
        | some n =>
          simp only
          by_cases hg : gzipEncoded m.header.encoding = true
          · rw [if_pos hg]
            cases c.dec (sliceTo t n) with
            | mk d e =>
              cases e with
              | none => exact hfin _ _ m
              | some e => cases e <;> first | exact hfin _ _ m | rfl
          · rw [if_neg hg]
            exact hfin _ _ m
  · rw [if_neg h1]; rfl

/-! ### feed -/

theorem behind_inv {m : Msg} (h : LineInv m) : LineInv (m.behind p is) where
  off := by have := h.off; simp [Msg.behind]; omega
  pend := by
    have := h.pend
    simp only [pend, Msg.behind] at *
    rw [← List.drop_drop, List.drop_left]
    exact this

theorem FH_behind {t : Bytes} {m : Msg} (hi : LineInv m) : FH t (m.behind p is) = onState (Msg.behind p is) (FH t m) := by
  rw [← FH_eq (feedFuel m t) t (m.behind p is) (behind_inv hi) (by simp [feedFuel]; omega)]
  exact moves_feedHeaders _ _ m

theorem CF_behind {cr : ChunkSt} {t : Bytes} {m : Msg} (hi : LineInv m) (he : cr.mode ≠ .end_) :
    CF cr t (m.behind p is) = onState (Msg.behind p is) (CF cr t m) := by
  rw [← CF_eq (t.length + 2) cr t (m.behind p is) (behind_inv hi) he (Nat.le_refl _), ← CF_eq (t.length + 2) cr t m hi he (Nat.le_refl _)]
  exact moves_chunkFeed _ _ _ m

theorem stageBody_behind {t : Bytes} {m : Msg} (hi : Inv m) : stageBody t (m.behind p is) = onState (Msg.behind p is) (stageBody t m) := by
  by_cases ht : t = []
  · subst ht; rw [stageBody_nil, stageBody_nil]; rfl
  by_cases hm : m.mode = .body
  · have hm' : (m.behind p is).mode = .body := hm
    cases hr : m.reader with
    | none =>
      rw [stageBody_close ht hm hr, stageBody_close ht hm' hr]
      exact moves_closeFeed t m
    | some r =>
      cases r with
      | length n =>
        rw [stageBody_length ht hm hr, stageBody_length ht hm' hr]
        exact moves_lengthFeed n t m
      | zip z n =>
        rw [stageBody_zip ht hm hr, stageBody_zip ht hm' hr]
        exact moves_zipFeed z n t m
      | chunk cr =>
        have hx := hi.ctx hm hr
        have hx' : Ctx cr (m.behind p is) := ⟨behind_inv hx.inv, hx.mode, hx.reader, hx.open_, hx.started⟩
        rw [stageBody_chunk ht hx, stageBody_chunk ht hx', CF_behind hx.inv hx.open_]
        cases CF cr t m with
        | hang => rfl
        | ok l m1 => rfl
        | raise e m1 =>
          cases e <;> first | rfl | skip
          exact moves_closeFeed t { m1 with reader := none, bodyChunks := [(m1.offset, 0)] }
  · rw [stageBody_skip t hm, stageBody_skip t (show (m.behind p is).mode ≠ .body from hm)]; rfl

theorem afterHeaders_behind {c : Codec} {t : Bytes} {m : Msg} (hi : LineInv m) (hm : m.mode = .body) :
    afterHeaders c t (m.behind p is) = onState (Msg.behind p is) (afterHeaders c t m) := by
  unfold afterHeaders
  rw [moves_setupBody c t m]
  have hs := setupBody_spec c t hm
  cases hb : setupBody c t m with
  | hang => rfl
  | raise e m1 => rfl
  | ok x m1 =>
    rw [hb] at hs
    exact stageBody_behind (Setup.inv hs hi)

theorem feed_behind {c : Codec} {t : Bytes} {m : Msg} (hi : Inv m) : feed c t (m.behind p is) = onState (Msg.behind p is) (feed c t m) := by
  have heads : ∀ {t : Bytes} {m : Msg}, LineInv m → m.mode = .headers → feed c t (m.behind p is) = onState (Msg.behind p is) (feed c t m) := by
    intro t m hi hm
    rw [feed_headers c t hi hm, feed_headers c t (behind_inv hi) hm, FH_behind hi]
    cases hf : FH t m with
    | hang => rfl
    | raise e m1 => rfl
    | ok l1 m1 =>
      simp only [onState]
      by_cases hb : m1.mode = .body
      · rw [if_pos (show (m1.behind p is).mode = .body from hb), if_pos hb]
        exact afterHeaders_behind (FH_inv hi hm hf).1 hb
      · rw [if_neg (show (m1.behind p is).mode ≠ .body from hb), if_neg hb]
  cases hm : m.mode with
  | end_ => rw [feed_end c t (Or.inl hm), feed_end c t (Or.inl (show (m.behind p is).mode = .end_ from hm))]; rfl
  | incomplete => rw [feed_end c t (Or.inr hm), feed_end c t (Or.inr (show (m.behind p is).mode = .incomplete from hm))]; rfl
  | body => rw [feed_body c t hm, feed_body c t (show (m.behind p is).mode = .body from hm)]; exact stageBody_behind hi
  | headers => exact heads hi.line hm
  | start =>
    have hm' : (m.behind p is).mode = .start := hm
    have hpend : pend (m.behind p is) = pend m := by
      simp only [pend, Msg.behind]
      rw [← List.drop_drop, List.drop_left]
    have htook : ∀ x, took (m.behind p is) x = (took m x).behind p is := by
      intro x; simp [took, Msg.behind, Nat.add_assoc]
    rcases line_cases t with h1 | ⟨u, rest, h1, rfl⟩
    · rw [feed_start_none c hi.line hm h1, feed_start_none c (behind_inv hi.line) hm' h1]
      simp [onState, ext, Msg.behind]
    · rw [feed_start_line c rest hi.line hm h1, feed_start_line c rest (behind_inv hi.line) hm' h1, hpend, htook]
      by_cases hnl : isNewline (pend m ++ u ++ [10]) = true
      · rw [if_pos hnl, if_pos hnl]; rfl
      · rw [if_neg hnl, if_neg hnl, Moves.onHeader _ (took m (u ++ [10]))]
        cases hh : onHeader (setStartLine (pend m ++ u ++ [10])) (took m (u ++ [10])) with
        | hang => rfl
        | raise e m1 => rfl
        | ok x m1 =>
          exact heads (m := { m1 with mode := .headers }) ((onHeader_inv hh (.took _ _)).congr rfl rfl) rfl

/-- the body is the same -/
theorem behind_body {m : Msg} (h : ∀ x ∈ m.bodyChunks, 0 ≤ x.2) : (m.behind p is).getBody = m.getBody := by
  rw [getBody_pick, getBody_pick]
  show pick (p ++ m.buffer) (m.bodyChunks.map fun x => (p.length + x.1, x.2)) = _
  generalize m.bodyChunks = L at h ⊢
  induction L with
  | nil => rfl
  | cons x L ih =>
    obtain ⟨o, n⟩ := x
    have hn : 0 ≤ n := h (o, n) (by simp)
    have := ih (fun y hy => h y (by simp [hy]))
    simp only [pick, List.map_cons, List.flatMap_cons] at this ⊢
    rw [this]
    congr 1
    unfold slice sliceTo
    rw [if_pos (by omega), if_pos (by omega)]
    rw [show (((p.length + o : Nat) : Int) + n).toNat = p.length + ((o : Int) + n).toNat by omega]
    rw [List.take_append, List.take_of_length_le (by omega), ← List.drop_drop, List.drop_left]
    congr 2; omega

/-! ### interim responses -/

theorem interim_feed (c : Codec) {rm : PyStr} {ig : List PyStr} {m : Msg} (hm : Fresh (.response rm) ig m) {v ph : Bytes} {hs : List Header}
    (hst : (Start.response v 100 ph).Ok) (hok : FieldsOk hs) {fr : Framed} (hfr : framing ig hs = some fr) (rest : Bytes) :
    ∃ m1, feedResponse c (headText (.response v 100 ph) hs ++ rest) m = feed c rest (restart m1) ∧ Fresh (.response rm) [] (restart m1) ∧
      Head (.response rm) ig (.response v 100 ph) hs fr m1.header ∧
      (restart m1) = (Msg.response rm []).behind (m.buffer ++ headText (.response v 100 ph) hs) (m.interim ++ [m1.header]) := by
  have hf := head_feed c (.response rm) ig (.response v 100 ph) hs rest m hm trivial hst hok
  rw [hfr] at hf
  obtain ⟨h, hh, hd⟩ := hf
  obtain ⟨m1, h1, h2, h3, h4, h5, h6, h7, h8⟩ := whole_nobody c hm (st := .response v 100 ph) trivial hh hd (by simp [Http.hasBody])
  have hcode : m1.header.code = 100 := (h3.code v 100 ph rfl).1
  have h100 : is100 m1 = true := by simp [is100, Msg.complete, h2, hcode]
  have hside : m1.header.side = .response rm := h3.side
  refine ⟨m1, ?_, ?_, h3, ?_⟩
  · rw [feedResponse_eq, h1]; simp only [h100, if_true]
  · exact ⟨rfl, h8, by simp [restart, hside, freshHdr], rfl, rfl⟩
  · unfold restart
    simp only [hside]
    simp [Msg.behind, Msg.response, ← h4, h6]
    exact h8

end Warc.Http
