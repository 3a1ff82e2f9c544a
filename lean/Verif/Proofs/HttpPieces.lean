import Verif.Proofs.HttpBody
/-
  Messages in pieces, and messages that are cut off.
-/
set_option linter.all false
namespace Warc.Http
open Rx

/-! ### nothing is known about the body before the end of the headers -/

theorem addHeader_mode (n v : Bytes) (h : Hdr) : Post (addHeader n v h) (fun h' => h'.mode = h.mode) := by
  obtain ⟨h', h1, _, h2, _⟩ := addHeader_kept n v h
  rw [h1]; exact h2.mode

theorem addHeaderLine_mode (line : Bytes) (h : Hdr) (hl : isNewline line = false) : Post (addHeaderLine line h) (fun h' => h'.mode = h.mode) := by
  simp only [addHeaderLine, M.bind_apply, M.get_apply]
  by_cases h1 : isFold line = true
  · simp only [h1, if_true]
    cases h.headers.getLast? with
    | none => simp [Post]
    | some kv =>
      simp only [M.bind_apply, M.modify_apply]
      exact addHeader_mode kv.1 (kv.2 ++ [32] ++ strip line) { h with headers := h.headers.dropLast }
  · simp only [h1, Bool.false_eq_true, if_false, hl]
    cases splitOnce 58 line with
    | none => simp [Post]
    | some nv => exact addHeader_mode _ _ _

theorem setStartLine_mode (line : Bytes) (h : Hdr) : Post (setStartLine line h) (fun h' => h'.mode = h.mode) := by
  simp only [setStartLine, M.bind_apply, M.get_apply]
  cases hs : h.side with
  | request =>
    simp only [setRequestLine]
    generalize splitMax 32 2 (rstrip line) = L
    match L with
    | [] => simp [Post, hs]
    | [_] => simp [Post, hs]
    | [_, _] => simp [Post, hs]
    | _ :: _ :: _ :: _ :: _ => simp [Post, hs]
    | [a, b, c] =>
      simp only [M.bind_apply, M.modify_apply]
      by_cases hu : upper a = b! "CONNECT"
      · rw [if_pos hu]
        generalize splitAll 58 b = L
        match L with
        | [] => simp [Post, hs]
        | [_] => simp [Post, hs]
        | [_, _] => simp [Post, hs]
        | _ :: _ :: _ :: _ => simp [Post, hs]
      · rw [if_neg hu]
        cases pmatch urlRx b with
        | none => simp [Post, hs]
        | some mt => simp [Post, hs]
  | response rm =>
    simp only [setStatusLine]
    generalize splitMax 32 2 (rstrip line) = L
    match L with
    | [] => simp [Post, hs]
    | [_] => simp [Post, hs]
    | a :: b :: more =>
      simp only [M.bind_apply, M.modify_apply]
      cases pyInt 10 b <;> simp [Post, hs]

theorem FH_mode {t l : Bytes} {m m' : Msg} (hi : LineInv m) (h : FH t m = .ok l m') (hm : m'.mode = .headers) : m'.header.mode = m.header.mode := by
  match hn : t.length with
  | n =>
  induction n using Nat.strongRecOn generalizing t m with
  | _ n ih =>
    rcases line_cases t with h1 | ⟨u, rest, h1, rfl⟩
    · rw [FH_none hi h1] at h; cases h; rfl
    · rw [FH_line hi rest h1] at h
      cases hh : onHeader (addHeaderLine (pend m ++ u ++ [10])) (took m (u ++ [10])) with
      | hang => rw [hh] at h; cases h
      | raise e m1 => rw [hh] at h; cases h
      | ok x m1 =>
        rw [hh] at h
        simp only at h
        by_cases hnl : isNewline (pend m ++ u ++ [10]) = true
        · simp only [hnl, if_true] at h
          cases h; cases hm
        · simp only [hnl, Bool.false_eq_true, if_false] at h
          have hp := onHeader_post (m := took m (u ++ [10])) (addHeaderLine_mode (pend m ++ u ++ [10]) m.header (by simpa using hnl))
          rw [hh] at hp
          have := ih rest.length (by rw [← hn]; simp; omega) (t := rest) (onHeader_inv hh (.took _ _)) h rfl
          exact this.trans hp.1

/-- the framing is still open -/
def Unframed (m : Msg) : Prop := m.mode = .start ∨ m.mode = .headers → m.header.mode = .close

theorem Unframed.gzip {m : Msg} (h : Unframed m) (hm : m.mode = .start ∨ m.mode = .headers) : gzipBody m.header = false := by
  simp [gzipBody, h hm]

theorem Unframed.restart (m : Msg) : Unframed (restart m) := by
  intro _
  unfold Http.restart
  simp only
  cases m.header.side <;> rfl

theorem Unframed.message (k : Kind) (ig : List PyStr) : Unframed (k.message ig) := by
  intro _
  cases k <;> rfl

theorem feed_unframed {c : Codec} {t l : Bytes} {m m' : Msg} (hi : Inv m) (hu : Unframed m) (h : feed c t m = .ok l m') : Unframed m' := by
  have heads : ∀ {t : Bytes} {m : Msg}, LineInv m → m.mode = .headers → m.header.mode = .close → feed c t m = .ok l m' → Unframed m' := by
    intro t m hi hm hh h
    rw [feed_headers c t hi hm] at h
    cases hf : FH t m with
    | hang => rw [hf] at h; cases h
    | raise e m1 => rw [hf] at h; cases h
    | ok l1 m1 =>
      rw [hf] at h
      have hfi := FH_inv hi hm hf
      simp only at h
      by_cases hb : m1.mode = .body
      · rw [if_pos hb] at h
        intro hx
        rcases (afterHeaders_inv hfi.1 hb h).2 with h2 | h2
        · rw [h2.1] at hx; simp at hx
        · rw [h2] at hx; simp at hx
      · rw [if_neg hb] at h
        cases h
        intro _
        rcases hfi.2.2.2 with h2 | h2
        · exact absurd h2 hb
        · rw [FH_mode hi hf h2.1, hh]
  cases hm : m.mode with
  | end_ => rw [feed_end c t (Or.inl hm)] at h; cases h; exact hu
  | incomplete => rw [feed_end c t (Or.inr hm)] at h; cases h; exact hu
  | body =>
    rw [feed_body c t hm] at h
    intro hx
    rcases (stageBody_inv hi h).2.2 with h2 | h2
    · rw [h2, hm] at hx; simp at hx
    · rw [h2] at hx; simp at hx
  | headers => exact heads hi.line hm (hu (Or.inr hm)) h
  | start =>
    rcases line_cases t with h1 | ⟨u, rest, h1, rfl⟩
    · rw [feed_start_none c hi.line hm h1] at h; cases h; exact hu
    · rw [feed_start_line c rest hi.line hm h1] at h
      by_cases hnl : isNewline (pend m ++ u ++ [10]) = true
      · rw [if_pos hnl] at h; cases h; exact hu
      · rw [if_neg hnl] at h
        have hp := onHeader_post (m := took m (u ++ [10])) (setStartLine_mode (pend m ++ u ++ [10]) m.header)
        cases hh : onHeader (setStartLine (pend m ++ u ++ [10])) (took m (u ++ [10])) with
        | hang => rw [hh] at h; cases h
        | raise e m1 => rw [hh] at h; cases h
        | ok x m1 =>
          rw [hh] at hp h
          exact heads (m := { m1 with mode := .headers }) ((onHeader_inv hh (.took _ _)).congr rfl rfl) rfl (hp.1.trans (hu (Or.inl hm))) h

/-! ### prefixes -/

/-- a body that ends with the connection goes on -/
theorem feed_closing {c : Codec} {b l : Bytes} {m m' : Msg} (hm : m.mode = .body) (hr : m.reader = none) (h : feed c b m = .ok l m') :
    m'.mode = .body ∧ m'.reader = none ∧ m'.header = m.header := by
  rw [feed_body c b hm] at h
  by_cases hb : b = []
  · subst hb; rw [stageBody_nil] at h; cases h; exact ⟨hm, hr, rfl⟩
  · rw [stageBody_close hb hm hr] at h
    unfold closeFeed at h
    generalize hL : m.bodyChunks = L at h
    match L with
    | [] => cases h
    | [(o, n)] => simp only at h; cases h; exact ⟨hm, hr, rfl⟩
    | _ :: _ :: _ => cases h

theorem splittable_prefix {c : Codec} {a b L : Bytes} {m M : Msg} (hi : Inv m) (hu : Unframed m) (h : feed c (a ++ b) m = .ok L M)
    (hs : Splittable (.ok L M)) : ∃ l m1, feed c a m = .ok l m1 ∧ Splittable (.ok l m1) ∧ ∃ l2, feed c b m1 = .ok l2 M ∧ L = l ++ l2 := by
  have hsp := feed_split c a b m hi (by rw [h]; exact hs)
  rw [h] at hsp
  cases ha : feed c a m with
  | hang => rw [ha] at hsp; cases hsp
  | raise e m1 => rw [ha] at hsp; cases hsp
  | ok l m1 =>
    rw [ha] at hsp
    simp only [andThen] at hsp
    cases hb : feed c b m1 with
    | hang => rw [hb] at hsp; cases hsp
    | raise e m2 => rw [hb] at hsp; cases hsp
    | ok l2 m2 =>
      rw [hb] at hsp
      simp only [Res.ok.injEq] at hsp
      obtain ⟨rfl, rfl⟩ := hsp
      refine ⟨l, m1, rfl, ?_, l2, hb, rfl⟩
      have hi1 := (feed_inv hi ha).1
      have hu1 := feed_unframed hi hu ha
      refine ⟨?_, ?_, ?_⟩
      · intro hm
        by_cases hl : l = []
        · exact hl
        · have := feed_stuck (b := b) hi ha hm hl
          rw [h] at this
          simp only [Res.ok.injEq] at this
          have hz := hs.1 (by rw [this.2]; exact hm)
          exact (List.append_eq_nil_iff.1 hz).1
      · cases hm : m1.mode with
        | start => exact hu1.gzip (Or.inl hm)
        | headers => exact hu1.gzip (Or.inr hm)
        | end_ => rw [feed_end c b (Or.inl hm)] at hb; cases hb; exact hs.2.1
        | incomplete => rw [feed_end c b (Or.inr hm)] at hb; cases hb; exact hs.2.1
        | body =>
          rw [feed_body c b hm] at hb
          have := stageBody_header b m1 hi1
          rw [hb] at this
          rw [← gzipBody_same this]; exact hs.2.1
      · rintro ⟨h1, h2, h3⟩
        have := feed_closing h1 h2 hb
        exact hs.2.2 ⟨this.1, this.2.1, by rw [this.2.2]; exact h3⟩

theorem splittableResponse_prefix {c : Codec} {a b L : Bytes} {m M : Msg} {rm : PyStr} (hi : Inv m) (hu : Unframed m)
    (hside : m.header.side = .response rm) (h : feedResponse c (a ++ b) m = .ok L M)
    (hs : SplittableResponse (.ok L M)) :
    ∃ l m1, feedResponse c a m = .ok l m1 ∧ SplittableResponse (.ok l m1) ∧ ∃ l2, feedResponse c b m1 = .ok l2 M ∧ L = l ++ l2 := by
  have hsp := feedResponse_split c a b m rm hi hside (by rw [h]; exact hs)
  have hsp1 := hsp.1
  rw [h] at hsp1
  cases ha : feedResponse c a m with
  | hang => rw [ha] at hsp1; cases hsp1
  | raise e m1 => rw [ha] at hsp1; cases hsp1
  | ok l m1 =>
    rw [ha] at hsp1
    simp only [andThen] at hsp1
    cases hb : feedResponse c b m1 with
    | hang => rw [hb] at hsp1; cases hsp1
    | raise e m2 => rw [hb] at hsp1; cases hsp1
    | ok l2 m2 =>
      rw [hb] at hsp1
      simp only [Res.ok.injEq] at hsp1
      obtain ⟨rfl, rfl⟩ := hsp1
      refine ⟨l, m1, rfl, ⟨?_, ?_⟩, l2, hb, rfl⟩
      · -- the first part
        by_cases hbn : b = []
        · subst hbn
          rw [List.append_nil] at h
          rw [ha] at h
          simp only [Res.ok.injEq] at h
          rw [h.2, h.1]
          exact hs.1
        have h0 := h
        rw [feedResponse_eq] at h0
        cases hF : feed c (a ++ b) m with
        | hang => rw [hF] at h0; cases h0
        | raise e m2 => rw [hF] at h0; cases h0
        | ok F1 MF =>
          rw [hF] at h0
          simp only at h0
          have hsideF := feed_side (c := c) (t := a ++ b) hi
          rw [hF] at hsideF
          have hSF : Splittable (.ok F1 MF) := by
            cases hx : is100 MF with
            | false => rw [hx] at h0; simp only [Bool.false_eq_true, if_false] at h0; cases h0; exact hs.1
            | true =>
              have hm := (is100_mode hx).1
              exact ⟨by rw [hm]; simp, gzip_100 hx (Eq.trans hsideF hside), by simp [fellBack, hm]⟩
          obtain ⟨l1, m1', g1, g2, l3, g3, g4⟩ := splittable_prefix hi hu hF hSF
          rw [feedResponse_eq, g1] at ha
          simp only at ha
          cases hx : is100 m1' with
          | false => rw [hx] at ha; simp only [Bool.false_eq_true, if_false] at ha; cases ha; exact g2
          | true =>
            rw [hx] at ha
            simp only [if_true] at ha
            rw [feed_end c b (Or.inl (is100_mode hx).1)] at g3
            cases g3
            rw [hx] at h0
            simp only [if_true] at h0
            rw [g4] at h0
            obtain ⟨l5, m5, k1, k2, _⟩ := splittable_prefix (restart_inv (feed_inv hi g1).1) (Unframed.restart _) h0 hs.1
            rw [ha] at k1
            cases k1
            exact k2
      · intro l' m' he
        cases he
        by_cases hbn : b = []
        · subst hbn
          rw [List.append_nil] at h
          rw [ha] at h
          simp only [Res.ok.injEq] at h
          rw [h.2]
          exact hs.2 _ _ rfl
        · have := hsp.2 l m1 hbn ha
          intro hx
          rw [show is100 m1 = true by simpa [is100] using hx] at this
          cases this

/-! ### the parser objects -/

theorem message_inv (k : Kind) (ig : List PyStr) : Inv (k.message ig) := by
  cases k with
  | request => exact Inv.request ig
  | response rm => exact Inv.response rm ig

/-- in any pieces -/
theorem kind_pieces (c : Codec) (k : Kind) (ig : List PyStr) (ts : List Bytes) (h : k.Splittable (k.feed c ts.flatten (k.message ig))) :
    feedAll (k.feed c) ts (k.message ig) = k.feed c ts.flatten (k.message ig) := by
  cases k with
  | request => exact feed_pieces c ts _ (Inv.request ig) h
  | response rm => exact feedResponse_pieces c ts _ rm (Inv.response rm ig) rfl rfl h

theorem kind_prefix (c : Codec) (k : Kind) (ig : List PyStr) (a b L : Bytes) (M : Msg) (h : k.feed c (a ++ b) (k.message ig) = .ok L M)
    (hs : k.Splittable (.ok L M)) :
    ∃ l m1, k.feed c a (k.message ig) = .ok l m1 ∧ k.Splittable (.ok l m1) ∧ ∃ l2, k.feed c b m1 = .ok l2 M ∧ L = l ++ l2 := by
  cases k with
  | request => exact splittable_prefix (Inv.request ig) (Unframed.message .request ig) h hs
  | response rm => exact splittableResponse_prefix (Inv.response rm ig) (Unframed.message (.response rm) ig) rfl h hs

theorem close_open {m : Msg} (h : m.mode ≠ .end_) (hc : ¬ (m.mode = .body ∧ m.reader = none)) : m.close.complete = false := by
  unfold Msg.close
  rw [if_neg (by rintro ⟨h1, h2⟩; exact hc ⟨h2, h1⟩), if_pos h]
  cases m.bodyChunks.getLast? with
  | none => rfl
  | some x => rfl

/-- A complete message without leftover: a proper part of it is not complete. -/
theorem kind_truncated (c : Codec) (k : Kind) (ig : List PyStr) (a b : Bytes) (M : Msg) (h : k.feed c (a ++ b) (k.message ig) = .ok [] M)
    (hs : k.Splittable (.ok [] M)) (hM : M.mode = .end_) (hb : b ≠ []) :
    ∃ m1, k.feed c a (k.message ig) = .ok [] m1 ∧ k.Splittable (.ok [] m1) ∧ m1.complete = false ∧ m1.close.complete = false := by
  obtain ⟨l, m1, h1, h2, l2, h3, h4⟩ := kind_prefix c k ig a b [] M h hs
  obtain ⟨rfl, rfl⟩ := List.append_eq_nil_iff.1 h4.symm
  have hne : m1.mode ≠ .end_ := by
    intro hm
    cases k with
    | request =>
      have h3' : feed c b m1 = .ok [] M := h3
      rw [feed_end c b (Or.inl hm)] at h3'
      cases h3'; exact hb rfl
    | response rm =>
      have h3' : feedResponse c b m1 = .ok [] M := h3
      have hx : is100 m1 = false := not_is100 (h2.2 _ _ rfl)
      rw [feedResponse_eq, feed_end c b (Or.inl hm)] at h3'
      simp only [hx, Bool.false_eq_true, if_false] at h3'
      cases h3'; exact hb rfl
  have hnc : ¬ (m1.mode = .body ∧ m1.reader = none) := by
    rintro ⟨e1, e2⟩
    cases k with
    | request =>
      have h3' : feed c b m1 = .ok [] M := h3
      rw [(feed_closing e1 e2 h3').1] at hM; cases hM
    | response rm =>
      have h3' : feedResponse c b m1 = .ok [] M := h3
      rw [feedResponse_eq] at h3'
      cases hf : feed c b m1 with
      | hang => rw [hf] at h3'; cases h3'
      | raise e m2 => rw [hf] at h3'; cases h3'
      | ok l2 m2 =>
        rw [hf] at h3'
        have hcl := feed_closing e1 e2 hf
        have : is100 m2 = false := by simp [is100, Msg.complete, hcl.1]
        simp only [this, Bool.false_eq_true, if_false] at h3'
        cases h3'
        rw [hcl.1] at hM; cases hM
  refine ⟨m1, h1, h2, ?_, close_open hne hnc⟩
  simp [Msg.complete, hne]

end Warc.Http
