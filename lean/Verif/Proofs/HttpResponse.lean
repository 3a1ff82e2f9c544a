import Verif.Proofs.HttpWhole
/-
  Responses: interim responses are skipped.
-/
set_option linter.all false
namespace Warc.Http
open Rx

/-! ### a header object stays a request or response header -/

theorem addHeader_side (n v : Bytes) (h : Hdr) : Post (addHeader n v h) (fun h' => h'.side = h.side ∧ h'.code = h.code) := by
  simp only [addHeader, M.modify_apply, Post]
  cases hs : h.side with
  | response rm => simp [hs]
  | request =>
    simp only
    split
    · split <;> simp [hs]
    · simp [hs]

theorem applyHeader_side (n v : Bytes) (h : Hdr) : Post (applyHeader n v h) (fun h' => h'.side = h.side ∧ h'.code = h.code) := by
  simp only [applyHeader, M.bind_apply, M.get_apply]
  by_cases h1 : h.ignore.contains (.bytes n) = true
  · rw [if_pos h1]; exact ⟨rfl, rfl⟩
  rw [if_neg h1]
  by_cases h2 : n = b! "expect"
  · rw [if_pos h2]; split <;> exact ⟨rfl, rfl⟩
  rw [if_neg h2]
  by_cases h4 : n = b! "content-length"
  · rw [if_pos h4]
    by_cases h5 : h.mode = .close
    · rw [if_pos h5]; cases h6 : pyInt 10 v <;> exact ⟨rfl, rfl⟩
    · rw [if_neg h5]; exact ⟨rfl, rfl⟩
  rw [if_neg h4]
  by_cases h7 : n = b! "transfer-encoding"
  · rw [if_pos h7]; split <;> exact ⟨rfl, rfl⟩
  rw [if_neg h7]
  by_cases h9 : n = b! "content-encoding"
  · rw [if_pos h9]; exact ⟨rfl, rfl⟩
  rw [if_neg h9]
  by_cases h10 : n = b! "connection"
  · rw [if_pos h10]
    split
    · exact ⟨rfl, rfl⟩
    · split <;> exact ⟨rfl, rfl⟩
  · rw [if_neg h10]; exact ⟨rfl, rfl⟩

theorem applyHeaders_side (hs : List Header) (h : Hdr) : Post (applyHeaders hs h) (fun h' => h'.side = h.side ∧ h'.code = h.code) := by
  induction hs generalizing h with
  | nil => simp [applyHeaders, Post]
  | cons x hs ih =>
    obtain ⟨n, v⟩ := x
    simp only [applyHeaders]
    refine Post.bind (applyHeader_side _ _ h) ?_ (fun _ h => h)
    intro a s hs
    exact (ih s).mono fun s' hs' => ⟨hs'.1.trans hs.1, hs'.2.trans hs.2⟩

theorem addHeaderLine_side (line : Bytes) (h : Hdr) : Post (addHeaderLine line h) (fun h' => h'.side = h.side ∧ h'.code = h.code) := by
  simp only [addHeaderLine, M.bind_apply, M.get_apply]
  by_cases h1 : isFold line = true
  · simp only [h1, if_true]
    cases h.headers.getLast? with
    | none => simp [Post]
    | some kv =>
      simp only [M.bind_apply, M.modify_apply]
      exact addHeader_side kv.1 (kv.2 ++ [32] ++ strip line) { h with headers := h.headers.dropLast }
  · simp only [h1, Bool.false_eq_true, if_false]
    by_cases h2 : isNewline line = true
    · simp only [h2, if_true]; exact applyHeaders_side _ _
    · simp only [h2, Bool.false_eq_true, if_false]
      cases splitOnce 58 line with
      | none => simp [Post]
      | some nv => exact addHeader_side _ _ _

theorem setStartLine_side (line : Bytes) (h : Hdr) : Post (setStartLine line h) (fun h' => h'.side = h.side) := by
  simp only [setStartLine, M.bind_apply, M.get_apply]
  cases hs : h.side with
  | request =>
    simp only [setRequestLine]
    generalize splitMax 32 2 (rstrip line) = L
    match L with
    | [] => simp [Post, hs]
    | [_] => simp [Post, hs]
    | [_, _] => simp [Post, hs]
    | _ :: _ :: _ :: _ :: _ => simp [Post, hs]
    | [a, b, c] =>
      simp only [M.bind_apply, M.modify_apply]
      by_cases hu : upper a = b! "CONNECT"
      · rw [if_pos hu]
        generalize splitAll 58 b = L
        match L with
        | [] => simp [Post, hs]
        | [_] => simp [Post, hs]
        | [_, _] => simp [Post, hs]
        | _ :: _ :: _ :: _ => simp [Post, hs]
      · rw [if_neg hu]
        cases pmatch urlRx b with
        | none => simp [Post, hs]
        | some mt => simp [Post, hs]
  | response rm =>
    simp only [setStatusLine]
    generalize splitMax 32 2 (rstrip line) = L
    match L with
    | [] => simp [Post, hs]
    | [_] => simp [Post, hs]
    | a :: b :: more =>
      simp only [M.bind_apply, M.modify_apply]
      cases pyInt 10 b <;> simp [Post, hs]

theorem FH_side {t : Bytes} {m : Msg} (hi : LineInv m) : Post (FH t m) (fun m' => m'.header.side = m.header.side ∧ m'.header.code = m.header.code) := by
  match hn : t.length with
  | n =>
  induction n using Nat.strongRecOn generalizing t m with
  | _ n ih =>
    rcases line_cases t with h1 | ⟨u, rest, h1, rfl⟩
    · rw [FH_none hi h1]; exact ⟨rfl, rfl⟩
    · rw [FH_line hi rest h1]
      have hp := onHeader_post (m := took m (u ++ [10])) (addHeaderLine_side (pend m ++ u ++ [10]) m.header)
      cases hh : onHeader (addHeaderLine (pend m ++ u ++ [10])) (took m (u ++ [10])) with
      | hang => trivial
      | raise e m1 => rw [hh] at hp; exact hp.1
      | ok x m1 =>
        rw [hh] at hp
        simp only
        by_cases hnl : isNewline (pend m ++ u ++ [10]) = true
        · simp only [hnl, if_true]; exact hp.1
        · simp only [hnl, Bool.false_eq_true, if_false]
          have := ih rest.length (by rw [← hn]; simp; omega) (t := rest) (onHeader_inv hh (.took _ _)) rfl
          exact this.mono fun s hs => ⟨hs.1.trans hp.1.1, hs.2.trans hp.1.2⟩

theorem afterHeaders_header {c : Codec} {l : Bytes} {m : Msg} (hi : LineInv m) (hm : m.mode = .body) :
    Post (afterHeaders c l m) (fun m' => SameButTrailers m.header m'.header) := by
  have hs := setupBody_spec c l hm
  unfold afterHeaders
  cases hb : setupBody c l m with
  | hang => trivial
  | raise e m1 => rw [hb] at hs; simp only [Post]; rw [hs.1]; exact .refl _
  | ok x m1 =>
    rw [hb] at hs
    have hh := stageBody_header l m1 (hs.inv hi)
    rw [hs.header] at hh
    exact hh

/-- from the headers on -/
theorem feed_headers_post {c : Codec} {t : Bytes} {m : Msg} (hi : LineInv m) (hm : m.mode = .headers) :
    Post (feed c t m) (fun m' => m'.header.side = m.header.side ∧ m'.header.code = m.header.code) := by
  rw [feed_headers c t hi hm]
  have hp := FH_side (t := t) hi
  cases hf : FH t m with
  | hang => trivial
  | raise e m1 => rw [hf] at hp; exact hp
  | ok l m1 =>
    rw [hf] at hp
    simp only
    split
    · rename_i hb
      have := afterHeaders_header (c := c) (l := l) (FH_inv hi hm hf).1 hb
      exact this.mono fun s hs => by rw [hs]; exact hp
    · exact hp

theorem feed_headers_mode {c : Codec} {t l : Bytes} {m m' : Msg} (hi : LineInv m) (hm : m.mode = .headers) (h : feed c t m = .ok l m') :
    m'.mode ≠ .start ∧ m'.mode ≠ .incomplete := by
  rw [feed_headers c t hi hm] at h
  cases hf : FH t m with
  | hang => rw [hf] at h; cases h
  | raise e m1 => rw [hf] at h; cases h
  | ok l1 m1 =>
    rw [hf] at h
    have hfi := FH_inv hi hm hf
    simp only at h
    by_cases hb : m1.mode = .body
    · rw [if_pos hb] at h
      rcases (afterHeaders_inv hfi.1 hb h).2 with h2 | h2
      · rw [h2.1]; simp
      · rw [h2]; simp
    · rw [if_neg hb] at h
      cases h
      rcases hfi.2.2.2 with h2 | h2
      · exact absurd h2 hb
      · rw [h2.1]; simp

theorem feed_side {c : Codec} {t : Bytes} {m : Msg} (hi : Inv m) : Post (feed c t m) (fun m' => m'.header.side = m.header.side) := by
  cases hm : m.mode with
  | end_ => rw [feed_end c t (Or.inl hm)]; rfl
  | incomplete => rw [feed_end c t (Or.inr hm)]; rfl
  | body =>
    rw [feed_body c t hm]
    exact (stageBody_header t m hi).mono fun s hs => by rw [hs]
  | headers => exact (feed_headers_post hi.line hm).mono fun s hs => hs.1
  | start =>
    rcases line_cases t with h1 | ⟨u, rest, h1, rfl⟩
    · rw [feed_start_none c hi.line hm h1]; rfl
    · rw [feed_start_line c rest hi.line hm h1]
      by_cases hnl : isNewline (pend m ++ u ++ [10]) = true
      · rw [if_pos hnl]; rfl
      · rw [if_neg hnl]
        have hp := onHeader_post (m := took m (u ++ [10])) (setStartLine_side (pend m ++ u ++ [10]) m.header)
        cases hh : onHeader (setStartLine (pend m ++ u ++ [10])) (took m (u ++ [10])) with
        | hang => trivial
        | raise e m1 => rw [hh] at hp; exact hp.1
        | ok x m1 =>
          rw [hh] at hp
          exact (feed_headers_post (m := { m1 with mode := .headers }) ((onHeader_inv hh (.took _ _)).congr rfl rfl) rfl).mono
            fun s hs => hs.1.trans hp.1

/-- text given back after an empty first line stays given back -/
theorem feed_stuck {c : Codec} {a b l : Bytes} {m m1 : Msg} (hi : Inv m) (h : feed c a m = .ok l m1) (hs : m1.mode = .start) (hl : l ≠ []) :
    feed c (a ++ b) m = .ok (l ++ b) m1 := by
  cases hm : m.mode with
  | end_ => rw [feed_end c a (Or.inl hm)] at h; cases h; rw [hm] at hs; cases hs
  | incomplete => rw [feed_end c a (Or.inr hm)] at h; cases h; rw [hm] at hs; cases hs
  | body =>
    rw [feed_body c a hm] at h
    rcases (stageBody_inv hi h).2.2 with h2 | h2
    · rw [hs, hm] at h2; cases h2
    · rw [hs] at h2; cases h2
  | headers => exact absurd hs (feed_headers_mode hi.line hm h).1
  | start =>
    rcases line_cases a with h1 | ⟨u, rest, h1, rfl⟩
    · rw [feed_start_none c hi.line hm h1] at h; cases h; exact absurd rfl hl
    · rw [List.append_assoc, List.cons_append, feed_start_line c (rest ++ b) hi.line hm h1]
      rw [feed_start_line c rest hi.line hm h1] at h
      by_cases hnl : isNewline (pend m ++ u ++ [10]) = true
      · rw [if_pos hnl] at h ⊢; cases h; rfl
      · rw [if_neg hnl] at h
        cases hh : onHeader (setStartLine (pend m ++ u ++ [10])) (took m (u ++ [10])) with
        | hang => rw [hh] at h; cases h
        | raise e m2 => rw [hh] at h; cases h
        | ok x m2 =>
          rw [hh] at h
          exact absurd hs (feed_headers_mode (m := { m2 with mode := .headers }) ((onHeader_inv hh (.took _ _)).congr rfl rfl) rfl h).1

/-! ### responses -/

/-- the message starts again after an interim response -/
def restart (m : Msg) : Msg :=
  { m with
    interim := m.interim ++ [m.header],
    header := match m.header.side with
      | .response rm => Hdr.response rm []
      | .request => Hdr.request [],
    bodyChunks := [], mode := .start, reader := none }

/-- a complete interim response -/
def is100 (m : Msg) : Bool := m.complete && m.header.code == 100

theorem feedResponse_eq (c : Codec) (t : Bytes) (m : Msg) :
    feedResponse c t m = match feed c t m with
      | .ok l m1 => if is100 m1 then feed c l (restart m1) else .ok l m1
      | .raise e m1 => .raise e m1
      | .hang => .hang := by
  simp only [feedResponse, M.bind_apply]
  cases feed c t m with
  | hang => rfl
  | raise e m1 => rfl
  | ok l m1 =>
    simp only [M.get_apply]
    unfold is100
    split <;> rfl

theorem is100_mode {m : Msg} (h : is100 m = true) : m.mode = .end_ ∧ m.header.code = 100 := by
  simpa [is100, Msg.complete] using h

theorem restart_inv {m : Msg} (h : Inv m) : Inv (restart m) :=
  ⟨h.line.congr rfl rfl, by simp [restart], by simp [restart]⟩

theorem not_is100 {m : Msg} (h : ¬ (m.complete = true ∧ m.header.code = 100)) : is100 m = false := by
  cases hx : is100 m with
  | false => rfl
  | true => exact absurd (by simpa [is100] using hx) h

theorem gzip_100 {m : Msg} {rm : PyStr} (h : is100 m = true) (hs : m.header.side = .response rm) : gzipBody m.header = false := by
  simp [gzipBody, Hdr.hasBody, hs, (is100_mode h).2, noBodyCode]

theorem feedResponse_split (c : Codec) (a b : Bytes) (m : Msg) (rm : PyStr) (hi : Inv m) (hs : m.header.side = .response rm)
    (h : SplittableResponse (feedResponse c (a ++ b) m)) :
    feedResponse c (a ++ b) m = andThen (feedResponse c a m) (feedResponse c b) ∧
    ∀ l m1, b ≠ [] → feedResponse c a m = .ok l m1 → is100 m1 = false := by
  have hF : Splittable (feed c (a ++ b) m) := by
    have h1 := h.1
    rw [feedResponse_eq] at h1
    have hside := feed_side (c := c) (t := a ++ b) hi
    cases hf : feed c (a ++ b) m with
    | hang => trivial
    | raise e m1 => rw [hf] at h1; exact h1
    | ok L M =>
      rw [hf] at h1 hside
      simp only at h1
      cases hx : is100 M with
      | false => rw [hx] at h1; exact h1
      | true =>
        have hm := (is100_mode hx).1
        exact ⟨by rw [hm]; simp, gzip_100 hx (hside.trans hs), by simp [fellBack, hm]⟩
  have hsp := feed_split c a b m hi hF
  rw [feedResponse_eq c (a ++ b) m] at h ⊢
  rw [feedResponse_eq c a m]
  cases ha : feed c a m with
  | hang => rw [ha] at hsp; rw [hsp]; exact ⟨rfl, by simp⟩
  | raise e m1 => rw [ha] at hsp; rw [hsp]; exact ⟨rfl, by simp⟩
  | ok l m1 =>
    rw [ha] at hsp
    have hi1 := (feed_inv hi ha)
    cases hx : is100 m1 with
    | true =>
      have hm := (is100_mode hx).1
      simp only [andThen, feed_end c b (Or.inl hm)] at hsp
      rw [hsp] at h ⊢
      simp only [hx, if_true] at h ⊢
      rw [feed_split c l b (restart m1) (restart_inv hi1.1) h.1]
      have h' := h
      rw [feed_split c l b (restart m1) (restart_inv hi1.1) h.1] at h'
      cases hl : feed c l (restart m1) with
      | hang => exact ⟨rfl, by simp⟩
      | raise e m2 => exact ⟨rfl, by simp⟩
      | ok l2 m2 =>
        rw [hl] at h'
        simp only [andThen, feedResponse_eq] at h' ⊢
        constructor
        · cases hb : feed c b m2 with
          | hang => rfl
          | raise e m3 => rfl
          | ok l3 m3 =>
            rw [hb] at h'
            simp only [not_is100 (h'.2 _ _ rfl), Bool.false_eq_true, if_false]
        · intro l3 m3 _ h3
          cases h3
          cases hx2 : is100 m2 with
          | false => rfl
          | true =>
            rw [feed_end c b (Or.inl (is100_mode hx2).1)] at h'
            rw [not_is100 (h'.2 _ _ rfl)] at hx2; cases hx2
    | false =>
      refine ⟨?_, by intro l3 m3 _ h3; simp only [hx, Bool.false_eq_true, if_false] at h3; cases h3; exact hx⟩
      simp only [hx, Bool.false_eq_true, if_false, andThen, feedResponse_eq]
      rw [hsp]
      simp only [andThen]
      cases hb : feed c b m1 with
      | hang => rfl
      | raise e m3 => rfl
      | ok l3 M =>
        simp only
        cases hM : is100 M with
        | false => simp
        | true =>
          simp only [if_true]
          have hl : l = [] := by
            by_cases hl : l = []
            · exact hl
            · exfalso
              rcases hi1.2 hl with h1 | h1 | h1
              · rw [feed_end c b (Or.inl h1)] at hb; cases hb; rw [hx] at hM; cases hM
              · have := feed_stuck (b := b) hi ha h1 hl
                rw [hsp] at this
                simp only [andThen, hb, Res.ok.injEq] at this
                rw [this.2, hx] at hM; cases hM
              · rw [feed_end c b (Or.inr h1)] at hb; cases hb; rw [hx] at hM; cases hM
          subst hl
          simp only [List.nil_append]
          cases feed c l3 (restart M) <;> rfl

theorem feedResponse_inv {c : Codec} {t l : Bytes} {m m' : Msg} (hi : Inv m) (h : feedResponse c t m = .ok l m') : Inv m' := by
  rw [feedResponse_eq] at h
  cases hf : feed c t m with
  | hang => rw [hf] at h; cases h
  | raise e m1 => rw [hf] at h; cases h
  | ok l1 m1 =>
    rw [hf] at h
    simp only at h
    have := (feed_inv hi hf).1
    split at h
    · exact (feed_inv (restart_inv this) h).1
    · cases h; exact this

theorem feedResponse_side {c : Codec} {t l : Bytes} {m m' : Msg} {rm : PyStr} (hi : Inv m) (hs : m.header.side = .response rm)
    (h : feedResponse c t m = .ok l m') : m'.header.side = .response rm := by
  rw [feedResponse_eq] at h
  have hp := feed_side (c := c) (t := t) hi
  cases hf : feed c t m with
  | hang => rw [hf] at h; cases h
  | raise e m1 => rw [hf] at h; cases h
  | ok l1 m1 =>
    rw [hf] at h hp
    simp only at h
    have hs1 : m1.header.side = .response rm := by rw [← hs]; exact hp
    split at h
    · have := feed_side (c := c) (t := l1) (restart_inv (feed_inv hi hf).1)
      rw [h] at this
      rw [show m'.header.side = (restart m1).header.side from this]
      simp [restart, hs1, Hdr.response]
    · cases h; exact hs1

theorem feedResponse_nil (c : Codec) (m : Msg) (h : is100 m = false) : feedResponse c [] m = .ok [] m := by
  rw [feedResponse_eq, feed_nil]; simp [h]

theorem feedResponse_pieces (c : Codec) (ts : List Bytes) (m : Msg) (rm : PyStr) (hi : Inv m) (hs : m.header.side = .response rm)
    (h0 : is100 m = false)
    (h : SplittableResponse (feedResponse c ts.flatten m)) :
    feedAll (feedResponse c) ts m = feedResponse c ts.flatten m := by
  induction ts generalizing m with
  | nil => simp [feedAll, feedResponse_nil c m h0]
  | cons t ts ih =>
    rw [List.flatten_cons] at h ⊢
    have hsp := feedResponse_split c t ts.flatten m rm hi hs h
    have hw2 := h.2
    rw [feedAll_cons, hsp.1]
    apply andThen_congr
    intro l m1 h1
    rw [hsp.1, h1] at h
    have hrest : SplittableResponse (feedResponse c ts.flatten m1) := by
      refine ⟨splittable_rest h.1, ?_⟩
      intro l2 m2 h2
      have := h.2
      simp only [andThen, h2] at this
      exact this _ _ rfl
    cases hx : is100 m1 with
    | true =>
      by_cases hb : ts.flatten = []
      · exfalso
        rw [hb, List.append_nil] at hw2
        exact hw2 l m1 h1 (by simpa [is100] using hx)
      · rw [hsp.2 l m1 hb h1] at hx; cases hx
    | false => exact ih m1 (feedResponse_inv hi h1) (feedResponse_side hi hs h1) hx hrest

end Warc.Http
