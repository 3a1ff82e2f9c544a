import Verif.Proofs.HttpFeed
/-
  `feed` in any pieces.
-/
set_option linter.all false
namespace Warc.Http

/-! ### the headers -/

theorem FH_inv {t l : Bytes} {m m' : Msg} (hi : LineInv m) (hm : m.mode = .headers) (h : FH t m = .ok l m') :
    LineInv m' ∧ m'.reader = m.reader ∧ m'.bodyChunks = m.bodyChunks ∧ (m'.mode = .body ∨ (m'.mode = .headers ∧ l = [])) := by
  match hn : t.length with
  | n =>
  induction n using Nat.strongRecOn generalizing t m with
  | _ n ih =>
    rcases line_cases t with h1 | ⟨u, rest, h1, rfl⟩
    · rw [FH_none hi h1] at h
      cases h
      exact ⟨hi.ext h1, rfl, rfl, Or.inr ⟨hm, rfl⟩⟩
    · rw [FH_line hi rest h1] at h
      cases hh : onHeader (addHeaderLine (pend m ++ u ++ [10])) (took m (u ++ [10])) with
      | hang => rw [hh] at h; cases h
      | raise e m1 => rw [hh] at h; cases h
      | ok x m1 =>
        rw [hh] at h
        simp only at h
        have hk := onHeader_ok hh
        by_cases hnl : isNewline (pend m ++ u ++ [10]) = true
        · simp only [hnl, if_true] at h
          cases h
          refine ⟨(onHeader_inv hh (.took _ _)).congr rfl rfl, ?_, ?_, Or.inl rfl⟩
          · show m1.reader = _; rw [hk]; rfl
          · show m1.bodyChunks = _; rw [hk]; rfl
        · simp only [hnl, Bool.false_eq_true, if_false] at h
          have := ih rest.length (by rw [← hn]; simp; omega) (onHeader_inv hh (.took _ _)) (by rw [onHeader_mode hh]; exact hm) h rfl
          refine ⟨this.1, ?_, ?_, this.2.2.2⟩
          · rw [this.2.1, hk]; rfl
          · rw [this.2.2.1, hk]; rfl

theorem setupBody_skip (c : Codec) (t : Bytes) {m : Msg} (h : m.mode ≠ .body) : setupBody c t m = .ok () m := by
  simp [setupBody, h]

theorem setupBody_nobody (c : Codec) (t : Bytes) {m : Msg} (h : m.mode = .body) (hb : m.header.hasBody = false) :
    setupBody c t m = .ok () { m with mode := .end_ } := by
  simp [setupBody, h, hb]

theorem setupBody_chunked (c : Codec) (t : Bytes) {m : Msg} (h : m.mode = .body) (hb : m.header.hasBody = true) (hc : m.header.mode = .chunked) :
    setupBody c t m = .ok () { m with reader := some (.chunk {}) } := by
  simp [setupBody, h, hb, Hdr.bodyIsChunked, hc]

theorem setupBody_close (c : Codec) (t : Bytes) {m : Msg} (h : m.mode = .body) (hb : m.header.hasBody = true) (hc : m.header.mode ≠ .chunked)
    (hl : m.header.bodyLength = none) :
    setupBody c t m = .ok () { m with bodyChunks := [(m.offset, 0)], reader := none } := by
  simp [setupBody, h, hb, Hdr.bodyIsChunked, hc, hl]

theorem gzipBody_length {h : Hdr} {n : Int} (hl : h.bodyLength = some n) (hb : h.hasBody = true) :
    gzipBody h = gzipEncoded h.encoding := by
  unfold Hdr.bodyLength at hl
  split at hl
  · rename_i hm; simp [gzipBody, hb, hm]
  · cases hl

theorem bodyLength_mode {h : Hdr} {n : Int} (hl : h.bodyLength = some n) : h.mode = .length := by
  unfold Hdr.bodyLength at hl
  split at hl
  · assumption
  · cases hl

theorem setupBody_length (c : Codec) (t : Bytes) {m : Msg} (h : m.mode = .body) (hb : m.header.hasBody = true) {n : Int}
    (hl : m.header.bodyLength = some n) (hg : gzipBody m.header = false) :
    setupBody c t m = .ok () { m with reader := some (.length n), bodyChunks := [(m.offset, n)], mode := if n = 0 then .end_ else m.mode } := by
  rw [gzipBody_length hl hb] at hg
  simp only [setupBody, M.bind_apply, M.get_apply, h, if_true, hb, Hdr.bodyIsChunked, bodyLength_mode hl, Bool.not_true, Bool.false_eq_true, if_false, hl, hg, M.modify_apply]
  simp [h]

theorem setupBody_gzip (c : Codec) (t : Bytes) {m : Msg} (h : m.mode = .body) {n : Int}
    (hl : m.header.bodyLength = some n) (hg : gzipBody m.header = true) :
    setupBody c t m = match c.dec (sliceTo t n) with
      | (d, none) => .ok () { m with reader := some (.zip (some d) d.length), bodyChunks := [(m.offset, d.length)], mode := if (d.length : Int) = 0 then .end_ else m.mode }
      | (_, some .osError) => .ok () { m with reader := some (.zip none t.length), bodyChunks := [(m.offset, t.length)], mode := if (t.length : Int) = 0 then .end_ else m.mode }
      | (_, some e) => .raise e m := by
  have hb : m.header.hasBody = true := by
    unfold gzipBody at hg
    revert hg
    cases m.header.hasBody <;> simp
  rw [gzipBody_length hl hb] at hg
  simp only [setupBody, M.bind_apply, M.get_apply, h, if_true, hb, Hdr.bodyIsChunked, bodyLength_mode hl, Bool.not_true, Bool.false_eq_true, if_false, hl, hg, M.modify_apply]
  cases hd : c.dec (sliceTo t n) with
  | mk d e =>
    cases e with
    | none => simp [h]
    | some e => cases e <;> simp [h]

/-- what the choice of the body reader does to the message -/
structure Setup (m m' : Msg) : Prop where
  buffer : m'.buffer = m.buffer
  offset : m'.offset = m.offset
  header : m'.header = m.header
  mode : m'.mode = .body ∨ m'.mode = .end_
  chunk : m'.mode = .body → ∀ cr, m'.reader = some (.chunk cr) → cr = {} ∧ m.header.mode = .chunked
  zip : m'.mode = .body → ∀ z n, m'.reader = some (.zip z n) → gzipBody m.header = true

theorem setupBody_spec (c : Codec) (t : Bytes) {m : Msg} (h : m.mode = .body) :
    match setupBody c t m with
    | .ok _ m' => Setup m m'
    | .raise _ m' => m' = m ∧ gzipBody m.header = true
    | .hang => False := by
  cases hb : m.header.hasBody with
  | false =>
    rw [setupBody_nobody c t h hb]
    exact ⟨rfl, rfl, rfl, Or.inr rfl, by simp, by simp⟩
  | true =>
    by_cases hc : m.header.mode = .chunked
    · rw [setupBody_chunked c t h hb hc]
      exact ⟨rfl, rfl, rfl, Or.inl h, by intro _ cr hr; simp at hr; exact ⟨hr.symm, hc⟩, by simp⟩
    · cases hl : m.header.bodyLength with
      | none =>
        rw [setupBody_close c t h hb hc hl]
        exact ⟨rfl, rfl, rfl, Or.inl h, by simp, by simp⟩
      | some n =>
        cases hg : gzipBody m.header with
        | false =>
          rw [setupBody_length c t h hb hl hg]
          refine ⟨rfl, rfl, rfl, ?_, by simp, by simp⟩
          simp only; split <;> simp [h]
        | true =>
          rw [setupBody_gzip c t h hl hg]
          cases hd : c.dec (sliceTo t n) with
          | mk d e =>
            cases e with
            | none =>
              refine ⟨rfl, rfl, rfl, ?_, by simp, fun _ _ _ _ => hg⟩
              simp only; split <;> simp [h]
            | some e =>
              cases e <;> first | exact ⟨rfl, rfl⟩ | skip
              refine ⟨rfl, rfl, rfl, ?_, by simp, fun _ _ _ _ => hg⟩
              simp only; split <;> simp [h]

theorem setupBody_congr (c : Codec) (t t' : Bytes) {m : Msg} (h : m.mode = .body) (hg : gzipBody m.header = false) :
    setupBody c t m = setupBody c t' m := by
  cases hb : m.header.hasBody with
  | false => rw [setupBody_nobody c t h hb, setupBody_nobody c t' h hb]
  | true =>
    by_cases hc : m.header.mode = .chunked
    · rw [setupBody_chunked c t h hb hc, setupBody_chunked c t' h hb hc]
    · cases hl : m.header.bodyLength with
      | none => rw [setupBody_close c t h hb hc hl, setupBody_close c t' h hb hc hl]
      | some n => rw [setupBody_length c t h hb hl hg, setupBody_length c t' h hb hl hg]

/-! ### the three stages together -/

/-- the body reader is chosen and gets the text that follows the headers -/
def afterHeaders (c : Codec) (l : Bytes) (m : Msg) : Res Msg Bytes :=
  match setupBody c l m with
  | .ok _ m' => stageBody l m'
  | .raise e m' => .raise e m'
  | .hang => .hang

theorem feed_end (c : Codec) (t : Bytes) {m : Msg} (h : m.mode = .end_ ∨ m.mode = .incomplete) : feed c t m = .ok t m := by
  rcases h with h | h <;> simp [feed, stageStart, stageHeaders, stageBody, h]

theorem feed_nil (c : Codec) (m : Msg) : feed c [] m = .ok [] m := by
  simp [feed, stageStart, stageHeaders, stageBody]

theorem feed_body (c : Codec) (t : Bytes) {m : Msg} (h : m.mode = .body) : feed c t m = stageBody t m := by
  simp [feed, stageStart, stageHeaders, h]

theorem feed_headers (c : Codec) (t : Bytes) {m : Msg} (hi : LineInv m) (h : m.mode = .headers) :
    feed c t m = match FH t m with
      | .ok l m' => if m'.mode = .body then afterHeaders c l m' else .ok l m'
      | .raise e m' => .raise e m'
      | .hang => .hang := by
  by_cases ht : t = []
  · subst ht; rw [feed_nil, FH_nil]; simp [h]
  · have hs : stageHeaders c t m = match FH t m with
      | .ok l m' => (match setupBody c l m' with
        | .ok _ m' => .ok l m'
        | .raise e m' => .raise e m'
        | .hang => .hang)
      | .raise e m' => .raise e m'
      | .hang => .hang := by
      simp only [stageHeaders, M.bind_apply, M.get_apply, ht, ne_eq, not_false_eq_true, h, and_self, if_true, M.pure_apply]
      rw [show feedHeaders (feedFuel m t) t m = FH t m from rfl]
      cases FH t m with
      | ok l m1 => simp only; cases setupBody c l m1 <;> rfl
      | raise e m1 => rfl
      | hang => rfl
    simp only [feed, M.bind_apply, stageStart, M.get_apply, h, reduceCtorEq, and_false, if_false, M.pure_apply, hs]
    cases hf : FH t m with
    | hang => rfl
    | raise e m' => rfl
    | ok l m' =>
      simp only
      split
      · rename_i a s hs2
        by_cases hm' : m'.mode = .body
        · rw [if_pos hm', afterHeaders]
          cases hx : setupBody c l m' with
          | ok a2 s2 => rw [hx] at hs2; cases hs2; rfl
          | raise e s2 => rw [hx] at hs2; cases hs2
          | hang => rw [hx] at hs2; cases hs2
        · rw [if_neg hm']
          rw [setupBody_skip c l hm'] at hs2
          cases hs2
          exact stageBody_skip _ hm'
      · rename_i e s hs2
        by_cases hm' : m'.mode = .body
        · rw [if_pos hm', afterHeaders]
          cases hx : setupBody c l m' with
          | ok a2 s2 => rw [hx] at hs2; cases hs2
          | raise e s2 => rw [hx] at hs2; cases hs2; rfl
          | hang => rw [hx] at hs2; cases hs2
        · rw [setupBody_skip c l hm'] at hs2; cases hs2
      · rename_i hs2
        by_cases hm' : m'.mode = .body
        · rw [if_pos hm', afterHeaders]
          cases hx : setupBody c l m' with
          | ok a2 s2 => rw [hx] at hs2; cases hs2
          | raise e s2 => rw [hx] at hs2; cases hs2
          | hang => rfl
        · rw [setupBody_skip c l hm'] at hs2; cases hs2

theorem feed_start_none (c : Codec) {t : Bytes} {m : Msg} (hi : LineInv m) (h : m.mode = .start) (ht : 10 ∉ t) :
    feed c t m = .ok [] (ext m t) := by
  by_cases h0 : t = []
  · subst h0; rw [feed_nil, ext_nil]
  · simp [feed, stageStart, h, h0, feedStart, feedLine_none hi ht, stageHeaders, stageBody]

theorem feed_start_line (c : Codec) {u : Bytes} (rest : Bytes) {m : Msg} (hi : LineInv m) (h : m.mode = .start) (hu : 10 ∉ u) :
    feed c (u ++ 10 :: rest) m =
      if isNewline (pend m ++ u ++ [10]) then .ok rest (took m (u ++ [10]))
      else match onHeader (setStartLine (pend m ++ u ++ [10])) (took m (u ++ [10])) with
        | .ok _ m' => feed c rest { m' with mode := .headers }
        | .raise e m' => .raise e m'
        | .hang => .hang := by
  have hne : u ++ 10 :: rest ≠ [] := by simp
  rw [feed]
  simp only [M.bind_apply, stageStart, M.get_apply, h, hne, ne_eq, not_false_eq_true, and_self, if_true, feedStart, feedLine_some hi rest hu]
  by_cases hnl : isNewline (pend m ++ u ++ [10]) = true
  · simp only [hnl, if_true, M.pure_apply]
    simp [stageHeaders, stageBody, h]
  · simp only [hnl, Bool.false_eq_true, if_false, M.bind_apply]
    cases hh : onHeader (setStartLine (pend m ++ u ++ [10])) (took m (u ++ [10])) with
    | hang => rfl
    | raise e m' => rfl
    | ok x m' =>
      simp only [M.modify_apply, M.pure_apply]
      conv => rhs; rw [feed]
      simp only [M.bind_apply, stageStart, M.get_apply, reduceCtorEq, and_false, if_false, M.pure_apply]

theorem Setup.inv {m m' : Msg} (hs : Setup m m') (hi : LineInv m) : Inv m' where
  line := hi.congr hs.buffer hs.offset
  chunk := fun hb cr hr => by
    obtain ⟨rfl, h⟩ := hs.chunk hb cr hr
    exact ⟨by simp, by rw [hs.header]; exact h, by simp⟩
  zip := fun hb z n hr => by rw [hs.header]; exact hs.zip hb z n hr

theorem afterHeaders_inv {c : Codec} {l r : Bytes} {m m' : Msg} (hi : LineInv m) (hm : m.mode = .body) (h : afterHeaders c l m = .ok r m') :
    Inv m' ∧ (m'.mode = .body ∧ r = [] ∨ m'.mode = .end_) := by
  have hs := setupBody_spec c l hm
  unfold afterHeaders at h
  cases hb : setupBody c l m with
  | hang => rw [hb] at h; cases h
  | raise e m1 => rw [hb] at h; cases h
  | ok x m1 =>
    rw [hb] at h hs
    simp only at h
    have := stageBody_inv (hs.inv hi) h
    refine ⟨this.1, ?_⟩
    rcases this.2.2 with h2 | h2
    · rcases hs.mode with h3 | h3
      · left
        have : m'.mode = .body := by rw [h2, h3]
        exact ⟨this, by simp_all⟩
      · right; rw [h2, h3]
    · exact Or.inr h2

/-- `feed` keeps the invariant; it gives text back only at the end of the message, or after an empty first line -/
theorem feed_inv {c : Codec} {t l : Bytes} {m m' : Msg} (hi : Inv m) (h : feed c t m = .ok l m') :
    Inv m' ∧ (l ≠ [] → m'.mode = .end_ ∨ m'.mode = .start ∨ m'.mode = .incomplete) := by
  have heads : ∀ {t : Bytes} {m : Msg}, LineInv m → m.mode = .headers → feed c t m = .ok l m' →
      Inv m' ∧ (l ≠ [] → m'.mode = .end_ ∨ m'.mode = .start ∨ m'.mode = .incomplete) := by
    intro t m hi hm h
    rw [feed_headers c t hi hm] at h
    cases hf : FH t m with
    | hang => rw [hf] at h; cases h
    | raise e m1 => rw [hf] at h; cases h
    | ok l1 m1 =>
      rw [hf] at h
      simp only at h
      have hfi := FH_inv hi hm hf
      by_cases hb : m1.mode = .body
      · rw [if_pos hb] at h
        have := afterHeaders_inv hfi.1 hb h
        refine ⟨this.1, ?_⟩
        rcases this.2 with ⟨_, h2⟩ | h2
        · intro h3; exact absurd h2 h3
        · intro _; exact Or.inl h2
      · rw [if_neg hb] at h
        cases h
        rcases hfi.2.2.2 with h2 | h2
        · exact absurd h2 hb
        · exact ⟨⟨hfi.1, fun h => absurd h hb, fun h => absurd h hb⟩, fun h => absurd h2.2 h⟩
  cases hm : m.mode with
  | end_ => rw [feed_end c t (Or.inl hm)] at h; cases h; exact ⟨hi, fun _ => Or.inl hm⟩
  | incomplete => rw [feed_end c t (Or.inr hm)] at h; cases h; exact ⟨hi, fun _ => Or.inr (Or.inr hm)⟩
  | body =>
    rw [feed_body c t hm] at h
    have := stageBody_inv hi h
    refine ⟨this.1, fun hl => ?_⟩
    rcases this.2.2 with h2 | h2
    · rw [hm] at h2; exact absurd (this.2.1 h2) hl
    · exact Or.inl h2
  | headers => exact heads hi.line hm h
  | start =>
    rcases line_cases t with h1 | ⟨u, rest, h1, rfl⟩
    · rw [feed_start_none c hi.line hm h1] at h
      cases h
      exact ⟨⟨hi.line.ext h1, by simp [hm], by simp [hm]⟩, by simp⟩
    · rw [feed_start_line c rest hi.line hm h1] at h
      by_cases hnl : isNewline (pend m ++ u ++ [10]) = true
      · rw [if_pos hnl] at h
        cases h
        exact ⟨⟨.took _ _, by simp [hm], by simp [hm]⟩, fun _ => Or.inr (Or.inl hm)⟩
      · rw [if_neg hnl] at h
        cases hh : onHeader (setStartLine (pend m ++ u ++ [10])) (took m (u ++ [10])) with
        | hang => rw [hh] at h; cases h
        | raise e m1 => rw [hh] at h; cases h
        | ok x m1 =>
          rw [hh] at h
          exact heads (m := { m1 with mode := .headers }) ((onHeader_inv hh (.took _ _)).congr rfl rfl) rfl h

theorem gzip_afterHeaders {c : Codec} {l : Bytes} {m : Msg} (hm : m.mode = .body) (hi : LineInv m) (h : Splittable (afterHeaders c l m)) :
    gzipBody m.header = false := by
  cases hg : gzipBody m.header with
  | false => rfl
  | true =>
    exfalso
    have hs := setupBody_spec c l hm
    unfold afterHeaders at h
    cases hb : setupBody c l m with
    | hang => rw [hb] at hs; exact hs
    | raise e m1 =>
      rw [hb] at hs h
      have : gzipBody m1.header = false := h
      rw [hs.1, hg] at this; cases this
    | ok x m1 =>
      rw [hb] at hs h
      simp only at h
      have hh := stageBody_header l m1 (hs.inv hi)
      cases hx : stageBody l m1 with
      | ok r m2 =>
        rw [hx] at hh h
        have h1 : gzipBody m2.header = false := h.2.1
        rw [gzipBody_same hh, hs.header, hg] at h1; cases h1
      | raise e m2 =>
        rw [hx] at hh h
        have h1 : gzipBody m2.header = false := h
        rw [gzipBody_same hh, hs.header, hg] at h1; cases h1
      | hang =>
        -- only the chunk reader can hang
        by_cases hl : l = []
        · subst hl; rw [stageBody_nil] at hx; cases hx
        rcases hs.mode with h3 | h3
        · cases hr : m1.reader with
          | none =>
            rw [stageBody_close hl h3 hr] at hx
            unfold closeFeed at hx
            split at hx <;> cases hx
          | some r =>
            cases r with
            | chunk cr =>
              have := (hs.chunk h3 cr hr).2
              simp [gzipBody, this] at hg
            | length n =>
              rw [stageBody_length hl h3 hr] at hx
              simp only [lengthFeed, M.bind_apply] at hx
              by_cases h0 : 0 < n <;> simp [h0, feedLength] at hx
            | zip z n =>
              rw [stageBody_zip hl h3 hr] at hx
              obtain ⟨_, _, h, _⟩ := zipFeed_ok z n l m1
              rw [h] at hx; cases hx
        · rw [stageBody_skip l (by rw [h3]; simp)] at hx; cases hx

theorem andThen_congr {r : Res Msg Bytes} {k k' : Msg → Res Msg Bytes} (h : ∀ l m, r = .ok l m → k m = k' m) : andThen r k = andThen r k' := by
  cases r with
  | ok l m => simp only [andThen, h l m rfl]
  | raise e m => rfl
  | hang => rfl

theorem afterHeaders_split (c : Codec) (l b : Bytes) (m : Msg) (hi : LineInv m) (hm : m.mode = .body) (h : Splittable (afterHeaders c (l ++ b) m)) :
    afterHeaders c (l ++ b) m = andThen (afterHeaders c l m) (feed c b) := by
  have hg := gzip_afterHeaders hm hi h
  have hs := setupBody_spec c l hm
  unfold afterHeaders at h ⊢
  rw [setupBody_congr c (l ++ b) l hm hg] at h ⊢
  cases hb : setupBody c l m with
  | hang => rfl
  | raise e m1 => rfl
  | ok x m1 =>
    rw [hb] at hs h
    simp only at h ⊢
    rw [stageBody_split l b m1 (hs.inv hi) (by rw [hs.header]; exact hg)]
    · apply andThen_congr
      intro l2 m2 h2
      have := stageBody_inv (hs.inv hi) h2
      have hmm : m2.mode = .body ∨ m2.mode = .end_ := by
        rcases this.2.2 with h3 | h3
        · rw [h3]; exact hs.mode
        · exact Or.inr h3
      rcases hmm with h3 | h3
      · rw [feed_body c b h3]
      · rw [feed_end c b (Or.inl h3), stageBody_skip b (by rw [h3]; simp)]
    · intro l2 m2 h2
      rw [h2] at h
      exact h.2.2

/-- feeding in two parts -/
theorem feed_split (c : Codec) (a b : Bytes) (m : Msg) (hi : Inv m) (h : Splittable (feed c (a ++ b) m)) :
    feed c (a ++ b) m = andThen (feed c a m) (feed c b) := by
  have heads : ∀ {a : Bytes} {m : Msg}, LineInv m → m.mode = .headers → Splittable (feed c (a ++ b) m) →
      feed c (a ++ b) m = andThen (feed c a m) (feed c b) := by
    intro a m hi hm h
    rw [feed_headers c (a ++ b) hi hm] at h ⊢
    rw [feed_headers c a hi hm]
    rw [FH_split a b m hi hm] at h ⊢
    cases hf : FH a m with
    | hang => rfl
    | raise e m1 => rfl
    | ok l m1 =>
      have hfi := FH_inv hi hm hf
      rw [hf] at h
      rcases hfi.2.2.2 with h1 | ⟨h1, rfl⟩
      · simp only [andThen, thenRest, h1, reduceCtorEq, if_false, if_true] at h ⊢
        exact afterHeaders_split c l b m1 hfi.1 h1 h
      · simp only [andThen_ok_nil, thenRest, h1, if_true, reduceCtorEq, if_false]
        rw [feed_headers c b hfi.1 h1]
  by_cases ha : a = []
  · subst ha; rw [feed_nil, andThen_ok_nil]; rfl
  cases hm : m.mode with
  | end_ => rw [feed_end c _ (Or.inl hm), feed_end c _ (Or.inl hm), andThen, feed_end c _ (Or.inl hm)]
  | incomplete => rw [feed_end c _ (Or.inr hm), feed_end c _ (Or.inr hm), andThen, feed_end c _ (Or.inr hm)]
  | body =>
    rw [feed_body c _ hm] at h ⊢
    rw [feed_body c _ hm]
    have hg : stageBody (a ++ b) m ≠ .hang → gzipBody m.header = false := by
      have hh := stageBody_header (a ++ b) m hi
      intro hne
      cases hx : stageBody (a ++ b) m with
      | ok r m2 =>
        rw [hx] at hh h
        rw [← gzipBody_same hh]; exact h.2.1
      | raise e m2 =>
        rw [hx] at hh h
        rw [← gzipBody_same hh]; exact h
      | hang => exact absurd hx hne
    have hg2 : gzipBody m.header = false := by
      by_cases hne : stageBody (a ++ b) m = .hang
      · have hab : a ++ b ≠ [] := by simp [ha]
        cases hr : m.reader with
        | none =>
          rw [stageBody_close hab hm hr] at hne
          unfold closeFeed at hne
          split at hne <;> cases hne
        | some r =>
          cases r with
          | chunk cr => simp [gzipBody, (hi.chunk hm cr hr).2.1]
          | length n =>
            rw [stageBody_length hab hm hr] at hne
            simp only [lengthFeed, M.bind_apply] at hne
            by_cases h0 : 0 < n <;> simp [h0, feedLength] at hne
          | zip z n =>
            rw [stageBody_zip hab hm hr] at hne
            obtain ⟨_, _, h, _⟩ := zipFeed_ok z n (a ++ b) m
            rw [h] at hne; cases hne
      · exact hg hne
    rw [stageBody_split a b m hi hg2]
    · apply andThen_congr
      intro l2 m2 h2
      have := stageBody_inv hi h2
      rcases this.2.2 with h3 | h3
      · rw [hm] at h3; rw [feed_body c b h3]
      · rw [feed_end c b (Or.inl h3), stageBody_skip b (by rw [h3]; simp)]
    · intro l2 m2 h2
      rw [h2] at h
      exact h.2.2
  | headers => exact heads hi.line hm h
  | start =>
    rcases line_cases a with h1 | ⟨u, rest, h1, rfl⟩
    · rw [feed_start_none c hi.line hm h1, andThen_ok_nil]
      rcases line_cases b with h2 | ⟨v, rest, h2, rfl⟩
      · rw [feed_start_none c hi.line hm (by simp [h1, h2]), feed_start_none c (hi.line.ext h1) hm h2, ext_ext]
      · rw [← List.append_assoc, feed_start_line c rest hi.line hm (by simp [h1, h2]), feed_start_line c rest (hi.line.ext h1) hm h2]
        simp only [took_ext, pend_ext hi.line, ← List.append_assoc]
    · rw [List.append_assoc, List.cons_append, feed_start_line c (rest ++ b) hi.line hm h1] at h ⊢
      rw [feed_start_line c rest hi.line hm h1]
      by_cases hnl : isNewline (pend m ++ u ++ [10]) = true
      · rw [if_pos hnl] at h ⊢
        rw [if_pos hnl]
        have : rest ++ b = [] := h.1 hm
        obtain ⟨rfl, rfl⟩ := List.append_eq_nil_iff.1 this
        simp [andThen, feed_nil]
      · rw [if_neg hnl] at h ⊢
        rw [if_neg hnl]
        cases hh : onHeader (setStartLine (pend m ++ u ++ [10])) (took m (u ++ [10])) with
        | hang => rfl
        | raise e m1 => rfl
        | ok x m1 =>
          rw [hh] at h
          exact heads (m := { m1 with mode := .headers }) ((onHeader_inv hh (.took _ _)).congr rfl rfl) rfl h

theorem splittable_rest {l : Bytes} {m : Msg} {k : Msg → Res Msg Bytes} (h : Splittable (andThen (.ok l m) k)) : Splittable (k m) := by
  unfold andThen at h
  simp only at h
  cases hk : k m with
  | ok l2 m2 =>
    rw [hk] at h
    exact ⟨fun hm => (List.append_eq_nil_iff.1 (h.1 hm)).2, h.2⟩
  | raise e m2 => rw [hk] at h; exact h
  | hang => trivial

theorem feedAll_cons (f : Bytes → M Msg Bytes) (t : Bytes) (ts : List Bytes) (m : Msg) :
    feedAll f (t :: ts) m = andThen (f t m) (feedAll f ts) := by
  simp only [feedAll, M.bind_apply, andThen, M.pure_apply]
  cases f t m with
  | ok l m1 => simp only; cases feedAll f ts m1 <;> rfl
  | raise e m1 => rfl
  | hang => rfl

/-- feeding in any number of parts -/
theorem feed_pieces (c : Codec) (ts : List Bytes) (m : Msg) (hi : Inv m) (h : Splittable (feed c ts.flatten m)) :
    feedAll (feed c) ts m = feed c ts.flatten m := by
  induction ts generalizing m with
  | nil => simp [feedAll, feed_nil]
  | cons t ts ih =>
    rw [List.flatten_cons] at h ⊢
    have hs := feed_split c t ts.flatten m hi h
    rw [feedAll_cons, hs]
    apply andThen_congr
    intro l m1 h1
    rw [hs, h1] at h
    exact ih m1 (feed_inv hi h1).1 (splittable_rest h)

theorem Inv.request (ignore : List PyStr) : Inv (Msg.request ignore) :=
  ⟨⟨by simp [Msg.request], by simp [pend, Msg.request]⟩, by simp [Msg.request], by simp [Msg.request]⟩

theorem Inv.response (rm : PyStr) (ignore : List PyStr) : Inv (Msg.response rm ignore) :=
  ⟨⟨by simp [Msg.response], by simp [pend, Msg.response]⟩, by simp [Msg.response], by simp [Msg.response]⟩

/-! ### no byte is lost -/

theorem FH_conserve {t l : Bytes} {m m' : Msg} (hi : LineInv m) (h : FH t m = .ok l m') : m'.buffer ++ l = m.buffer ++ t := by
  match hn : t.length with
  | n =>
  induction n using Nat.strongRecOn generalizing t m with
  | _ n ih =>
    rcases line_cases t with h1 | ⟨u, rest, h1, rfl⟩
    · rw [FH_none hi h1] at h
      cases h
      simp [ext]
    · rw [FH_line hi rest h1] at h
      cases hh : onHeader (addHeaderLine (pend m ++ u ++ [10])) (took m (u ++ [10])) with
      | hang => rw [hh] at h; cases h
      | raise e m1 => rw [hh] at h; cases h
      | ok x m1 =>
        rw [hh] at h
        simp only at h
        have hk : m1.buffer = m.buffer ++ (u ++ [10]) := by rw [onHeader_ok hh]; rfl
        by_cases hnl : isNewline (pend m ++ u ++ [10]) = true
        · simp only [hnl, if_true] at h
          cases h
          simp [hk]
        · simp only [hnl, Bool.false_eq_true, if_false] at h
          rw [ih rest.length (by rw [← hn]; simp; omega) (onHeader_inv hh (.took _ _)) h rfl, hk]
          simp

theorem afterHeaders_conserve {c : Codec} {l r : Bytes} {m m' : Msg} (hi : LineInv m) (hm : m.mode = .body) (h : afterHeaders c l m = .ok r m')
    (hg : gzipBody m'.header = false) : m'.buffer ++ r = m.buffer ++ l := by
  have hs := setupBody_spec c l hm
  unfold afterHeaders at h
  cases hb : setupBody c l m with
  | hang => rw [hb] at h; cases h
  | raise e m1 => rw [hb] at h; cases h
  | ok x m1 =>
    rw [hb] at h hs
    simp only at h
    have hh := stageBody_header l m1 (hs.inv hi)
    rw [h] at hh
    rw [stageBody_conserve (hs.inv hi) (by rw [← gzipBody_same hh]; exact hg) h, hs.buffer]

theorem feed_conserve {c : Codec} {t l : Bytes} {m m' : Msg} (hi : Inv m) (h : feed c t m = .ok l m') (hg : gzipBody m'.header = false) :
    m'.buffer ++ l = m.buffer ++ t := by
  have heads : ∀ {t : Bytes} {m : Msg}, LineInv m → m.mode = .headers → feed c t m = .ok l m' → m'.buffer ++ l = m.buffer ++ t := by
    intro t m hi hm h
    rw [feed_headers c t hi hm] at h
    cases hf : FH t m with
    | hang => rw [hf] at h; cases h
    | raise e m1 => rw [hf] at h; cases h
    | ok l1 m1 =>
      rw [hf] at h
      simp only at h
      rw [← FH_conserve hi hf]
      by_cases hb : m1.mode = .body
      · rw [if_pos hb] at h
        exact afterHeaders_conserve (FH_inv hi hm hf).1 hb h hg
      · rw [if_neg hb] at h
        cases h; rfl
  cases hm : m.mode with
  | end_ => rw [feed_end c t (Or.inl hm)] at h; cases h; rfl
  | incomplete => rw [feed_end c t (Or.inr hm)] at h; cases h; rfl
  | body =>
    rw [feed_body c t hm] at h
    have hh := stageBody_header t m hi
    rw [h] at hh
    exact stageBody_conserve hi (by rw [← gzipBody_same hh]; exact hg) h
  | headers => exact heads hi.line hm h
  | start =>
    rcases line_cases t with h1 | ⟨u, rest, h1, rfl⟩
    · rw [feed_start_none c hi.line hm h1] at h
      cases h; simp [ext]
    · rw [feed_start_line c rest hi.line hm h1] at h
      by_cases hnl : isNewline (pend m ++ u ++ [10]) = true
      · rw [if_pos hnl] at h
        cases h; simp [took]
      · rw [if_neg hnl] at h
        cases hh : onHeader (setStartLine (pend m ++ u ++ [10])) (took m (u ++ [10])) with
        | hang => rw [hh] at h; cases h
        | raise e m1 => rw [hh] at h; cases h
        | ok x m1 =>
          rw [hh] at h
          rw [heads (m := { m1 with mode := .headers }) ((onHeader_inv hh (.took _ _)).congr rfl rfl) rfl h]
          have : m1.buffer = m.buffer ++ (u ++ [10]) := by rw [onHeader_ok hh]; rfl
          simp [this]

end Warc.Http
