import Verif.Proofs.HttpDemo
/-
  C39, C40: The HTTP parser.

  `k : Http.Kind` says which parser object is meant: RequestMessage, or ResponseMessage together with the method of the
  request; `ig` is its `ignore_headers` argument.  `feedAll (k.feed c) ts (k.message ig)` is a new parser fed with the
  pieces `ts` one after the other; it yields the text given back and the state of the parser.
-/
set_option linter.all false
namespace Warc
open Rx Stream Spec Http

/-! ### C39 -/

/-- **C39** Interim responses with code 100, each fed by itself, are set aside: everything that is fed afterwards, in whatever
pieces, is parsed as if they had not been there.  (`Msg.behind` only shifts positions in the buffer and puts the interim
headers in front, see the next theorem.) -/
theorem C39_interim (c : Codec) (rm : PyStr) (is : List Interim) (h : ∀ i ∈ is, i.Ok []) :
    ∃ hs : List Hdr, (hs.length = is.length ∧ ∀ p ∈ is.zip hs, p.1.Shown p.2) ∧ ∀ ts : List Bytes,
      feedAll (feedResponse c) (is.map Interim.text ++ ts) (Msg.response rm []) =
        onState (Msg.behind (is.flatMap Interim.text) hs) (feedAll (feedResponse c) ts (Msg.response rm [])) := by
  induction is with
  | nil =>
    refine ⟨[], ⟨rfl, by simp⟩, fun ts => ?_⟩
    have : Msg.behind [] [] = id := by
      funext m; simp [Msg.behind]
    simp only [List.map_nil, List.nil_append, List.flatMap_nil, this]
    cases feedAll (feedResponse c) ts (Msg.response rm []) <;> rfl
  | cons i is ih =>
    obtain ⟨hs, h1, h2⟩ := ih (fun j hj => h j (by simp [hj]))
    obtain ⟨hi1, hi2, hi3⟩ := h i (by simp)
    obtain ⟨h0, hsh, hfeed⟩ := interim_then c (rm := rm) hi1 hi2 hi3 []
    refine ⟨h0 :: hs, ⟨by simp [h1.1], ?_⟩, fun ts => ?_⟩
    · intro p hp
      rw [List.zip_cons_cons, List.mem_cons] at hp
      rcases hp with rfl | hp
      · exact hsh
      · exact h1.2 p hp
    have hone : feedResponse c i.text (Msg.response rm []) = .ok [] ((Msg.response rm []).behind i.text [h0]) := by
      rw [List.append_nil, feed_nil] at hfeed
      exact hfeed
    rw [List.map_cons, List.cons_append, feedAll_cons, hone]
    simp only [andThen]
    rw [feedAll_behind _ _ _ (Inv.response rm []), h2]
    cases feedAll (feedResponse c) ts (Msg.response rm []) with
    | ok l m => simp only [onState, behind_behind, List.nil_append]; rfl
    | raise e m => simp only [onState, behind_behind]; rfl
    | hang => rfl

/-- **C39** An interim response and a well-formed response, in any pieces: the response is shown, the interim response is
recorded, and `complete()`, body, header and text given back are those of the response alone.  The list of
ignored headers does not apply to the response. -/
theorem C39_one_interim (c : Codec) (rm : PyStr) (ig : List PyStr) (i : Interim) (hi : i.Ok ig) (x : Message) (hx : x.Ok (.response rm) [])
    (after : Bytes) (ha : x.payload.ends = false → after = []) (ts : List Bytes) (hts : ts.flatten = i.text ++ x.text ++ after) :
    ∃ m m0 h, feedAll (feedResponse c) ts (Msg.response rm ig) = .ok after m ∧
      feedResponse c (x.text ++ after) (Msg.response rm []) = .ok after m0 ∧ Parsed x m0 ∧
      i.Shown h ∧ m.interim = [h] ∧ m.header = m0.header ∧ m.mode = m0.mode ∧ m.getBody = x.payload.data ∧ m.getMessage = i.text ++ x.text := by
  obtain ⟨hi1, hi2, hi3⟩ := hi
  obtain ⟨m0, g1, g2, g3⟩ := kind_parse c (.response rm) [] x hx after ha
  obtain ⟨h0, hsh, hfeed⟩ := interim_then c (rm := rm) hi1 hi2 hi3 (x.text ++ after)
  have hp := g2.parsed
  have g1' : feed c (x.text ++ after) (Msg.response rm []) = .ok after m0 := by
    obtain ⟨m', e1, e2⟩ := parse_message c (Fresh.message (.response rm) []) x hx after ha
    have hn := e2.not100 hx ⟨rm, rfl⟩
    have e1' : feed c (x.text ++ after) (Msg.response rm []) = .ok after m' := e1
    have : feedResponse c (x.text ++ after) (Msg.response rm []) = .ok after m' := by
      rw [feedResponse_eq, e1']
      have : is100 m' = false := by simp [is100, hn]
      simp [this]
    have hh : feedResponse c (x.text ++ after) (Msg.response rm []) = .ok after m0 := g1
    rw [this] at hh
    cases hh
    exact e1'
  rw [g1'] at hfeed
  have hwhole : feedResponse c (i.text ++ x.text ++ after) (Msg.response rm ig) = .ok after (m0.behind i.text [h0]) := by
    rw [List.append_assoc]; exact hfeed
  have hmem : ∀ y ∈ m0.bodyChunks, 0 ≤ y.2 := by
    intro y hy
    exact (g2.within y hy).1
  refine ⟨m0.behind i.text [h0], m0, h0, ?_, g1, hp, hsh, ?_, rfl, rfl, ?_, ?_⟩
  · rw [feedResponse_pieces c ts (Msg.response rm ig) rm (Inv.response rm ig) rfl rfl, hts, hwhole]
    rw [hts, hwhole]
    refine ⟨g3.1, ?_⟩
    intro l m' e
    cases e
    have := g3.2 _ _ rfl
    exact this
  · show [h0] ++ m0.interim = [h0]
    rw [g2.interim]; rfl
  · rw [behind_body hmem]; exact hp.body
  · show i.text ++ m0.buffer = _
    rw [show m0.buffer = x.text from hp.text]

/-- a concrete interim response -/
def Spec.demoInterim : Interim := ⟨b! "HTTP/1.1", b! "Continue", [(b! "A", b! "b")]⟩

theorem demoInterim_ok : demoInterim.Ok [] := by
  refine ⟨?_, ?_, by decide⟩
  · unfold Start.Ok demoInterim; decide
  · intro f hf
    simp only [demoInterim, List.mem_cons, List.not_mem_nil, or_false] at hf
    subst hf
    exact ⟨by decide, by decide, by decide, by decide, by decide⟩

/-- **C39** (exception) Two interim responses in one call of `feed`: the second one is taken for the response.  The message is complete with the second
one's header, and what follows, for instance the response itself, is given back. -/
theorem C39_two_at_once (c : Codec) (rm : PyStr) (ig : List PyStr) (i j : Interim) (hi : i.Ok ig) (hj : j.Ok []) (after : Bytes) :
    ∃ m, feedResponse c (i.text ++ j.text ++ after) (Msg.response rm ig) = .ok after m ∧ m.complete = true ∧ j.Shown m.header := by
  obtain ⟨hi1, hi2, hi3⟩ := hi
  obtain ⟨hj1, hj2, hj3⟩ := hj
  obtain ⟨h0, hsh, hfeed⟩ := interim_then c (rm := rm) hi1 hi2 hi3 (j.text ++ after)
  cases hfr : framing [] j.fields with
  | none => exact absurd hfr hj3
  | some fr =>
    have hm := Fresh.message (.response rm) []
    have hf := head_feed c (.response rm) [] (.response j.version 100 j.phrase) j.fields after _ hm trivial hj1 hj2
    rw [hfr] at hf
    obtain ⟨h, hh, hd⟩ := hf
    obtain ⟨m1, h1, h2, h3, h4, h5, h6, h7, h8⟩ := whole_nobody c hm (st := .response j.version 100 j.phrase) trivial hh hd (by simp [Http.hasBody])
    have h1' : feed c (j.text ++ after) (Msg.response rm []) = .ok after m1 := h1
    rw [h1'] at hfeed
    obtain ⟨c1, c2, c3⟩ := h3.code _ _ _ rfl
    refine ⟨m1.behind i.text [h0], by rw [List.append_assoc]; exact hfeed, by simpa [Msg.complete, Msg.behind] using h2, h3.headers, c1, c2, c3⟩

example : ∃ m, feedResponse toy (demoInterim.text ++ demoInterim.text ++ b! "HTTP/1.1 200 OK\r\n\r\n") (Msg.response (.bytes (b! "GET")) []) =
      .ok (b! "HTTP/1.1 200 OK\r\n\r\n") m ∧ m.complete = true ∧ demoInterim.Shown m.header :=
  C39_two_at_once toy _ [] _ _ demoInterim_ok demoInterim_ok _

/-! ### C40 -/

/-- **C40** In every state that calls of `feed` can lead to, the next call returns or raises, unless the text contains a chunk
size line with a negative number. -/
theorem C40_terminates (c : Codec) (k : Http.Kind) (ig : List PyStr) (m : Msg) (hm : Reached (k.feed c) (k.message ig) m) (t : Bytes)
    (h : ¬ NegativeSize (m.getMessage ++ t)) : k.feed c t m ≠ .hang := by
  intro hh
  have := kind_sane (c := c) (t := t) (reached_alive hm)
  rw [hh] at this
  exact h this

/-- **C40** A negative size needs a minus sign. -/
theorem C40_minus (text : Bytes) (h : NegativeSize text) : 45 ∈ text := by
  obtain ⟨before, line, after, n, rfl, _, _, hn, hneg⟩ := h
  have key : ∀ s : Bytes, pyInt 16 s = some n → 45 ∈ s := by
    intro s hs
    unfold pyInt at hs
    have hsub : ∀ b ∈ strip s, b ∈ s := fun b hb => mem_strip hb
    have hnat : ∀ (o : Option Nat), o.map (fun n => (n : Int)) = some n → False := by
      intro o ho
      cases o with
      | none => cases ho
      | some k => simp at ho; omega
    generalize strip s = u at hs hsub
    match u with
    | [] => exact (hnat _ hs).elim
    | c :: r =>
      by_cases h1 : c = 45
      · subst h1; exact hsub 45 (by simp)
      · by_cases h2 : c = 43
        · subst h2; exact (hnat _ hs).elim
        · split at hs
          · rename_i e; cases e; exact absurd rfl h1
          · rename_i e; cases e; exact absurd rfl h2
          · exact (hnat _ hs).elim
  have := key _ hn
  have := (List.takeWhile_sublist _).subset this
  simp only [List.mem_append, List.mem_singleton, List.mem_cons] at this ⊢
  rcases this with h | h
  · exact Or.inl (Or.inr h)
  · exact absurd h (by decide)

example : ¬ NegativeSize (b! "HTTP/1.1 200 OK\r\nTE: chunked\r\n\r\n0\r\n\r\n") := fun h => absurd (C40_minus _ h) (by decide)

/-- **C40** (exception) A negative chunk size followed by anything makes `feed` loop for ever: no number of iterations is enough. -/
theorem C40_negative_size_hangs (c : Codec) (k : Http.Kind) (ig : List PyStr) (st : Start) (hs : List Header) (hf : st.fits k) (hst : st.Ok)
    (hok : FieldsOk hs) (hfr : framing ig hs = some .chunked) (hb : hasBody k st .chunked) (line : Bytes) (hline : 10 ∉ line) (n : Int)
    (hsize : pyInt 16 ((line ++ [10]).takeWhile (· ≠ 59)) = some n) (hn : n < 0) (more : Bytes) (hmore : more ≠ []) :
    feed c (headText st hs ++ (line ++ 10 :: more)) (k.message ig) = .hang ∧
    ∀ fuel m, chunkFeed fuel { mode := .chunk, start := false, remaining := n } more m = .hang := by
  refine ⟨?_, fun fuel m => chunkFeed_neg fuel _ more m hmore rfl hn⟩
  have := head_feed c k ig st hs (line ++ 10 :: more) _ (Fresh.message k ig) hf hst hok
  rw [hfr] at this
  obtain ⟨h, hh, hd⟩ := this
  have hn' := (hd.hasBody hf).2 hb
  have hmode : h.mode = .chunked := hd.framed
  rw [hh, afterHeaders, setupBody_chunked c _ rfl hn' hmode]
  simp only
  have hx : Ctx {} { atBody (k.message ig) (headText st hs) h with reader := some (.chunk {}) } :=
    ⟨(atBody_flush (k.message ig) (headText st hs) h).inv.congr rfl rfl, rfl, rfl, by simp, by simp⟩
  have hpend : pend { atBody (k.message ig) (headText st hs) h with reader := some (.chunk {}) } = [] :=
    (atBody_flush (k.message ig) (headText st hs) h).pend
  rw [stageBody_chunk (by simp) hx, CF_start_line hx.inv rfl more hline, hpend, List.nil_append, chunkSize_eq, hsize]
  have hne : n ≠ 0 := by omega
  simp only
  rw [CF_neg (by simp [afterSize, hne]) hmore (by simp [afterSize]; exact hn)]

example : pyInt 16 ((b! "-1" ++ [10]).takeWhile (· ≠ 59)) = some (-1) := by decide

end Warc
