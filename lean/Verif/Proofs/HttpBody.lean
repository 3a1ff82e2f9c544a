import Verif.Proofs.HttpHead
/-
  Parsing the bodies.
-/
set_option linter.all false
namespace Warc.Http
open Rx

/-! ### slices -/

theorem slice_stable {b t : Bytes} {o : Nat} {l : Int} (h0 : 0 ≤ l) (h : (o : Int) + l ≤ b.length) :
    slice (b ++ t) o (o + l) = slice b o (o + l) := by
  unfold slice sliceTo
  rw [if_pos (by omega), if_pos (by omega)]
  rw [List.take_append_of_le_length (by omega)]

theorem slice_tail (b d : Bytes) : slice (b ++ d) b.length ((b.length : Int) + d.length) = d := by
  unfold slice sliceTo
  rw [if_pos (by omega), List.take_of_length_le (by simp; omega)]
  simp

/-- the parts of a body found in a buffer -/
def pick (buf : Bytes) (cs : List (Nat × Int)) : Bytes := cs.flatMap fun (o, l) => slice buf o ((o : Int) + l)

theorem getBody_pick (m : Msg) : m.getBody = pick m.buffer m.bodyChunks := rfl

/-- the parts are in the buffer -/
def Within (buf : Bytes) (cs : List (Nat × Int)) : Prop := ∀ x ∈ cs, 0 ≤ x.2 ∧ (x.1 : Int) + x.2 ≤ buf.length

theorem Within.append {buf : Bytes} {cs} (h : Within buf cs) (t : Bytes) : Within (buf ++ t) cs := by
  intro x hx
  have := h x hx
  simp; omega

theorem pick_stable {buf : Bytes} {cs} (h : Within buf cs) (t : Bytes) : pick (buf ++ t) cs = pick buf cs := by
  induction cs with
  | nil => rfl
  | cons x cs ih =>
    obtain ⟨o, l⟩ := x
    have h1 := h (o, l) (by simp)
    simp only [pick, List.flatMap_cons] at ih ⊢
    rw [slice_stable h1.1 h1.2, ih (fun y hy => h y (by simp [hy]))]

theorem pick_append (buf : Bytes) (a b) : pick buf (a ++ b) = pick buf a ++ pick buf b := by simp [pick]

theorem pick_last (buf d : Bytes) : pick (buf ++ d) [(buf.length, (d.length : Int))] = d := by
  simp [pick, slice_tail]

/-! ### chunks -/

theorem sizeLine_spec {s e : Bytes} {n : Nat} (h : SizeOk s e n) :
    ∃ u, sizeLine s e = u ++ [10] ∧ 10 ∉ u ∧ chunkSize (sizeLine s e) = some (n : Int) := by
  refine ⟨s ++ e ++ [13], by simp [sizeLine], by simp [h.line, h.extLine], ?_⟩
  unfold chunkSize
  rcases h.extStart with he | ⟨e', he⟩
  · subst he
    have : splitOnce 59 (sizeLine s []) = none := splitOnce_none (by simp [sizeLine, h.semicolon])
    rw [this]
    simp only [sizeLine, List.append_nil]
    rw [pyInt_ws_right 16 s CRLF crlf_ws, h.value]
  · subst he
    have : splitOnce 59 (sizeLine s (59 :: e')) = some (s, e' ++ CRLF) := by
      rw [show sizeLine s (59 :: e') = s ++ 59 :: (e' ++ CRLF) by simp [sizeLine]]
      exact splitOnce_append s _ h.semicolon
    rw [this, h.value]

/-- between two chunks -/
structure Between (cr : ChunkSt) (m : Msg) : Prop where
  mode : cr.mode = .start
  flush : Flush m
  within : Within m.buffer m.bodyChunks

theorem CF_size {cr : ChunkSt} {m : Msg} (hb : Between cr m) {s e : Bytes} {n : Nat} (h : SizeOk s e n) (rest : Bytes) :
    CF cr (sizeLine s e ++ rest) m = CF (afterSize n) rest (setR (afterSize n) (addChunk (took m (sizeLine s e)) n)) := by
  obtain ⟨u, hu, hu10, hsz⟩ := sizeLine_spec h
  have hp : pend m ++ u ++ [10] = sizeLine s e := by rw [hb.flush.pend, hu]; rfl
  rw [show sizeLine s e ++ rest = u ++ 10 :: rest by rw [hu]; simp, CF_start_line hb.flush.inv hb.mode rest hu10, hp, hsz, ← hu]

/-- the message after a chunk -/
def gotChunk (m : Msg) (c : Chunk) : Msg :=
  { took m c.text with
    bodyChunks := m.bodyChunks ++ [((m.buffer ++ sizeLine c.size c.ext).length, (c.data.length : Int))]
    reader := some (.chunk { mode := .start, start := false, remaining := 0 }) }

theorem CF_chunk {cr : ChunkSt} {m : Msg} (hb : Between cr m) {c : Chunk} (h : c.Ok) (rest : Bytes) :
    CF cr (c.text ++ rest) m = CF { mode := .start, start := false, remaining := 0 } rest (gotChunk m c) := by
  have hlen : 0 < c.data.length := List.length_pos_iff.2 h.2
  rw [show c.text ++ rest = sizeLine c.size c.ext ++ (c.data ++ ([13] ++ 10 :: rest)) by simp [Chunk.text],
    CF_size hb h.1]
  have has : afterSize (c.data.length : Int) = { mode := .chunk, start := false, remaining := c.data.length } := by
    unfold afterSize; rw [if_neg (by omega)]
  rw [has, CF_full rfl c.data _ rfl hlen, CF_eoc_line (by exact (LineInv.took _ _).congr rfl rfl) rfl rfl rest (by decide)]
  congr 1
  simp [gotChunk, setR, addChunk, took, Chunk.text]

theorem gotChunk_between {m : Msg} {cr : ChunkSt} (hb : Between cr m) (c : Chunk) :
    Between { mode := .start, start := false, remaining := 0 } (gotChunk m c) := by
  refine ⟨rfl, rfl, ?_⟩
  show Within (m.buffer ++ c.text) (m.bodyChunks ++ _)
  intro x hx
  rcases List.mem_append.1 hx with hx | hx
  · exact hb.within.append c.text x hx
  · simp at hx
    subst hx
    simp [Chunk.text]
    omega

theorem gotChunk_body {m : Msg} {cr : ChunkSt} (hb : Between cr m) (c : Chunk) : (gotChunk m c).getBody = m.getBody ++ c.data := by
  rw [getBody_pick, getBody_pick]
  show pick (m.buffer ++ c.text) (m.bodyChunks ++ _) = _
  rw [pick_append, pick_stable hb.within]
  congr 1
  rw [show m.buffer ++ c.text = (m.buffer ++ sizeLine c.size c.ext ++ c.data) ++ CRLF by simp [Chunk.text],
    pick_stable (by intro x hx; simp at hx; subst hx; simp; omega), pick_last]

/-- several chunks -/
theorem CF_chunks (cs : List Chunk) {cr : ChunkSt} {m : Msg} (hb : Between cr m) (hx : Ctx cr m) (h : ∀ c ∈ cs, c.Ok) (rest : Bytes) :
    ∃ cr' m', CF cr (cs.flatMap Chunk.text ++ rest) m = CF cr' rest m' ∧ Between cr' m' ∧ Ctx cr' m' ∧
      m'.getBody = m.getBody ++ cs.flatMap Chunk.data ∧ m'.buffer = m.buffer ++ cs.flatMap Chunk.text ∧ m'.header = m.header ∧
      m'.interim = m.interim := by
  induction cs generalizing cr m with
  | nil => exact ⟨cr, m, rfl, hb, hx, by simp, by simp, rfl, rfl⟩
  | cons c cs ih =>
    obtain ⟨cr', m', h1, h2, h3, h4, h5, h6, h7⟩ := ih (gotChunk_between hb c)
      ⟨(show Flush (gotChunk m c) from rfl).inv, hx.mode, rfl, by simp, by simp⟩ (fun d hd => h d (by simp [hd]))
    refine ⟨cr', m', ?_, h2, h3, ?_, ?_, h6, h7⟩
    · rw [List.flatMap_cons, List.append_assoc, CF_chunk hb (h c (by simp)), h1]
    · rw [h4, gotChunk_body hb]; simp
    · rw [h5]; simp [gotChunk, took]

/-! ### trailers -/

theorem addTrailerLine_field {f : Header} (hf : FieldOk f) (h : Hdr) :
    addTrailerLine (fieldText f) h = .ok () { h with trailers := h.trailers ++ [f] } := by
  obtain ⟨u, _, _, h1, h2, h3⟩ := field_line hf
  simp only [addTrailerLine, M.bind_apply, M.get_apply, h1, h2, h3, Bool.false_eq_true, if_false]
  rw [hf.nameStrip, strip_value hf.valueStrip]
  rfl

theorem CF_trailers (ts : List Header) (hok : FieldsOk ts) {cr : ChunkSt} (hm : cr.mode = .trailer) (m : Msg) (hfl : Flush m) (rest : Bytes) :
    ∃ m', CF cr (fields ts ++ CRLF ++ rest) m = .ok rest m' ∧ m'.mode = .end_ ∧ m'.header = { m.header with trailers := m.header.trailers ++ ts } ∧
      m'.buffer = m.buffer ++ (fields ts ++ CRLF) ∧ m'.bodyChunks = m.bodyChunks ∧ m'.interim = m.interim := by
  induction ts generalizing m with
  | nil =>
    rw [show fields [] ++ CRLF ++ rest = [13] ++ 10 :: rest from rfl, CF_trailer_line hfl.inv hm rest (by decide), hfl.pend]
    simp only [onHeader, took_header]
    have : addTrailerLine ([] ++ [13] ++ [10]) m.header = .ok () m.header := rfl
    rw [this]
    exact ⟨_, rfl, rfl, by simp [setR], by simp [fields, took, setR], rfl, rfl⟩
  | cons f ts ih =>
    have hf : FieldOk f := hok f (by simp)
    obtain ⟨u, hu, hu10, _, hnl, _⟩ := field_line hf
    have htext : fields (f :: ts) ++ CRLF ++ rest = u ++ 10 :: (fields ts ++ CRLF ++ rest) := by simp [fields, hu]
    rw [htext, CF_trailer_line hfl.inv hm _ hu10]
    simp only [hfl.pend, List.nil_append, ← hu, onHeader, took_header, addTrailerLine_field hf, hnl, Bool.false_eq_true, if_false]
    obtain ⟨m', h1, h2, h3, h4, h5, h6⟩ := ih (fun g hg => hok g (by simp [hg]))
      (setR cr { took m (fieldText f) with header := { m.header with trailers := m.header.trailers ++ [f] } }) rfl
    refine ⟨m', h1, h2, ?_, ?_, h5, h6⟩
    · rw [h3]; simp
    · rw [h4]; simp [took, fields]

/-- the text `T` is read as the trailer section with the fields `ts` -/
def Trails (ts : List Header) (T : Bytes) : Prop :=
  ∀ (cr : ChunkSt) (m : Msg) (rest : Bytes), cr.mode = .trailer → Flush m →
    ∃ m', CF cr (T ++ rest) m = .ok rest m' ∧ m'.mode = .end_ ∧ m'.header = { m.header with trailers := m.header.trailers ++ ts } ∧
      m'.buffer = m.buffer ++ T ∧ m'.bodyChunks = m.bodyChunks ∧ m'.interim = m.interim

/-- `P` is the chunked body `b` with some trailer section -/
def Written (b : ChunkedBody) (P : Bytes) : Prop :=
  ∃ T, P = b.chunks.flatMap Chunk.text ++ sizeLine b.lastSize b.lastExt ++ T ∧ Trails b.trailers T

theorem Written.text (b : ChunkedBody) (hok : b.Ok) : Written b b.text :=
  ⟨fields b.trailers ++ CRLF, by simp [ChunkedBody.text], fun cr m rest hc hf => CF_trailers b.trailers hok.2.2 hc m hf rest⟩

/-- a whole chunked body -/
theorem CF_body (b : ChunkedBody) (hok : b.Ok) {P : Bytes} (hP : Written b P) {cr : ChunkSt} {m : Msg} (hb : Between cr m) (hx : Ctx cr m) (rest : Bytes) :
    ∃ m', CF cr (P ++ rest) m = .ok rest m' ∧ m'.mode = .end_ ∧
      m'.header = { m.header with trailers := m.header.trailers ++ b.trailers } ∧
      m'.buffer = m.buffer ++ P ∧ m'.getBody = m.getBody ++ b.data ∧ m'.interim = m.interim ∧ Within m'.buffer m'.bodyChunks := by
  obtain ⟨T, hPT, hT⟩ := hP
  obtain ⟨cr1, m1, h1, hb1, hx1, h2, h3, h4, h5⟩ := CF_chunks b.chunks hb hx hok.1 (sizeLine b.lastSize b.lastExt ++ (T ++ rest))
  have htext : P ++ rest = b.chunks.flatMap Chunk.text ++ (sizeLine b.lastSize b.lastExt ++ (T ++ rest)) := by
    simp [hPT]
  rw [htext, h1, CF_size hb1 hok.2.1]
  obtain ⟨m', g1, g2, g3, g4, g5, g6⟩ := hT (afterSize (0 : Nat))
    (setR (afterSize (0 : Nat)) (addChunk (took m1 (sizeLine b.lastSize b.lastExt)) (0 : Nat))) rest rfl rfl
  have hw : Within (m1.buffer ++ sizeLine b.lastSize b.lastExt) (m1.bodyChunks ++ [((m1.buffer ++ sizeLine b.lastSize b.lastExt).length, ((0 : Nat) : Int))]) := by
    intro x hx
    rcases List.mem_append.1 hx with hx | hx
    · exact hb1.within.append _ x hx
    · simp at hx; subst hx; simp
  refine ⟨m', g1, g2, ?_, ?_, ?_, ?_, ?_⟩
  · rw [g3]; simp [setR, addChunk, took, h4]
  · rw [g4]; simp [setR, addChunk, took, h3, hPT]
  · rw [getBody_pick, g4, g5]
    simp only [setR_buffer, addChunk_buffer]
    show pick (m1.buffer ++ sizeLine b.lastSize b.lastExt ++ T)
      (m1.bodyChunks ++ [((m1.buffer ++ sizeLine b.lastSize b.lastExt).length, ((0 : Nat) : Int))]) = _
    rw [pick_stable hw, pick_append, pick_stable hb1.within, ← getBody_pick, h2]
    simp [pick, slice, sliceTo, ChunkedBody.data]
    rw [if_pos (by omega), List.take_of_length_le (by simp; omega)]
    simp
  · rw [g6]; simp [setR, addChunk, took, h5]
  · rw [g4, g5]; exact hw.append _

/-! ### what the head says about the body -/

theorem Head.hasBody {k : Kind} {ig : List PyStr} {st : Start} {hs : List Header} {fr : Framed} {h : Hdr} (hh : Head k ig st hs fr h) (hf : st.fits k) :
    h.hasBody = true ↔ Http.hasBody k st fr := by
  cases k with
  | request =>
    have hs' : h.side = .request := hh.side
    have hfr := hh.framed
    unfold Hdr.hasBody Http.hasBody
    rw [hs']
    cases fr <;> simp only [Http.framed] at hfr
    · simp [hfr]
    · simp [hfr.1]
    · simp [hfr]
  | response rm =>
    have hs' : h.side = .response rm := hh.side
    cases st with
    | request me t v => exact absurd hf (by simp [Start.fits])
    | response v c p =>
      obtain ⟨hc, _, _⟩ := hh.code v c p rfl
      unfold Hdr.hasBody Http.hasBody
      rw [hs', hc]
      simp only [noBodyMethod, noBodyCode]
      simp
      intro _
      omega

theorem Head.noBody {k : Kind} {ig : List PyStr} {st : Start} {hs : List Header} {fr : Framed} {h : Hdr} (hh : Head k ig st hs fr h) (hf : st.fits k)
    (hb : ¬ Http.hasBody k st fr) : h.hasBody = false := by
  cases hx : h.hasBody with
  | false => rfl
  | true => exact absurd ((hh.hasBody hf).1 hx) hb

theorem gzipEncoded_iff (ig : List PyStr) (hs : List Header) : gzipEncoded (encodingOf ig hs) = true ↔ gzipField ig hs := by
  unfold gzipField
  cases he : encodingOf ig hs with
  | none => simp [gzipEncoded]
  | some e =>
    simp only [gzipEncoded, endsWith, gzipTag]
    simp only [Bool.and_eq_true, decide_eq_true_eq, List.isSuffixOf_iff_suffix, Option.some.injEq]
    constructor
    · rintro ⟨_, h⟩; exact ⟨e, rfl, h⟩
    · rintro ⟨e', rfl, h⟩
      refine ⟨?_, h⟩
      rintro rfl
      simp at h

theorem Head.notGzip {k : Kind} {ig : List PyStr} {st : Start} {hs : List Header} {fr : Framed} {h : Hdr} (hh : Head k ig st hs fr h)
    (hg : (∃ n, fr = .length n) → Http.hasBody k st fr → ¬ gzipField ig hs) (hf : st.fits k) : gzipBody h = false := by
  cases hx : gzipBody h with
  | false => rfl
  | true =>
    exfalso
    simp only [gzipBody, Bool.and_eq_true] at hx
    obtain ⟨⟨h1, h2⟩, h3⟩ := hx
    rw [hh.encoding, gzipEncoded_iff] at h3
    have hm : h.mode = .length := by simpa using h2
    have hfr := hh.framed
    cases fr with
    | close => simp [Http.framed, hm] at hfr
    | chunked => simp [Http.framed, hm] at hfr
    | length n => exact hg ⟨n, rfl⟩ ((hh.hasBody hf).1 h1) h3

/-! ### whole messages -/

variable {k : Kind} {ig : List PyStr} {m : Msg} {st : Start} {hs : List Header}

theorem atBody_flush (m : Msg) (t : Bytes) (h : Hdr) : Flush (atBody m t h) := rfl

theorem whole_nobody (c : Codec) (hm : Fresh k ig m) (hf : st.fits k) {fr : Framed} {T H after : Bytes} {h : Hdr}
    (hh : feed c T m = afterHeaders c ([] ++ after) (atBody m H h)) (hd : Head k ig st hs fr h) (hb : ¬ Http.hasBody k st fr) :
    ∃ m', feed c T m = .ok after m' ∧ m'.mode = .end_ ∧ Head k ig st hs fr m'.header ∧
      m'.buffer = m.buffer ++ H ∧ m'.bodyChunks = [] ∧ m'.interim = m.interim ∧ gzipBody m'.header = false ∧ Flush m' := by
  have hn := hd.noBody hf hb
  rw [List.nil_append] at hh
  rw [hh, afterHeaders, setupBody_nobody c after rfl hn]
  simp only
  rw [stageBody_skip _ (by simp)]
  exact ⟨_, rfl, rfl, hd, rfl, hm.chunks, rfl, by simp [gzipBody, atBody, hn], rfl⟩

theorem whole_chunked (c : Codec) (hm : Fresh k ig m) (hf : st.fits k) {T H P after : Bytes} {h : Hdr}
    (hh : feed c T m = afterHeaders c (P ++ after) (atBody m H h)) (hd : Head k ig st hs .chunked h)
    (hb : Http.hasBody k st .chunked) (b : ChunkedBody) (hbok : b.Ok) (hP : Written b P) :
    ∃ m', feed c T m = .ok after m' ∧ m'.mode = .end_ ∧
      m'.header = { h with trailers := b.trailers } ∧ m'.buffer = m.buffer ++ (H ++ P) ∧ m'.getBody = b.data ∧
      m'.interim = m.interim ∧ gzipBody m'.header = false ∧ Within m'.buffer m'.bodyChunks := by
  have hn := (hd.hasBody hf).2 hb
  have hmode : h.mode = .chunked := hd.framed
  rw [hh, afterHeaders, setupBody_chunked c _ rfl hn hmode]
  simp only
  have hx : Ctx {} { atBody m (H) h with reader := some (.chunk {}) } :=
    ⟨(atBody_flush m (H) h).inv.congr rfl rfl, rfl, rfl, by simp, by simp⟩
  have hbt : Between {} { atBody m (H) h with reader := some (.chunk {}) } :=
    ⟨rfl, rfl, by intro x hx; rw [show ({ atBody m (H) h with reader := some (.chunk {}) } : Msg).bodyChunks = m.bodyChunks from rfl, hm.chunks] at hx; cases hx⟩
  obtain ⟨m', g1, g2, g3, g4, g5, g6, g7⟩ := CF_body b hbok hP hbt hx after
  rw [stageBody_chunk (by obtain ⟨T, rfl, _⟩ := hP; simp [sizeLine]) hx, g1]
  refine ⟨m', rfl, g2, ?_, ?_, ?_, g6, ?_, g7⟩
  · rw [g3]; show { h with trailers := h.trailers ++ b.trailers } = _; rw [hd.trailers]; rfl
  · rw [g4]; simp [atBody, took]
  · rw [g5, getBody_pick]
    rw [show ({ atBody m (H) h with reader := some (.chunk {}) } : Msg).bodyChunks = m.bodyChunks from rfl, hm.chunks]
    rfl
  · rw [g3]; simp [gzipBody, atBody, hmode]

theorem Head.bodyLength {n : Int} {h : Hdr} (hd : Head k ig st hs (.length n) h) : h.bodyLength = some n := by
  obtain ⟨h1, h2⟩ : h.mode = .length ∧ h.contentLength = some n := hd.framed
  simp [Hdr.bodyLength, h1, h2]

theorem whole_length (c : Codec) (hm : Fresh k ig m) (hf : st.fits k) (body : Bytes) {T H after : Bytes} {h : Hdr}
    (hh : feed c T m = afterHeaders c (body ++ after) (atBody m H h)) (hd : Head k ig st hs (.length body.length) h)
    (hb : Http.hasBody k st (.length body.length)) (hg : ¬ gzipField ig hs) :
    ∃ m', feed c T m = .ok after m' ∧ m'.mode = .end_ ∧ Head k ig st hs (.length body.length) m'.header ∧
      m'.buffer = m.buffer ++ (H ++ body) ∧ m'.bodyChunks = [((m.buffer ++ H).length, (body.length : Int))] ∧ m'.getBody = body ∧
      m'.interim = m.interim ∧ gzipBody m'.header = false := by
  have hn := (hd.hasBody hf).2 hb
  have hng := hd.notGzip (fun _ _ => hg) hf
  rw [hh, afterHeaders, setupBody_length c _ rfl hn hd.bodyLength hng]
  have hbody : ∀ m' : Msg, m'.buffer = m.buffer ++ (H ++ body) → m'.bodyChunks = [((m.buffer ++ H).length, (body.length : Int))] →
      m'.getBody = body := by
    intro m' h1 h2
    rw [getBody_pick, h1, h2, ← List.append_assoc, pick_last]
  by_cases h0 : body = []
  · subst h0
    simp only [List.length_nil, List.nil_append]
    rw [stageBody_skip _ (by simp)]
    refine ⟨_, rfl, by simp, hd, by simp [atBody, took], rfl, ?_, rfl, hng⟩
    exact hbody _ (by simp [atBody, took]) rfl
  · have hpos : 0 < body.length := List.length_pos_iff.2 h0
    simp only
    rw [stageBody_length (rem := body.length) (by simp [h0]) (by simp [h0]; rfl) rfl, lengthFeed_full body after hpos]
    refine ⟨_, rfl, rfl, hd, by simp [atBody, took], rfl, ?_, rfl, hng⟩
    exact hbody _ (by simp [atBody, took]) rfl

theorem whole_close (c : Codec) (hm : Fresh k ig m) (hf : st.fits k) (body : Bytes) {T H : Bytes} {h : Hdr}
    (hh : feed c T m = afterHeaders c body (atBody m H h)) (hd : Head k ig st hs .close h) (hb : Http.hasBody k st .close) :
    ∃ m', feed c T m = .ok [] m' ∧ m'.mode = .body ∧ m'.reader = none ∧ Head k ig st hs .close m'.header ∧
      m'.buffer = m.buffer ++ (H ++ body) ∧ m'.bodyChunks = [((m.buffer ++ H).length, (body.length : Int))] ∧ m'.getBody = body ∧
      m'.interim = m.interim ∧ gzipBody m'.header = false := by
  have hn := (hd.hasBody hf).2 hb
  have hmode : h.mode = .close := hd.framed
  rw [hh, afterHeaders, setupBody_close c _ rfl hn (by show h.mode ≠ _; rw [hmode]; simp) (by show h.bodyLength = none; simp [Hdr.bodyLength, hmode])]
  have hbody : ∀ m' : Msg, m'.buffer = m.buffer ++ (H ++ body) → m'.bodyChunks = [((m.buffer ++ H).length, (body.length : Int))] →
      m'.getBody = body := by
    intro m' h1 h2
    rw [getBody_pick, h1, h2, ← List.append_assoc, pick_last]
  have hng : gzipBody h = false := by simp [gzipBody, hmode]
  simp only
  by_cases h0 : body = []
  · subst h0
    rw [stageBody_nil]
    refine ⟨_, rfl, rfl, rfl, hd, by simp [atBody, took], rfl, ?_, rfl, hng⟩
    exact hbody _ (by simp [atBody, took]) rfl
  · rw [stageBody_close h0 rfl rfl]
    simp only [closeFeed]
    refine ⟨_, rfl, rfl, rfl, hd, by simp [atBody, took], by simp [atBody, took], ?_, rfl, hng⟩
    exact hbody _ (by simp [atBody, took]) (by simp [atBody, took])

end Warc.Http
