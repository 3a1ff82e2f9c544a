import Verif.Proofs.HttpCut
/-
  Whole messages, and the decoded form of a message.
-/
set_option linter.all false
namespace Warc.Http
open Rx

/-- the parser after a message, written as `T` -/
structure DoneAs (k : Kind) (ig : List PyStr) (x : Message) (T : Bytes) (m m' : Msg) : Prop where
  mode : m'.mode = if x.payload.ends then .end_ else .body
  reader : x.payload.ends = false → m'.reader = none
  header : ∃ fr h, framing ig x.fields = some fr ∧ x.Framed k fr ∧ Head k ig x.start x.fields fr h ∧ m'.header = { h with trailers := x.payload.trailers }
  buffer : m'.buffer = m.buffer ++ T
  body : m'.getBody = x.payload.data
  within : Within m'.buffer m'.bodyChunks
  interim : m'.interim = m.interim
  gzip : gzipBody m'.header = false

/-- the parser after a message -/
abbrev Done (k : Kind) (ig : List PyStr) (x : Message) (m m' : Msg) : Prop := DoneAs k ig x x.text m m'

theorem Hdr.same_trailers {h : Hdr} (e : h.trailers = []) : h = { h with trailers := [] } := by
  cases h; simp at e; subst e; rfl

/-- from the head on: the head was written as `H`, the payload as `P` -/
theorem parse_from (c : Codec) {k : Kind} {ig : List PyStr} {m : Msg} (hm : Fresh k ig m) (x : Message) (hx : x.Ok k ig) (after T H P : Bytes)
    (ha : x.payload.ends = false → after = []) {fr : Framed} (hfr : framing ig x.fields = some fr) (hpl : x.Framed k fr) {h : Hdr}
    (hh : feed c T m = afterHeaders c (P ++ after) (atBody m H h)) (hd : Head k ig x.start x.fields fr h)
    (hP : match x.payload with | .chunked b => Written b P | p => P = p.text) :
    ∃ m', feed c T m = .ok after m' ∧ DoneAs k ig x (H ++ P) m m' := by
  obtain ⟨st, hs, pl⟩ := x
  have hf : st.fits k := hx.fits
  have hfr' : framing ig hs = some fr := hfr
  have hd' : Head k ig st hs fr h := hd
  cases pl with
  | none =>
    obtain rfl : P = [] := hP
    obtain ⟨m', h1, h2, h3, h4, h5, h6, h7, h8⟩ := whole_nobody c hm hf hh hd' hpl
    refine ⟨m', h1, h2, by simp [Payload.ends], ⟨fr, m'.header, hfr', hpl, h3, Hdr.same_trailers h3.trailers⟩, ?_, ?_, ?_, h6, h7⟩
    · rw [h4]; simp
    · rw [getBody_pick, h5]; rfl
    · rw [h5]; intro y hy; cases hy
  | sized b =>
    obtain rfl : P = b := hP
    obtain ⟨hb, rfl⟩ := hpl
    obtain ⟨m', h1, h2, h3, h4, h5, h6, h7, h8⟩ := whole_length c hm hf P hh hd' hb (hx.gzip ⟨P, rfl⟩)
    refine ⟨m', h1, h2, by simp [Payload.ends], ⟨_, m'.header, hfr', ⟨hb, rfl⟩, h3, Hdr.same_trailers h3.trailers⟩, h4, h6, ?_, h7, h8⟩
    rw [h4, h5]; intro y hy; simp at hy; subst hy; simp; omega
  | toEnd b =>
    obtain rfl : P = b := hP
    obtain ⟨hb, rfl⟩ := hpl
    have := ha rfl
    subst this
    obtain ⟨m', h1, h2, h2', h3, h4, h5, h6, h7, h8⟩ := whole_close c hm hf P (by simpa using hh) hd' hb
    refine ⟨m', h1, h2, fun _ => h2', ⟨_, m'.header, hfr', ⟨hb, rfl⟩, h3, Hdr.same_trailers h3.trailers⟩, h4, h6, ?_, h7, h8⟩
    rw [h4, h5]; intro y hy; simp at hy; subst hy; simp; omega
  | chunked b =>
    obtain ⟨hb, rfl, hbok⟩ := hpl
    obtain ⟨m', h1, h2, h3', h4, h5, h6, h7, h8⟩ := whole_chunked c hm hf hh hd' hb b hbok hP
    exact ⟨m', h1, h2, by simp [Payload.ends], ⟨_, h, hfr', ⟨hb, rfl, hbok⟩, hd', h3'⟩, h4, h5, h8, h6, h7⟩

theorem parse_message (c : Codec) {k : Kind} {ig : List PyStr} {m : Msg} (hm : Fresh k ig m) (x : Message) (hx : x.Ok k ig) (after : Bytes)
    (ha : x.payload.ends = false → after = []) :
    ∃ m', feed c (x.text ++ after) m = .ok after m' ∧ Done k ig x m m' := by
  obtain ⟨fr, hfr, hpl⟩ := hx.framed
  have := head_feed c k ig x.start x.fields (x.payload.text ++ after) m hm hx.fits hx.start hx.fields
  rw [hfr] at this
  obtain ⟨h, hh, hd⟩ := this
  rw [← List.append_assoc] at hh
  refine parse_from c hm x hx after _ (headText x.start x.fields) x.payload.text ha hfr hpl hh hd ?_
  cases hp : x.payload with
  | chunked b =>
    have hb : b.Ok := by
      have := hpl
      unfold Message.Framed at this
      rw [hp] at this
      exact this.2.2
    exact Written.text b hb
  | none => rfl
  | sized b => rfl
  | toEnd b => rfl

theorem DoneAs.not100 {T : Bytes} {k : Kind} {ig : List PyStr} {x : Message} {m m' : Msg} (h : DoneAs k ig x T m m') (hx : x.Ok k ig) (hk : ∃ rm, k = .response rm) : m'.header.code ≠ 100 := by
  obtain ⟨fr, h0, _, _, hd, he⟩ := h.header
  obtain ⟨rm, rfl⟩ := hk
  obtain ⟨st, hs, pl⟩ := x
  cases st with
  | request me t v => exact absurd hx.fits (by simp [Start.fits])
  | response v cd p =>
    have := (hd.code v cd p rfl).1
    rw [he]
    simp only [this]
    intro e
    have : cd = 100 := by omega
    subst this
    exact hx.final v p rfl

theorem DoneAs.splittable {T : Bytes} {k : Kind} {ig : List PyStr} {x : Message} {m m' : Msg} (h : DoneAs k ig x T m m') (hx : x.Ok k ig) (after : Bytes) :
    Splittable (.ok after m') := by
  refine ⟨?_, h.gzip, ?_⟩
  · rw [h.mode]; split <;> simp
  · rintro ⟨h1, h2, h3⟩
    obtain ⟨fr, h0, hfr, hpl, hd, he⟩ := h.header
    have hends : x.payload.ends = false := by
      cases hy : x.payload.ends with
      | false => rfl
      | true => rw [h.mode, hy] at h1; simp at h1
    obtain ⟨st, hs, pl⟩ := x
    cases pl <;> simp [Payload.ends] at hends
    obtain ⟨_, rfl⟩ := hpl
    have : h0.mode = .close := hd.framed
    rw [he] at h3
    simp [this] at h3

/-- the parser objects -/
theorem kind_parse (c : Codec) (k : Kind) (ig : List PyStr) (x : Message) (hx : x.Ok k ig) (after : Bytes)
    (ha : x.payload.ends = false → after = []) :
    ∃ m', k.feed c (x.text ++ after) (k.message ig) = .ok after m' ∧ Done k ig x (k.message ig) m' ∧ k.Splittable (.ok after m') := by
  obtain ⟨m', h1, h2⟩ := parse_message c (Fresh.message k ig) x hx after ha
  have hsp := h2.splittable hx after
  cases k with
  | request => exact ⟨m', h1, h2, hsp⟩
  | response rm =>
    have hn := h2.not100 hx ⟨rm, rfl⟩
    refine ⟨m', ?_, h2, hsp, ?_⟩
    · show feedResponse c (x.text ++ after) _ = _
      rw [feedResponse_eq, h1]
      have : is100 m' = false := by simp [is100, hn]
      simp [this]
    · intro l m2 he
      cases he
      rintro ⟨_, h⟩
      exact hn h

theorem kind_parse_pieces (c : Codec) (k : Kind) (ig : List PyStr) (x : Message) (hx : x.Ok k ig) (after : Bytes)
    (ha : x.payload.ends = false → after = []) (ts : List Bytes) (hts : ts.flatten = x.text ++ after) :
    ∃ m', feedAll (k.feed c) ts (k.message ig) = .ok after m' ∧ Done k ig x (k.message ig) m' := by
  obtain ⟨m', h1, h2, h3⟩ := kind_parse c k ig x hx after ha
  rw [kind_pieces c k ig ts (by rw [hts, h1]; exact h3), hts, h1]
  exact ⟨m', rfl, h2⟩

/-! ### the decoded message -/

theorem pick_length {buf : Bytes} {cs : List (Nat × Int)} (h : Within buf cs) : ((cs.map (·.2)).sum) = ((pick buf cs).length : Int) := by
  induction cs with
  | nil => rfl
  | cons x cs ih =>
    obtain ⟨o, l⟩ := x
    have hx := h (o, l) (by simp)
    simp only at hx
    have := ih (fun y hy => h y (by simp [hy]))
    simp only [pick, List.map_cons, List.sum_cons, List.flatMap_cons, List.length_append] at this ⊢
    rw [this]
    have hl : (slice buf o ((o : Int) + l)).length = l.toNat := by
      unfold slice sliceTo
      rw [if_pos (by omega)]
      simp
      omega
    rw [hl]
    omega

theorem dropped_iff (n : Bytes) : stripHeaders.contains (lower n) = true ↔ dropped n := by
  unfold dropped stripHeaders
  rw [List.contains_iff_mem]

theorem writeHeaders_body (h : Hdr) : h.writeHeaders stripHeaders = fields ((h.headers ++ h.trailers).filter (fun f => ¬ dropped f.1)) := by
  unfold Hdr.writeHeaders fields
  have : (fun x : Header => !stripHeaders.contains (lower x.1)) = (fun f : Header => decide (¬ dropped f.1)) := by
    funext f
    cases hc : stripHeaders.contains (lower f.1) with
    | false =>
      have : ¬ dropped f.1 := fun hd => by rw [(dropped_iff f.1).2 hd] at hc; cases hc
      simp [this]
    | true =>
      have : dropped f.1 := (dropped_iff f.1).1 hc
      simp [this]
  rw [this]
  rfl

theorem writeHeaders_all (h : Hdr) : h.writeHeaders [] = fields (h.headers ++ h.trailers) := by
  unfold Hdr.writeHeaders fields
  simp only [List.contains_nil, Bool.not_false]
  rw [List.filter_eq_self.2 (by simp)]
  rfl

theorem Head.decodedStart {k : Kind} {ig : List PyStr} {st : Start} {hs : List Header} {fr : Framed} {h : Hdr} (hh : Head k ig st hs fr h) (hf : st.fits k)
    (hp : st.plain) : h.decodedStart = .ok st.text := by
  cases k with
  | request =>
    cases st with
    | response v c p => exact absurd hf (by simp [Start.fits])
    | request me t v =>
      obtain ⟨h1, h2, h3⟩ := hh.request me t v rfl
      have hs' : h.side = .request := hh.side
      unfold Hdr.decodedStart
      rw [hs', h1, h2, h3 hp]
      rfl
  | response rm =>
    cases st with
    | request me t v => exact absurd hf (by simp [Start.fits])
    | response v c p =>
      obtain ⟨h1, h2, h3⟩ := hh.code v c p rfl
      have hs' : h.side = .response rm := hh.side
      unfold Hdr.decodedStart
      rw [hs', h1, h2, h3]
      rfl

theorem DoneAs.decodedFrom {T : Bytes} {k : Kind} {ig : List PyStr} {x : Message} {m m' : Msg} (hd : DoneAs k ig x T m m') (hx : x.Ok k ig) {st : Start}
    (hst : m'.header.decodedStart = .ok st.text)
    (he : ∀ e, encodingOf ig x.fields = some e → e = [] ∨ x.payload.data = []) (z : Zlib) :
    m'.getDecoded z = .ok ({ x with start := st } : Message).plain.text := by
  obtain ⟨fr, h, hfr, hpl, hh, hhd⟩ := hd.header
  have hbd : m'.header.hasBody = h.hasBody := by rw [hhd]; rfl
  have hen : m'.header.encoding = encodingOf ig x.fields := by rw [hhd]; exact hh.encoding
  have hhs : m'.header.headers = x.fields := by rw [hhd]; exact hh.headers
  have hts : m'.header.trailers = x.payload.trailers := by rw [hhd]
  have hbody : h.hasBody = true ↔ hasBody k x.start fr := hh.hasBody hx.fits
  -- what the encoding says does not matter
  have fin : ∀ head lenLine : Bytes, m'.header.writeDecoded = .ok head →
      lenLine = (if m'.header.hasBody then b! "Content-Length: " ++ decimalInt ((m'.bodyChunks.map (·.2)).sum) ++ CRLF else []) →
      m'.getDecoded z = .ok (head ++ lenLine ++ CRLF ++ x.payload.data) := by
    intro head lenLine h1 h2
    unfold Msg.getDecoded
    rw [h1]
    show (match m'.header.encoding with
      | some (e :: es) => _
      | _ => _) = _
    rw [hen, ← h2, hd.body]
    cases hE : encodingOf ig x.fields with
    | none => rfl
    | some e =>
      cases e with
      | nil => rfl
      | cons a as =>
        rcases he _ hE with h | h
        · cases h
        · simp only [h, if_true]
  have hnb : h.hasBody = true → (∀ pl, x.payload = pl → pl ≠ .none) := by
    intro hb pl hpl' hnone
    subst hpl'
    have : ¬ hasBody k x.start fr := by
      have := hpl
      unfold Message.Framed at this
      rw [hnone] at this
      exact this
    exact this (hbody.1 hb)
  cases hb : h.hasBody with
  | false =>
    have hnone : x.payload = .none := by
      have hnb : ¬ hasBody k x.start fr := fun hy => by rw [hbody.2 hy] at hb; cases hb
      have := hpl
      unfold Message.Framed at this
      cases hpp : x.payload with
      | none => rfl
      | sized b => rw [hpp] at this; exact absurd this.1 hnb
      | toEnd b => rw [hpp] at this; exact absurd this.1 hnb
      | chunked b => rw [hpp] at this; exact absurd this.1 hnb
    have hw : m'.header.writeDecoded = .ok (st.text ++ fields x.fields) := by
      unfold Hdr.writeDecoded
      rw [hst, hbd, hb, if_neg (by simp), writeHeaders_all, hhs, hts, hnone]
      simp [Payload.trailers]
      rfl
    rw [fin _ [] hw (by rw [hbd, hb]; simp), hnone]
    simp [Message.plain, hnone, Message.text, headText, Payload.text, Payload.data]
  | true =>
    have hw : m'.header.writeDecoded = .ok (st.text ++ fields ((x.fields ++ x.payload.trailers).filter (fun f => ¬ dropped f.1))) := by
      unfold Hdr.writeDecoded
      rw [hst, hbd, hb, if_pos rfl, writeHeaders_body, hhs, hts]
      rfl
    have hsum : decimalInt ((m'.bodyChunks.map (·.2)).sum) = decimal x.payload.data.length := by
      rw [pick_length hd.within, ← getBody_pick, hd.body]
      rfl
    rw [fin _ _ hw rfl, hbd, hb, if_pos rfl, hsum]
    have hplain : ({ x with start := st } : Message).plain = { start := st, fields := (x.fields ++ x.payload.trailers).filter (fun f => ¬ dropped f.1) ++ [(b! "Content-Length", decimal x.payload.data.length)], payload := .sized x.payload.data } := by
      unfold Message.plain
      cases hpp : x.payload with
      | none => exact absurd hpp (fun h => hnb hb _ h rfl)
      | sized b => rfl
      | toEnd b => rfl
      | chunked b => rfl
    rw [hplain]
    simp [Message.text, headText, Payload.text, fields, fieldText]

theorem DoneAs.decoded {T : Bytes} {k : Kind} {ig : List PyStr} {x : Message} {m m' : Msg} (hd : DoneAs k ig x T m m') (hx : x.Ok k ig) (hp : x.start.plain)
    (he : ∀ e, encodingOf ig x.fields = some e → e = [] ∨ x.payload.data = []) (z : Zlib) :
    m'.getDecoded z = .ok x.plain.text := by
  obtain ⟨fr, h, hfr, hpl, hh, hhd⟩ := hd.header
  exact hd.decodedFrom hx (by rw [hhd]; exact hh.decodedStart hx.fits hp) he z

end Warc.Http
