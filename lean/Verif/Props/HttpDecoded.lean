import Verif.Props.HttpBody
/-
  C41, C42: The HTTP parser.

  `k : Http.Kind` says which parser object is meant: RequestMessage, or ResponseMessage together with the method of the
  request; `ig` is its `ignore_headers` argument.  `feedAll (k.feed c) ts (k.message ig)` is a new parser fed with the
  pieces `ts` one after the other; it yields the text given back and the state of the parser.
-/
set_option linter.all false
namespace Warc
open Rx Stream Spec Http

/-! ### C41 and C42 -/

/-- **C41** The decoded form of a message without content encoding: the parser, closed, gives the text of `x.plain` (start line, the
header and trailer fields that do not concern the transfer, a Content-Length, the body).  Parsed again, in any pieces
and with anything after it, this is a complete message with the same body and start line, not chunked, and decoding it again
changes nothing. -/
theorem C41_decoded (c : Codec) (k : Http.Kind) (ig : List PyStr) (x : Message) (hx : x.Ok k ig) (hplain : x.start.plain)
    (henc : ∀ e, encodingOf ig x.fields = some e → e = []) (hig : ignored ig (b! "Content-Length") = false) (z : Zlib)
    (ts : List Bytes) (hts : ts.flatten = x.text) :
    ∃ m, feedAll (k.feed c) ts (k.message ig) = .ok [] m ∧ m.close.complete = true ∧ m.close.getDecoded z = .ok x.plain.text ∧
      ∀ (after : Bytes) (us : List Bytes), us.flatten = x.plain.text ++ after →
        ∃ m2, feedAll (k.feed c) us (k.message ig) = .ok after m2 ∧ m2.complete = true ∧ Parsed x.plain m2 ∧
          m2.getBody = m.getBody ∧ m2.getDecoded z = .ok x.plain.text := by
  obtain ⟨m, h1, h2⟩ := kind_parse_pieces c k ig x hx [] (fun _ => rfl) ts (by simpa using hts)
  have henc' : ∀ e, encodingOf ig x.fields = some e → e = [] ∨ x.payload.data = [] := fun e he => Or.inl (henc e he)
  refine ⟨m, h1, by rw [h2.close]; rfl, ?_, ?_⟩
  · rw [h2.close]
    exact h2.decoded hx hplain henc' z
  · intro after us hus
    have hx' := hx.plain hig
    obtain ⟨m2, g1, g2⟩ := kind_parse_pieces c k ig x.plain hx' after (by rw [x.plain_ends]; simp) us hus
    have hp := g2.parsed
    refine ⟨m2, g1, by rw [g2.complete, x.plain_ends], hp, ?_, ?_⟩
    · rw [hp.body, x.plain_data, h2.parsed.body]
    · have := g2.decoded hx' (by rw [x.plain_start]; exact hplain) (Message.plain_encoding henc') z
      rw [x.plain_plain] at this
      exact this

/-- **C41** What the decoded form is: the same start line and body; for a message with a body, the fields that do not concern the
transfer, in order, with those of the trailer after them, and one Content-Length. -/
theorem C41_plain (x : Message) : x.plain.start = x.start ∧ x.plain.payload.data = x.payload.data ∧
    (x.payload ≠ .none → x.plain.payload = .sized x.payload.data ∧
      x.plain.fields = (x.fields ++ x.payload.trailers).filter (fun f => ¬ dropped f.1) ++ [(b! "Content-Length", decimal x.payload.data.length)]) ∧
    (x.payload = .none → x.plain = x) := by
  refine ⟨x.plain_start, x.plain_data, ?_, ?_⟩
  · intro h; rw [plain_eq h]; exact ⟨rfl, rfl⟩
  · intro h; unfold Message.plain; rw [h]

example : demoChunked.plain.text = b! "HTTP/1.1 200 OK then\r\nX: \r\nX-T: v\r\nContent-Length: 15\r\n\r\nhello\r\n3456\n78\n" := by decide +kernel

/-- **C42** (refuted) When the body is compressed, the Content-Length of the decoded message is the length of the compressed body. -/
theorem C42_wrong_length (c : Codec) (k : Http.Kind) (ig : List PyStr) (x : Message) (hx : x.Ok k ig) (hplain : x.start.plain)
    (e : Bytes) (he : encodingOf ig x.fields = some e) (he0 : e ≠ []) (hdata : x.payload.data ≠ []) (hb : x.payload ≠ .none) (z : Zlib)
    (d : Bytes) (hz : z.zlib x.payload.data = some d ∨ (z.zlib x.payload.data = none ∧ z.gzip x.payload.data = some d))
    (ts : List Bytes) (hts : ts.flatten = x.text) :
    ∃ m, feedAll (k.feed c) ts (k.message ig) = .ok [] m ∧
      m.close.getDecoded z = .ok (headText x.start
        ((x.fields ++ x.payload.trailers).filter (fun f => ¬ dropped f.1) ++ [(b! "Content-Length", decimal x.payload.data.length)]) ++ d) := by
  obtain ⟨m, h1, h2⟩ := kind_parse_pieces c k ig x hx [] (fun _ => rfl) ts (by simpa using hts)
  refine ⟨m, h1, ?_⟩
  rw [h2.close]
  have := h2.decodedEnc hx hplain he he0 hdata hb z
  rw [plain_eq hb] at this
  have goal : m.getDecoded z = .ok (headText x.start
        ((x.fields ++ x.payload.trailers).filter (fun f => ¬ dropped f.1) ++ [(b! "Content-Length", decimal x.payload.data.length)]) ++ d) := by
    rw [this]
    rcases hz with hz | ⟨hz1, hz2⟩
    · rw [hz]
    · rw [hz1]; simp only; rw [hz2]
  exact goal

/-- **C42** (refuted) So parsing the decoded message again loses the end of a body that is longer than its compressed form … -/
theorem C42_body_cut (c : Codec) (k : Http.Kind) (ig : List PyStr) (x : Message) (hx : x.Ok k ig) (hb : x.payload ≠ .none)
    (hig : ignored ig (b! "Content-Length") = false) (d : Bytes) (hlen : x.payload.data.length < d.length) (ts : List Bytes)
    (hts : ts.flatten = headText x.start
        ((x.fields ++ x.payload.trailers).filter (fun f => ¬ dropped f.1) ++ [(b! "Content-Length", decimal x.payload.data.length)]) ++ d) :
    ∃ m, feedAll (k.feed c) ts (k.message ig) = .ok (d.drop x.payload.data.length) m ∧ m.complete = true ∧
      m.getBody = d.take x.payload.data.length := by
  have h0 := hx.plain hig
  rw [plain_eq hb] at h0
  obtain ⟨fr, hfr, hpl⟩ := h0.framed
  have hlen' : (d.take x.payload.data.length).length = x.payload.data.length := by simp; omega
  let y : Message := ⟨x.start, (x.fields ++ x.payload.trailers).filter (fun f => ¬ dropped f.1) ++ [(b! "Content-Length", decimal x.payload.data.length)],
    .sized (d.take x.payload.data.length)⟩
  have hy : y.Ok k ig := by
    refine ⟨h0.fits, h0.start, h0.fields, ⟨fr, hfr, ?_⟩, ?_, h0.final⟩
    · show hasBody k x.start fr ∧ fr = .length (d.take x.payload.data.length).length
      rw [hlen']
      exact hpl
    · intro _; exact h0.gzip ⟨_, rfl⟩
  obtain ⟨m, h1, h2, h3, h4⟩ := C34_length c k ig y hy (d.take x.payload.data.length) rfl (d.drop x.payload.data.length) ts (by
    rw [hts]
    show _ = (headText x.start _ ++ d.take x.payload.data.length) ++ d.drop x.payload.data.length
    rw [List.append_assoc, List.take_append_drop])
  exact ⟨m, h1, h2, h4⟩

/-- **C42** (refuted) … and a decompressed body that is shorter never makes a complete message. -/
theorem C42_body_short (c : Codec) (k : Http.Kind) (ig : List PyStr) (x : Message) (hx : x.Ok k ig) (hb : x.payload ≠ .none)
    (hig : ignored ig (b! "Content-Length") = false) (d : Bytes) (hlen : d.length < x.payload.data.length) (ts : List Bytes)
    (hts : ts.flatten = headText x.start
        ((x.fields ++ x.payload.trailers).filter (fun f => ¬ dropped f.1) ++ [(b! "Content-Length", decimal x.payload.data.length)]) ++ d) :
    ∃ m, feedAll (k.feed c) ts (k.message ig) = .ok [] m ∧ m.complete = false ∧ m.close.complete = false := by
  have h0 := hx.plain hig
  rw [plain_eq hb] at h0
  obtain ⟨fr, hfr, hpl⟩ := h0.framed
  let y : Message := ⟨x.start, (x.fields ++ x.payload.trailers).filter (fun f => ¬ dropped f.1) ++ [(b! "Content-Length", decimal x.payload.data.length)],
    .sized (d ++ List.replicate (x.payload.data.length - d.length) 0)⟩
  have hlen' : (d ++ List.replicate (x.payload.data.length - d.length) 0).length = x.payload.data.length := by simp; omega
  have hy : y.Ok k ig := by
    refine ⟨h0.fits, h0.start, h0.fields, ⟨fr, hfr, ?_⟩, ?_, h0.final⟩
    · show hasBody k x.start fr ∧ fr = .length (d ++ List.replicate (x.payload.data.length - d.length) 0).length
      rw [hlen']
      exact hpl
    · intro _; exact h0.gzip ⟨_, rfl⟩
  have hyt : y.text = headText y.start y.fields ++ (d ++ List.replicate (x.payload.data.length - d.length) 0) := rfl
  obtain ⟨m, h1, h2, h3, _⟩ := C38_truncated c k ig y hy rfl ((headText y.start y.fields).length + d.length) (by
    rw [hyt]; simp; omega) ts (by
    rw [hts, hyt, List.take_length_add_append, List.take_append_of_le_length (Nat.le_refl _), List.take_length])
  exact ⟨m, h1, h2, h3⟩

/-- a gzip body with an unknown length, and a decompressor that knows it -/
def Spec.demoGzip : Message where
  start := .response (b! "HTTP/1.1") 200 (b! "OK")
  fields := [(b! "Content-Encoding", b! "GZip")]
  payload := .toEnd (b! "zzz")

theorem demoGzip_ok : demoGzip.Ok (.response (.bytes (b! "GET"))) [] where
  fits := trivial
  start := by unfold Start.Ok demoGzip; decide
  fields := by
    intro f hf
    simp only [demoGzip, List.mem_cons, List.not_mem_nil, or_false] at hf
    subst hf
    exact ⟨by decide, by decide, by decide, by decide, by decide⟩
  framed := ⟨.close, by decide, ⟨by decide, by decide, by decide, by decide⟩, rfl⟩
  gzip := by rintro ⟨b, hb⟩; cases hb
  final := by intro v p h; cases h

example (c : Codec) : ∃ m, feedAll (feedResponse c) [demoGzip.text] (Msg.response (.bytes (b! "GET")) []) = .ok [] m ∧
    m.close.getDecoded ⟨fun _ => none, fun b => some (b ++ b)⟩ = .ok (b! "HTTP/1.1 200 OK\r\nContent-Length: 3\r\n\r\nzzzzzz") := by
  obtain ⟨m, h1, h2⟩ := C42_wrong_length c (.response (.bytes (b! "GET"))) [] demoGzip demoGzip_ok trivial (b! "gzip") (by decide) (by decide) (by decide)
    (by simp [demoGzip]) ⟨fun _ => none, fun b => some (b ++ b)⟩ _ (Or.inr ⟨rfl, rfl⟩) [demoGzip.text] (by simp)
  exact ⟨m, h1, h2.trans (congrArg Except.ok (by decide +kernel))⟩

end Warc
