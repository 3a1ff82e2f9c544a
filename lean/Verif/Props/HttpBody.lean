import Verif.Proofs.HttpDemo
/-
  C33 to C38: The HTTP parser.

  `k : Http.Kind` says which parser object is meant: RequestMessage, or ResponseMessage together with the method of the
  request; `ig` is its `ignore_headers` argument.  `feedAll (k.feed c) ts (k.message ig)` is a new parser fed with the
  pieces `ts` one after the other; it yields the text given back and the state of the parser.
-/
set_option linter.all false
namespace Warc
open Rx Stream Spec Http

/-! ### C33 to C36 -/

/-- **C33** A message whose body is chunked, fed in any pieces together with what follows: it is complete, its body is the
concatenation of the chunk data, the trailer fields are there, and what follows is given back. (That it is not complete
earlier is C38.) -/
theorem C33_chunked (c : Codec) (k : Http.Kind) (ig : List PyStr) (x : Message) (hx : x.Ok k ig) (b : ChunkedBody) (hp : x.payload = .chunked b)
    (after : Bytes) (ts : List Bytes) (hts : ts.flatten = x.text ++ after) :
    ∃ m, feedAll (k.feed c) ts (k.message ig) = .ok after m ∧ m.complete = true ∧ Parsed x m ∧
      m.getBody = b.chunks.flatMap Chunk.data ∧ m.header.trailers = b.trailers := by
  obtain ⟨m, h1, h2⟩ := kind_parse_pieces c k ig x hx after (by simp [hp, Payload.ends]) ts hts
  have h3 := h2.parsed
  refine ⟨m, h1, by rw [h2.complete, hp]; rfl, h3, ?_, ?_⟩
  · rw [h3.body, hp]; rfl
  · rw [h3.trailers, hp]; rfl

example : ∃ b, demoChunked.payload = .chunked b ∧ b.chunks.length = 2 ∧ b.trailers ≠ [] := ⟨_, rfl, rfl, by simp⟩
example (rm : PyStr) (h : rm ≠ .bytes (b! "HEAD")) := demoChunked_ok rm h

/-- **C33** Hexadecimal digits in either case, with or without leading zeros and a chunk extension, make a correct chunk size line. -/
theorem C33_sizes (digits ext data : Bytes) (hd : ∀ d ∈ digits, (hexDigit d).isSome = true) (h0 : digits ≠ [])
    (he : ext = [] ∨ ∃ e, ext = 59 :: e) (hl : 10 ∉ ext) (hlen : hexValue digits = data.length) (hdata : data ≠ []) :
    Chunk.Ok ⟨digits, ext, data⟩ := by
  refine ⟨?_, hdata⟩
  have := SizeOk.hex hd h0 he hl
  rw [hlen] at this
  exact this

example : Chunk.Ok ⟨b! "00fF", b! ";q=1", List.replicate 255 10⟩ := by
  refine C33_sizes _ _ _ (by decide) (by decide) (Or.inr ⟨_, rfl⟩) (by decide) (by rw [List.length_replicate]; decide) ?_
  intro h
  have := congrArg List.length h
  rw [List.length_replicate] at this
  cases this

/-- **C34** A message with a Content-Length (not chunked, not gzip): exactly that many bytes after the header are the body, the
message is complete, and the rest is given back. -/
theorem C34_length (c : Codec) (k : Http.Kind) (ig : List PyStr) (x : Message) (hx : x.Ok k ig) (body : Bytes) (hp : x.payload = .sized body)
    (after : Bytes) (ts : List Bytes) (hts : ts.flatten = x.text ++ after) :
    ∃ m, feedAll (k.feed c) ts (k.message ig) = .ok after m ∧ m.complete = true ∧ Parsed x m ∧ m.getBody = body := by
  obtain ⟨m, h1, h2⟩ := kind_parse_pieces c k ig x hx after (by simp [hp, Payload.ends]) ts hts
  have h3 := h2.parsed
  refine ⟨m, h1, by rw [h2.complete, hp]; rfl, h3, ?_⟩
  rw [h3.body, hp]; rfl

example : demoPost.Ok .request [] ∧ ∃ b, demoPost.payload = .sized b ∧ b ≠ [] := ⟨demoPost_ok, _, rfl, by simp⟩

/-- **C35** A message whose body ends with the connection takes everything as its body, is not complete, and is complete after
`close()`. -/
theorem C35_close (c : Codec) (k : Http.Kind) (ig : List PyStr) (x : Message) (hx : x.Ok k ig) (body : Bytes) (hp : x.payload = .toEnd body)
    (ts : List Bytes) (hts : ts.flatten = x.text) :
    ∃ m, feedAll (k.feed c) ts (k.message ig) = .ok [] m ∧ m.complete = false ∧ m.getBody = body ∧
      m.close.complete = true ∧ Parsed x m.close ∧ m.close.getBody = body := by
  obtain ⟨m, h1, h2⟩ := kind_parse_pieces c k ig x hx [] (fun _ => rfl) ts (by simpa using hts)
  have h3 := h2.parsed
  have hb : m.getBody = body := by rw [h3.body, hp]; rfl
  refine ⟨m, h1, by rw [h2.complete, hp]; rfl, hb, ?_, ?_, ?_⟩
  · rw [h2.close]; rfl
  · rw [h2.close]; exact ⟨h3.headers, h3.trailers, h3.request, h3.response, h3.body, h3.text⟩
  · rw [h2.close]; exact hb

example : demoClose.Ok (.response (.bytes (b! "GET"))) [] ∧ ∃ b, demoClose.payload = .toEnd b ∧ b ≠ [] :=
  ⟨demoClose_ok _ (by decide), _, rfl, by simp⟩

/-- **C36** A response to HEAD, a response with code 1xx (but 100: C39), 204 or 304, and a request with neither length nor chunking is
complete right after the header whatever its header says about the body, and what follows is given back. -/
theorem C36_no_body (c : Codec) (k : Http.Kind) (ig : List PyStr) (st : Start) (hs : List Header) (hf : st.fits k) (hst : st.Ok)
    (hok : FieldsOk hs) (fr : Framed) (hfr : framing ig hs = some fr)
    (hno : noBody k st fr)
    (after : Bytes) (ts : List Bytes) (hts : ts.flatten = headText st hs ++ after) :
    ∃ m, feedAll (k.feed c) ts (k.message ig) = .ok after m ∧ m.complete = true ∧ m.getBody = [] ∧ m.header.headers = hs ∧
      m.getMessage = headText st hs := by
  have hx : (⟨st, hs, .none⟩ : Message).Ok k ig := by
    refine ⟨hf, hst, hok, ⟨fr, hfr, ?_⟩, ?_, ?_⟩
    · show ¬ hasBody k st fr
      cases k with
      | request =>
        have : fr = .close := by cases st <;> exact hno
        simp [hasBody, this]
      | response rm =>
        cases st with
        | request me t v => exact absurd hf (by simp [Start.fits])
        | response v code p =>
          obtain ⟨_, h⟩ := hno
          rintro ⟨h1, h2, h3, h4⟩
          rcases h with h | h | h | h
          · exact h1 h
          · exact h2 h
          · exact h3 h
          · exact h4 h
    · rintro ⟨b, hb⟩; cases hb
    · intro v p e
      cases k with
      | request => rw [show st = .response v 100 p from e] at hf; exact hf
      | response rm =>
        rw [show st = .response v 100 p from e] at hno
        exact hno.1 rfl
  obtain ⟨m, h1, h2⟩ := kind_parse_pieces c k ig _ hx after (by simp [Payload.ends]) ts (by simpa [Message.text, Payload.text] using hts)
  have h3 := h2.parsed
  exact ⟨m, h1, by rw [h2.complete]; rfl, h3.body, h3.headers, by rw [h3.text]; simp [Message.text, Payload.text]⟩

example (c : Codec) : ∃ m, feedAll (feedResponse c) [demoHead.text ++ b! "rest"] (Msg.response (.bytes (b! "HEAD")) []) = .ok (b! "rest") m ∧
    m.complete = true := by
  obtain ⟨m, h1, h2, _⟩ := C36_no_body c (.response (.bytes (b! "HEAD"))) [] demoHead.start demoHead.fields demoHead_ok.fits demoHead_ok.start
    demoHead_ok.fields .chunked (by decide) ⟨by decide, Or.inl rfl⟩ (b! "rest") [demoHead.text ++ b! "rest"] (by simp [Message.text, demoHead, Payload.text])
  exact ⟨m, h1, h2⟩

/-! ### C37 -/

/-- **C37** After the header, `body_is_chunked()` and `body_length()` are what `framing` says of the header fields; a Content-Length
that is not a number and comes first raises ValueError. -/
theorem C37_framing (c : Codec) (k : Http.Kind) (ig : List PyStr) (st : Start) (hs : List Header) (hf : st.fits k) (hst : st.Ok)
    (hok : FieldsOk hs) (hg : ¬ gzipField ig hs) :
    match framing ig hs with
    | some fr => ∃ m, feed c (headText st hs) (k.message ig) = .ok [] m ∧ m.headersComplete = true ∧
        (m.header.bodyIsChunked = true ↔ fr = .chunked) ∧ (∀ n, m.header.bodyLength = some n ↔ fr = .length n)
    | none => ∃ m, feed c (headText st hs) (k.message ig) = .raise .valueError m := by
  cases hfr : framing ig hs with
  | none =>
    have := head_feed c k ig st hs [] _ (Fresh.message k ig) hf hst hok
    rw [hfr, List.append_nil] at this
    exact this
  | some fr =>
    obtain ⟨m, h1, h2, h3⟩ := head_only c k ig hf hst hok hfr (fun _ _ => hg)
    refine ⟨m, h1, h3, ?_, ?_⟩
    · have := h2.framed
      cases fr with
      | close => have e : m.header.mode = .close := this; simp [Hdr.bodyIsChunked, e]
      | length n => have e : m.header.mode = .length := this.1; simp [Hdr.bodyIsChunked, e]
      | chunked => have e : m.header.mode = .chunked := this; simp [Hdr.bodyIsChunked, e]
    · intro n
      have := h2.framed
      cases fr with
      | close => have e : m.header.mode = .close := this; simp [Hdr.bodyLength, e]
      | length n' => simp [h2.bodyLength]
      | chunked => have e : m.header.mode = .chunked := this; simp [Hdr.bodyLength, e]

/-- **C37** Exactly when `framing` has no answer: some Content-Length that is not a number comes before every other Content-Length and before
every field that says chunked.  Otherwise chunked is the answer exactly if some field says so. -/
theorem C37_bad_length (ig : List PyStr) (hs : List Header) :
    (framing ig hs = none ↔ ∃ pre f post, hs = pre ++ f :: post ∧ (∀ g ∈ pre, saysChunked ig g = false ∧ saysLength ig g = false) ∧
      saysChunked ig f = false ∧ saysLength ig f = true ∧ pyInt 10 (lower f.2) = none) ∧
    (framing ig hs ≠ none → (framing ig hs = some .chunked ↔ ∃ f ∈ hs, saysChunked ig f = true)) := by
  cases hfind : hs.find? (fun f => saysChunked ig f || saysLength ig f) with
  | none =>
    have hno : ∀ g ∈ hs, saysChunked ig g = false ∧ saysLength ig g = false := by
      intro g hg
      have := List.find?_eq_none.1 hfind g hg
      simpa using this
    have hfr : framing ig hs = some .close := by unfold framing; rw [hfind]
    refine ⟨⟨fun h => (by rw [hfr] at h; cases h), ?_⟩, fun _ => ⟨fun h => (by rw [hfr] at h; cases h), ?_⟩⟩
    · rintro ⟨pre, f, post, rfl, _, _, hf, _⟩
      rw [(hno f (by simp)).2] at hf
      cases hf
    · rintro ⟨f, hf, hc⟩
      rw [(hno f hf).1] at hc
      cases hc
  | some f =>
    have hmem := List.mem_of_find?_eq_some hfind
    obtain ⟨hf, pre, post, hsplit, hpre⟩ := List.find?_eq_some_iff_append.1 hfind
    have hpre' : ∀ g ∈ pre, saysChunked ig g = false ∧ saysLength ig g = false := by
      intro g hg
      have := hpre g hg
      simpa using this
    have hfr : framing ig hs = if saysChunked ig f then some .chunked
        else match pyInt 10 (lower f.2) with
          | none => none
          | some n => if hs.any (saysChunked ig) then some .chunked else some (.length n) := by
      unfold framing; rw [hfind]; rfl
    cases hc : saysChunked ig f with
    | true =>
      rw [hc, if_pos rfl] at hfr
      refine ⟨⟨fun h => (by rw [hfr] at h; cases h), ?_⟩, fun _ => ⟨fun _ => ⟨f, hmem, hc⟩, fun _ => hfr⟩⟩
      rintro ⟨pre2, f2, post2, h2, hp2, hc2, hl2, _⟩
      exfalso
      have hfind2 : hs.find? (fun f => saysChunked ig f || saysLength ig f) = some f2 := by
        rw [List.find?_eq_some_iff_append]
        exact ⟨by simp [hl2], pre2, post2, h2, fun g hg => by simp [(hp2 g hg).1, (hp2 g hg).2]⟩
      rw [hfind] at hfind2
      cases hfind2
      rw [hc] at hc2
      cases hc2
    | false =>
      rw [hc] at hfr
      simp only [Bool.false_eq_true, if_false] at hfr
      have hl : saysLength ig f = true := by simpa [hc] using hf
      cases hp : pyInt 10 (lower f.2) with
      | none =>
        rw [hp] at hfr
        exact ⟨⟨fun _ => ⟨pre, f, post, hsplit, hpre', hc, hl, hp⟩, fun _ => hfr⟩, fun h => absurd hfr h⟩
      | some n =>
        rw [hp] at hfr
        simp only at hfr
        refine ⟨⟨fun h => ?_, ?_⟩, fun _ => ?_⟩
        · rw [hfr] at h
          by_cases ha : hs.any (saysChunked ig) = true <;> simp [ha] at h
        · rintro ⟨pre2, f2, post2, h2, hp2, hc2, hl2, hn2⟩
          exfalso
          have hfind2 : hs.find? (fun f => saysChunked ig f || saysLength ig f) = some f2 := by
            rw [List.find?_eq_some_iff_append]
            exact ⟨by simp [hl2], pre2, post2, h2, fun g hg => by simp [(hp2 g hg).1, (hp2 g hg).2]⟩
          rw [hfind] at hfind2
          cases hfind2
          rw [hp] at hn2
          cases hn2
        · rw [hfr]
          by_cases ha : hs.any (saysChunked ig) = true
          · simp only [ha, if_true, true_iff]
            simpa using ha
          · simp only [ha]
            have : ¬ ∃ f ∈ hs, saysChunked ig f = true := by simpa using ha
            simp [this]

example : framing [] [(b! "Content-Length", b! "x"), (b! "Transfer-Encoding", b! "chunked")] = none ∧
    framing [] [(b! "Transfer-Encoding", b! "chunked"), (b! "Content-Length", b! "x")] = some .chunked := by decide

/-- **C37** What `framing` says: chunked when some Transfer-Encoding contains the word (and no bad Content-Length comes before it),
otherwise the first Content-Length, otherwise up to the end; fields on the ignore list do not count. -/
theorem C37_rules (ig : List PyStr) (hs : List Header) :
    ((∃ f ∈ hs, saysChunked ig f = true) → (∀ f ∈ hs, saysLength ig f = true → (pyInt 10 (lower f.2)).isSome = true) → framing ig hs = some .chunked) ∧
    ((∀ f ∈ hs, saysChunked ig f = false) → ∀ pre f post n, hs = pre ++ f :: post → (∀ g ∈ pre, saysLength ig g = false) → saysLength ig f = true →
      pyInt 10 (lower f.2) = some n → framing ig hs = some (.length n)) ∧
    ((∀ f ∈ hs, saysChunked ig f = false ∧ saysLength ig f = false) → framing ig hs = some .close) := by
  refine ⟨?_, ?_, ?_⟩
  · rintro ⟨f, hf, hc⟩ hl
    have hany : hs.any (saysChunked ig) = true := List.any_eq_true.2 ⟨f, hf, hc⟩
    unfold framing
    cases hfind : hs.find? (fun f => saysChunked ig f || saysLength ig f) with
    | none =>
      have := List.find?_eq_none.1 hfind f hf
      simp [hc] at this
    | some g =>
      simp only
      have hg := List.find?_some hfind
      have hmem := List.mem_of_find?_eq_some hfind
      cases hgc : saysChunked ig g with
      | true => simp
      | false =>
        simp only [hgc, Bool.false_or] at hg
        obtain ⟨n, hn⟩ := Option.isSome_iff_exists.1 (hl g hmem hg)
        simp [hn, hany]
  · intro hnc pre f post n he hpre hf hn
    have hany : hs.any (saysChunked ig) = false := by
      rw [List.any_eq_false]; intro g hg; simp [hnc g hg]
    have hfind : hs.find? (fun f => saysChunked ig f || saysLength ig f) = some f := by
      rw [he, List.find?_append]
      have : pre.find? (fun f => saysChunked ig f || saysLength ig f) = none := by
        rw [List.find?_eq_none]
        intro g hg
        simp [hpre g hg, hnc g (by rw [he]; simp [hg])]
      rw [this]
      simp [hf]
    have hfc := hnc f (by rw [he]; simp)
    unfold framing
    rw [hfind]
    simp [hfc, hn, hany]
  · intro h
    have hfind : hs.find? (fun f => saysChunked ig f || saysLength ig f) = none := by
      rw [List.find?_eq_none]
      intro g hg
      simp [h g hg]
    unfold framing
    rw [hfind]

example : framing [] demoChunked.fields = some .chunked := by decide
example : framing [.bytes (b! "Transfer-Encoding")] demoChunked.fields = some (.length 7) := by decide

/-! ### C38 -/

/-- **C38** A message that ends too early (chunked, with Content-Length, or in its header) is never complete, before or after `close()`,
nothing is given back, and after `close()` the body is the part of the body that has arrived. -/
theorem C38_truncated (c : Codec) (k : Http.Kind) (ig : List PyStr) (x : Message) (hx : x.Ok k ig) (he : x.payload.ends = true) (n : Nat)
    (hn : n < x.text.length) (ts : List Bytes) (hts : ts.flatten = x.text.take n) :
    ∃ m, feedAll (k.feed c) ts (k.message ig) = .ok [] m ∧ m.complete = false ∧ m.close.complete = false ∧
      m.close.getBody = x.received n := by
  obtain ⟨M, h1, h2, h3⟩ := kind_parse c k ig x hx [] (fun _ => rfl)
  rw [List.append_nil] at h1
  have hM : M.mode = .end_ := by rw [h2.mode, he]; rfl
  have hne : x.text.drop n ≠ [] := by
    intro h
    have := congrArg List.length h
    simp at this
    omega
  obtain ⟨m1, g1, g2, g3, g4⟩ := kind_truncated c k ig (x.text.take n) (x.text.drop n) M (by rw [List.take_append_drop]; exact h1) h3 hM hne
  refine ⟨m1, ?_, g3, g4, truncated_body c k ig x hx he n hn g1⟩
  rw [kind_pieces c k ig ts (by rw [hts, g1]; exact g2), hts, g1]

example : demoChunked.received 100 = b! "hello\r\n3" := by decide +kernel
example : 100 < demoChunked.text.length := by decide +kernel

end Warc
