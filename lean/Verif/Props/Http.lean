import Verif.Proofs.HttpDemo
/-
  C31, C32: The HTTP parser.

  `k : Http.Kind` says which parser object is meant: RequestMessage, or ResponseMessage together with the method of the
  request; `ig` is its `ignore_headers` argument.  `feedAll (k.feed c) ts (k.message ig)` is a new parser fed with the
  pieces `ts` one after the other; it yields the text given back and the state of the parser.
-/
set_option linter.all false
namespace Warc
open Rx Stream Spec Http

/-! ### C31 -/

/-- **C31** Feeding a text in any pieces has the same outcome (state of the parser, text given back, or exception) as
feeding it in one piece, when the outcome of the latter is `Splittable`: the text does not begin with an empty line,
no gzip body with Content-Length is decompressed on the fly, a chunked body begins with a chunk line, and there
are not two interim responses in front. -/
theorem C31_any_pieces (c : Codec) (k : Http.Kind) (ig : List PyStr) (ts : List Bytes)
    (h : k.Splittable (k.feed c ts.flatten (k.message ig))) :
    feedAll (k.feed c) ts (k.message ig) = k.feed c ts.flatten (k.message ig) :=
  kind_pieces c k ig ts h

/-- **C31** Every well-formed message, whatever follows it, can be fed in any pieces: the parser shows the message and gives
back what follows. -/
theorem C31_messages (c : Codec) (k : Http.Kind) (ig : List PyStr) (x : Message) (hx : x.Ok k ig) (after : Bytes)
    (ha : x.payload.ends = false → after = []) (ts us : List Bytes) (hts : ts.flatten = x.text ++ after)
    (hus : us.flatten = x.text ++ after) :
    ∃ m, feedAll (k.feed c) ts (k.message ig) = .ok after m ∧ feedAll (k.feed c) us (k.message ig) = .ok after m ∧ Parsed x m := by
  obtain ⟨m, h1, h2, h3⟩ := kind_parse c k ig x hx after ha
  refine ⟨m, ?_, ?_, h2.parsed⟩
  · rw [kind_pieces c k ig ts (by rw [hts, h1]; exact h3), hts, h1]
  · rw [kind_pieces c k ig us (by rw [hus, h1]; exact h3), hus, h1]

example (c : Codec) : ∃ m, feedAll (feedResponse c) (demoChunked.text.map fun b => [b]) (Msg.response (.bytes (b! "GET")) []) = .ok [] m ∧
    m.getBody = b! "hello\r\n3456\n78\n" := by
  obtain ⟨m, h1, _, h2⟩ := C31_messages c (.response (.bytes (b! "GET"))) [] demoChunked (demoChunked_ok _ (by decide)) []
    (fun _ => rfl) (demoChunked.text.map fun b => [b]) [demoChunked.text] (by
      rw [List.append_nil]
      generalize demoChunked.text = l
      induction l with
      | nil => rfl
      | cons a l ih => simp [ih]) (by simp)
  exact ⟨m, h1, h2.body⟩

/-- **C31** (exception) A text that begins with an empty line is given back at once, and must be fed again; fed line by line it
is parsed. -/
theorem C31_leading_blank_line (c : Codec) (x : Message) (hx : x.Ok .request []) (he : x.payload.ends = true) :
    (∃ m, feedAll (feed c) [CRLF ++ x.text] (Msg.request []) = .ok x.text m ∧ m.headersComplete = false) ∧
    (∃ m, feedAll (feed c) [CRLF, x.text] (Msg.request []) = .ok [] m ∧ m.complete = true ∧ m.getBody = x.payload.data) := by
  have key : ∀ t, feed c (CRLF ++ t) (Msg.request []) = .ok t (took (Msg.request []) CRLF) := by
    intro t
    have := feed_start_line c (u := [13]) t (Inv.request []).line rfl (by decide)
    rw [show CRLF ++ t = [13] ++ 10 :: t from rfl, this]
    rfl
  constructor
  · refine ⟨took (Msg.request []) CRLF, ?_, rfl⟩
    show feedAll (feed c) [CRLF ++ x.text] (Msg.request []) = _
    rw [feedAll_cons, key]
    show Res.ok (x.text ++ []) _ = _
    rw [List.append_nil]
  · have hf : Fresh .request [] (took (Msg.request []) CRLF) := ⟨rfl, rfl, rfl, rfl, rfl⟩
    obtain ⟨m', h1, h2⟩ := parse_message c hf x hx [] (fun _ => rfl)
    refine ⟨m', ?_, ?_, h2.body⟩
    · have := key []
      rw [List.append_nil] at this h1
      simp [feedAll, this, h1]
    · rw [h2.complete, he]

/-- **C31** (exception) A body with Content-Encoding gzip and a Content-Length depends on where the input is split: when
the text ends with the header, the body is taken to be empty and what follows is given back. -/
theorem C31_gzip_split : ∃ (c : Codec) (a b : Bytes) (m m' : Msg), Codec.Laws c ∧
    feedAll (feedResponse c) [a ++ b] (Msg.response (.bytes (b! "GET")) []) = .ok [] m ∧ m.getBody ≠ [] ∧
    feedAll (feedResponse c) [a, b] (Msg.response (.bytes (b! "GET")) []) = .ok b m' ∧ m'.complete = true ∧ m'.getBody = [] := by
  obtain ⟨m, h1, h2⟩ := ok_of_check (r := feedAll (feedResponse toy) [b! "HTTP/1.1 200 OK\r\nContent-Length: 5\r\nContent-Encoding: gzip\r\n\r\n" ++ toyEnc (b! "Z")]
    (Msg.response (.bytes (b! "GET")) [])) (l := []) (P := fun m => m.getBody ≠ []) (by decide +kernel)
  obtain ⟨m', h3, h4⟩ := ok_of_check (r := feedAll (feedResponse toy) [b! "HTTP/1.1 200 OK\r\nContent-Length: 5\r\nContent-Encoding: gzip\r\n\r\n", toyEnc (b! "Z")]
    (Msg.response (.bytes (b! "GET")) [])) (l := toyEnc (b! "Z")) (P := fun m => m.complete = true ∧ m.getBody = []) (by decide +kernel)
  exact ⟨toy, _, _, m, m', toy_laws, h1, h2, h3, h4⟩

/-- **C31** (exception) A body announced as chunked that is not chunked is taken as it is, but only when its first line
arrives in one piece; otherwise parsing fails. -/
theorem C31_broken_chunks_split : ∃ (c : Codec) (a b : Bytes) (m m' : Msg), Codec.Laws c ∧
    feedAll (feedResponse c) [a ++ b] (Msg.response (.bytes (b! "GET")) []) = .ok [] m ∧ m.getBody = b! "xy\n" ∧
    feedAll (feedResponse c) [a, b] (Msg.response (.bytes (b! "GET")) []) = .raise .valueError m' := by
  obtain ⟨m, h1, h2⟩ := ok_of_check (r := feedAll (feedResponse toy) [b! "HTTP/1.1 200 OK\r\nTransfer-Encoding: chunked\r\n\r\nx" ++ b! "y\n"]
    (Msg.response (.bytes (b! "GET")) [])) (l := []) (P := fun m => m.getBody = b! "xy\n") (by decide +kernel)
  obtain ⟨m', h3⟩ := raise_of_check (r := feedAll (feedResponse toy) [b! "HTTP/1.1 200 OK\r\nTransfer-Encoding: chunked\r\n\r\nx", b! "y\n"]
    (Msg.response (.bytes (b! "GET")) [])) (e := .valueError) (by decide +kernel)
  exact ⟨toy, _, _, m, m', toy_laws, h1, h2, h3⟩

/-! ### C32 -/

/-- **C32** In every state that calls of `feed` can lead to, a further call moves bytes from its input to the message and
gives back the others: message so far ++ input = message ++ text given back.  (Exception: gzip bodies with Content-Length,
which are decompressed.) -/
theorem C32_conservation (c : Codec) (k : Http.Kind) (ig : List PyStr) (m m' : Msg) (hm : Reached (k.feed c) (k.message ig) m)
    (t l : Bytes) (h : k.feed c t m = .ok l m') (hg : gzipBody m'.header = false) :
    m'.getMessage ++ l = m.getMessage ++ t :=
  kind_conserve (reached_alive hm) h hg

/-- **C32** For any pieces, message ++ text given back = input (with the exceptions of C31). -/
theorem C32_conservation_pieces (c : Codec) (k : Http.Kind) (ig : List PyStr) (ts : List Bytes) (l : Bytes) (m : Msg)
    (hs : k.Splittable (k.feed c ts.flatten (k.message ig)))
    (h : feedAll (k.feed c) ts (k.message ig) = .ok l m) : m.getMessage ++ l = ts.flatten := by
  rw [kind_pieces c k ig ts hs] at h
  have hg : gzipBody m.header = false := by
    rw [h] at hs
    cases k with
    | request => exact hs.2.1
    | response rm => exact hs.1.2.1
  have := C32_conservation c k ig (k.message ig) m .new ts.flatten l h hg
  rw [this]
  cases k <;> rfl

/-- **C32** (exception) With a gzip body the message holds decompressed bytes, and what follows the body is lost. -/
theorem C32_gzip_lost : ∃ (c : Codec) (t l : Bytes) (m : Msg), Codec.Laws c ∧
    feedResponse c t (Msg.response (.bytes (b! "GET")) []) = .ok l m ∧ m.complete = true ∧ m.getMessage ++ l ≠ t := by
  obtain ⟨m, h1, h2⟩ := ok_of_check (r := feedResponse toy (b! "HTTP/1.1 200 OK\r\nContent-Length: 5\r\nContent-Encoding: gzip\r\n\r\n" ++ toyEnc (b! "Z") ++ b! "next")
    (Msg.response (.bytes (b! "GET")) [])) (l := []) (P := fun m => m.complete = true ∧
      m.getMessage ++ [] ≠ b! "HTTP/1.1 200 OK\r\nContent-Length: 5\r\nContent-Encoding: gzip\r\n\r\n" ++ toyEnc (b! "Z") ++ b! "next") (by decide +kernel)
  exact ⟨toy, _, _, m, toy_laws, h1, h2⟩

end Warc
