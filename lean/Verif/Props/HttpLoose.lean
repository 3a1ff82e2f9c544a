import Verif.Proofs.HttpLoose
import Verif.Proofs.HttpDemo
/-
  C68: Other ways to write the same HTTP message, and lines that are refused.
-/
set_option linter.all false
namespace Warc
open Rx Stream Spec Http

/-! ### a concrete layout -/

/-- `demoChunked` with bare line feeds, odd white space, a value on three lines, and a trailer on two -/
def Spec.demoFolded : Message where
  start := .response (b! "HTTP/1.1") 200 []
  fields := [(b! "X", b! "a b  c d"), (b! "transfer-ENCODING", b! "x, Chunked")]
  payload := .chunked ⟨[⟨b! "5", b! ";a=b", b! "hello"⟩, ⟨b! "0A", [], b! "\r\n3456\n78\n"⟩], b! "00", [], [(b! "X-T", b! "v w")]⟩

theorem demoFolded_ok (rm : PyStr) (hrm : rm ≠ .bytes (b! "HEAD")) : demoFolded.Ok (.response rm) [] where
  fits := trivial
  start := by unfold Start.Ok demoFolded; decide
  fields := by
    intro f hf
    simp only [demoFolded, List.mem_cons, List.not_mem_nil, or_false] at hf
    rcases hf with rfl | rfl <;> exact ⟨by decide, by decide, by decide, by decide, by decide⟩
  framed := by
    refine ⟨.chunked, by decide, ⟨hrm, by decide, by decide, by decide⟩, rfl, ?_, ?_, ?_⟩
    · intro c hc
      simp only [List.mem_cons, List.not_mem_nil, or_false] at hc
      rcases hc with rfl | rfl
      · exact ⟨SizeOk.hex (size := b! "5") (by decide) (by decide) (Or.inr ⟨_, rfl⟩) (by decide), by decide⟩
      · exact ⟨SizeOk.hex (size := b! "0A") (by decide) (by decide) (Or.inl rfl) (by decide), by decide⟩
    · exact SizeOk.hex (size := b! "00") (by decide) (by decide) (Or.inl rfl) (by decide)
    · intro f hf
      simp only [List.mem_cons, List.not_mem_nil, or_false] at hf
      subst hf
      exact ⟨by decide, by decide, by decide, by decide, by decide⟩
  gzip := by rintro ⟨b, hb⟩; cases hb
  final := by intro v p h; cases h

def Spec.demoLayout : Layout where
  startLine := b! "HTTP/1.1 200"
  fields := [⟨b! "X", b! " \t", [], b! "a", b! " \r", [(9, b! "b  c \r"), (32, b! "\t d")]⟩,
    ⟨b! "transfer-ENCODING", [], b! "  ", b! "x, Chunked", [], []⟩]
  blank := [10]
  trailers := [⟨b! "X-T", [], b! " ", b! "v", b! "\r", [(32, b! "w")]⟩]
  lastBlank := [10]

theorem demoLayout_text : demoLayout.text demoFolded =
    b! "HTTP/1.1 200\nX \t:a \r\n\tb  c \r\n \t d\ntransfer-ENCODING:  x, Chunked\n\n5;a=b\r\nhello\r\n0A\r\n\r\n3456\n78\n\r\n00\r\nX-T: v\r\n w\n\n" := by
  decide

theorem demoLayout_ok : demoLayout.Ok demoFolded where
  startLine := ⟨[], by simp [Blanks], .inr ⟨_, _, rfl, by decide⟩⟩
  fieldsOk := by
    intro f hf
    simp only [demoLayout, List.mem_cons, List.not_mem_nil, or_false] at hf
    rcases hf with rfl | rfl
    · exact ⟨by decide, by decide, by decide, by decide, by unfold Blanks; decide, by unfold Blanks; decide, by decide, by decide,
        by unfold Blanks; decide, by decide⟩
    · exact ⟨by decide, by decide, by decide, by decide, by unfold Blanks; decide, by unfold Blanks; decide, by decide, by decide,
        by unfold Blanks; decide, by decide⟩
  fields := by decide
  blank := .inr rfl
  trailersOk := by
    intro f hf
    simp only [demoLayout, List.mem_cons, List.not_mem_nil, or_false] at hf
    subst hf
    exact ⟨by decide, by decide, by decide, by decide, by unfold Blanks; decide, by unfold Blanks; decide, by decide, by decide,
        by unfold Blanks; decide, by decide⟩
  trailers := by decide
  lastBlank := .inr rfl

/-! ### the theorems -/

/-- **C68** A message may be written with bare line feeds in place of CRLF, with white space around the colons of its fields
and at the end of the lines, and with values continued on lines that begin with a space or a tab.  In whatever pieces it
arrives, the parser shows the same message: the same fields and trailers, parts of the start line and body; the text behind it is
given back, and `get_message` is the text as it was written. -/
theorem C68_layout (c : Codec) (k : Http.Kind) (ig : List PyStr) (x : Message) (hx : x.Ok k ig) (w : Layout) (hw : w.Ok x)
    (after : Bytes) (ha : x.payload.ends = false → after = []) (ts : List Bytes) (hts : ts.flatten = w.text x ++ after) :
    ∃ m, feedAll (k.feed c) ts (k.message ig) = .ok after m ∧
      m.complete = x.payload.ends ∧
      m.header.headers = x.fields ∧
      m.header.trailers = x.payload.trailers ∧
      (∀ me t v, x.start = .request me t v → m.header.method = .bytes me ∧ m.header.version = .bytes v) ∧
      (∀ v cd p, x.start = .response v cd p → m.header.version = .bytes v ∧ m.header.code = cd ∧ m.header.phrase = .bytes p) ∧
      m.getBody = x.payload.data ∧
      m.getMessage = w.text x := by
  obtain ⟨m, h1, h2⟩ := kind_layout c k ig x hx w hw after ha ts hts
  obtain ⟨fr, h, _, _, hh, hhd⟩ := h2.header
  refine ⟨m, h1, ?_, by rw [hhd]; exact hh.headers, by rw [hhd], ?_, ?_, h2.body, ?_⟩
  · unfold Msg.complete
    rw [h2.mode]
    cases x.payload.ends <;> rfl
  · intro me t v e
    obtain ⟨g1, g2, _⟩ := hh.request me t v e
    rw [hhd]; exact ⟨g1, g2⟩
  · intro v cd p e
    obtain ⟨g1, g2, g3⟩ := hh.code v cd p e
    rw [hhd]; exact ⟨g2, g1, g3⟩
  · show m.buffer = _
    rw [h2.buffer]
    cases k <;> rfl

example (c : Codec) (ts : List Bytes)
    (hts : ts.flatten = b! "HTTP/1.1 200\nX \t:a \r\n\tb  c \r\n \t d\ntransfer-ENCODING:  x, Chunked\n\n5;a=b\r\nhello\r\n0A\r\n\r\n3456\n78\n\r\n00\r\nX-T: v\r\n w\n\n" ++ b! "HTTP/") :
    ∃ m, feedAll (feedResponse c) ts (Msg.response (.bytes (b! "GET")) []) = .ok (b! "HTTP/") m ∧
      m.header.headers = [(b! "X", b! "a b  c d"), (b! "transfer-ENCODING", b! "x, Chunked")] ∧ m.header.trailers = [(b! "X-T", b! "v w")] ∧
      m.getBody = b! "hello\r\n3456\n78\n" := by
  rw [← demoLayout_text] at hts
  obtain ⟨m, h1, _, h2, h3, _, _, h4, _⟩ := C68_layout c (.response (.bytes (b! "GET"))) [] demoFolded (demoFolded_ok _ (by decide)) demoLayout demoLayout_ok
    (b! "HTTP/") (fun h => by cases h) ts hts
  exact ⟨m, h1, h2, h3, by rw [h4]; decide⟩

/-- **C68** The decoded form does not depend on how the message was written. -/
theorem C68_decoded (c : Codec) (z : Zlib) (k : Http.Kind) (ig : List PyStr) (x : Message) (hx : x.Ok k ig) (w : Layout) (hw : w.Ok x)
    (hp : x.start.plain) (he : ∀ e, encodingOf ig x.fields = some e → e = [] ∨ x.payload.data = [])
    (ts : List Bytes) (hts : ts.flatten = w.text x) :
    ∃ m, feedAll (k.feed c) ts (k.message ig) = .ok [] m ∧ m.getDecoded z = .ok x.plain.text := by
  obtain ⟨m, h1, h2⟩ := kind_layout c k ig x hx w hw [] (fun _ => rfl) ts (by simpa using hts)
  exact ⟨m, h1, h2.decoded hx hp he z⟩

example (c : Codec) (z : Zlib) : ∃ m, feedAll (feedResponse c) [demoLayout.text demoFolded] (Msg.response (.bytes (b! "GET")) []) = .ok [] m ∧
    m.getDecoded z = .ok (b! "HTTP/1.1 200 \r\nX: a b  c d\r\nX-T: v w\r\nContent-Length: 15\r\n\r\nhello\r\n3456\n78\n") := by
  obtain ⟨m, h1, h2⟩ := C68_decoded c z (.response (.bytes (b! "GET"))) [] demoFolded (demoFolded_ok _ (by decide)) demoLayout demoLayout_ok trivial
    (by intro e he; exact absurd he (by rw [show encodingOf [] demoFolded.fields = none by decide]; simp)) [demoLayout.text demoFolded] (by simp)
  exact ⟨m, h1, h2.trans (congrArg Except.ok (by decide))⟩

/-- **C68** A line among the header fields that is not empty, does not begin with a space or a tab and has no colon raises ValueError, whatever
follows it and in whatever pieces the text arrives. -/
theorem C68_no_colon (c : Codec) (k : Http.Kind) (ig : List PyStr) (st : Start) (hf : st.fits k) (hst : st.Ok) (l : Bytes) (hl : st.writtenAs l)
    (fs : List FieldLayout) (hok : ∀ f ∈ fs, f.Ok) (u rest : Bytes) (hu : 10 ∉ u) (hcolon : 58 ∉ u) (hne : u ≠ [] ∧ u ≠ [13])
    (hb : ∀ d ds, u = d :: ds → d ≠ 32 ∧ d ≠ 9) (ts : List Bytes)
    (hts : ts.flatten = l ++ [10] ++ fs.flatMap FieldLayout.text ++ u ++ 10 :: rest) :
    ∃ m, feedAll (k.feed c) ts (k.message ig) = .raise .valueError m := by
  refine line_refused c k ig st hf hst hl fs hok u rest hu (fun h _ => ?_) ts hts
  have h1 : isFold (u ++ [10]) = false := by
    cases u with
    | nil => exact absurd rfl hne.1
    | cons d ds =>
      obtain ⟨g1, g2⟩ := hb d ds rfl
      simp [isFold, startsWith, List.isPrefixOf, Ne.symm g1, Ne.symm g2]
  have h2 : isNewline (u ++ [10]) = false := by
    unfold isNewline
    simp only [Bool.or_eq_false_iff, beq_eq_false_iff_ne]
    refine ⟨fun h => hne.2 ?_, fun h => hne.1 ?_⟩
    · exact List.append_cancel_right (show u ++ [10] = [13] ++ [10] from h)
    · exact List.append_cancel_right (show u ++ [10] = [] ++ [10] from h)
  have h3 : splitOnce 58 (u ++ [10]) = none := splitOnce_none (by simp [hcolon])
  simp only [addHeaderLine, M.bind_apply, M.get_apply, h1, h2, h3, Bool.false_eq_true, if_false]
  rfl

example (c : Codec) (ts : List Bytes) (hts : ts.flatten = b! "HTTP/1.1 200 OK\r\nA: b\r\nno colon\r\n\r\nbody") :
    ∃ m, feedAll (feedResponse c) ts (Msg.response (.bytes (b! "GET")) []) = .raise .valueError m :=
  C68_no_colon c (.response (.bytes (b! "GET"))) [] (.response (b! "HTTP/1.1") 200 (b! "OK")) trivial (by unfold Start.Ok; decide) (b! "HTTP/1.1 200 OK\r")
    ⟨b! "\r", by unfold Blanks; decide, .inl (by decide)⟩ [⟨b! "A", [], b! " ", b! "b", b! "\r", []⟩]
    (by
      intro f hf
      simp only [List.mem_cons, List.not_mem_nil, or_false] at hf
      subst hf
      exact ⟨by decide, by decide, by decide, by decide, by unfold Blanks; decide, by unfold Blanks; decide, by decide, by decide,
        by unfold Blanks; decide, by decide⟩)
    (b! "no colon\r") (b! "\r\nbody") (by decide) (by decide) (by decide)
    (by intro d ds h; cases h; decide) ts (by rw [hts]; decide)

/-- **C68** A continuation line directly behind the start line raises IndexError. -/
theorem C68_first_fold (c : Codec) (k : Http.Kind) (ig : List PyStr) (st : Start) (hf : st.fits k) (hst : st.Ok) (l : Bytes) (hl : st.writtenAs l)
    (d : Byte) (hd : d = 32 ∨ d = 9) (u rest : Bytes) (hu : 10 ∉ u) (ts : List Bytes) (hts : ts.flatten = l ++ [10] ++ d :: u ++ 10 :: rest) :
    ∃ m, feedAll (k.feed c) ts (k.message ig) = .raise .indexError m := by
  refine line_refused c k ig st hf hst hl [] (by simp) (d :: u) rest ?_ (fun h hh => ?_) ts (by simpa using hts)
  · rw [List.mem_cons, not_or]
    exact ⟨by rcases hd with h | h <;> rw [h] <;> decide, hu⟩
  · have : h.headers.getLast? = none := by rw [hh]; rfl
    simp only [addHeaderLine, M.bind_apply, M.get_apply, isFold_line (d, u) hd, if_true, this]
    rfl

example (c : Codec) (ts : List Bytes) (hts : ts.flatten = b! "GET / HTTP/1.1\n x: y\r\n\r\n") :
    ∃ m, feedAll (feed c) ts (Msg.request []) = .raise .indexError m :=
  C68_first_fold c .request [] (.request (b! "GET") (b! "/") (b! "HTTP/1.1")) trivial
    ⟨by decide, by decide, by decide, fun hc => absurd hc (by decide)⟩ (b! "GET / HTTP/1.1")
    ⟨[], by simp [Blanks], .inl (by decide)⟩ 32 (.inl rfl) (b! "x: y\r") (b! "\r\n") (by decide) ts (by rw [hts]; decide)

/-- **C68** A first line that is no start line raises ValueError: a request line of fewer than three words, a CONNECT whose target has
not exactly one colon, a status line whose code is missing or no number. -/
theorem C68_bad_start (c : Codec) (k : Http.Kind) (ig : List PyStr) (l rest : Bytes) (hl : 10 ∉ l) (hn : l ≠ [] ∧ l ≠ [13]) (hb : BadStart k l)
    (ts : List Bytes) (hts : ts.flatten = l ++ 10 :: rest) : ∃ m, feedAll (k.feed c) ts (k.message ig) = .raise .valueError m :=
  start_refused c k ig l rest hl hn hb ts hts

example (c : Codec) (ts : List Bytes) (hts : ts.flatten = b! "GET /index.html  \r\nHost: a\r\n\r\n") :
    ∃ m, feedAll (feed c) ts (Msg.request []) = .raise .valueError m :=
  C68_bad_start c .request [] (b! "GET /index.html  \r") (b! "Host: a\r\n\r\n") (by decide) (by decide) (.inl (by decide)) ts hts

example (c : Codec) (ts : List Bytes) (hts : ts.flatten = b! "CONNECT host HTTP/1.1\r\n") :
    ∃ m, feedAll (feed c) ts (Msg.request []) = .raise .valueError m :=
  C68_bad_start c .request [] (b! "CONNECT host HTTP/1.1\r") [] (by decide) (by decide)
    (.inr ⟨b! "CONNECT", b! "host", b! "HTTP/1.1", by decide, by decide, by decide, by decide, by decide⟩) ts hts

example (c : Codec) (ts : List Bytes) (hts : ts.flatten = b! "HTTP/1.1 abc OK\r\n") :
    ∃ m, feedAll (feedResponse c) ts (Msg.response (.bytes (b! "GET")) []) = .raise .valueError m :=
  C68_bad_start c (.response (.bytes (b! "GET"))) [] (b! "HTTP/1.1 abc OK\r") [] (by decide) (by decide)
    (by
      intro v rest h hv
      have hr : rstrip (b! "HTTP/1.1 abc OK\r") = b! "HTTP/1.1" ++ 32 :: b! "abc OK" := by decide
      rw [hr] at h
      have h2 := splitOnce_append (b! "HTTP/1.1") (b! "abc OK") (sep := 32) (by decide)
      rw [h, splitOnce_append v rest hv] at h2
      cases h2
      decide) ts hts

end Warc
