import Verif.Proofs.HttpGrammarAll
import Verif.Spec.Arc2Warc
import Verif.Spec.Toy
set_option linter.all false
/-
  C109: what any sequence of bytes means as an HTTP message.
-/
namespace Warc
open Rx Http Http.Grammar

/-- **C109** Whatever the bytes, what `feed` of a new parser does with them is what the grammar of Spec/HttpGrammar says: which exception it raises or that it never
returns, what it gives back, and what the parser shows afterwards and after `close()`. -/
theorem C109_feed (c : Codec) (k : Http.Kind) (ig : List PyStr) (text : Bytes) :
    (meaning c k ig text).Agrees k ig (k.feed c text (k.message ig)) := (meaning_any c k ig text).1

/-- **C109** The same however the bytes are cut into pieces, one call of `feed` for each of them (what the calls give back is put together); excepted are the cases in
which the pieces matter. -/
theorem C109_pieces (c : Codec) (k : Http.Kind) (ig : List PyStr) (ts : List Bytes) (s : Seen) (hs : meaning c k ig ts.flatten = .seen s)
    (hst : s.Steady k (if s.interim = [] then ig else [])) :
    (Outcome.seen s).Agrees k ig (feedAll (k.feed c) ts (k.message ig)) := by
  obtain ⟨h1, h2⟩ := meaning_any c k ig ts.flatten
  rw [kind_pieces c k ig ts (h2 s hs hst), ← hs]
  exact h1

/-- **C109** Which bytes `arc2warc` takes for an HTTP response: those that mean a response that is complete once there is no more text, and nothing behind it. -/
theorem C109_response (c : Codec) (body : Bytes) :
    Spec.IsResponse c body ↔ ∃ s, meaning c (.response (.str "")) [] body = .seen s ∧ s.left = [] ∧ s.closes = true := by
  have h := C109_feed c (.response (.str "")) [] body
  constructor
  · rintro ⟨m, hm, hc⟩
    have hm' : Kind.feed c (.response (.str "")) body (Kind.message (.response (.str "")) []) = .ok [] m := hm
    rw [hm'] at h
    cases hx : meaning c (.response (.str "")) [] body with
    | refused e => rw [hx] at h; obtain ⟨_, h⟩ := h; cases h
    | forever => rw [hx] at h; cases h
    | seen s =>
      rw [hx] at h
      obtain ⟨m2, h1, h2⟩ := h
      cases h1e : s.left with
      | cons x xs => rw [h1e] at h1; cases h1
      | nil =>
        rw [h1e] at h1; cases h1
        exact ⟨s, rfl, h1e, by rw [← h2.closes]; exact hc⟩
  · rintro ⟨s, hs, hl, hc⟩
    rw [hs] at h
    obtain ⟨m, h1, h2⟩ := h
    rw [hl] at h1
    exact ⟨m, h1, by rw [h2.closes]; exact hc⟩

/-- **C109** Which bytes it takes for something else (the parser raises nothing, and returns). -/
theorem C109_not_response (c : Codec) (body : Bytes) :
    Spec.NotResponse c body ↔ ∃ s, meaning c (.response (.str "")) [] body = .seen s ∧ (s.left ≠ [] ∨ s.closes = false) := by
  have h := C109_feed c (.response (.str "")) [] body
  constructor
  · rintro ⟨l, m, hm, hc⟩
    have hm' : Kind.feed c (.response (.str "")) body (Kind.message (.response (.str "")) []) = .ok l m := hm
    rw [hm'] at h
    cases hx : meaning c (.response (.str "")) [] body with
    | refused e => rw [hx] at h; obtain ⟨_, h⟩ := h; cases h
    | forever => rw [hx] at h; cases h
    | seen s =>
      rw [hx] at h
      obtain ⟨m2, h1, h2⟩ := h
      cases h1
      exact ⟨s, rfl, by rw [← h2.closes]; exact hc⟩
  · rintro ⟨s, hs, hc⟩
    rw [hs] at h
    obtain ⟨m, h1, h2⟩ := h
    exact ⟨_, m, h1, by rw [h2.closes]; exact hc⟩

/-- **C109** The decoded form of any complete response with nothing behind it. -/
theorem C109_decoded_response (c : Codec) (rm : PyStr) (ig : List PyStr) (text : Bytes) (s : Seen) (hs : meaning c (.response rm) ig text = .seen s) (hl : s.left = [])
    (hc : s.closes = true) (v : Bytes) (n : Int) (p : Bytes) (ho : s.opening = some (.response v n p)) :
    ∃ m, feedResponse c text (Msg.response rm ig) = .ok [] m ∧ m.close.complete = true ∧
      ∀ z, m.close.getDecoded z = .ok (v ++ [32] ++ decimalInt n ++ [32] ++ p ++ CRLF ++ s.decoded z (.response rm) (if s.interim = [] then ig else [])) := by
  have h := C109_feed c (.response rm) ig text
  rw [hs] at h
  obtain ⟨m, h1, h2⟩ := h
  rw [hl] at h1
  refine ⟨m, h1, by rw [h2.closes, hc], ?_⟩
  obtain ⟨o, ho', hd⟩ := h2.decoded hc hl
  rw [ho] at ho'; cases ho'
  exact hd

/-- **C109** The decoded form of any complete request with nothing behind it: its target is the one that the parser shows; there is none if this is text, that is, if the request line has
an absolute URL without a path. -/
theorem C109_decoded_request (c : Codec) (ig : List PyStr) (text : Bytes) (s : Seen) (hs : meaning c .request ig text = .seen s) (hl : s.left = [])
    (hc : s.closes = true) (me t v : Bytes) (ho : s.opening = some (.request me t v)) :
    ∃ m line, feed c text (Msg.request ig) = .ok [] m ∧ m.close.complete = true ∧ LineSays me t line ∧
      (∀ u z, line.uri = .bytes u → m.close.getDecoded z = .ok (me ++ [32] ++ u ++ [32] ++ v ++ CRLF ++ s.decoded z .request (if s.interim = [] then ig else []))) ∧
      (∀ w z, line.uri = .str w → m.close.getDecoded z = .error .typeError) := by
  have h := C109_feed c .request ig text
  rw [hs] at h
  obtain ⟨m, h1, h2⟩ := h
  rw [hl] at h1
  obtain ⟨line, h3, h4⟩ := h2.target me t v ho
  obtain ⟨o, ho', hd⟩ := h2.decoded hc hl
  rw [ho] at ho'; cases ho'
  have hu : m.header.targetUri = line.uri := h4.uri
  refine ⟨m, line, h1, by rw [h2.closes, hc], h3, ?_, ?_⟩
  · intro u z e; rw [hd z, hu, e]; rfl
  · intro u z e; rw [hd z, hu, e]; rfl

/-! Some of the cases. -/

/-- a chunked response, decoded; and one that cannot be decompressed -/
example : (match meaning Spec.toy (.response (.str "")) [] (b! "HTTP/1.1 200  OK\nTE: x\nA:b\nTransfer-Encoding: chunked\n\n2;x\nabcde\n0\nT: 1\n\n") with
    | .seen s => (s.decoded ⟨fun _ => none, fun _ => none⟩ (.response (.str "")) [], s.left, s.closes)
    | _ => ([], [], false)) = (b! "A: b\r\nT: 1\r\nContent-Length: 2\r\n\r\nab", [], true) := by decide +kernel

example : (match meaning Spec.toy (.response (.str "")) [] (b! "HTTP/1.1 200\nContent-Encoding: DEFLATE\n\nxyz") with
    | .seen s => (s.decoded ⟨fun _ => none, fun _ => none⟩ (.response (.str "")) [], s.left, s.closes)
    | _ => ([], [], false)) = (b! "Content-Length: 3\r\nContent-Encoding: deflate\r\n\r\nxyz", [], true) := by decide +kernel


/-- a request with a folded field, a body and more text behind it -/
example : meaning Spec.toy .request [] (b! "POST /a HTTP/1.1\r\nX: a\r\n  b\r\nContent-Length: 2\n\nhi!") =
    .seen { opening := some (.request (b! "POST") (b! "/a") (b! "HTTP/1.1")), fields := [(b! "X", b! "a b"), (b! "Content-Length", b! "2")], head := true, body := b! "hi", complete := true, closes := true, message := b! "POST /a HTTP/1.1\r\nX: a\r\n  b\r\nContent-Length: 2\n\nhi", left := b! "!" } := by
  decide +kernel

/-- an interim response, then a chunked one with a trailer; what follows the data of the first chunk on its line is swallowed -/
example : meaning Spec.toy (.response (.bytes (b! "GET"))) [] (b! "HTTP/1.1 100\r\n\r\nHTTP/1.1 200 OK\r\nTransfer-Encoding: chunked\r\n\r\n2;x\r\nabcde\r\n0\r\nT: 1\r\n\r\nz") =
    .seen { opening := some (.response (b! "HTTP/1.1") 200 (b! "OK")), fields := [(b! "Transfer-Encoding", b! "chunked")], head := true, trailers := [(b! "T", b! "1")], body := b! "ab", complete := true, closes := true, message := b! "HTTP/1.1 100\r\n\r\nHTTP/1.1 200 OK\r\nTransfer-Encoding: chunked\r\n\r\n2;x\r\nabcde\r\n0\r\nT: 1\r\n\r\n", left := b! "z", interim := [[]] } := by
  decide +kernel

/-- a response cut in its second chunk -/
example : meaning Spec.toy (.response (.bytes (b! "GET"))) [] (b! "HTTP/1.1 200 OK\r\nTransfer-Encoding: chunked\r\n\r\n2\r\nab\r\nA\r\ncd") =
    .seen { opening := some (.response (b! "HTTP/1.1") 200 (b! "OK")), fields := [(b! "Transfer-Encoding", b! "chunked")], head := true, body := b! "abcd", complete := false, closes := false, message := b! "HTTP/1.1 200 OK\r\nTransfer-Encoding: chunked\r\n\r\n2\r\nab\r\nA\r\ncd", left := [] } := by
  decide +kernel

/-- exceptions, and a call that never returns -/
example : meaning Spec.toy .request [] (b! "nonsense\r\n") = .refused .valueError ∧ meaning Spec.toy .request [] (b! "GET / x\r\n folded\r\n") = .refused .indexError ∧
    meaning Spec.toy (.response (.str "")) [] (b! "HTTP/1.1 200 OK\r\nTransfer-Encoding: chunked\r\n\r\n-1\r\nx") = .forever := by
  decide +kernel

/-- such a text may come in any pieces -/
example : ∃ s, meaning Spec.toy .request [] ([b! "POST /a HTT", b! "P/1.1\r\nContent-Length: 2\n\n", b! "hi!"] : List Bytes).flatten = .seen s ∧ s.Steady .request [] := by
  refine ⟨{ opening := some (.request (b! "POST") (b! "/a") (b! "HTTP/1.1")), fields := [(b! "Content-Length", b! "2")], head := true, body := b! "hi", complete := true, closes := true, message := b! "POST /a HTTP/1.1\r\nContent-Length: 2\n\nhi", left := b! "!" }, by decide +kernel, ⟨by simp, ?_, by simp, by simp [Seen.isInterim]⟩⟩
  intro o n _ _ _ _; simp only; decide +kernel

end Warc
