import Verif.Proofs.HttpUrl
import Verif.Proofs.HttpDemo
import Verif.Model.HttpMore
/-
  C64: What a request asks for.  C65: What a message says about the connection.
-/
set_option linter.all false
namespace Warc
open Rx Stream Spec Http

/-! ### concrete requests -/

/-- an ordinary request with a port in its Host field -/
def Spec.demoGet (host : Bytes) : Message where
  start := .request (b! "GET") (b! "/x?y") (b! "HTTP/1.1")
  fields := [(b! "Accept", b! "*/*"), (b! "hOsT", host), (b! "Connection", b! "Keep-Alive"), (b! "Expect", b! "100-Continue")]
  payload := .none

theorem demoGet_ok (host : Bytes) (h : 10 ∉ host ∧ strip host = host) : (demoGet host).Ok .request [] where
  fits := trivial
  start := ⟨by decide, by decide, by decide, fun hc => absurd hc (by decide)⟩
  fields := by
    intro f hf
    simp only [demoGet, List.mem_cons, List.not_mem_nil, or_false] at hf
    rcases hf with rfl | rfl | rfl | rfl
    · exact ⟨by decide, by decide, by decide, by decide, by decide⟩
    · exact ⟨(by decide : 58 ∉ b! "hOsT"), (by decide : 10 ∉ b! "hOsT"), (by decide : strip (b! "hOsT") = b! "hOsT"), h.1, h.2⟩
    · exact ⟨by decide, by decide, by decide, by decide, by decide⟩
    · exact ⟨by decide, by decide, by decide, by decide, by decide⟩
  framed := ⟨.close, rfl, by unfold Message.Framed demoGet; simp [hasBody]⟩
  gzip := by rintro ⟨b, hb⟩; cases hb
  final := by intro v p h; cases h

/-- a request with an absolute URL and a Host field -/
def Spec.demoProxy (path : Bytes) : Message where
  start := .request (b! "GET") (b! "HTTPS://a.example:8080" ++ path) (b! "HTTP/1.1")
  fields := [(b! "Host", b! "b.example")]
  payload := .none

theorem demoProxy_ok (path : Bytes) (h : 32 ∉ path ∧ 10 ∉ path) : (demoProxy path).Ok .request [] where
  fits := trivial
  start := by
    unfold Start.Ok demoProxy
    refine ⟨by decide, ?_, by decide, fun hc => absurd hc (by decide)⟩
    constructor
    · intro hx; rcases List.mem_append.1 hx with hx | hx
      · exact absurd hx (by decide)
      · exact h.1 hx
    · intro hx; rcases List.mem_append.1 hx with hx | hx
      · exact absurd hx (by decide)
      · exact h.2 hx
  fields := by
    intro f hf
    simp only [demoProxy, List.mem_cons, List.not_mem_nil, or_false] at hf
    subst hf
    exact ⟨by decide, by decide, by decide, by decide, by decide⟩
  framed := ⟨.close, rfl, by unfold Message.Framed demoProxy; simp [hasBody]⟩
  gzip := by rintro ⟨b, hb⟩; cases hb
  final := by intro v p h; cases h

theorem demoProxy_url (path : Bytes) (h : ∀ d ds, path = d :: ds → ¬ (48 ≤ d ∧ d ≤ 57)) :
    AbsoluteUrl (b! "HTTPS://a.example:8080" ++ path) (b! "HTTPS") (b! "a.example") (some (b! "8080")) path where
  text := by simp
  http := Or.inr (by decide)
  hostNonempty := by decide
  hostPlain := by decide
  portDigits := by rintro p ⟨⟩; exact ⟨by decide, by decide, h⟩
  noPort := by simp

/-- the header object of a request that has been read -/
theorem Done.target {ig : List PyStr} {x : Message} {m m' : Msg} (hd : Done .request ig x m m') (hx : x.Ok .request ig) {me t v : Bytes}
    (hst : x.start = .request me t v) : ∃ line, LineSays me t line ∧ FieldsSay x.fields line m'.header.target := by
  obtain ⟨fr, h, hfr, hpl, hh, hhd⟩ := hd.header
  obtain ⟨h1, g1, g2, g3, g4, _⟩ := hh.steps
  have hok := hx.start
  rw [hst] at g1 hok
  obtain ⟨h2, k1, k2, _⟩ := request_line me t v hok ig
  have : h1 = h2 := by
    have e : (freshHdr .request ig) = Hdr.request ig := rfl
    rw [e, k1] at g1; cases g1; rfl
  subst this
  exact ⟨h1.target, k2, by rw [hhd]; exact fieldsSay g2 g3 (g4 rfl)⟩

/-- **C64** A well-formed request, fed in any pieces together with what follows: `target_uri`, `host`, `port` and `scheme` are what
the request line says (`LineSays`: CONNECT host:port, an absolute URL, or anything else), with the Host fields over it
(`FieldsSay`). -/
theorem C64_target (c : Codec) (ig : List PyStr) (x : Message) (hx : x.Ok .request ig) (me t v : Bytes) (hst : x.start = .request me t v)
    (after : Bytes) (ha : x.payload.ends = false → after = []) (ts : List Bytes) (hts : ts.flatten = x.text ++ after) :
    ∃ m line, feedAll (feed c) ts (Msg.request ig) = .ok after m ∧ LineSays me t line ∧ FieldsSay x.fields line m.header.target := by
  obtain ⟨m, h1, h2⟩ := kind_parse_pieces c .request ig x hx after ha ts hts
  obtain ⟨line, h3, h4⟩ := Done.target h2 hx hst
  exact ⟨m, line, h1, h3, h4⟩

/-- a request line with an absolute URL -/
example (c : Codec) : ∃ m line, feedAll (feed c) [(demoProxy (b! "/p")).text] (Msg.request []) = .ok [] m ∧
    LineSays (b! "GET") (b! "HTTPS://a.example:8080/p") line ∧ FieldsSay [(b! "Host", b! "b.example")] line m.header.target :=
  C64_target c [] (demoProxy (b! "/p")) (demoProxy_ok _ (by decide)) _ _ _ rfl [] (fun _ => rfl) _ (by simp)

/-- **C64** What the request line says is unambiguous. -/
theorem C64_line_unique (me t : Bytes) (h10 : 10 ∉ t) (a b : Target) (ha : LineSays me t a) (hb : LineSays me t b) : a = b := by
  have split_unique : ∀ (h p h' p' : Bytes), h ++ 58 :: p = h' ++ 58 :: p' → 58 ∉ h → 58 ∉ h' → h = h' ∧ p = p' := by
    intro h p h' p' e n n'
    have e1 := congrArg (splitOnce 58) e
    rw [splitOnce_append h p n, splitOnce_append h' p' n'] at e1
    simpa using e1
  cases ha with
  | connect h p h1 h2 h3 h4 =>
    cases hb with
    | connect h' p' h1' h2' h3' h4' =>
      obtain ⟨rfl, rfl⟩ := split_unique h p h' p' (h2.symm.trans h2') h3 h3'
      rfl
    | absolute s' h' p' pa' h1' _ => exact absurd h1 h1'
    | other h1' _ => exact absurd h1 h1'
  | absolute s h p pa h1 h2 =>
    cases hb with
    | connect h' p' h1' _ _ _ => exact absurd h1' h1
    | absolute s' h' p' pa' h1' h2' =>
      obtain ⟨mt, e, e1, e2, e3, e4⟩ := url_match h2 h10
      obtain ⟨mt', e', e1', e2', e3', e4'⟩ := url_match h2' h10
      rw [e] at e'; cases e'
      rw [← e1, ← e2, ← e3, ← e4, ← e1', ← e2', ← e3', ← e4']
    | other h1' h2' => exact absurd h2 (h2' s h p pa)
  | other h1 h2 =>
    cases hb with
    | connect h' p' h1' _ _ _ => exact absurd h1' h1
    | absolute s' h' p' pa' h1' h2' => exact absurd h2' (h2 s' h' p' pa')
    | other _ _ => rfl

/-- the three forms -/
example : LineSays (b! "connect") (b! "h:443") ⟨.bytes (b! "h:443"), .bytes (b! "h"), .text (b! "443"), .str "http"⟩ ∧
    LineSays (b! "GET") (b! "HTTPS://a.example:8080/p") ⟨.bytes (b! "/p"), .bytes (b! "a.example"), .num 8080, .bytes (b! "HTTPS")⟩ ∧
    LineSays (b! "OPTIONS") (b! "*") ⟨.bytes (b! "*"), .str "", .num 80, .str "http"⟩ := by
  refine ⟨.connect (b! "h") (b! "443") (by decide) rfl (by decide) (by decide), ?_, .other (by decide) ?_⟩
  · exact .absolute (b! "HTTPS") (b! "a.example") (some (b! "8080")) (b! "/p") (by decide) (demoProxy_url (b! "/p") (by rintro d ds ⟨⟩; decide))
  · intro s h p pa hu
    rcases hu.http with e | e <;>
    · have h1 := congrArg List.length hu.text
      have h2 : s.length = (lower s).length := by simp [lower]
      rw [e] at h2
      simp at h1 h2
      omega

/-- not an absolute URL -/
theorem not_absolute {t : Bytes} (ht : ∀ c, t.head? = some c → lowerByte c ≠ 104) (scheme host : Bytes) (port : Option Bytes) (path : Bytes) :
    ¬ AbsoluteUrl t scheme host port path := by
  intro h
  rcases h.http with hs | hs <;>
  · cases scheme with
    | nil => cases hs
    | cons c cs =>
      have := ht c (by rw [h.text]; rfl)
      simp only [lower, List.map, List.cons.injEq] at hs
      exact this hs.1

/-- **C64** The usual request: a target that is not an absolute URL, and one Host field.  The target is kept, the Host field gives
the host and, if it has a port, the port, as the text after the colon; without a port in it the port is the number 80. -/
theorem C64_origin (c : Codec) (ig : List PyStr) (x : Message) (hx : x.Ok .request ig) (me t v : Bytes) (hst : x.start = .request me t v)
    (hme : upper me ≠ b! "CONNECT") (ht : ∀ c, t.head? = some c → lowerByte c ≠ 104)
    (f : Header) (hf : x.fields.filter isHost = [f]) (ts : List Bytes) (hts : ts.flatten = x.text) :
    ∃ m, feedAll (feed c) ts (Msg.request ig) = .ok [] m ∧ m.header.targetUri = .bytes t ∧ m.header.scheme = .str "http" ∧
      (58 ∉ f.2 → m.header.host = .bytes f.2 ∧ m.header.port = .num 80) ∧
      (∀ h p, f.2 = h ++ 58 :: p → 58 ∉ h → m.header.host = .bytes h ∧ m.header.port = .text p) := by
  obtain ⟨m, line, h1, h2, h3⟩ := C64_target c ig x hx me t v hst [] (fun _ => rfl) ts (by simpa using hts)
  have hline : line = ⟨.bytes t, .str "", .num 80, .str "http"⟩ := by
    cases h2 with
    | connect h p e _ _ _ => exact absurd e hme
    | absolute s h p pa _ e => exact absurd e (not_absolute ht s h p pa)
    | other _ _ => rfl
  have hff : x.fields.filter (fun f => isHost f && f.2.contains 58) = if f.2.contains 58 then [f] else [] := by
    rw [show (fun f : Header => isHost f && f.2.contains 58) = fun f => (f.2.contains 58 && isHost f) from by funext g; exact Bool.and_comm _ _,
      ← List.filter_filter, hf]
    simp only [List.filter_cons, List.filter_nil]
  subst hline
  have hhost := h3.host
  have hport := h3.port
  rw [hf] at hhost
  rw [hff] at hport
  refine ⟨m, h1, h3.uri, h3.scheme, ?_, ?_⟩
  · intro hn
    have hc : f.2.contains 58 = false := by simpa using hn
    simp only [List.getLast?_singleton, takeWhile_all hn] at hhost
    simp only [hc] at hport
    exact ⟨hhost, hport⟩
  · intro h p e hn
    have hc : f.2.contains 58 = true := by rw [e]; simp
    simp only [List.getLast?_singleton, e, takeWhile_ne hn] at hhost
    simp only [hc, if_true, List.getLast?_singleton] at hport
    rw [e, dropWhile_ne hn] at hport
    exact ⟨hhost, hport⟩

example (c : Codec) : ∃ m, feedAll (feed c) [(demoGet (b! "h.example:81")).text] (Msg.request []) = .ok [] m ∧
    m.header.targetUri = .bytes (b! "/x?y") ∧ m.header.host = .bytes (b! "h.example") ∧ m.header.port = .text (b! "81") := by
  obtain ⟨m, h1, h2, h3, h4, h5⟩ := C64_origin c [] (demoGet (b! "h.example:81")) (demoGet_ok _ (by decide)) _ _ _ rfl (by decide) (by rintro x ⟨⟩; decide)
    (b! "hOsT", b! "h.example:81") (by decide) [(demoGet (b! "h.example:81")).text] (by simp)
  exact ⟨m, h1, h2, h5 (b! "h.example") (b! "81") (by decide) (by decide)⟩

/-- **C64** (surprise) A Host field takes the place of the host in an absolute URL, but without a port in it the port of the URL
stays: the two are mixed. -/
theorem C64_mixed (c : Codec) (ig : List PyStr) (x : Message) (hx : x.Ok .request ig) (me t v : Bytes) (hst : x.start = .request me t v)
    (hme : upper me ≠ b! "CONNECT") (scheme host : Bytes) (p : Bytes) (path : Bytes) (hu : AbsoluteUrl t scheme host (some p) path)
    (f : Header) (hf : x.fields.filter isHost = [f]) (hn : 58 ∉ f.2) (ts : List Bytes) (hts : ts.flatten = x.text) :
    ∃ m, feedAll (feed c) ts (Msg.request ig) = .ok [] m ∧ m.header.host = .bytes f.2 ∧ m.header.port = .num (decimalValue p) := by
  obtain ⟨m, line, h1, h2, h3⟩ := C64_target c ig x hx me t v hst [] (fun _ => rfl) ts (by simpa using hts)
  have h10 : 10 ∉ t := by
    have := hx.start; rw [hst] at this; exact this.2.1.2
  have hline := C64_line_unique me t h10 line _ h2 (.absolute scheme host (some p) path hme hu)
  subst hline
  have hhost := h3.host
  have hport := h3.port
  have hff : x.fields.filter (fun f => isHost f && f.2.contains 58) = [] := by
    rw [show (fun f : Header => isHost f && f.2.contains 58) = fun f => (f.2.contains 58 && isHost f) from by funext g; exact Bool.and_comm _ _,
      ← List.filter_filter, hf]
    have hc : f.2.contains 58 = false := by simpa using hn
    simp [hn]
  rw [hf] at hhost
  rw [hff] at hport
  simp only [List.getLast?_singleton, takeWhile_all hn] at hhost
  exact ⟨m, h1, hhost, hport⟩

example (c : Codec) : ∃ m, feedAll (feed c) [(demoProxy (b! "/p")).text] (Msg.request []) = .ok [] m ∧
    m.header.host = .bytes (b! "b.example") ∧ m.header.port = .num 8080 :=
  C64_mixed c [] (demoProxy (b! "/p")) (demoProxy_ok _ (by decide)) _ _ _ rfl (by decide) (b! "HTTPS") (b! "a.example") (b! "8080") (b! "/p")
    (demoProxy_url _ (by rintro d ds ⟨⟩; decide)) (b! "Host", b! "b.example") (by decide) (by decide) _ (by simp)

/-- **C64** The decoded form of a request with an absolute URL names the path only (so without a Host field it no longer says
which host was asked); when the path is empty there is no decoded form: TypeError. -/
theorem C64_decoded (c : Codec) (ig : List PyStr) (x : Message) (hx : x.Ok .request ig) (me t v : Bytes) (hst : x.start = .request me t v)
    (hme : upper me ≠ b! "CONNECT") (scheme host : Bytes) (port : Option Bytes) (path : Bytes) (hu : AbsoluteUrl t scheme host port path)
    (henc : ∀ e, encodingOf ig x.fields = some e → e = []) (z : Zlib) (ts : List Bytes) (hts : ts.flatten = x.text) :
    ∃ m, feedAll (feed c) ts (Msg.request ig) = .ok [] m ∧
      (path ≠ [] → m.getDecoded z = .ok ({ x with start := .request me path v } : Message).plain.text) ∧
      (path = [] → m.getDecoded z = .error .typeError) := by
  obtain ⟨m, h1, h2⟩ := kind_parse_pieces c .request ig x hx [] (fun _ => rfl) ts (by simpa using hts)
  obtain ⟨line, h3, h4⟩ := Done.target h2 hx hst
  have h10 : 10 ∉ t := by
    have := hx.start; rw [hst] at this; exact this.2.1.2
  have hline := C64_line_unique me t h10 line _ h3 (.absolute scheme host port path hme hu)
  subst hline
  obtain ⟨fr, h, hfr, hpl, hh, hhd⟩ := h2.header
  obtain ⟨k1, k2, _⟩ := hh.request me t v hst
  have hside : m.header.side = .request := by rw [hhd]; exact hh.side
  have hmeth : m.header.method = .bytes me := by rw [hhd]; exact k1
  have hver : m.header.version = .bytes v := by rw [hhd]; exact k2
  have huri : m.header.targetUri = if path = [] then .str "/" else .bytes path := h4.uri
  refine ⟨m, h1, ?_, ?_⟩
  · intro hp
    rw [if_neg hp] at huri
    refine h2.decodedFrom hx ?_ (fun e he => Or.inl (henc e he)) z
    unfold Hdr.decodedStart
    rw [hside, hmeth, hver, huri]
    rfl
  · intro hp
    rw [if_pos hp] at huri
    have : m.header.decodedStart = .error .typeError := by
      unfold Hdr.decodedStart
      rw [hside, hmeth, hver, huri]
      rfl
    unfold Msg.getDecoded Hdr.writeDecoded
    rw [this]
    rfl

/-- both cases -/
example (c : Codec) (z : Zlib) : (∃ m, feedAll (feed c) [(demoProxy (b! "/p")).text] (Msg.request []) = .ok [] m ∧
      m.getDecoded z = .ok (b! "GET /p HTTP/1.1\r\nHost: b.example\r\n\r\n")) ∧
    (∃ m, feedAll (feed c) [(demoProxy []).text] (Msg.request []) = .ok [] m ∧ m.getDecoded z = .error .typeError) := by
  obtain ⟨m, h1, h2, _⟩ := C64_decoded c [] (demoProxy (b! "/p")) (demoProxy_ok _ (by decide)) _ _ _ rfl (by decide) (b! "HTTPS") (b! "a.example")
    (some (b! "8080")) (b! "/p") (demoProxy_url _ (by rintro d ds ⟨⟩; decide)) (by intro e he; cases he) z [(demoProxy (b! "/p")).text] (by simp)
  obtain ⟨m', h1', _, h2'⟩ := C64_decoded c [] (demoProxy []) (demoProxy_ok _ (by decide)) _ _ _ rfl (by decide) (b! "HTTPS") (b! "a.example")
    (some (b! "8080")) [] (demoProxy_url _ (by rintro d ds ⟨⟩)) (by intro e he; cases he) z [(demoProxy []).text] (by simp)
  exact ⟨⟨m, h1, by rw [h2 (by decide)]; rfl⟩, ⟨m', h1', h2' rfl⟩⟩

/-- a printable ASCII character other than the quotes and the backslash -/
def PlainChar (c : Byte) : Prop := 32 ≤ c ∧ c < 127 ∧ c ≠ 34 ∧ c ≠ 39 ∧ c ≠ 92

theorem reprBytes_plain (s : Bytes) (h : ∀ c ∈ s, PlainChar c) : reprBytes s = b! "b'" ++ s ++ b! "'" := by
  have h39 : s.contains 39 = false := by
    cases hc : s.contains 39 with
    | false => rfl
    | true => exact absurd rfl (h 39 (by simpa using hc)).2.2.2.1
  have hflat : ∀ s : Bytes, (∀ c ∈ s, PlainChar c) → s.flatMap (reprByte 39) = s := by
    intro s
    induction s with
    | nil => intro _; rfl
    | cons c s ih =>
      intro h
      obtain ⟨h1, h2, h3, h4, h5⟩ := h c (by simp)
      have e : reprByte 39 c = [c] := by
        have a9 : c ≠ 9 := by rintro rfl; exact absurd h1 (by decide)
        have a10 : c ≠ 10 := by rintro rfl; exact absurd h1 (by decide)
        have a13 : c ≠ 13 := by rintro rfl; exact absurd h1 (by decide)
        have b1 : ¬ c < 32 := UInt8.not_lt.2 h1
        have b2 : ¬ 127 ≤ c := UInt8.not_le.2 h2
        unfold reprByte
        simp [h4, h5, a9, a10, a13, b1, b2]
      rw [List.flatMap_cons, e, ih (fun d hd => h d (by simp [hd]))]
      rfl
  unfold reprBytes
  simp only [h39, Bool.false_and, Bool.false_eq_true, if_false, hflat s h]
  simp

/-- **C64** (refuted) The property `url` of an ordinary request is not its URL `http://host/target`: the bytes are shown as Python
literals. -/
theorem C64_url (c : Codec) (ig : List PyStr) (x : Message) (hx : x.Ok .request ig) (me t v : Bytes) (hst : x.start = .request me t v)
    (hme : upper me ≠ b! "CONNECT") (ht : ∀ c, t.head? = some c → lowerByte c ≠ 104)
    (f : Header) (hf : x.fields.filter isHost = [f]) (hn : 58 ∉ f.2) (hpf : ∀ c ∈ f.2, PlainChar c) (hpt : ∀ c ∈ t, PlainChar c)
    (ts : List Bytes) (hts : ts.flatten = x.text) :
    ∃ m, feedAll (feed c) ts (Msg.request ig) = .ok [] m ∧ m.header.url = b! "http://b'" ++ f.2 ++ b! "'b'" ++ t ++ b! "'" := by
  obtain ⟨m, h1, h2, h3, h4, _⟩ := C64_origin c ig x hx me t v hst hme ht f hf ts hts
  obtain ⟨h5, h6⟩ := h4 hn
  refine ⟨m, h1, ?_⟩
  unfold Hdr.url
  rw [if_pos (Or.inl ⟨h3, h6⟩), h3, h5, h2]
  simp only [PyStr.format, reprBytes_plain _ hpf, reprBytes_plain _ hpt]
  rw [show "http".toUTF8.toList = b! "http" from by decide +kernel]
  simp

example (c : Codec) : ∃ m, feedAll (feed c) [(demoGet (b! "h.example")).text] (Msg.request []) = .ok [] m ∧
    m.header.url = b! "http://b'h.example'b'/x?y'" :=
  C64_url c [] (demoGet (b! "h.example")) (demoGet_ok _ (by decide)) _ _ _ rfl (by decide) (by rintro x ⟨⟩; decide)
    (b! "hOsT", b! "h.example") (by decide) (by decide) (by unfold PlainChar; decide) (by unfold PlainChar; decide) _ (by simp)

/-- **C64** (refuted) With a port in the Host field `url` is not `http://host:port/target` either. -/
theorem C64_url_port (c : Codec) (ig : List PyStr) (x : Message) (hx : x.Ok .request ig) (me t v : Bytes) (hst : x.start = .request me t v)
    (hme : upper me ≠ b! "CONNECT") (ht : ∀ c, t.head? = some c → lowerByte c ≠ 104)
    (f : Header) (hf : x.fields.filter isHost = [f]) (h p : Bytes) (hfp : f.2 = h ++ 58 :: p) (hh : 58 ∉ h)
    (hph : ∀ c ∈ h, PlainChar c) (hpp : ∀ c ∈ p, PlainChar c) (hpt : ∀ c ∈ t, PlainChar c)
    (ts : List Bytes) (hts : ts.flatten = x.text) :
    ∃ m, feedAll (feed c) ts (Msg.request ig) = .ok [] m ∧
      m.header.url = b! "http://b'" ++ h ++ b! "':b'" ++ p ++ b! "'b'" ++ t ++ b! "'" := by
  obtain ⟨m, h1, h2, h3, _, h4⟩ := C64_origin c ig x hx me t v hst hme ht f hf ts hts
  obtain ⟨h5, h6⟩ := h4 h p hfp hh
  refine ⟨m, h1, ?_⟩
  unfold Hdr.url
  rw [if_neg (by rw [h6]; simp), h3, h5, h2, h6]
  simp only [PyStr.format, Port.format, reprBytes_plain _ hph, reprBytes_plain _ hpt, reprBytes_plain _ hpp]
  rw [show "http".toUTF8.toList = b! "http" from by decide +kernel]
  simp

example (c : Codec) : ∃ m, feedAll (feed c) [(demoGet (b! "h.example:81")).text] (Msg.request []) = .ok [] m ∧
    m.header.url = b! "http://b'h.example':b'81'b'/x?y'" :=
  C64_url_port c [] (demoGet (b! "h.example:81")) (demoGet_ok _ (by decide)) _ _ _ rfl (by decide) (by rintro x ⟨⟩; decide)
    (b! "hOsT", b! "h.example:81") (by decide) (b! "h.example") (b! "81") rfl (by decide) (by unfold PlainChar; decide)
    (by unfold PlainChar; decide) (by unfold PlainChar; decide) _ (by simp)

/-- **C64** (refuted) Nor is it the URL when the request names an absolute one: the scheme is shown as a literal too, and the port
even if it is the usual one. -/
theorem C64_url_absolute (c : Codec) (ig : List PyStr) (x : Message) (hx : x.Ok .request ig) (me t v : Bytes) (hst : x.start = .request me t v)
    (hme : upper me ≠ b! "CONNECT") (scheme host : Bytes) (port : Option Bytes) (path : Bytes) (hu : AbsoluteUrl t scheme host port path)
    (hf : x.fields.filter isHost = []) (hps : ∀ c ∈ scheme, PlainChar c) (hph : ∀ c ∈ host, PlainChar c) (hpp : ∀ c ∈ path, PlainChar c)
    (ts : List Bytes) (hts : ts.flatten = x.text) :
    ∃ m, feedAll (feed c) ts (Msg.request ig) = .ok [] m ∧
      m.header.url = b! "b'" ++ scheme ++ b! "'://b'" ++ host ++ b! "':" ++ decimal (portNumber port) ++
        (if path = [] then b! "/" else b! "b'" ++ path ++ b! "'") := by
  obtain ⟨m, line, h1, h2, h3⟩ := C64_target c ig x hx me t v hst [] (fun _ => rfl) ts (by simpa using hts)
  have h10 : 10 ∉ t := by
    have := hx.start; rw [hst] at this; exact this.2.1.2
  have hline := C64_line_unique me t h10 line _ h2 (.absolute scheme host port path hme hu)
  subst hline
  have hff : x.fields.filter (fun f => isHost f && f.2.contains 58) = [] := by
    rw [show (fun f : Header => isHost f && f.2.contains 58) = fun f => (f.2.contains 58 && isHost f) from by funext g; exact Bool.and_comm _ _,
      ← List.filter_filter, hf]
    rfl
  have hhost := h3.host
  have hport := h3.port
  rw [hf] at hhost
  rw [hff] at hport
  have hhost : m.header.host = .bytes host := hhost
  have hport : m.header.port = .num (portNumber port) := hport
  have huri : m.header.targetUri = if path = [] then .str "/" else .bytes path := h3.uri
  have hsch : m.header.scheme = .bytes scheme := h3.scheme
  refine ⟨m, h1, ?_⟩
  unfold Hdr.url
  rw [if_neg (by rw [hsch]; simp), hsch, hhost, hport, huri]
  simp only [PyStr.format, Port.format, reprBytes_plain _ hps, reprBytes_plain _ hph]
  have hd : decimalInt ((portNumber port : Nat) : Int) = decimal (portNumber port) := by
    first | rfl | (simp [decimalInt])
  rw [hd]
  by_cases hp : path = []
  · simp only [if_pos hp]
    rw [show "/".toUTF8.toList = b! "/" from by decide +kernel]
    simp
  · simp only [if_neg hp, reprBytes_plain _ hpp]
    simp

example (c : Codec) : ∃ m, feedAll (feed c) [({ demoProxy (b! "/p") with fields := [] } : Message).text] (Msg.request []) = .ok [] m ∧
    m.header.url = b! "b'HTTPS'://b'a.example':8080b'/p'" :=
  C64_url_absolute c [] { demoProxy (b! "/p") with fields := [] }
    { (demoProxy_ok (b! "/p") (by decide)) with
      fields := by intro f hf; cases hf
      framed := ⟨.close, rfl, by unfold Message.Framed demoProxy; simp [hasBody]⟩
      gzip := by rintro ⟨b, hb⟩; cases hb
      final := by intro v p h; cases h } _ _ _ rfl (by decide) (b! "HTTPS") (b! "a.example") (some (b! "8080")) (b! "/p")
    (demoProxy_url _ (by rintro d ds ⟨⟩; decide)) (by decide) (by unfold PlainChar; decide) (by unfold PlainChar; decide)
    (by unfold PlainChar; decide) _ (by simp)

/-! ### C65 -/

theorem start_flags (line : Bytes) (h : Hdr) (hk : h.keepAlive = false) (he : h.expectContinue = false) :
    Post (setStartLine line h) (fun h' => h'.keepAlive = false ∧ h'.expectContinue = false) := by
  simp only [setStartLine, M.bind_apply, M.get_apply]
  cases hs : h.side with
  | request =>
    simp only [setRequestLine]
    generalize splitMax 32 2 (rstrip line) = L
    match L with
    | [] => simp [Post, hs, hk, he]
    | [_] => simp [Post, hs, hk, he]
    | [_, _] => simp [Post, hs, hk, he]
    | _ :: _ :: _ :: _ :: _ => simp [Post, hs, hk, he]
    | [a, b, c] =>
      simp only [M.bind_apply, M.modify_apply]
      by_cases hu : upper a = b! "CONNECT"
      · rw [if_pos hu]
        generalize splitAll 58 b = L
        match L with
        | [] => simp [Post, hs, hk, he]
        | [_] => simp [Post, hs, hk, he]
        | [_, _] => simp [Post, hs, hk, he]
        | _ :: _ :: _ :: _ => simp [Post, hs, hk, he]
      · rw [if_neg hu]
        cases pmatch urlRx b with
        | none => simp [Post, hs, hk, he]
        | some mt => simp [Post, hs, hk, he]
  | response rm =>
    simp only [setStatusLine]
    generalize splitMax 32 2 (rstrip line) = L
    match L with
    | [] => simp [Post, hs, hk, he]
    | [_] => simp [Post, hs, hk, he]
    | a :: b :: more =>
      simp only [M.bind_apply, M.modify_apply]
      cases pyInt 10 b <;> simp [Post, hs, hk, he]

/-- **C65** After any message has been read, in any pieces and with anything after it, `keep_alive` and `expect_continue` are what
the header fields say; without a Connection field that counts, `keep_alive` is false even in HTTP/1.1. -/
theorem C65_connection (c : Codec) (k : Http.Kind) (ig : List PyStr) (x : Message) (hx : x.Ok k ig) (after : Bytes)
    (ha : x.payload.ends = false → after = []) (ts : List Bytes) (hts : ts.flatten = x.text ++ after) :
    ∃ m, feedAll (k.feed c) ts (k.message ig) = .ok after m ∧ m.header.keepAlive = keepsAlive ig x.fields ∧
      m.header.expectContinue = expects ig x.fields := by
  obtain ⟨m, h1, h2⟩ := kind_parse_pieces c k ig x hx after ha ts hts
  obtain ⟨fr, h, hfr, hpl, hh, hhd⟩ := h2.header
  obtain ⟨h0, g1, g2, g3, _, g5⟩ := hh.steps
  have hfl := start_flags x.start.text (freshHdr k ig) (by cases k <;> rfl) (by cases k <;> rfl)
  rw [g1] at hfl
  obtain ⟨e1, e2⟩ : h0.keepAlive = false ∧ h0.expectContinue = false := hfl
  rw [e1, e2, flags] at g5
  simp only [Prod.mk.injEq] at g5
  exact ⟨m, h1, by rw [hhd]; exact g5.1, by rw [hhd]; exact g5.2⟩

/-- **C65** `keepsAlive` in words: the last Connection field that counts says keep-alive, or there is none. -/
theorem C65_rules (ig : List PyStr) (hs : List Header) :
    ((∀ f ∈ hs, saysConnection ig f = false) → keepsAlive ig hs = false) ∧
    (∀ pre f post, hs = pre ++ f :: post → saysConnection ig f = true → (∀ g ∈ post, saysConnection ig g = false) →
      keepsAlive ig hs = contains (lower f.2) (b! "keep-alive")) := by
  constructor
  · intro h
    unfold keepsAlive
    rw [List.filter_eq_nil_iff.2 (fun f hf => by simp [h f hf])]
    rfl
  · rintro pre f post rfl hf hp
    unfold keepsAlive
    rw [List.filter_append, List.filter_cons, if_pos hf, (List.filter_eq_nil_iff (l := post)).2 (fun g hg => by simp [hp g hg])]
    simp

example (c : Codec) : ∃ m, feedAll (feed c) [(demoGet (b! "h")).text] (Msg.request []) = .ok [] m ∧ m.header.keepAlive = true ∧
    m.header.expectContinue = true := by
  obtain ⟨m, h1, h2, h3⟩ := C65_connection c .request [] (demoGet (b! "h")) (demoGet_ok _ (by decide)) [] (fun _ => rfl) [(demoGet (b! "h")).text] (by simp)
  exact ⟨m, h1, by rw [h2]; decide, by rw [h3]; decide⟩

example : keepsAlive [] [(b! "Connection", b! "keep-alive"), (b! "connection", b! "upgrade"), (b! "Connection", b! "Close")] = false := by decide

end Warc
