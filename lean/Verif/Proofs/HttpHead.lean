import Verif.Proofs.HttpResponse
import Verif.Proofs.Bytes
import Verif.Spec.HttpText
/-
  Parsing the text of a message head.
-/
set_option linter.all false
namespace Warc.Http
open Rx

/-! ### bytes -/

theorem splitOnce_append {sep : Byte} (a b : Bytes) (h : sep ∉ a) : splitOnce sep (a ++ sep :: b) = some (a, b) := by
  induction a with
  | nil => simp [splitOnce]
  | cons c a ih =>
    have hc : ¬ c = sep := by rintro rfl; simp at h
    simp [splitOnce, hc, ih (fun hx => h (by simp [hx]))]

theorem splitOnce_none {sep : Byte} {a : Bytes} (h : sep ∉ a) : splitOnce sep a = none := by
  induction a with
  | nil => simp [splitOnce]
  | cons c a ih =>
    have hc : ¬ c = sep := by rintro rfl; simp at h
    simp [splitOnce, hc, ih (fun hx => h (by simp [hx]))]

theorem splitMax_three {sep : Byte} (a b c : Bytes) (ha : sep ∉ a) (hb : sep ∉ b) :
    splitMax sep 2 (a ++ sep :: (b ++ sep :: c)) = [a, b, c] := by
  simp [splitMax, splitOnce_append, ha, hb]

theorem splitMax_two {sep : Byte} (n : Nat) (a b : Bytes) (ha : sep ∉ a) (hb : sep ∉ b) :
    splitMax sep (n + 2) (a ++ sep :: b) = [a, b] := by
  simp [splitMax, splitOnce_append, splitOnce_none, ha, hb]

theorem rstrip_ws (s t : Bytes) (ht : ∀ c ∈ t, isWs c = true) : rstrip (s ++ t) = rstrip s := rstripP_append s t ht

theorem rstrip_last {s : Bytes} (h : rstrip s = s) {c : Byte} (hc : s.getLast? = some c) : isWs c = false := by
  apply rstripP_last (p := isWs) (s := s)
  show (rstrip s).getLast? = _
  rw [h]; exact hc

theorem rstrip_tail (x v : Bytes) (hv : v ≠ []) (h : rstrip v = v) : rstrip (x ++ v) = x ++ v := by
  apply rstrip_eq_self
  intro c hc
  rw [List.getLast?_append] at hc
  have : ∃ d, v.getLast? = some d := by
    cases hl : v.getLast? with
    | none => exact absurd (List.getLast?_eq_none_iff.1 hl) hv
    | some d => exact ⟨d, rfl⟩
  obtain ⟨d, hd⟩ := this
  rw [hd] at hc
  simp at hc
  subst hc
  exact rstrip_last h hd

theorem dropWhile_nil_iff {p : Byte → Bool} {s : Bytes} : s.dropWhile p = [] ↔ ∀ c ∈ s, p c = true := by
  induction s with
  | nil => simp
  | cons a s ih =>
    by_cases h : p a = true
    · simp [List.dropWhile_cons, h, ih]
    · simp [List.dropWhile_cons, h]

theorem strip_ws_right (s t : Bytes) (ht : ∀ c ∈ t, isWs c = true) : strip (s ++ t) = strip s := by
  unfold strip lstrip
  by_cases h : ∀ c ∈ s, isWs c = true
  · have h1 : (s ++ t).dropWhile isWs = [] := by
      rw [dropWhile_nil_iff]
      intro x hx
      rcases List.mem_append.1 hx with hx | hx
      · exact h x hx
      · exact ht x hx
    have h2 : s.dropWhile isWs = [] := by
      rw [dropWhile_nil_iff]; exact h
    rw [h1, h2]
  · have : (s ++ t).dropWhile isWs = s.dropWhile isWs ++ t := by
      rw [List.dropWhile_append]
      split
      · rename_i he
        exfalso; apply h
        simpa [List.isEmpty_iff, dropWhile_nil_iff] using he
      · rfl
    rw [this]; exact rstrip_ws _ _ ht

theorem crlf_ws : ∀ c ∈ CRLF, isWs c = true := by decide

theorem pyInt_ws_right (base : Nat) (s t : Bytes) (ht : ∀ c ∈ t, isWs c = true) : pyInt base (s ++ t) = pyInt base s := by
  unfold pyInt
  rw [strip_ws_right s t ht]

/-! ### the start line -/

/-- a header object at the start -/
def freshHdr : Kind → List PyStr → Hdr
  | .request, ig => Hdr.request ig
  | .response rm, ig => Hdr.response rm ig

/-- nothing is known about the body yet -/
structure Blank (h h0 : Hdr) (st : Start) : Prop where
  headers : h.headers = h0.headers
  mode : h.mode = h0.mode
  contentLength : h.contentLength = h0.contentLength
  encoding : h.encoding = h0.encoding
  trailers : h.trailers = h0.trailers
  ignore : h.ignore = h0.ignore
  side : h.side = h0.side
  code : ∀ v c p, st = .response v c p → h.code = c ∧ h.version = .bytes v ∧ h.phrase = .bytes p
  request : ∀ me t v, st = .request me t v → h.method = .bytes me ∧ h.version = .bytes v ∧ (st.plain → h.targetUri = .bytes t)

/-- not the beginning of an absolute URL -/
theorem urlRx_none {t : Bytes} (h : ∀ c, t.head? = some c → lowerByte c ≠ 104) : pmatch urlRx t = none := by
  cases t with
  | nil => decide
  | cons c cs =>
    have : (lowerByte c == lowerByte 104) = false := by
      have := h c rfl
      simpa [show lowerByte 104 = 104 from rfl] using this
    simp only [pmatch, urlRx, seqs, Rx.m, strI, List.map, litI, this, Bool.false_eq_true, if_false]

theorem start_line (k : Kind) (st : Start) (hf : st.fits k) (hok : st.Ok) (ig : List PyStr) :
    ∃ h, setStartLine st.text (freshHdr k ig) = .ok () h ∧ Blank h (freshHdr k ig) st := by
  cases st with
  | request m t v =>
    cases k with
    | response rm => exact absurd hf (by simp [Start.fits])
    | request =>
      obtain ⟨⟨hm1, hm2, hm3⟩, ⟨ht1, ht2⟩, ⟨hv1, hv2, hv3⟩, hc⟩ := hok
      have hr : rstrip (Start.request m t v).text = m ++ 32 :: (t ++ 32 :: v) := by
        have : (Start.request m t v).text = (m ++ 32 :: (t ++ 32 :: v)) ++ CRLF := by simp [Start.text]
        rw [this, rstrip_ws _ _ crlf_ws]
        rw [show m ++ 32 :: (t ++ 32 :: v) = (m ++ 32 :: t ++ [32]) ++ v by simp]
        exact rstrip_tail _ _ hv2 hv3
      simp only [setStartLine, M.bind_apply, M.get_apply, freshHdr, Hdr.request, setRequestLine, hr, splitMax_three m t v hm1 ht1, M.modify_apply]
      by_cases hu : upper m = b! "CONNECT"
      · obtain ⟨host, port, rfl, h1, h2⟩ := hc hu
        rw [if_pos hu]
        have hs : splitAll 58 (host ++ 58 :: port) = [host, port] := by
          unfold splitAll
          rw [show (host ++ 58 :: port).length = (host.length + port.length) + 1 by simp; omega]
          cases hn : host.length + port.length with
          | zero =>
            have h3 : host = [] := List.eq_nil_of_length_eq_zero (by omega)
            have h4 : port = [] := List.eq_nil_of_length_eq_zero (by omega)
            subst h3; subst h4; rfl
          | succ n => exact splitMax_two n host port h1 h2
        rw [hs]
        refine ⟨_, rfl, rfl, rfl, rfl, rfl, rfl, rfl, rfl, by simp, ?_⟩
        intro a b c he; cases he; exact ⟨rfl, rfl, fun _ => rfl⟩
      · rw [if_neg hu]
        cases hu : pmatch urlRx t with
        | none =>
          refine ⟨_, rfl, rfl, rfl, rfl, rfl, rfl, rfl, rfl, by simp, ?_⟩
          intro a b c he; cases he; exact ⟨rfl, rfl, fun _ => rfl⟩
        | some mt =>
          refine ⟨_, rfl, rfl, rfl, rfl, rfl, rfl, rfl, rfl, by simp, ?_⟩
          intro a b c he; cases he
          refine ⟨rfl, rfl, fun hp => ?_⟩
          rw [urlRx_none hp] at hu; cases hu
  | response v c p =>
    cases k with
    | request => exact absurd hf (by simp [Start.fits])
    | response rm =>
      obtain ⟨⟨hv1, hv2⟩, hp1, hp2⟩ := hok
      have hd : 32 ∉ decimal c := by
        intro h; exact absurd (decimal_digits c 32 h) (by decide)
      have hrd : rstrip (decimal c) = decimal c := by
        have := strip_decimal c
        apply rstrip_eq_self
        intro x hx
        exact strip_self_last this hx
      have htext : (Start.response v c p).text = (v ++ 32 :: (decimal c ++ 32 :: p)) ++ CRLF := by simp [Start.text]
      simp only [setStartLine, M.bind_apply, M.get_apply, freshHdr, Hdr.response, setStatusLine]
      rw [htext, rstrip_ws _ _ crlf_ws]
      by_cases hp : p = []
      · subst hp
        have : rstrip (v ++ 32 :: (decimal c ++ [32])) = v ++ 32 :: decimal c := by
          rw [show v ++ 32 :: (decimal c ++ [32]) = (v ++ 32 :: decimal c) ++ [32] by simp, rstrip_ws _ _ (by decide),
            show v ++ 32 :: decimal c = (v ++ [32]) ++ decimal c by simp]
          exact rstrip_tail _ _ (decimal_ne_nil c) hrd
        rw [this, splitMax_two 0 v (decimal c) hv1 hd]
        simp only [M.bind_apply, M.modify_apply, pyInt_decimal]
        refine ⟨_, rfl, rfl, rfl, rfl, rfl, rfl, rfl, rfl, ?_, by simp⟩
        intro v' c' p' he; cases he; exact ⟨rfl, rfl, rfl⟩
      · have : rstrip (v ++ 32 :: (decimal c ++ 32 :: p)) = v ++ 32 :: (decimal c ++ 32 :: p) := by
          rw [show v ++ 32 :: (decimal c ++ 32 :: p) = (v ++ 32 :: (decimal c ++ [32])) ++ p by simp]
          exact rstrip_tail _ _ hp hp2
        rw [this, splitMax_three v (decimal c) p hv1 hd]
        simp only [M.bind_apply, M.modify_apply, pyInt_decimal]
        refine ⟨_, rfl, rfl, rfl, rfl, rfl, rfl, rfl, rfl, ?_, by simp⟩
        intro v' c' p' he; cases he; exact ⟨rfl, rfl, rfl⟩

/-! ### header fields -/

theorem field_line {f : Header} (h : FieldOk f) :
    ∃ u, fieldText f = u ++ [10] ∧ 10 ∉ u ∧ isFold (fieldText f) = false ∧ isNewline (fieldText f) = false ∧
      splitOnce 58 (fieldText f) = some (f.1, 32 :: f.2 ++ CRLF) := by
  obtain ⟨n, v⟩ := f
  obtain ⟨h1, h2, h3, h4, h5⟩ := h
  refine ⟨n ++ b! ": " ++ v ++ [13], by simp [fieldText], by simp [h2, h4], ?_, ?_, ?_⟩
  · cases n with
    | nil => simp [fieldText, isFold, startsWith, List.isPrefixOf]
    | cons c n =>
      have hw := strip_self_head h3 rfl
      simp only [fieldText, isFold, startsWith, List.cons_append]
      have hc1 : ¬ (32 = c) := by rintro rfl; simp [isWs] at hw
      have hc2 : ¬ (9 = c) := by rintro rfl; simp [isWs] at hw
      simp [List.isPrefixOf, hc1, hc2]
  · cases hx : isNewline (fieldText (n, v)) with
    | false => rfl
    | true =>
      exfalso
      have : 58 ∈ fieldText (n, v) := by simp [fieldText]
      unfold isNewline at hx
      simp only [Bool.or_eq_true, beq_iff_eq] at hx
      rcases hx with hx | hx <;> rw [hx] at this <;> simp at this
  · have : fieldText (n, v) = n ++ 58 :: (32 :: v ++ CRLF) := by simp [fieldText]
    rw [this]
    exact splitOnce_append n _ h1

theorem strip_value {v : Bytes} (h : strip v = v) : strip (32 :: v ++ CRLF) = v := by
  rw [List.cons_append, strip_ws_cons (by decide), strip_ws_right v CRLF crlf_ws, h]

/-- what a header field of a request says about host and port -/
def hostStep (hp : PyStr × Port) (f : Header) : PyStr × Port :=
  if lower f.1 = b! "host" then
    match splitOnce 58 f.2 with
    | some (a, b) => (.bytes a, .text b)
    | none => (.bytes f.2, hp.2)
  else hp

/-- the same but for fields, host and port -/
structure Kept (h h0 : Hdr) : Prop where
  mode : h.mode = h0.mode
  contentLength : h.contentLength = h0.contentLength
  encoding : h.encoding = h0.encoding
  trailers : h.trailers = h0.trailers
  ignore : h.ignore = h0.ignore
  side : h.side = h0.side
  code : h.code = h0.code
  version : h.version = h0.version
  phrase : h.phrase = h0.phrase
  method : h.method = h0.method
  target : h.targetUri = h0.targetUri
  scheme : h.scheme = h0.scheme
  keepAlive : h.keepAlive = h0.keepAlive
  expect : h.expectContinue = h0.expectContinue

theorem Kept.refl (h : Hdr) : Kept h h := ⟨rfl, rfl, rfl, rfl, rfl, rfl, rfl, rfl, rfl, rfl, rfl, rfl, rfl, rfl⟩
theorem Kept.trans {a b c : Hdr} (h1 : Kept a b) (h2 : Kept b c) : Kept a c :=
  ⟨h1.mode.trans h2.mode, h1.contentLength.trans h2.contentLength, h1.encoding.trans h2.encoding, h1.trailers.trans h2.trailers,
    h1.ignore.trans h2.ignore, h1.side.trans h2.side, h1.code.trans h2.code, h1.version.trans h2.version, h1.phrase.trans h2.phrase,
    h1.method.trans h2.method, h1.target.trans h2.target, h1.scheme.trans h2.scheme, h1.keepAlive.trans h2.keepAlive, h1.expect.trans h2.expect⟩

theorem addHeader_kept (n v : Bytes) (h : Hdr) :
    ∃ h', addHeader n v h = .ok () h' ∧ h'.headers = h.headers ++ [(n, v)] ∧ Kept h' h ∧
      (h.side = .request → (h'.host, h'.port) = hostStep (h.host, h.port) (n, v)) := by
  simp only [addHeader, M.modify_apply]
  cases hs : h.side with
  | response rm => exact ⟨_, rfl, rfl, by constructor <;> first | rfl | exact hs.symm, by simp⟩
  | request =>
    simp only
    by_cases hn : lower n = b! "host"
    · simp only [hn, if_true]
      cases hv : splitOnce 58 v with
      | some ab => exact ⟨_, rfl, rfl, by constructor <;> first | rfl | exact hs.symm, fun _ => by simp [hostStep, hn, hv]⟩
      | none => exact ⟨_, rfl, rfl, by constructor <;> first | rfl | exact hs.symm, fun _ => by simp [hostStep, hn, hv]⟩
    · simp only [hn, if_false]
      exact ⟨_, rfl, rfl, by constructor <;> first | rfl | exact hs.symm, fun _ => by simp [hostStep, hn]⟩

theorem addHeaderLine_field {f : Header} (hf : FieldOk f) (h : Hdr) :
    ∃ h', addHeaderLine (fieldText f) h = .ok () h' ∧ h'.headers = h.headers ++ [f] ∧ Kept h' h ∧
      (h.side = .request → (h'.host, h'.port) = hostStep (h.host, h.port) f) := by
  obtain ⟨u, _, _, h1, h2, h3⟩ := field_line hf
  obtain ⟨h', hh, ha, hk, hp⟩ := addHeader_kept f.1 f.2 h
  refine ⟨h', ?_, ha, hk, hp⟩
  simp only [addHeaderLine, M.bind_apply, M.get_apply, h1, h2, h3, Bool.false_eq_true, if_false]
  rw [hf.nameStrip, strip_value hf.valueStrip]
  exact hh

/-- nothing unused in the buffer -/
def Flush (m : Msg) : Prop := m.offset = m.buffer.length

theorem Flush.inv {m : Msg} (h : Flush m) : LineInv m := ⟨by rw [h]; exact Nat.le_refl _, by simp [pend, List.drop_of_length_le (Nat.le_of_eq h.symm)]⟩
theorem Flush.pend {m : Msg} (h : Flush m) : pend m = [] := by
  simp [Http.pend, List.drop_of_length_le (Nat.le_of_eq h.symm)]
theorem Flush.took (m : Msg) (t : Bytes) : Flush (took m t) := rfl

theorem FH_fields (hs : List Header) (hok : FieldsOk hs) (m : Msg) (hfl : Flush m) (rest : Bytes) :
    ∃ h', FH (fields hs ++ rest) m = FH rest { took m (fields hs) with header := h' } ∧ h'.headers = m.header.headers ++ hs ∧ Kept h' m.header ∧
      (m.header.side = .request → (h'.host, h'.port) = hs.foldl hostStep (m.header.host, m.header.port)) := by
  induction hs generalizing m with
  | nil =>
    refine ⟨m.header, ?_, by simp, .refl _, fun _ => rfl⟩
    have : { took m (fields []) with header := m.header } = m := by
      simp only [took, fields, List.flatMap_nil, List.append_nil]
      rw [← hfl]
    rw [this]; rfl
  | cons f hs ih =>
    have hf : FieldOk f := hok f (by simp)
    obtain ⟨u, hu, hu10, _, hnl, _⟩ := field_line hf
    obtain ⟨h1, ha, hb, hc, hp⟩ := addHeaderLine_field hf m.header
    have htext : fields (f :: hs) ++ rest = u ++ 10 :: (fields hs ++ rest) := by
      simp [fields, hu]
    rw [htext, FH_line hfl.inv _ hu10]
    simp only [hfl.pend, List.nil_append, ← hu, onHeader, took_header, ha, hnl, Bool.false_eq_true, if_false]
    obtain ⟨h2, ha2, hb2, hc2, hp2⟩ := ih (fun g hg => hok g (by simp [hg])) { took m (fieldText f) with header := h1 } rfl
    refine ⟨h2, ?_, ?_, hc2.trans hc, fun hr => by rw [hp2 (by rw [← hr]; exact hc.side), List.foldl_cons, ← hp hr]⟩
    · rw [ha2]
      simp [took, fields]
    · rw [hb2]; simp [hb]

/-! ### what the fields say -/

def saysEncoding (ig : List PyStr) (f : Header) : Bool := lower f.1 == b! "content-encoding" && !ignored ig f.1

/-- the same but for the fields that other header fields set -/
structure KeptBody (h h0 : Hdr) : Prop where
  headers : h.headers = h0.headers
  trailers : h.trailers = h0.trailers
  ignore : h.ignore = h0.ignore
  side : h.side = h0.side
  code : h.code = h0.code
  version : h.version = h0.version
  phrase : h.phrase = h0.phrase
  method : h.method = h0.method
  target : h.targetUri = h0.targetUri
  host : h.host = h0.host
  port : h.port = h0.port
  scheme : h.scheme = h0.scheme

/-- what a header field says about keep_alive and expect_continue -/
def flagStep (ig : List PyStr) (fl : Bool × Bool) (f : Header) : Bool × Bool :=
  if ignored ig f.1 then fl
  else if lower f.1 = b! "expect" then (fl.1, fl.2 || contains (lower f.2) (b! "100-continue"))
  else if lower f.1 = b! "connection" then
    (if contains (lower f.2) (b! "keep-alive") then true else if contains (lower f.2) (b! "close") then false else fl.1, fl.2)
  else fl

theorem KeptBody.refl (h : Hdr) : KeptBody h h := ⟨rfl, rfl, rfl, rfl, rfl, rfl, rfl, rfl, rfl, rfl, rfl, rfl⟩
theorem KeptBody.trans {a b c : Hdr} (h1 : KeptBody a b) (h2 : KeptBody b c) : KeptBody a c :=
  ⟨h1.headers.trans h2.headers, h1.trailers.trans h2.trailers,
    h1.ignore.trans h2.ignore, h1.side.trans h2.side, h1.code.trans h2.code, h1.version.trans h2.version, h1.phrase.trans h2.phrase,
    h1.method.trans h2.method, h1.target.trans h2.target, h1.host.trans h2.host, h1.port.trans h2.port, h1.scheme.trans h2.scheme⟩

/-- what one field does -/
theorem apply_step (ig : List PyStr) (f : Header) (h : Hdr) (hig : h.ignore = ig.map PyStr.lower) :
    if saysChunked ig f then applyHeader (lower f.1) (lower f.2) h = .ok () { h with mode := .chunked }
    else if saysLength ig f then
      applyHeader (lower f.1) (lower f.2) h =
        if h.mode = .close then
          match pyInt 10 (lower f.2) with
          | some n => .ok () { h with contentLength := some n, mode := .length }
          | none => .raise .valueError h
        else .ok () h
    else if saysEncoding ig f then applyHeader (lower f.1) (lower f.2) h = .ok () { h with encoding := some (lower f.2) }
    else applyHeader (lower f.1) (lower f.2) h = .ok () { h with
      keepAlive := (flagStep ig (h.keepAlive, h.expectContinue) f).1, expectContinue := (flagStep ig (h.keepAlive, h.expectContinue) f).2 } := by
  obtain ⟨n, v⟩ := f
  simp only [saysChunked, saysLength, saysEncoding, flagStep, ignored, ← hig]
  simp only [applyHeader, M.bind_apply, M.get_apply]
  by_cases h1 : h.ignore.contains (.bytes (lower n)) = true
  · rw [if_pos h1]
    simp only [h1, Bool.not_true, Bool.and_false, Bool.false_and, Bool.false_eq_true, if_false]
    rfl
  rw [if_neg h1]
  have h1' : h.ignore.contains (.bytes (lower n)) = false := by simpa using h1
  simp only [h1', Bool.not_false, Bool.and_true]
  by_cases h2 : lower n = b! "expect"
  · rw [if_pos h2]
    simp only [h2]
    simp only [show (b! "expect" == b! "transfer-encoding") = false from rfl, show (b! "expect" == b! "content-length") = false from rfl,
      show (b! "expect" == b! "content-encoding") = false from rfl, Bool.false_and, Bool.false_eq_true, if_false]
    cases contains (lower v) (b! "100-continue") <;> simp
  rw [if_neg h2]
  by_cases h4 : lower n = b! "content-length"
  · rw [if_pos h4]
    simp only [h4]
    simp only [show (b! "content-length" == b! "transfer-encoding") = false from rfl, Bool.false_and, Bool.false_eq_true, if_false, beq_self_eq_true, if_true]
    by_cases h5 : h.mode = .close
    · rw [if_pos h5, if_pos h5]; cases pyInt 10 (lower v) <;> rfl
    · rw [if_neg h5, if_neg h5]; rfl
  rw [if_neg h4]
  have h4' : (lower n == b! "content-length") = false := by simpa using h4
  by_cases h7 : lower n = b! "transfer-encoding"
  · rw [if_pos h7]
    simp only [h7]
    simp only [beq_self_eq_true, Bool.true_and, show (b! "transfer-encoding" == b! "content-length") = false from rfl,
      show (b! "transfer-encoding" == b! "content-encoding") = false from rfl, Bool.false_eq_true, if_false]
    by_cases h8 : contains (lower v) (b! "chunked") = true
    · rw [if_pos h8, if_pos h8]; rfl
    · rw [if_neg h8, if_neg h8]; rfl
  rw [if_neg h7]
  have h7' : (lower n == b! "transfer-encoding") = false := by simpa using h7
  simp only [h4', h7', Bool.false_and, Bool.false_eq_true, if_false]
  by_cases h9 : lower n = b! "content-encoding"
  · rw [if_pos h9]
    simp only [h9, beq_self_eq_true, if_true]
    rfl
  rw [if_neg h9]
  have h9' : (lower n == b! "content-encoding") = false := by simpa using h9
  simp only [h9', Bool.false_eq_true, if_false]
  by_cases h10 : lower n = b! "connection"
  · rw [if_pos h10]
    simp only [h2, h10, if_true, if_false, Bool.false_eq_true]
    cases contains (lower v) (b! "keep-alive") <;> cases contains (lower v) (b! "close") <;> rfl
  · rw [if_neg h10]; simp only [h2, h10, if_false, Bool.false_eq_true]; rfl

/-- the fields about the body say nothing else -/
theorem flagStep_other (ig : List PyStr) (fl : Bool × Bool) (f : Header)
    (h : saysChunked ig f = true ∨ saysLength ig f = true ∨ saysEncoding ig f = true) : flagStep ig fl f = fl := by
  have : lower f.1 = b! "transfer-encoding" ∨ lower f.1 = b! "content-length" ∨ lower f.1 = b! "content-encoding" := by
    rcases h with h | h | h <;> simp [saysChunked, saysLength, saysEncoding] at h <;> simp [h]
  unfold flagStep
  split
  · rfl
  · rcases this with e | e | e <;> rw [e] <;> rfl

/-- the loop over the fields, as far as the framing is concerned -/
def scan (ig : List PyStr) : Framing × Option Int → List Header → Option (Framing × Option Int)
  | st, [] => some st
  | st, f :: hs =>
    if saysChunked ig f then scan ig (.chunked, st.2) hs
    else if saysLength ig f && st.1 == .close then
      match pyInt 10 (lower f.2) with
      | some n => scan ig (.length, some n) hs
      | none => none
    else scan ig st hs

theorem encodingOf_cons (ig : List PyStr) (f : Header) (hs : List Header) (e : Option Bytes) :
    (encodingOf ig (f :: hs)).or e = (encodingOf ig hs).or (if saysEncoding ig f then some (lower f.2) else e) := by
  have hfun : (fun f : Header => lower f.1 == b! "content-encoding" && !ignored ig f.1) = saysEncoding ig := rfl
  simp only [encodingOf, hfun]
  cases h : saysEncoding ig f with
  | false => simp [List.filter_cons, h]
  | true =>
    simp only [List.filter_cons, h, if_true]
    cases hl : hs.filter (saysEncoding ig) with
    | nil => simp
    | cons x xs => simp [List.getLast?_cons_cons, List.getLast?_cons]

theorem applyHeaders_scan (ig : List PyStr) (hs : List Header) (h : Hdr) (hig : h.ignore = ig.map PyStr.lower) :
    match scan ig (h.mode, h.contentLength) hs with
    | some (mo, cl) => ∃ h', applyHeaders hs h = .ok () h' ∧ h'.mode = mo ∧ h'.contentLength = cl ∧
        h'.encoding = (encodingOf ig hs).or h.encoding ∧ KeptBody h' h ∧
        (h'.keepAlive, h'.expectContinue) = hs.foldl (flagStep ig) (h.keepAlive, h.expectContinue)
    | none => ∃ h', applyHeaders hs h = .raise .valueError h' := by
  induction hs generalizing h with
  | nil => exact ⟨h, rfl, rfl, rfl, by simp [encodingOf], .refl _, rfl⟩
  | cons f hs ih =>
    have step := apply_step ig f h hig
    -- a step that leads to `h1`
    have go : ∀ h1, applyHeader (lower f.1) (lower f.2) h = .ok () h1 → h1.ignore = ig.map PyStr.lower →
        h1.encoding = (if saysEncoding ig f then some (lower f.2) else h.encoding) → KeptBody h1 h →
        (h1.keepAlive, h1.expectContinue) = flagStep ig (h.keepAlive, h.expectContinue) f →
        (match scan ig (h1.mode, h1.contentLength) hs with
        | some (mo, cl) => ∃ h', applyHeaders (f :: hs) h = .ok () h' ∧ h'.mode = mo ∧ h'.contentLength = cl ∧
            h'.encoding = (encodingOf ig (f :: hs)).or h.encoding ∧ KeptBody h' h ∧
            (h'.keepAlive, h'.expectContinue) = (f :: hs).foldl (flagStep ig) (h.keepAlive, h.expectContinue)
        | none => ∃ h', applyHeaders (f :: hs) h = .raise .valueError h') := by
      intro h1 ha hi1 he hk hfl
      have := ih h1 hi1
      have hstep : applyHeaders (f :: hs) h = applyHeaders hs h1 := by
        obtain ⟨n, v⟩ := f
        simp only [applyHeaders, M.bind_apply, ha]
      cases hsc : scan ig (h1.mode, h1.contentLength) hs with
      | none => rw [hsc] at this; rw [hstep]; exact this
      | some mc =>
        obtain ⟨mo, cl⟩ := mc
        rw [hsc] at this
        obtain ⟨h', a, b, c, d, e, g⟩ := this
        refine ⟨h', by rw [hstep]; exact a, b, c, ?_, e.trans hk, by rw [g, hfl]; rfl⟩
        rw [d, encodingOf_cons, he]
    have henc : (saysChunked ig f = true ∨ saysLength ig f = true) → saysEncoding ig f = false := by
      intro hx
      cases hy : saysEncoding ig f with
      | false => rfl
      | true =>
        simp [saysChunked, saysLength, saysEncoding] at hx hy
        rcases hx with hx | hx <;> rw [hy.1] at hx <;> simp at hx
    by_cases h1 : saysChunked ig f = true
    · rw [if_pos h1] at step
      have := go _ step hig (by simp [henc (Or.inl h1)]) ⟨rfl, rfl, rfl, rfl, rfl, rfl, rfl, rfl, rfl, rfl, rfl, rfl⟩ (flagStep_other _ _ _ (.inl h1)).symm
      rw [scan, if_pos h1]
      exact this
    · rw [if_neg h1] at step
      by_cases h2 : saysLength ig f = true
      · rw [if_pos h2] at step
        by_cases h3 : h.mode = .close
        · rw [if_pos h3] at step
          rw [scan, if_neg h1, if_pos (by simp [h2, h3])]
          cases hp : pyInt 10 (lower f.2) with
          | none =>
            rw [hp] at step
            simp only at step ⊢
            refine ⟨h, ?_⟩
            obtain ⟨n, v⟩ := f
            simp only [applyHeaders, M.bind_apply, step]
          | some k =>
            rw [hp] at step
            exact go _ step hig (by simp [henc (Or.inr h2)]) ⟨rfl, rfl, rfl, rfl, rfl, rfl, rfl, rfl, rfl, rfl, rfl, rfl⟩ (flagStep_other _ _ _ (.inr (.inl h2))).symm
        · rw [if_neg h3] at step
          rw [scan, if_neg h1, if_neg (by simp [h3])]
          exact go _ step hig (by simp [henc (Or.inr h2)]) (.refl _) (flagStep_other _ _ _ (.inr (.inl h2))).symm
      · rw [if_neg h2] at step
        rw [scan, if_neg h1, if_neg (by simp [h2])]
        by_cases h3 : saysEncoding ig f = true
        · rw [if_pos h3] at step
          have := go _ step hig (by simp [h3]) ⟨rfl, rfl, rfl, rfl, rfl, rfl, rfl, rfl, rfl, rfl, rfl, rfl⟩ (flagStep_other _ _ _ (.inr (.inr h3))).symm
          exact this
        · rw [if_neg h3] at step
          have := go _ step hig (by simp [h3]) ⟨rfl, rfl, rfl, rfl, rfl, rfl, rfl, rfl, rfl, rfl, rfl, rfl⟩ rfl
          exact this

theorem scan_chunked (ig : List PyStr) (cl : Option Int) (hs : List Header) : scan ig (.chunked, cl) hs = some (.chunked, cl) := by
  induction hs with
  | nil => rfl
  | cons f hs ih =>
    rw [scan]
    split
    · exact ih
    · simpa using ih

theorem scan_length (ig : List PyStr) (cl : Option Int) (hs : List Header) :
    scan ig (.length, cl) hs = some (if hs.any (saysChunked ig) then .chunked else .length, cl) := by
  induction hs with
  | nil => rfl
  | cons f hs ih =>
    rw [scan]
    by_cases h : saysChunked ig f = true
    · rw [if_pos h, scan_chunked]; simp [h]
    · rw [if_neg h]
      have h' : saysChunked ig f = false := by simpa using h
      rw [List.any_cons, h', Bool.false_or, if_neg (by simp)]
      exact ih

/-- the framing of a message, from the header object -/
def framed (mo : Framing) (cl : Option Int) (fr : Framed) : Prop :=
  match fr with
  | .close => mo = .close
  | .length n => mo = .length ∧ cl = some n
  | .chunked => mo = .chunked

theorem scan_framing (ig : List PyStr) (hs : List Header) :
    match framing ig hs with
    | some fr => ∃ mo cl, scan ig (.close, none) hs = some (mo, cl) ∧ framed mo cl fr
    | none => scan ig (.close, none) hs = none := by
  induction hs with
  | nil => exact ⟨.close, none, rfl, rfl⟩
  | cons f hs ih =>
    unfold framing
    by_cases h1 : saysChunked ig f = true
    · simp only [List.find?_cons, h1, Bool.true_or, if_true]
      exact ⟨.chunked, none, by rw [scan, if_pos h1, scan_chunked], rfl⟩
    · have h1' : saysChunked ig f = false := by simpa using h1
      by_cases h2 : saysLength ig f = true
      · simp only [List.find?_cons, h1', h2, Bool.false_or, Bool.false_eq_true, if_false]
        rw [scan, if_neg h1, if_pos (by simp [h2])]
        cases hp : pyInt 10 (lower f.2) with
        | none => rfl
        | some k =>
          simp only [List.any_cons, h1', Bool.false_or]
          rw [scan_length]
          by_cases h3 : hs.any (saysChunked ig) = true
          · simp only [h3, if_true]; exact ⟨_, _, rfl, rfl⟩
          · simp only [h3, Bool.false_eq_true, if_false]; exact ⟨_, _, rfl, rfl, rfl⟩
      · have h2' : saysLength ig f = false := by simpa using h2
        have : scan ig (.close, none) (f :: hs) = scan ig (.close, none) hs := by
          rw [scan, if_neg h1, if_neg (by simp [h2])]
        rw [this]
        have hfind : (f :: hs).find? (fun f => saysChunked ig f || saysLength ig f) = hs.find? (fun f => saysChunked ig f || saysLength ig f) := by
          simp [List.find?_cons, h1', h2']
        have hany : (f :: hs).any (saysChunked ig) = hs.any (saysChunked ig) := by simp [h1']
        rw [hfind, hany]
        exact ih

/-! ### the whole head -/

theorem Start.line {st : Start} (h : st.Ok) : ∃ u, st.text = u ++ [10] ∧ 10 ∉ u ∧ isNewline st.text = false := by
  cases st with
  | request m t v =>
    obtain ⟨⟨h1, h2, h3⟩, ⟨h4, h5⟩, ⟨h6, h7, h8⟩, _⟩ := h
    refine ⟨m ++ [32] ++ t ++ [32] ++ v ++ [13], by simp [Start.text], by simp [h2, h5, h6], ?_⟩
    cases hx : isNewline (Start.request m t v).text with
    | false => rfl
    | true =>
      exfalso
      have : 32 ∈ (Start.request m t v).text := by simp [Start.text]
      unfold isNewline at hx
      simp only [Bool.or_eq_true, beq_iff_eq] at hx
      rcases hx with hx | hx <;> rw [hx] at this <;> simp at this
  | response v c p =>
    obtain ⟨⟨h1, h2⟩, h3, h4⟩ := h
    have hd : 10 ∉ decimal c := fun h => absurd (decimal_digits c 10 h) (by decide)
    refine ⟨v ++ [32] ++ decimal c ++ [32] ++ p ++ [13], by simp [Start.text], by simp [h2, h3, hd], ?_⟩
    cases hx : isNewline (Start.response v c p).text with
    | false => rfl
    | true =>
      exfalso
      have : 32 ∈ (Start.response v c p).text := by simp [Start.text]
      unfold isNewline at hx
      simp only [Bool.or_eq_true, beq_iff_eq] at hx
      rcases hx with hx | hx <;> rw [hx] at this <;> simp at this

/-- a parser at the start of a message -/
structure Fresh (k : Kind) (ig : List PyStr) (m : Msg) : Prop where
  mode : m.mode = .start
  flush : Flush m
  header : m.header = freshHdr k ig
  reader : m.reader = none
  chunks : m.bodyChunks = []

theorem Fresh.message (k : Kind) (ig : List PyStr) : Fresh k ig (k.message ig) := by
  cases k <;> exact ⟨rfl, rfl, rfl, rfl, rfl⟩

/-- the header object after the head -/
structure Head (k : Kind) (ig : List PyStr) (st : Start) (hs : List Header) (fr : Framed) (h : Hdr) : Prop where
  headers : h.headers = hs
  framed : framed h.mode h.contentLength fr
  encoding : h.encoding = encodingOf ig hs
  trailers : h.trailers = []
  side : h.side = (freshHdr k ig).side
  code : ∀ v c p, st = .response v c p → h.code = c ∧ h.version = .bytes v ∧ h.phrase = .bytes p
  request : ∀ me t v, st = .request me t v → h.method = .bytes me ∧ h.version = .bytes v ∧ (st.plain → h.targetUri = .bytes t)
  steps : ∃ h1, setStartLine st.text (freshHdr k ig) = .ok () h1 ∧ h.targetUri = h1.targetUri ∧ h.scheme = h1.scheme ∧
    (k = .request → (h.host, h.port) = hs.foldl hostStep (h1.host, h1.port)) ∧
    (h.keepAlive, h.expectContinue) = hs.foldl (flagStep ig) (h1.keepAlive, h1.expectContinue)

/-- the parser after the head -/
def atBody (m : Msg) (t : Bytes) (h : Hdr) : Msg := { took m t with header := h, mode := .body }

/-- The head of a message, however it is written: `u` is the start line without its line feed, `F` the fields, `b` the
empty line. -/
theorem head_run (c : Codec) (k : Kind) (ig : List PyStr) (st : Start) (hs : List Header) (rest : Bytes) (m : Msg)
    (hm : Fresh k ig m) (hf : st.fits k) (hst : st.Ok) (u F b : Bytes) (hu10 : 10 ∉ u) (hnl : isNewline (u ++ [10]) = false)
    (hsl : setStartLine (u ++ [10]) = setStartLine st.text) (hbl : b = CRLF ∨ b = [10])
    (hF : ∀ m : Msg, Flush m → ∃ h', FH (F ++ (b ++ rest)) m = FH (b ++ rest) { took m F with header := h' } ∧
      h'.headers = m.header.headers ++ hs ∧ Kept h' m.header ∧
      (m.header.side = .request → (h'.host, h'.port) = hs.foldl hostStep (m.header.host, m.header.port))) :
    match framing ig hs with
    | some fr => ∃ h, feed c (u ++ [10] ++ F ++ b ++ rest) m = afterHeaders c rest (atBody m (u ++ [10] ++ F ++ b) h) ∧ Head k ig st hs fr h
    | none => ∃ m', feed c (u ++ [10] ++ F ++ b ++ rest) m = .raise .valueError m' := by
  obtain ⟨h1, hh1, hb1⟩ := start_line k st hf hst ig
  have htext : u ++ [10] ++ F ++ b ++ rest = u ++ 10 :: (F ++ (b ++ rest)) := by simp
  have hline : pend m ++ u ++ [10] = u ++ [10] := by rw [hm.flush.pend]; rfl
  have hon : onHeader (setStartLine (u ++ [10])) (took m (u ++ [10])) = .ok () { took m (u ++ [10]) with header := h1 } := by
    simp only [onHeader, took_header, hm.header, hsl, hh1]
  rw [htext, feed_start_line c _ hm.flush.inv hm.mode hu10, hline, hnl, hon]
  simp only [Bool.false_eq_true, if_false]
  rw [feed_headers c _ (by exact (LineInv.took m (u ++ [10])).congr rfl rfl) rfl]
  obtain ⟨h2, hh2, hb2, hk2, hp2⟩ := hF { took m (u ++ [10]) with header := h1, mode := .headers } rfl
  have hd0 : (freshHdr k ig).headers = [] := by cases k <;> rfl
  have hi0 : (freshHdr k ig).ignore = ig.map PyStr.lower := by cases k <;> rfl
  have hm0 : (freshHdr k ig).mode = .close := by cases k <;> rfl
  have hc0 : (freshHdr k ig).contentLength = none := by cases k <;> rfl
  have he0 : (freshHdr k ig).encoding = none := by cases k <;> rfl
  have ht0 : (freshHdr k ig).trailers = [] := by cases k <;> rfl
  have hh2' : h2.headers = hs := by rw [hb2]; simp [hb1.headers, hd0]
  have hig : h2.ignore = ig.map PyStr.lower := by rw [hk2.ignore]; simp [hb1.ignore, hi0]
  have hmode : h2.mode = .close := by rw [hk2.mode]; simp [hb1.mode, hm0]
  have hcl : h2.contentLength = none := by rw [hk2.contentLength]; simp [hb1.contentLength, hc0]
  have hlast : FH (b ++ rest) { took { took m (u ++ [10]) with header := h1, mode := .headers } F with header := h2 } =
      match applyHeaders hs h2 with
      | .ok _ h3 => .ok rest (atBody m (u ++ [10] ++ F ++ b) h3)
      | .raise e h3 => .raise e { took m (u ++ [10] ++ F ++ b) with header := h3, mode := .headers }
      | .hang => .hang := by
    have hfl : Flush { took { took m (u ++ [10]) with header := h1, mode := .headers } F with header := h2 } := rfl
    rcases hbl with rfl | rfl
    · rw [show CRLF ++ rest = [13] ++ 10 :: rest from rfl, FH_line hfl.inv rest (by decide), hfl.pend]
      simp only [List.nil_append, onHeader, took_header]
      have hadd : addHeaderLine ([13] ++ [10]) h2 = applyHeaders hs h2 := by
        rw [← hh2']; rfl
      rw [hadd]
      cases applyHeaders hs h2 with
      | hang => rfl
      | ok x h3 => simp [isNewline, atBody, took]
      | raise e h3 => simp [took]
    · rw [show [10] ++ rest = [] ++ 10 :: rest from rfl, FH_line hfl.inv rest (by decide), hfl.pend]
      simp only [List.nil_append, onHeader, took_header]
      have hadd : addHeaderLine [10] h2 = applyHeaders hs h2 := by
        rw [← hh2']; rfl
      rw [hadd]
      cases applyHeaders hs h2 with
      | hang => rfl
      | ok x h3 => simp [isNewline, atBody, took]
      | raise e h3 => simp [took]
  rw [hh2, hlast]
  have hscan := applyHeaders_scan ig hs h2 hig
  rw [hmode, hcl] at hscan
  have hfr := scan_framing ig hs
  cases hx : framing ig hs with
  | none =>
    rw [hx] at hfr
    simp only at hfr
    rw [hfr] at hscan
    obtain ⟨h3, hh3⟩ := hscan
    exact ⟨_, by rw [hh3]⟩
  | some fr =>
    rw [hx] at hfr
    obtain ⟨mo, cl, hsc, hfm⟩ := hfr
    rw [hsc] at hscan
    obtain ⟨h3, hh3, a, b, e, kb, kf⟩ := hscan
    refine ⟨h3, by rw [hh3]; rfl, ?_⟩
    have hk2' : Kept h2 h1 := hk2
    constructor
    · rw [kb.headers, hh2']
    · rw [a, b]; exact hfm
    · rw [e, hk2'.encoding, hb1.encoding, he0]; simp
    · rw [kb.trailers, hk2'.trailers, hb1.trailers, ht0]
    · rw [kb.side, hk2'.side, hb1.side]
    · intro v cd p he
      rw [kb.code, kb.version, kb.phrase, hk2'.code, hk2'.version, hk2'.phrase]
      exact hb1.code v cd p he
    · intro me t v he
      rw [kb.method, kb.version, kb.target, hk2'.method, hk2'.version, hk2'.target]
      exact hb1.request me t v he
    · refine ⟨h1, hh1, by rw [kb.target, hk2'.target], by rw [kb.scheme, hk2'.scheme], ?_, ?_⟩
      · rintro rfl
        rw [kb.host, kb.port]
        exact hp2 (by show h1.side = _; rw [hb1.side]; rfl)
      · rw [kf, hk2'.keepAlive, hk2'.expect]

theorem head_feed (c : Codec) (k : Kind) (ig : List PyStr) (st : Start) (hs : List Header) (rest : Bytes) (m : Msg)
    (hm : Fresh k ig m) (hf : st.fits k) (hst : st.Ok) (hok : FieldsOk hs) :
    match framing ig hs with
    | some fr => ∃ h, feed c (headText st hs ++ rest) m = afterHeaders c rest (atBody m (headText st hs) h) ∧ Head k ig st hs fr h
    | none => ∃ m', feed c (headText st hs ++ rest) m = .raise .valueError m' := by
  obtain ⟨u, hu, hu10, hnl⟩ := Start.line hst
  have := head_run c k ig st hs rest m hm hf hst u (fields hs) CRLF hu10 (by rw [← hu]; exact hnl) (by rw [hu]) (.inl rfl)
    (fun m' hm' => FH_fields hs hok m' hm' (CRLF ++ rest))
  rw [← hu] at this
  exact this

end Warc.Http
