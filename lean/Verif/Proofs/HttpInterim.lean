import Verif.Proofs.HttpHex
import Verif.Proofs.HttpHang
/-
  Interim responses; decoding of compressed bodies; what the head says about the body.
-/
set_option linter.all false
namespace Warc.Http
open Rx

theorem is100_behind (p : Bytes) (is : List Hdr) (m : Msg) : is100 (m.behind p is) = is100 m := rfl

theorem restart_behind (p : Bytes) (is : List Hdr) (m : Msg) : restart (m.behind p is) = (restart m).behind p is := by
  unfold restart Msg.behind
  simp

theorem feedResponse_behind {c : Codec} {t : Bytes} {m : Msg} (p : Bytes) (is : List Hdr) (hi : Inv m) :
    feedResponse c t (m.behind p is) = onState (Msg.behind p is) (feedResponse c t m) := by
  rw [feedResponse_eq, feedResponse_eq, feed_behind hi]
  cases hf : feed c t m with
  | hang => rfl
  | raise e m1 => rfl
  | ok l m1 =>
    simp only [onState, is100_behind]
    by_cases h : is100 m1 = true
    · simp only [h, if_true, restart_behind]
      rw [feed_behind (restart_inv (feed_inv hi hf).1)]
      rfl
    · simp only [h, Bool.false_eq_true, if_false]

theorem feedAll_behind {c : Codec} (ts : List Bytes) {m : Msg} (p : Bytes) (is : List Hdr) (hi : Inv m) :
    feedAll (feedResponse c) ts (m.behind p is) = onState (Msg.behind p is) (feedAll (feedResponse c) ts m) := by
  induction ts generalizing m with
  | nil => rfl
  | cons t ts ih =>
    rw [feedAll_cons, feedAll_cons, feedResponse_behind p is hi]
    cases hf : feedResponse c t m with
    | hang => rfl
    | raise e m1 => rfl
    | ok l m1 =>
      simp only [onState, andThen]
      rw [ih (feedResponse_inv hi hf)]
      cases feedAll (feedResponse c) ts m1 <;> rfl

theorem behind_behind (p q : Bytes) (is js : List Hdr) (m : Msg) : (m.behind q js).behind p is = m.behind (p ++ q) (is ++ js) := by
  unfold Msg.behind
  simp [Nat.add_assoc]

theorem onState_onState {α : Type} (f g : Msg → Msg) (r : Res Msg α) : onState f (onState g r) = onState (f ∘ g) r := by
  cases r <;> rfl

/-- an interim response and what follows -/
theorem interim_then (c : Codec) {rm : PyStr} {v ph : Bytes} {hs : List Header}
    (hst : (Start.response v 100 ph).Ok) (hok : FieldsOk hs) {ig : List PyStr} (hfr : framing ig hs ≠ none) (rest : Bytes) :
    ∃ h : Hdr, (h.headers = hs ∧ h.code = 100 ∧ h.version = .bytes v ∧ h.phrase = .bytes ph) ∧
      feedResponse c (headText (.response v 100 ph) hs ++ rest) (Msg.response rm ig) =
        onState (Msg.behind (headText (.response v 100 ph) hs) [h]) (feed c rest (Msg.response rm [])) := by
  cases hf : framing ig hs with
  | none => exact absurd hf hfr
  | some fr =>
    obtain ⟨m1, h1, h2, h3, h4⟩ := interim_feed c (Fresh.message (.response rm) ig) hst hok hf rest
    obtain ⟨hc1, hc2, hc3⟩ := h3.code v 100 ph rfl
    refine ⟨m1.header, ⟨h3.headers, by simpa using hc1, hc2, hc3⟩, ?_⟩
    rw [show (Msg.response rm ig) = (Kind.response rm).message ig from rfl, h1, h4]
    exact feed_behind (Inv.response rm [])

/-- the body of a compressed message, and the head with the length of what was compressed -/
theorem Done.decodedEnc {k : Kind} {ig : List PyStr} {x : Message} {m m' : Msg} (hd : Done k ig x m m') (hx : x.Ok k ig) (hp : x.start.plain)
    {e : Bytes} (he : encodingOf ig x.fields = some e) (he0 : e ≠ []) (hdata : x.payload.data ≠ []) (hb : x.payload ≠ .none) (z : Zlib) :
    m'.getDecoded z = .ok (match z.zlib x.payload.data with
      | some d => headText x.start x.plain.fields ++ d
      | none => match z.gzip x.payload.data with
        | some d => headText x.start x.plain.fields ++ d
        | none => headText x.start (x.plain.fields ++ [(b! "Content-Encoding", e)]) ++ x.payload.data) := by
  obtain ⟨fr, h, hfr, hpl, hh, hhd⟩ := hd.header
  have hst : m'.header.decodedStart = .ok x.start.text := by
    rw [hhd]; exact hh.decodedStart hx.fits hp
  have hbd : m'.header.hasBody = true := by
    rw [hhd]
    show h.hasBody = true
    refine (hh.hasBody hx.fits).2 ?_
    unfold Message.Framed at hpl
    cases hpp : x.payload with
    | none => exact absurd hpp hb
    | sized b => rw [hpp] at hpl; exact hpl.1
    | toEnd b => rw [hpp] at hpl; exact hpl.1
    | chunked b => rw [hpp] at hpl; exact hpl.1
  have hen : m'.header.encoding = encodingOf ig x.fields := by rw [hhd]; exact hh.encoding
  have hhs : m'.header.headers = x.fields := by rw [hhd]; exact hh.headers
  have hts : m'.header.trailers = x.payload.trailers := by rw [hhd]
  have hw : m'.header.writeDecoded = .ok (x.start.text ++ Http.fields ((x.fields ++ x.payload.trailers).filter (fun f => ¬ dropped f.1))) := by
    unfold Hdr.writeDecoded
    rw [hst, hbd, if_pos rfl, writeHeaders_body, hhs, hts]
    rfl
  have hsum : decimalInt ((m'.bodyChunks.map (·.2)).sum) = decimal x.payload.data.length := by
    rw [pick_length hd.within, ← getBody_pick, hd.body]
    rfl
  rw [plain_eq hb]
  unfold Msg.getDecoded
  rw [hw, hen, he, hd.body, hbd, if_pos rfl, hsum]
  cases e with
  | nil => exact absurd rfl he0
  | cons a as =>
    simp only [bind, Except.bind, hdata, if_false]
    cases z.zlib x.payload.data with
    | some d => simp [headText, Http.fields, fieldText]
    | none =>
      cases z.gzip x.payload.data with
      | some d => simp [headText, Http.fields, fieldText]
      | none => simp [headText, Http.fields, fieldText]

/-- what is known after the head alone -/
theorem head_only (c : Codec) (k : Kind) (ig : List PyStr) {st : Start} {hs : List Header} (hf : st.fits k) (hst : st.Ok) (hok : FieldsOk hs)
    {fr : Framed} (hfr : framing ig hs = some fr) (hg : (∃ n, fr = .length n) → hasBody k st fr → ¬ gzipField ig hs) :
    ∃ m', feed c (headText st hs) (k.message ig) = .ok [] m' ∧ Head k ig st hs fr m'.header ∧ m'.headersComplete = true := by
  have := head_feed c k ig st hs [] _ (Fresh.message k ig) hf hst hok
  rw [hfr, List.append_nil] at this
  obtain ⟨h, hh, hd⟩ := this
  have hng := hd.notGzip hg hf
  have hsp := setupBody_spec c [] (m := atBody (k.message ig) (headText st hs) h) rfl
  rw [hh, afterHeaders]
  cases hx : setupBody c [] (atBody (k.message ig) (headText st hs) h) with
  | hang => rw [hx] at hsp; exact hsp.elim
  | raise e m1 => rw [hx] at hsp; have := hsp.2; simp only [atBody] at this; rw [hng] at this; cases this
  | ok a m1 =>
    rw [hx] at hsp
    simp only [stageBody_nil]
    refine ⟨m1, rfl, ?_, ?_⟩
    · rw [hsp.header]; exact hd
    · rcases hsp.mode with e | e <;> simp [Msg.headersComplete, e]

end Warc.Http
