import Verif.Proofs.HttpGrammarBody
/-
  The HTTP parser refines the grammar of Spec/HttpGrammar: whole messages.
-/
set_option linter.all false
namespace Warc.Http
open Grammar

/-- what is shown of one message by a parser that was at the start of a message as `m` -/
structure Shown1 (k : Kind) (ig : List PyStr) (s : Seen) (m m' : Msg) : Prop where
  head : m'.headersComplete = s.head
  request : ∀ me t v, s.opening = some (.request me t v) → m'.header.method = .bytes me ∧ m'.header.version = .bytes v
  response : ∀ v n p, s.opening = some (.response v n p) → m'.header.version = .bytes v ∧ m'.header.code = n ∧ m'.header.phrase = .bytes p
  fields : m'.header.headers = s.fields
  trailers : m'.header.trailers = s.trailers
  body : m'.getBody = s.body
  buffer : m'.buffer = m.buffer ++ s.message
  complete : m'.complete = s.complete
  closes : m'.close.complete = s.closes
  closedBody : m'.close.getBody = s.body
  interim : m'.interim = m.interim
  none_ : s.interim = []
  side : m'.header.side = (freshHdr k ig).side
  opening : s.complete = true → ∃ o, s.opening = some o ∧ Opening.Of o k
  flush : s.isInterim = true → Flush m'
  zip : (∀ o n, s.opening = some o → s.head = true → framing ig s.fields = some (.length n) → bodied k o (.length n) = true → zipField ig s.fields = false) →
    gzipBody m'.header = false
  fell : (s.complete = false → s.closes = true → framing ig s.fields ≠ some .chunked) → ¬ fellBack m'
  start : m'.mode = .start → s.opening = none
  target : ∀ me t v, s.opening = some (.request me t v) → ∃ line, LineSays me t line ∧ FieldsSay s.fields line m'.header.target
  connection : s.head = true → m'.header.keepAlive = keepsAlive ig s.fields ∧ m'.header.expectContinue = expects ig s.fields
  decoded : s.closes = true → s.left = [] → ∃ o, s.opening = some o ∧ ∀ z, m'.close.getDecoded z = (o.decoded m'.header.targetUri).map (· ++ s.decoded z k ig)

variable {k : Kind} {ig : List PyStr}

theorem shown_open {s : Seen} {m m' : Msg} (h1 : m'.mode = .start ∨ m'.mode = .headers) (hs : s.head = false) (hc : s.complete = false) (hcl : s.closes = false)
    (hb : s.body = []) (hch : m'.bodyChunks = [])
    (request : ∀ me t v, s.opening = some (.request me t v) → m'.header.method = .bytes me ∧ m'.header.version = .bytes v)
    (response : ∀ v n p, s.opening = some (.response v n p) → m'.header.version = .bytes v ∧ m'.header.code = n ∧ m'.header.phrase = .bytes p)
    (fields : m'.header.headers = s.fields) (trailers : m'.header.trailers = s.trailers) (buffer : m'.buffer = m.buffer ++ s.message)
    (interim : m'.interim = m.interim) (none_ : s.interim = []) (side : m'.header.side = (freshHdr k ig).side)
    (hmo : m'.header.mode = .close) (hst : m'.mode = .start → s.opening = none)
    (htg : ∀ me t v, s.opening = some (.request me t v) → ∃ line, LineSays me t line ∧ FieldsSay s.fields line m'.header.target) : Shown1 k ig s m m' := by
  have hl : Low m' := by intro x hx; rw [hch] at hx; cases hx
  have hgb : m'.getBody = [] := by rw [getBody_pick, hch]; rfl
  refine ⟨?_, request, response, fields, trailers, by rw [hgb, hb], buffer, ?_, ?_, by rw [close_body hl, hgb, hb], interim, none_, side, ?_, ?_, fun _ => by simp [gzipBody, hmo], fun _ hf => by simp [fellBack, hmo] at hf, hst, htg, (fun h => by rw [hs] at h; cases h), (fun h => by rw [hcl] at h; cases h)⟩
  · rw [hs]; rcases h1 with h1 | h1 <;> simp [Msg.headersComplete, h1]
  · rw [hc]; rcases h1 with h1 | h1 <;> simp [Msg.complete, h1]
  · rw [hcl]; rcases h1 with h1 | h1 <;> exact close_open (by simp [h1]) (by simp [h1])
  · rw [hc]; intro h; cases h
  · unfold Seen.isInterim; rw [hc]; intro h
    cases ho : s.opening with
    | none => rw [ho] at h; cases h
    | some o => rw [ho] at h; cases o <;> simp at h

theorem of_request {k : Kind} {me t v : Bytes} (h : Opening.Of (.request me t v) k) : k = .request := by
  cases k with
  | request => rfl
  | response rm => obtain ⟨_, _, _, e⟩ := h; cases e

/-- the decoded message -/
theorem decoded_any {k : Kind} {ig : List PyStr} {o : Opening} {hs : List Header} {fr : Framed} {M m' : Msg} {bd : Body} {msg left : Bytes}
    (hx : framing ig hs = some fr) (hof : Opening.Of o k) (hsays : HeadSays k ig o hs fr M.header) (f2 : BodyShown M m' bd) (hcl : bd.closes = true) (hlf : bd.left = [])
    (z : Zlib) : m'.close.getDecoded z = (o.decoded m'.header.targetUri).map (· ++ ({ opening := some o, fields := hs, head := true, trailers := bd.trailers, body := bd.data, complete := bd.complete, closes := bd.closes, message := msg, left := left } : Seen).decoded z k ig) := by
  have hclose := f2.closed hcl
  have hw := f2.within hcl hlf
  have hb : m'.header.hasBody = bodied k o fr := by
    rw [f2.header, ← hsays.hasBody hof]; rfl
  have henc : m'.header.encoding = encodingOf ig hs := by rw [f2.header]; exact hsays.encoding
  have hside : m'.header.side = (freshHdr k ig).side := by rw [f2.header]; exact hsays.side
  have hfl : m'.header.headers = hs := by rw [f2.header]; exact hsays.headers
  have htr : m'.header.trailers = bd.trailers := by rw [f2.header]
  have hsum : (m'.bodyChunks.map (·.2)).sum = (bd.data.length : Int) := by rw [pick_length hw, ← getBody_pick, f2.body]
  have hbody : ({ m' with mode := .end_ } : Msg).getBody = bd.data := f2.body
  have hstart : m'.header.decodedStart = o.decoded m'.header.targetUri := by
    unfold Hdr.decodedStart
    cases k with
    | request =>
      obtain ⟨me, t, v, rfl⟩ := hof
      obtain ⟨e1, e2⟩ := hsays.request me t v rfl
      have e1' : m'.header.method = .bytes me := by rw [f2.header]; exact e1
      have e2' : m'.header.version = .bytes v := by rw [f2.header]; exact e2
      rw [hside]
      simp only [freshHdr, Hdr.request, e1', e2', PyStr.asBytes, Opening.decoded]
      cases m'.header.targetUri <;> rfl
    | response rm =>
      obtain ⟨v, n, p, rfl⟩ := hof
      obtain ⟨e1, e2, e3⟩ := hsays.response v n p rfl
      have e1' : m'.header.code = n := by rw [f2.header]; exact e1
      have e2' : m'.header.version = .bytes v := by rw [f2.header]; exact e2
      have e3' : m'.header.phrase = .bytes p := by rw [f2.header]; exact e3
      rw [hside]
      simp only [freshHdr, Hdr.response, e1', e2', e3', PyStr.asBytes, Opening.decoded]
      rfl
  have hhb : ({ opening := some o, fields := hs, head := true, trailers := bd.trailers, body := bd.data, complete := bd.complete, closes := bd.closes, message := msg, left := left } : Seen).hasBody k ig = bodied k o fr := by
    simp only [Seen.hasBody, hx]
  have hdrop : ∀ f : Header, (!(stripHeaders.contains (lower f.1))) = decide (¬ dropped f.1) := by
    intro f
    unfold dropped stripHeaders
    by_cases h : lower f.1 ∈ [b! "content-length", b! "transfer-encoding", b! "content-encoding", b! "te", b! "expect", b! "trailer"]
    · simp [h]
    · simp [h]
  have hhead : m'.header.writeHeaders (if m'.header.hasBody then stripHeaders else []) =
      ((hs ++ bd.trailers).filter fun f => ¬ (bodied k o fr = true ∧ dropped f.1)).flatMap (fun f => f.1 ++ b! ": " ++ f.2 ++ CRLF) := by
    unfold Hdr.writeHeaders
    rw [hfl, htr, hb]
    congr 1
    cases bodied k o fr with
    | true =>
      simp only [if_true, true_and]
      congr 1
      funext f
      exact hdrop f
    | false => simp
  rw [hclose]
  unfold Msg.getDecoded Hdr.writeDecoded
  rw [hb] at hhead
  simp only [hbody, hstart, henc, hb, hhead, hsum]
  unfold Seen.decoded
  rw [hhb]
  have hdec : decimalInt (bd.data.length : Int) = decimal bd.data.length := by
    first | rfl | simp [decimalInt]
  simp only [hdec]
  generalize (((hs ++ bd.trailers).filter fun f => ¬ (bodied k o fr = true ∧ dropped f.1)).flatMap (fun f => f.1 ++ b! ": " ++ f.2 ++ CRLF)) = A
  generalize (if bodied k o fr = true then b! "Content-Length: " ++ decimal bd.data.length ++ CRLF else []) = B
  cases ho : o.decoded m'.header.targetUri with
  | error e => rfl
  | ok st =>
    simp only [Except.map]
    cases encodingOf ig hs with
    | none => simp [Bind.bind, Except.bind]
    | some e =>
      cases e with
      | nil => simp [Bind.bind, Except.bind]
      | cons e es =>
        simp only [Bind.bind, Except.bind, Option.getD_some]
        by_cases hd : bd.data = []
        · simp [hd]
        · simp only [hd, if_false, or_false, reduceCtorEq]
          cases z.zlib bd.data with
          | some d => simp
          | none =>
            cases z.gzip bd.data with
            | some d => simp
            | none => simp

/-- one message -/
theorem message_any (c : Codec) (k : Kind) (ig : List PyStr) (m : Msg) (hm : Fresh k ig m) (text : Bytes) :
    match Grammar.message c k ig text with
    | .refused e => ∃ m', feed c text m = .raise e m'
    | .forever => feed c text m = .hang
    | .seen s => ∃ m', feed c text m = .ok s.left m' ∧ Shown1 k ig s m m' := by
  have hd0 : (freshHdr k ig).headers = [] := by cases k <;> rfl
  have hi0 : (freshHdr k ig).ignore = ig.map PyStr.lower := by cases k <;> rfl
  have hm0 : (freshHdr k ig).mode = .close := by cases k <;> rfl
  have hc0 : (freshHdr k ig).contentLength = none := by cases k <;> rfl
  have he0 : (freshHdr k ig).encoding = none := by cases k <;> rfl
  have ht0 : (freshHdr k ig).trailers = [] := by cases k <;> rfl
  rw [Grammar.message]
  rcases line_cases text with h | ⟨u, r, h, rfl⟩
  · rw [cutAt_none h, feed_start_none c hm.flush.inv hm.mode h]
    refine ⟨_, rfl, shown_open (.inl hm.mode) rfl rfl rfl rfl hm.chunks (by simp) (by simp) ?_ ?_ rfl rfl rfl ?_ ?_ (fun _ => rfl) (by simp)⟩
    · show m.header.headers = []; rw [hm.header, hd0]
    · show m.header.trailers = []; rw [hm.header, ht0]
    · show m.header.side = _; rw [hm.header]
    · show m.header.mode = _; rw [hm.header, hm0]
  · rw [cutAt_some u r h, feed_start_line c r hm.flush.inv hm.mode h, hm.flush.pend, List.nil_append, isNewline_lf]
    cases he : emptyLine u with
    | true =>
      simp only [if_true, he]
      refine ⟨_, rfl, shown_open (.inl hm.mode) rfl rfl rfl rfl hm.chunks (by simp) (by simp) ?_ ?_ rfl rfl rfl ?_ ?_ (fun _ => rfl) (by simp)⟩
      · show m.header.headers = []; rw [hm.header, hd0]
      · show m.header.trailers = []; rw [hm.header, ht0]
      · show m.header.side = _; rw [hm.header]
      · show m.header.mode = _; rw [hm.header, hm0]
    | false =>
      simp only [Bool.false_eq_true, if_false, onHeader, took_header, hm.header, he]
      have hst := start_any k ig u h
      cases ho : openingIn k u with
      | none =>
        rw [ho] at hst
        obtain ⟨h1, hh1, _⟩ := hst
        rw [hh1]
        exact ⟨_, rfl⟩
      | some o =>
        rw [ho] at hst
        obtain ⟨h1, hh1, hop, hof⟩ := hst
        rw [hh1]
        simp only
        rw [feed_headers c _ (by exact (LineInv.took m (u ++ [10])).congr rfl rfl) rfl]
        have hfh := FH_any r.length r rfl { took m (u ++ [10]) with header := h1, mode := .headers } rfl
        simp only [hop.headers, hd0] at hfh
        cases hf : fieldsIn [] r with
        | refused e =>
          rw [hf] at hfh
          obtain ⟨m', hm'⟩ := hfh
          rw [hm']
          exact ⟨m', rfl⟩
        | going hs =>
          rw [hf] at hfh
          obtain ⟨m', g1, g2, g3, g4, g5, g6, g7, g8, g9⟩ := hfh
          rw [g1]
          simp only
          rw [g5]
          simp only [reduceCtorEq, if_false]
          refine ⟨m', rfl, shown_open (.inr g5) rfl rfl rfl rfl (by rw [g7]; exact hm.chunks) ?_ ?_ g2 ?_ ?_ g8 rfl ?_ ?_ (fun h => by rw [g5] at h; cases h) ?_⟩
          · intro me t v e; cases e
            rw [g3.method, g3.version]; exact hop.request _ _ _ rfl
          · intro v n p e; cases e
            rw [g3.version, g3.code, g3.phrase]
            obtain ⟨a, b, d⟩ := hop.response _ _ _ rfl
            exact ⟨b, a, d⟩
          · rw [g3.trailers]; show h1.trailers = []; rw [hop.trailers, ht0]
          · rw [g4]; simp [took]
          · rw [g3.side]; exact hop.side
          · rw [g3.mode]; show h1.mode = _; rw [hop.mode, hm0]
          · intro me t v e; cases e
            refine ⟨h1.target, hop.target _ _ _ rfl, fieldsSay g3.target g3.scheme (g9 ?_ _ ?_)⟩
            · show h1.side = _; rw [hop.side, of_request hof]; rfl
            · show (h1.host, h1.port) = _; rw [hop.headers, hd0]; rfl
        | ended hs rest =>
          rw [hf] at hfh
          obtain ⟨used, h2, g1, g2, g3, g9, g4⟩ := hfh
          rw [g4]
          have hig : h2.ignore = ig.map PyStr.lower := by rw [g3.ignore]; simp [hop.ignore, hi0]
          have hmode : h2.mode = .close := by rw [g3.mode]; simp [hop.mode, hm0]
          have hcl : h2.contentLength = none := by rw [g3.contentLength]; simp [hop.contentLength, hc0]
          have hscan := applyHeaders_scan ig hs h2 hig
          rw [hmode, hcl] at hscan
          have hfr := scan_framing ig hs
          cases hx : framing ig hs with
          | none =>
            rw [hx] at hfr
            simp only at hfr
            rw [hfr] at hscan
            obtain ⟨h3, hh3⟩ := hscan
            simp only [hh3, bodyIn, hx]
            exact ⟨_, rfl⟩
          | some fr =>
            rw [hx] at hfr
            obtain ⟨mo, cl, hsc, hfm⟩ := hfr
            rw [hsc] at hscan
            obtain ⟨h3, hh3, a, b, e, kb, kf⟩ := hscan
            have hk2 : Kept h2 h1 := g3
            have hsays : HeadSays k ig o hs fr h3 := by
              constructor
              · rw [kb.headers, g2]
              · rw [a, b]; exact hfm
              · rw [e, hk2.encoding, hop.encoding, he0]; simp
              · rw [kb.trailers, hk2.trailers, hop.trailers, ht0]
              · rw [kb.side, hk2.side, hop.side]
              · intro v cd p he
                rw [kb.code, kb.version, kb.phrase, hk2.code, hk2.version, hk2.phrase]
                exact hop.response v cd p he
              · intro me t v he
                rw [kb.method, kb.version, hk2.method, hk2.version]
                exact hop.request me t v he
              · intro me t v he
                subst he
                refine ⟨h1.target, hop.target _ _ _ rfl, fieldsSay (by rw [kb.target, hk2.target]) (by rw [kb.scheme, hk2.scheme]) ?_⟩
                rw [kb.host, kb.port]
                refine g9 ?_ _ ?_
                · show h1.side = _; rw [hop.side, of_request hof]; rfl
                · show (h1.host, h1.port) = _; rw [hop.headers, hd0]; rfl
              · have e1 : h2.keepAlive = false := by rw [hk2.keepAlive]; exact hop.flags.1
                have e2 : h2.expectContinue = false := by rw [hk2.expect]; exact hop.flags.2
                rw [e1, e2, flags] at kf
                simp only [Prod.mk.injEq] at kf
                exact kf
            rw [hh3]
            simp only
            rw [if_pos (show (atBody { took m (u ++ [10]) with header := h1, mode := .headers } used h3).mode = .body from rfl)]
            have hbody := body_any (c := c) hx hof (atBody { took m (u ++ [10]) with header := h1, mode := .headers } used h3) hsays rfl rfl hm.chunks rest
            cases hbi : bodyIn c k ig o hs rest with
            | refused e => rw [hbi] at hbody; exact hbody
            | forever => rw [hbi] at hbody; exact hbody
            | found bd =>
              rw [hbi] at hbody
              obtain ⟨m', f1, f2, f3⟩ := hbody
              refine ⟨m', f1, ⟨f2.head, ?_, ?_, ?_, ?_, f2.body, ?_, f2.complete, f2.closes, f2.closedBody, f2.interim, rfl, ?_, fun _ => ⟨o, rfl, hof⟩, ?_, ?_, ?_, ?_, ?_, ?_, ?_⟩⟩
              · intro me t v e; cases e
                rw [f2.header]; exact hsays.request _ _ _ rfl
              · intro v n p e; cases e
                rw [f2.header]
                obtain ⟨a, b, d⟩ := hsays.response _ _ _ rfl
                exact ⟨b, a, d⟩
              · rw [f2.header]; exact hsays.headers
              · rw [f2.header]
              · rw [f2.buffer]
                subst g1
                have : (u ++ 10 :: (used ++ rest)).take ((u ++ 10 :: (used ++ rest)).length - rest.length) = u ++ 10 :: used := by
                  rw [show u ++ 10 :: (used ++ rest) = (u ++ 10 :: used) ++ rest by simp]
                  rw [List.length_append, Nat.add_sub_cancel, List.take_left]
                simp only [this, atBody, took]
                simp
              · rw [f2.header]; exact hsays.side
              · intro hint
                apply f3
                unfold Seen.isInterim at hint
                cases o with
                | request me t v => simp at hint
                | response v n p =>
                  simp only [Bool.and_eq_true, beq_iff_eq] at hint
                  cases k with
                  | request => obtain ⟨_, _, _, e⟩ := hof; cases e
                  | response rm => simp [bodied, hint.2]
              · intro hz
                have heq : gzipBody m'.header = gzipBody h3 := by rw [f2.header]; rfl
                rw [heq]
                cases hg : gzipBody h3 with
                | false => rfl
                | true =>
                  exfalso
                  simp only [gzipBody, Bool.and_eq_true] at hg
                  obtain ⟨⟨q1, q2⟩, q3⟩ := hg
                  have hml : h3.mode = .length := by simpa using q2
                  have hfm := hsays.framed
                  cases fr with
                  | close => simp [Http.framed, hml] at hfm
                  | chunked => simp [Http.framed, hml] at hfm
                  | length n =>
                    have := hz o n rfl rfl hx (by rw [← hsays.hasBody hof]; exact q1)
                    simp only at this
                    rw [zipField_eq, ← hsays.encoding, q3] at this
                    cases this
              · rintro hz ⟨q1, q2, q3⟩
                have hml : h3.mode = .chunked := by rw [f2.header] at q3; exact q3
                have hcl : m'.close.complete = true := by unfold Msg.close; rw [if_pos ⟨q2, q1⟩]; rfl
                have hco : m'.complete = false := by simp [Msg.complete, q1]
                refine hz (by rw [← f2.complete]; exact hco) (by rw [← f2.closes]; exact hcl) ?_
                have hfm := hsays.framed
                cases fr with
                | close => simp [Http.framed, hml] at hfm
                | chunked => exact hx
                | length n => simp [Http.framed, hml] at hfm
              · intro q
                have := f2.head
                rw [Msg.headersComplete, q] at this
                cases this
              · intro me t v e; cases e
                rw [f2.header]; exact hsays.target _ _ _ rfl
              · intro _
                rw [f2.header]; exact hsays.flags
              · intro hcl hlf
                exact ⟨o, rfl, fun z => decoded_any hx hof hsays f2 hcl hlf z⟩

theorem Shown1.steady {s : Seen} {m m' : Msg} (h : Shown1 k ig s m m') (hs : s.Steady k ig) : k.Splittable (.ok s.left m') := by
  have h1 : Splittable (.ok s.left m') := ⟨fun q => hs.blank (h.start q), h.zip hs.zip, h.fell hs.chunks⟩
  cases k with
  | request => exact h1
  | response rm =>
    refine ⟨h1, ?_⟩
    rintro l m2 e ⟨q1, q2⟩
    cases e
    have hc : s.complete = true := by rw [← h.complete]; exact q1
    obtain ⟨o, ho, v, n, p, rfl⟩ := h.opening hc
    have := hs.once
    obtain ⟨_, hn, _⟩ := h.response v n p ho
    unfold Seen.isInterim at this
    rw [ho, hc, ← hn, q2] at this
    cases this

/-- the whole text -/
theorem meaning_any (c : Codec) (k : Kind) (ig : List PyStr) (text : Bytes) : (meaning c k ig text).Agrees k ig (k.feed c text (k.message ig)) ∧
    ∀ s, meaning c k ig text = .seen s → s.Steady k (if s.interim = [] then ig else []) → k.Splittable (k.feed c text (k.message ig)) := by
  have h1 := message_any c k ig _ (Fresh.message k ig) text
  have hbuf : (k.message ig).buffer = [] := by cases k <;> rfl
  have hint : (k.message ig).interim = [] := by cases k <;> rfl
  rw [meaning]
  have whole : ∀ s m', Shown1 k ig s (k.message ig) m' → s.ShownBy k ig m' := by
    intro s m' h
    exact ⟨h.head, h.request, h.response, h.fields, h.trailers, h.body, by rw [Msg.getMessage, h.buffer, hbuf]; rfl, h.complete, h.closes, h.closedBody,
      by rw [h.interim, hint, h.none_]; rfl, h.target, h.connection, h.decoded⟩
  cases hmsg : Grammar.message c k ig text with
  | refused e =>
    rw [hmsg] at h1
    obtain ⟨m', h2⟩ := h1
    refine ⟨⟨m', ?_⟩, by intro s e; cases e⟩
    cases k with
    | request => exact h2
    | response rm => show feedResponse c text _ = _; rw [feedResponse_eq, h2]
  | forever =>
    rw [hmsg] at h1
    simp only at h1
    refine ⟨?_, by intro s e; cases e⟩
    show k.feed c text (k.message ig) = .hang
    cases k with
    | request => exact h1
    | response rm => show feedResponse c text _ = _; rw [feedResponse_eq, h1]
  | seen s =>
    rw [hmsg] at h1
    obtain ⟨m', h2, h3⟩ := h1
    simp only
    cases k with
    | request =>
      have : s.isInterim = false := by
        cases hc : s.complete with
        | false => unfold Seen.isInterim; cases s.opening with
          | none => rfl
          | some o => cases o <;> simp [hc]
        | true =>
          obtain ⟨o, ho, me, t, v, rfl⟩ := h3.opening hc
          unfold Seen.isInterim; rw [ho]
      rw [this]
      simp only [Bool.false_eq_true, if_false]
      refine ⟨⟨m', h2, by rw [h3.none_]; exact whole s m' h3⟩, ?_⟩
      intro s' e hs; cases e
      rw [h3.none_] at hs
      show Splittable (feed c text _)
      rw [show feed c text (Kind.request.message ig) = _ from h2]
      exact h3.steady (k := .request) hs
    | response rm =>
      have heq : is100 m' = s.isInterim := by
        unfold is100
        rw [h3.complete]
        cases hc : s.complete with
        | false => unfold Seen.isInterim; cases s.opening with
          | none => rfl
          | some o => cases o <;> simp [hc]
        | true =>
          obtain ⟨o, ho, v, n, p, rfl⟩ := h3.opening hc
          obtain ⟨_, hn, _⟩ := h3.response v n p ho
          unfold Seen.isInterim; rw [ho, hn, hc]
      have hfe : Kind.feed c (.response rm) text (Kind.message (.response rm) ig) = _ := feedResponse_eq c text _
      rw [hfe, h2]
      simp only
      rw [heq]
      cases hi : s.isInterim with
      | false =>
        simp only [Bool.false_eq_true, if_false]
        refine ⟨⟨m', rfl, by rw [h3.none_]; exact whole s m' h3⟩, ?_⟩
        intro s' e hs; cases e
        rw [h3.none_] at hs
        exact h3.steady (k := .response rm) hs
      | true =>
        simp only [if_true]
        have hside : m'.header.side = .response rm := h3.side
        have hfresh : Fresh (.response rm) [] (restart m') := ⟨rfl, h3.flush hi, by simp only [restart, hside]; rfl, rfl, rfl⟩
        have h4 := message_any c (.response rm) [] _ hfresh s.left
        cases hm2 : Grammar.message c (.response rm) [] s.left with
        | refused e => rw [hm2] at h4; exact ⟨h4, by intro s e; cases e⟩
        | forever => rw [hm2] at h4; exact ⟨h4, by intro s e; cases e⟩
        | seen s2 =>
          rw [hm2] at h4
          obtain ⟨m2, h5, h6⟩ := h4
          refine ⟨⟨m2, h5, ⟨h6.head, h6.request, h6.response, h6.fields, h6.trailers, h6.body, ?_, h6.complete, h6.closes, h6.closedBody, ?_, h6.target, h6.connection, h6.decoded⟩⟩, ?_⟩
          · rw [Msg.getMessage, h6.buffer, show (restart m').buffer = m'.buffer from rfl, h3.buffer, hbuf]; rfl
          · rw [h6.interim, show (restart m').interim = m'.interim ++ [m'.header] from rfl, h3.interim, hint]
            simp [h3.fields]
          · intro s' e hs
            cases e
            simp only [List.cons_ne_nil, if_false] at hs
            rw [h5]
            exact h6.steady (k := .response rm) ⟨hs.blank, hs.zip, hs.chunks, hs.once⟩

end Warc.Http
