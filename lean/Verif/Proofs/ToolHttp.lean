import Verif.Spec.ToolHttp
import Verif.Proofs.ToolActs
import Verif.Proofs.HttpGrammarAll
import Verif.Props.Filter
import Verif.Props.Decode
set_option linter.all false
namespace Warc
open Rx Stream Spec Http.Grammar
namespace Tool

theorem close_header (m : Http.Msg) : m.close.header = m.header := by
  unfold Http.Msg.close
  split
  · rfl
  · split
    · split <;> rfl
    · rfl

/-! ### URLs without a path -/

theorem lower_plain {c d : Byte} (h : lowerByte c = d) (hd : d = 58 ∨ d = 47) : c = d := by
  have key : ∀ n : Fin 256, (lowerByte (UInt8.ofNat n.val) = 58 → UInt8.ofNat n.val = 58) ∧ (lowerByte (UInt8.ofNat n.val) = 47 → UInt8.ofNat n.val = 47) := by decide +kernel
  have := key ⟨c.toNat, c.toNat_lt⟩
  simp only [UInt8.ofNat_toNat] at this
  rcases hd with rfl | rfl
  · exact this.1 h
  · exact this.2 h

/-- the scheme -/
theorem scheme_found (scheme r : Bytes) (h : lower scheme = b! "http" ∨ lower scheme = b! "https") :
    (if lower ((scheme ++ b! "://" ++ r).take 7) = b! "http://" then some ((scheme ++ b! "://" ++ r).drop 7)
     else if lower ((scheme ++ b! "://" ++ r).take 8) = b! "https://" then some ((scheme ++ b! "://" ++ r).drop 8) else none) = some r := by
  rcases h with h | h
  · have hlen : scheme.length = 4 := by have := congrArg List.length h; simpa [lower] using this
    match scheme, hlen, h with
    | [a, b, c, d], _, h =>
      have hl : lower (([a, b, c, d] ++ b! "://" ++ r).take 7) = b! "http://" := by
        simp only [lower, List.map_cons, List.map_nil] at h
        simp only [lower, show ([a, b, c, d] ++ b! "://" ++ r).take 7 = [a, b, c, d] ++ b! "://" from rfl, List.map_append, List.map_cons, List.map_nil, h]
        rfl
      rw [if_pos hl]; rfl
  · have hlen : scheme.length = 5 := by have := congrArg List.length h; simpa [lower] using this
    match scheme, hlen, h with
    | [a, b, c, d, e], _, h =>
      have hn : ¬ lower (([a, b, c, d, e] ++ b! "://" ++ r).take 7) = b! "http://" := by
        simp only [lower, List.map_cons, List.map_nil] at h
        have he : lowerByte e = 115 := by
          have := congrArg (·[4]?) h
          simpa using this
        intro hh
        have := congrArg (·[4]?) hh
        simp only [lower, show ([a, b, c, d, e] ++ b! "://" ++ r).take 7 = [a, b, c, d, e, 58, 47] from rfl, List.map_cons, List.map_nil] at this
        simp [he] at this
      have hl : lower (([a, b, c, d, e] ++ b! "://" ++ r).take 8) = b! "https://" := by
        simp only [lower, List.map_cons, List.map_nil] at h
        simp only [lower, show ([a, b, c, d, e] ++ b! "://" ++ r).take 8 = [a, b, c, d, e] ++ b! "://" from rfl, List.map_append, List.map_cons, List.map_nil, h]
        rfl
      rw [if_neg hn, if_pos hl]; rfl

theorem host_split (host behind : Bytes) (hp : 58 ∉ host ∧ 47 ∉ host) (hb : behind = [] ∨ behind.head? = some 58 ∨ behind.head? = some 47) :
    (host ++ behind).takeWhile (fun c => decide (c ≠ 58) && decide (c ≠ 47)) = host ∧ (host ++ behind).dropWhile (fun c => decide (c ≠ 58) && decide (c ≠ 47)) = behind := by
  have hall : ∀ c ∈ host, (decide (c ≠ 58) && decide (c ≠ 47)) = true := by
    intro c hc
    have h1 : c ≠ 58 := fun e => hp.1 (e ▸ hc)
    have h2 : c ≠ 47 := fun e => hp.2 (e ▸ hc)
    simp [h1, h2]
  rw [List.takeWhile_append_of_pos hall, List.dropWhile_append_of_pos hall]
  rcases hb with rfl | h | h
  · simp
  · cases behind with
    | nil => simp at h
    | cons x xs => simp only [List.head?_cons, Option.some.injEq] at h; subst h; simp
  · cases behind with
    | nil => simp at h
    | cons x xs => simp only [List.head?_cons, Option.some.injEq] at h; subst h; simp

theorem bareUrl_absolute {t scheme host path : Bytes} {port : Option Bytes} (h : Http.AbsoluteUrl t scheme host port path) : bareUrl t = true ↔ path = [] := by
  obtain ⟨htext, hhttp, hne, hplain, hport, hnone⟩ := h
  have key : ∀ behind, t = scheme ++ b! "://" ++ (host ++ behind) → (behind = [] ∨ behind.head? = some 58 ∨ behind.head? = some 47) →
      bareUrl t = (behind == [] || (behind.head? == some 58 && decide (behind.drop 1 ≠ []) && (behind.drop 1).all fun d => decide (48 ≤ d) && decide (d ≤ 57))) := by
    intro behind ht hb
    obtain ⟨h1, h2⟩ := host_split host behind hplain hb
    unfold bareUrl
    rw [ht, scheme_found scheme _ hhttp]
    simp only [h1, h2]
    simp [hne]
  cases port with
  | some p =>
    obtain ⟨hp0, hpd, hpp⟩ := hport p rfl
    rw [key (58 :: p ++ path) (by rw [htext]; simp) (by simp)]
    simp only [List.cons_append, List.head?_cons, List.drop_succ_cons, List.drop_zero, List.all_append]
    have ha : (p.all fun d => decide (48 ≤ d) && decide (d ≤ 57)) = true := by
      rw [List.all_eq_true]; intro d hd; have := hpd d hd; simp [this]
    rw [ha]
    constructor
    · intro hh
      cases path with
      | nil => rfl
      | cons d ds =>
        have := hpp d ds rfl
        simp at hh
        exact absurd hh.1 this
    · rintro rfl
      simp [hp0]
  | none =>
    rcases hnone rfl with rfl | ⟨r, rfl⟩ | ⟨r, rfl, hr⟩
    · rw [key [] (by rw [htext]; simp) (by simp)]; simp
    · rw [key (47 :: r) (by rw [htext]; simp) (by simp)]
      simp
    · rw [key (58 :: r) (by rw [htext]; simp) (by simp)]
      cases r with
      | nil => simp
      | cons d ds =>
        have := hr d ds rfl
        simp
        intro h1 h2
        exact absurd ⟨h1, h2⟩ this

theorem bareUrl_some {t : Bytes} (h : bareUrl t = true) : ∃ scheme host port, Http.AbsoluteUrl t scheme host port [] := by
  have fin : ∀ scheme r, t = scheme ++ b! "://" ++ r → (lower scheme = b! "http" ∨ lower scheme = b! "https") → ∃ scheme host port, Http.AbsoluteUrl t scheme host port [] := by
    intro scheme r ht hs
    unfold bareUrl at h
    rw [ht, scheme_found scheme r hs] at h
    simp only [Bool.and_eq_true, Bool.or_eq_true, decide_eq_true_eq, beq_iff_eq] at h
    obtain ⟨hne, hb⟩ := h
    have hsplit := List.takeWhile_append_dropWhile (p := fun c : Byte => decide (c ≠ 58) && decide (c ≠ 47)) (l := r)
    have hall := List.all_takeWhile (p := fun c : Byte => decide (c ≠ 58) && decide (c ≠ 47)) (l := r)
    rw [List.all_eq_true] at hall
    generalize hA : r.takeWhile (fun c => decide (c ≠ 58) && decide (c ≠ 47)) = A at *
    generalize hB : r.dropWhile (fun c => decide (c ≠ 58) && decide (c ≠ 47)) = B at *
    have hplain : 58 ∉ A ∧ 47 ∉ A := ⟨fun hh => by simpa using hall _ hh, fun hh => by simpa using hall _ hh⟩
    rcases hb with rfl | ⟨⟨h1, h2⟩, h3⟩
    · exact ⟨scheme, A, none, ⟨by rw [ht, ← hsplit]; simp, hs, by simpa using hne, hplain, fun p hp => by simp at hp, fun _ => Or.inl rfl⟩⟩
    · cases B with
      | nil => simp at h1
      | cons x xs =>
        simp only [List.head?_cons, Option.some.injEq] at h1
        subst h1
        simp only [List.drop_succ_cons, List.drop_zero] at h2 h3
        refine ⟨scheme, A, some xs, ⟨by rw [ht, ← hsplit]; simp, hs, by simpa using hne, hplain, fun p hp => ?_, fun hh => by simp at hh⟩⟩
        simp only [Option.some.injEq] at hp
        subst hp
        refine ⟨h2, fun d hd => ?_, fun d ds hh => by simp at hh⟩
        have := List.all_eq_true.1 h3 d hd
        simpa using this
  have hh := h
  unfold bareUrl at hh
  by_cases h7 : lower (t.take 7) = b! "http://"
  · have hlen : 7 ≤ t.length := by have := congrArg List.length h7; simp [lower] at this; omega
    match t, hlen with
    | a :: b :: c :: d :: x :: y :: z :: r, _ =>
      simp only [lower, List.take_succ_cons, List.take_zero, List.map_cons, List.map_nil] at h7
      have h7 : [lowerByte a, lowerByte b, lowerByte c, lowerByte d, lowerByte x, lowerByte y, lowerByte z] = [104, 116, 116, 112, 58, 47, 47] := h7
      simp only [List.cons.injEq, and_true] at h7
      obtain ⟨e1, e2, e3, e4, e5, e6, e7⟩ := h7
      refine fin [a, b, c, d] r ?_ (Or.inl ?_)
      · rw [lower_plain e5 (Or.inl rfl), lower_plain e6 (Or.inr rfl), lower_plain e7 (Or.inr rfl)]; rfl
      · simp only [lower, List.map_cons, List.map_nil, e1, e2, e3, e4]
  · rw [if_neg h7] at hh
    by_cases h8 : lower (t.take 8) = b! "https://"
    · have hlen : 8 ≤ t.length := by have := congrArg List.length h8; simp [lower] at this; omega
      match t, hlen with
      | a :: b :: c :: d :: e :: x :: y :: z :: r, _ =>
        simp only [lower, List.take_succ_cons, List.take_zero, List.map_cons, List.map_nil] at h8
        have h8 : [lowerByte a, lowerByte b, lowerByte c, lowerByte d, lowerByte e, lowerByte x, lowerByte y, lowerByte z] = [104, 116, 116, 112, 115, 58, 47, 47] := h8
        simp only [List.cons.injEq, and_true] at h8
        obtain ⟨e1, e2, e3, e4, e0, e5, e6, e7⟩ := h8
        refine fin [a, b, c, d, e] r ?_ (Or.inr ?_)
        · rw [lower_plain e5 (Or.inl rfl), lower_plain e6 (Or.inr rfl), lower_plain e7 (Or.inr rfl)]; rfl
        · simp only [lower, List.map_cons, List.map_nil, e1, e2, e3, e4, e0]
    · rw [if_neg h8] at hh; simp at hh

/-- the exception with which decoding ends -/
theorem decoded_exc {k : Http.Kind} {ig : List PyStr} {s : Http.Grammar.Seen} {m : Http.Msg} (h : s.ShownBy k ig m) (hc : s.closes = true) (hl : s.left = []) (z : Http.Zlib) :
    (∃ e, m.close.getDecoded z = .error e ∧ e = Decoded.exc s.opening) ∨ (∃ b, m.close.getDecoded z = .ok b ∧ Decoded.exc s.opening = .attributeError) := by
  obtain ⟨o, ho, hd⟩ := h.decoded hc hl
  rw [hd z, ho]
  cases o with
  | response v n p => exact Or.inr ⟨_, rfl, rfl⟩
  | request me t v =>
    obtain ⟨line, h1, h2⟩ := h.target me t v ho
    have hu : m.header.targetUri = line.uri := h2.uri
    rw [hu]
    cases h1 with
    | connect host port hm => exact Or.inr ⟨_, rfl, by simp [Decoded.exc, hm]⟩
    | absolute scheme host port path hm ha =>
      by_cases hp : path = []
      · refine Or.inl ⟨.typeError, by simp only [hp, if_true]; rfl, ?_⟩
        simp [Decoded.exc, hm, (bareUrl_absolute ha).2 hp]
      · refine Or.inr ⟨me ++ [32] ++ path ++ [32] ++ v ++ CRLF ++ s.decoded z k ig, by simp only [hp, if_false]; rfl, ?_⟩
        simp only [Decoded.exc]
        rw [if_neg (fun hh => hp ((bareUrl_absolute ha).1 hh.2))]
    | other hm hn =>
      refine Or.inr ⟨_, rfl, ?_⟩
      simp only [Decoded.exc]
      rw [if_neg]
      rintro ⟨-, hh⟩
      obtain ⟨scheme, host, port, hh⟩ := bareUrl_some hh
      exact hn _ _ _ _ hh

/-! ### the option of wget -/

theorem meaning_wget (c : Codec) (k : Http.Kind) (o : Warc2Warc.Opts) (text : Bytes) : Http.Grammar.meaning c k (Warc2Warc.ignoreHeaders o) text = Http.Grammar.meaning c k [] text := by
  have hz : zipField (Warc2Warc.ignoreHeaders o) = zipField [] := by
    funext hs; simp only [zipField, encodingOf_wget]
  have hb : ∀ op hs t, bodyIn c k (Warc2Warc.ignoreHeaders o) op hs t = bodyIn c k [] op hs t := by
    intro op hs t
    simp only [bodyIn, framing_wget, hz]
  have hm : ∀ t, message c k (Warc2Warc.ignoreHeaders o) t = message c k [] t := by
    intro t; simp only [message, hb]
  simp only [Http.Grammar.meaning, hm]

/-! ### the tools -/

theorem performs_http (c : Codec) (search : Bytes → Bool) (invert : Bool) :
    Performs (httpFiltering c search invert) (fun _ r => withRecord r (WarcFilter.filterRecord c search { httpContentType := true, invert := invert })) := by
  intro s v hs es o out hb
  have htype : ({ parsed v hs with errors := es } : Rec).type = firstValue (b! "WARC-Type") hs := by
    simp [Rec.type, parsed, Rec.getHeader, lookupHeader_eq, WH.TYPE]
  have hct := contentType_full s { parsed v hs with errors := es } out hs o v es hb (bare_parsed v hs es) rfl
  have hf := content_full s { parsed v hs with errors := es } out hs o v es hb (bare_parsed v hs es) rfl
  have hwi : ∀ (p : Bytes) (b : Bool), WarcFilter.writeIf b ⟨used s hs p.length, fetched { parsed v hs with errors := es } p, out⟩ =
      .ok () ⟨used s hs p.length, fetched { parsed v hs with errors := es } p, out ++ if b then (R.rewritten ⟨v, hs, p⟩).bytes else []⟩ := by
    intro p b
    cases b with
    | true => rw [WarcFilter.writeIf, if_pos rfl, writeTo_fetched]; rfl
    | false => simp [WarcFilter.writeIf]
  unfold httpFiltering
  simp only at hct hf hwi ⊢
  generalize hrd : ({ parsed v hs with errors := es } : Rec) = r at htype hct hf hwi ⊢
  by_cases hresp : firstValue (b! "WARC-Type") hs = some (b! "response")
  · rw [if_pos hresp]
    have htr : r.type = some WT.RESPONSE := by rw [htype, hresp]; rfl
    cases hc : firstValue (b! "Content-Type") hs with
    | none =>
      rw [hc] at hct
      simp only at hct ⊢
      unfold Head.reading
      cases hp : (⟨o, v, hs, es, s.fh.rest⟩ : Head).payload with
      | none =>
        rw [hp] at hct
        simp only at hct ⊢
        refine did_stops s hs out [] _ _ s ?_
        simp [withRecord, WarcFilter.filterRecord, M.bind_apply, M.get_apply, htr, hct]
      | some p =>
        rw [hp] at hct
        simp only at hct ⊢
        refine did_stops s hs out [] _ _ (used s hs p.length) ?_
        simp [withRecord, WarcFilter.filterRecord, M.bind_apply, M.get_apply, htr, hct]
    | some t =>
      rw [hc] at hct hf
      simp only at hct ⊢
      have hsw : startsWith t (b! "application/http") = decide (b! "application/http" <+: t) := by
        rw [Bool.eq_iff_iff]; simp [startsWith]
      by_cases hpre : b! "application/http" <+: t
      · rw [if_pos hpre]
        have hstep : (withRecord r (WarcFilter.filterRecord c search { httpContentType := true, invert := invert }) ⟨s, out⟩) =
            withRecord r (do let mime ← WarcFilter.parseHttpResponse c; WarcFilter.writeIf (WarcFilter.hit search invert mime)) ⟨s, out⟩ := by
          simp [withRecord, WarcFilter.filterRecord, M.bind_apply, M.get_apply, htr, hct, hsw, hpre]
        rw [hstep]
        unfold Head.reading
        cases hp : (⟨o, v, hs, es, s.fh.rest⟩ : Head).payload with
        | none =>
          rw [hp] at hf
          simp only at hf ⊢
          refine did_stops s hs out [] _ _ s ?_
          simp [withRecord, WarcFilter.parseHttpResponse, WarcFilter.contentBytes, M.bind_apply, hf]
        | some p =>
          rw [hp] at hf
          simp only at hf ⊢
          have hag := (Http.meaning_any c lonely [] p).1
          have hfeed : Http.Kind.feed c lonely p (lonely.message []) = Http.feedResponse c p (WarcFilter.newResponse []) := rfl
          rw [hfeed] at hag
          cases hme : Http.Grammar.meaning c lonely [] p with
          | refused e =>
            rw [hme] at hag
            obtain ⟨m, hag⟩ := hag
            refine did_stops s hs out [] _ _ (used s hs p.length) ?_
            simp [withRecord, WarcFilter.parseHttpResponse, WarcFilter.contentBytes, M.bind_apply, hf, WarcFilter.local', hag]
          | forever =>
            rw [hme] at hag
            have hag : Http.feedResponse c p (WarcFilter.newResponse []) = .hang := hag
            show _ = _
            simp [withRecord, WarcFilter.parseHttpResponse, WarcFilter.contentBytes, M.bind_apply, hf, WarcFilter.local', hag]
          | seen sn =>
            rw [hme] at hag
            obtain ⟨m, hag, hsh⟩ := hag
            have hcl := hsh.closes
            have hfl : m.close.header.headers = sn.fields := by rw [close_header]; exact hsh.fields
            simp only
            by_cases hok : sn.left = [] ∧ sn.closes = true
            · rw [if_pos hok]
              refine did_read s hs out _ o v es p _ hp ?_
              have hmime : WarcFilter.parseHttpResponse c ⟨s, r, out⟩ = .ok (mediaIn sn.fields) ⟨used s hs p.length, fetched r p, out⟩ := by
                simp only [WarcFilter.parseHttpResponse, WarcFilter.contentBytes, M.bind_apply, hf, M.pure_apply, WarcFilter.local', hag, hcl, hok.1, hok.2, hfl]
                simp only [ne_eq, not_true_eq_false, Bool.true_eq_false, or_self, if_false]
                have hct := content_type_fields sn.fields
                cases hfl : (sn.fields.filter fun h => lower h.1 == b! "content-type") with
                | nil =>
                  rw [hfl] at hct
                  simp only [List.head?_nil, Option.map_none] at hct
                  simp [mediaIn, ← hct]
                | cons h t =>
                  rw [hfl] at hct
                  simp only [List.head?_cons, Option.map_some] at hct
                  simp only [mediaIn, ← hct, Option.map_some, M.pure_apply, splitAll, splitMax_head 59 _ h.2 (Nat.le_refl _)]
              simp only [withRecord, M.bind_apply, hmime, hit_matched, hwi]
              rfl
            · rw [if_neg hok]
              have hok' : sn.left ≠ [] ∨ m.close.complete = false := by
                rw [hcl]
                by_cases h1 : sn.left = []
                · right
                  cases hh : sn.closes with
                  | false => rfl
                  | true => exact absurd ⟨h1, hh⟩ hok
                · exact Or.inl h1
              refine did_stops s hs out [] _ _ (used s hs p.length) ?_
              simp only [withRecord, WarcFilter.parseHttpResponse, WarcFilter.contentBytes, M.bind_apply, hf, WarcFilter.local', hag, M.pure_apply, if_pos hok', M.throw_apply]
              simp
      · rw [if_neg hpre]
        refine did_left s hs hb out [] _ ?_
        simp [withRecord, WarcFilter.filterRecord, M.bind_apply, M.get_apply, htr, hct, hsw, hpre]
  · rw [if_neg hresp]
    have htr : ¬ r.type = some WT.RESPONSE := by rw [htype]; exact hresp
    refine did_left s hs hb out [] _ ?_
    simp [withRecord, WarcFilter.filterRecord, M.bind_apply, M.get_apply, htr]

theorem performs_decode (c : Codec) (z : Http.Zlib) (o' : Warc2Warc.Opts) (hd : o'.decode = true) :
    Performs (decoding c o'.gzip) (fun _ r => withRecord r (Warc2Warc.process c z o')) := by
  intro s v hs es o out hb
  have htype : ({ parsed v hs with errors := es } : Rec).type = firstValue (b! "WARC-Type") hs := by
    simp [Rec.type, parsed, Rec.getHeader, lookupHeader_eq, WH.TYPE]
  unfold decoding
  simp only
  by_cases hresp : firstValue (b! "WARC-Type") hs = some (b! "response")
  · rw [if_pos hresp]
    have hf := content_full s { parsed v hs with errors := es } out hs o v es hb (bare_parsed v hs es) rfl
    have hwr : ∀ p, (if o'.gzip then World.writeToGz c.enc CRLF else World.writeTo CRLF) ⟨used s hs p.length, fetched { parsed v hs with errors := es } p, out⟩ =
        .ok () ⟨used s hs p.length, fetched { parsed v hs with errors := es } p,
          out ++ if o'.gzip then c.enc (R.rewritten ⟨v, hs, p⟩).bytes else (R.rewritten ⟨v, hs, p⟩).bytes⟩ := by
      intro p
      cases o'.gzip with
      | true => simp only [if_true, World.writeToGz, writeTo_fetched]; simp
      | false => simp only [Bool.false_eq_true, if_false, writeTo_fetched]
    generalize hrd : ({ parsed v hs with errors := es } : Rec) = r at htype hf hwr ⊢
    have htr : r.type = some WT.RESPONSE := by rw [htype, hresp]; rfl
    unfold Head.reading
    cases hp : (⟨o, v, hs, es, s.fh.rest⟩ : Head).payload with
    | none =>
      rw [hp] at hf
      simp only at hf ⊢
      refine did_stops s hs out [] _ _ s ?_
      simp [withRecord, Warc2Warc.process, hd, Warc2Warc.decodeRecord, M.bind_apply, M.get_apply, htr, hf]
    | some p =>
      rw [hp] at hf
      simp only at hf ⊢
      -- the record is written again
      have again : Warc2Warc.decodeRecord c z o' ⟨s, r, out⟩ = .ok () ⟨used s hs p.length, fetched r p, out⟩ →
          Did s hs out (withRecord r (Warc2Warc.process c z o') ⟨s, out⟩)
            (.goes (if o'.gzip then c.enc (R.rewritten ⟨v, hs, p⟩).bytes else (R.rewritten ⟨v, hs, p⟩).bytes) true) := by
        intro h
        refine did_read s hs out _ o v es p _ hp ?_
        simp only [withRecord, Warc2Warc.process, hd, if_true, M.bind_apply, h, hwr]
      -- a message is looked for
      have look : ∀ k : Http.Kind, Warc2Warc.decodeRecord c z o' ⟨s, r, out⟩ =
            Warc2Warc.decodeWith z (k.message (Warc2Warc.ignoreHeaders o')) (k.feed c) (some p) ⟨used s hs p.length, fetched r p, out⟩ →
          Did s hs out (withRecord r (Warc2Warc.process c z o') ⟨s, out⟩)
            (match Http.Grammar.meaning c k [] p with
              | .refused e => .stops [] e
              | .forever => .never
              | .seen sn => if sn.left = [] ∧ sn.closes = true then .stops [] (Decoded.exc sn.opening)
                  else .goes (if o'.gzip then c.enc (R.rewritten ⟨v, hs, p⟩).bytes else (R.rewritten ⟨v, hs, p⟩).bytes) true) := by
        intro k h
        have hag := (Http.meaning_any c k (Warc2Warc.ignoreHeaders o') p).1
        rw [meaning_wget] at hag
        cases hme : Http.Grammar.meaning c k [] p with
        | refused e =>
          rw [hme] at hag
          obtain ⟨m, hag⟩ := hag
          refine did_stops s hs out [] _ _ (used s hs p.length) ?_
          simp [withRecord, Warc2Warc.process, hd, M.bind_apply, h, Warc2Warc.decodeWith, WarcFilter.local', hag]
        | forever =>
          rw [hme] at hag
          have hag : k.feed c p (k.message (Warc2Warc.ignoreHeaders o')) = .hang := hag
          show _ = _
          simp [withRecord, Warc2Warc.process, hd, M.bind_apply, h, Warc2Warc.decodeWith, WarcFilter.local', hag]
        | seen sn =>
          rw [hme] at hag
          obtain ⟨m, hag, hsh⟩ := hag
          have hcl := hsh.closes
          simp only
          by_cases hok : sn.left = [] ∧ sn.closes = true
          · rw [if_pos hok]
            refine did_stops s hs out [] _ _ (used s hs p.length) ?_
            rcases decoded_exc hsh hok.2 hok.1 z with ⟨e, h1, h2⟩ | ⟨b, h1, h2⟩
            · rw [← h2]
              simp [withRecord, Warc2Warc.process, hd, M.bind_apply, h, Warc2Warc.decodeWith, WarcFilter.local', hag, hcl, hok.1, hok.2, h1]
            · rw [h2]
              simp [withRecord, Warc2Warc.process, hd, M.bind_apply, h, Warc2Warc.decodeWith, WarcFilter.local', hag, hcl, hok.1, hok.2, h1]
          · rw [if_neg hok]
            refine again ?_
            rw [h]
            simp only [Warc2Warc.decodeWith, M.bind_apply, WarcFilter.local', hag, hcl, if_neg hok]
            rfl
      unfold decodedKind
      have hdec : Warc2Warc.decodeRecord c z o' ⟨s, r, out⟩ =
          (if firstValue (b! "Content-Type") hs = some Warc2Warc.responseType then
            Warc2Warc.decodeWith z (WarcFilter.newResponse (Warc2Warc.ignoreHeaders o')) (Http.feedResponse c) (some p)
          else if firstValue (b! "Content-Type") hs = some Warc2Warc.requestType then
            Warc2Warc.decodeWith z (Http.Msg.request (Warc2Warc.ignoreHeaders o')) (Http.feed c) (some p)
          else pure ()) ⟨used s hs p.length, fetched r p, out⟩ := by
        simp only [Warc2Warc.decodeRecord, M.bind_apply, M.get_apply, htr, if_true, hf]
      by_cases h1 : firstValue (b! "Content-Type") hs = some (b! "application/http;msgtype=response")
      · rw [if_pos h1]
        rw [if_pos (show firstValue (b! "Content-Type") hs = some Warc2Warc.responseType from h1)] at hdec
        exact look lonely hdec
      · rw [if_neg h1]
        rw [if_neg (show ¬ firstValue (b! "Content-Type") hs = some Warc2Warc.responseType from h1)] at hdec
        by_cases h2 : firstValue (b! "Content-Type") hs = some (b! "application/http;msgtype=request")
        · rw [if_pos h2]
          rw [if_pos (show firstValue (b! "Content-Type") hs = some Warc2Warc.requestType from h2)] at hdec
          exact look .request hdec
        · rw [if_neg h2]
          rw [if_neg (show ¬ firstValue (b! "Content-Type") hs = some Warc2Warc.requestType from h2)] at hdec
          exact again hdec
  · rw [if_neg hresp]
    have hdec : Warc2Warc.decodeRecord c z o' ⟨s, { parsed v hs with errors := es }, out⟩ = .ok () ⟨s, { parsed v hs with errors := es }, out⟩ := by
      simp only [Warc2Warc.decodeRecord, M.bind_apply, M.get_apply]
      rw [if_neg (by rw [htype]; exact hresp)]
      rfl
    have hproc : withRecord { parsed v hs with errors := es } (Warc2Warc.process c z o') ⟨s, out⟩ =
        withRecord { parsed v hs with errors := es } (Warc2Warc.process c z { gzip := o'.gzip }) ⟨s, out⟩ := by
      simp only [withRecord, Warc2Warc.process, hd, if_true, M.bind_apply, hdec, Bool.false_eq_true, if_false, M.pure_apply]
    rw [hproc]
    cases hg : o'.gzip with
    | true => rw [if_pos rfl]; exact performs_compress c z { gzip := true } rfl rfl s v hs es o out hb
    | false => rw [if_neg (by simp)]; exact performs_copy copying rfl c z s v hs es o out hb

end Tool
end Warc
