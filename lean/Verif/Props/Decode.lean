import Verif.Props.Filter
import Verif.Props.HttpDecoded
/-
  C47: warc2warc -D.
-/
set_option linter.all false
namespace Warc
open Rx Stream Spec

theorem ignored_wget (o : Warc2Warc.Opts) (name : Bytes) :
    Http.ignored (Warc2Warc.ignoreHeaders o) name = Http.ignored [] name := by
  unfold Warc2Warc.ignoreHeaders
  cases o.wgetFix with
  | false => rfl
  | true =>
    simp only [if_true, Http.ignored, List.map_cons, List.map_nil, PyStr.lower]
    rfl

theorem framing_wget (o : Warc2Warc.Opts) (hs : List Header) :
    Http.framing (Warc2Warc.ignoreHeaders o) hs = Http.framing [] hs := by
  have h1 : Http.saysChunked (Warc2Warc.ignoreHeaders o) = Http.saysChunked [] := by
    funext f; simp only [Http.saysChunked, ignored_wget]
  have h2 : Http.saysLength (Warc2Warc.ignoreHeaders o) = Http.saysLength [] := by
    funext f; simp only [Http.saysLength, ignored_wget]
  simp only [Http.framing, h1, h2]

theorem encodingOf_wget (o : Warc2Warc.Opts) (hs : List Header) :
    Http.encodingOf (Warc2Warc.ignoreHeaders o) hs = Http.encodingOf [] hs := by
  simp only [Http.encodingOf, ignored_wget]

/-- **C47 (defect)** `--wget-chunk-fix` has no effect on how messages are read: the name of the header to be
ignored is text, the header names of messages are bytes, and these are never equal. -/
theorem C47_wget_no_effect (o : Warc2Warc.Opts) (k : Http.Kind) (x : Http.Message) :
    x.Ok k (Warc2Warc.ignoreHeaders o) ↔ x.Ok k [] := by
  constructor
  · intro h
    exact ⟨h.fits, h.start, h.fields, by have := h.framed; rwa [framing_wget] at this, by
      have := h.gzip; simp only [Http.gzipField, encodingOf_wget] at this; exact this, h.final⟩
  · intro h
    exact ⟨h.fits, h.start, h.fields, by rw [framing_wget]; exact h.framed, by
      simp only [Http.gzipField, encodingOf_wget]; exact h.gzip, h.final⟩

/-- decoding a complete response always works -/
theorem decoded_ok {ig : List PyStr} {x : Http.Message} {m m' : Http.Msg} {rm : PyStr}
    (hd : Http.Done (.response rm) ig x m m') (hx : x.Ok (.response rm) ig) (z : Http.Zlib) :
    ∃ t, m'.getDecoded z = .ok t := by
  have hplain : x.start.plain := by
    cases hs : x.start with
    | request a b c => have := hx.fits; rw [hs] at this; exact absurd this (by simp [Http.Start.fits])
    | response v c p => trivial
  by_cases hdata : x.payload.data = []
  · exact ⟨_, hd.decoded hx hplain (fun e _ => Or.inr hdata) z⟩
  · cases he : Http.encodingOf ig x.fields with
    | none => exact ⟨_, hd.decoded hx hplain (fun e h => by rw [he] at h; cases h) z⟩
    | some e =>
      by_cases he0 : e = []
      · exact ⟨_, hd.decoded hx hplain (fun e' h => by rw [he] at h; cases h; exact Or.inl he0) z⟩
      · refine ⟨_, hd.decodedEnc hx hplain he he0 hdata ?_ z⟩
        intro hn
        rw [hn] at hdata
        exact hdata rfl

/-- a response record with exactly the content type that `-D` looks for -/
def Decodable (r : R) : Prop :=
  firstValue (b! "WARC-Type") r.headers = some (b! "response") ∧
  firstValue (b! "Content-Type") r.headers = some (b! "application/http;msgtype=response")

theorem decodeRecord_step (c : Codec) (z : Http.Zlib) (o : Warc2Warc.Opts) (r : R) (hd : Decodable r) (s : Stream) (out : Bytes)
    (he : s.eoc = some (r.body.length : Int)) (hr : ∃ more, s.fh.rest = r.body ++ more) :
    Warc2Warc.decodeRecord c z o ⟨s, parsed r.version r.headers, out⟩ =
      Warc2Warc.decodeWith z (WarcFilter.newResponse (Warc2Warc.ignoreHeaders o)) (Http.feedResponse c) (some r.body)
        ⟨consumed s r.body.length r.body.length, withContent r.version r.headers r.body, out⟩ := by
  simp only [Warc2Warc.decodeRecord, M.bind_apply, M.get_apply]
  rw [if_pos (by rw [parsed_type, hd.1]; rfl)]
  simp only [M.bind_apply, Tool.content_read s r out he hr]
  rw [if_pos (by rw [hd.2]; rfl)]

/-- a complete response in a record with that content type raises -/
theorem raises_decode (c : Codec) (z : Http.Zlib) (o : Warc2Warc.Opts) (ho : o.decode = true) (r : R) (hd : Decodable r)
    (x : Http.Message) (hx : x.Ok unknownRequest []) (hb : r.body = x.text) :
    Tool.Raises (Warc2Warc.process c z o) r .attributeError [] := by
  intro s out he hr
  have hx' := (C47_wget_no_effect o unknownRequest x).2 hx
  obtain ⟨m', h1, h2, _⟩ := Http.kind_parse c unknownRequest (Warc2Warc.ignoreHeaders o) x hx' [] (fun _ => rfl)
  rw [List.append_nil] at h1
  have hf : Http.feedResponse c r.body (WarcFilter.newResponse (Warc2Warc.ignoreHeaders o)) = .ok [] m' := by rw [hb]; exact h1
  obtain ⟨t, ht⟩ := decoded_ok h2 hx' z
  have hclose := h2.close
  have ht' : m'.close.getDecoded z = .ok t := by rw [hclose]; exact ht
  have hcomp : m'.close.complete = true := by rw [hclose]; rfl
  simp only [Warc2Warc.process, M.bind_apply, ho, if_true, decodeRecord_step c z o r hd s out he hr, Warc2Warc.decodeWith,
    WarcFilter.local', hf, hcomp, and_self, ht']
  exact ⟨_, rfl, by simp⟩

/-- records that `-D` leaves alone: not a response, or with another content type, or with a broken message -/
def LeftAlone (r : R) : Prop :=
  firstValue (b! "WARC-Type") r.headers ≠ some (b! "response") ∨
  (∀ t, firstValue (b! "Content-Type") r.headers = some t → t ≠ b! "application/http;msgtype=response" ∧ t ≠ b! "application/http;msgtype=request") ∨
  (Decodable r ∧ BrokenHttp r.body)

/-- how such a record is written: anew if its content was read -/
def decodeCopy (r : R) : R :=
  if firstValue (b! "WARC-Type") r.headers = some (b! "response") then r.rewritten else r

/-- the bytes, compressed with `-Z` -/
def stored (c : Codec) (gzip : Bool) (r : R) : Bytes := if gzip then c.enc r.bytes else r.bytes

theorem handles_left (c : Codec) (z : Http.Zlib) (o : Warc2Warc.Opts) (ho : o.decode = true) (r : R) (hl : LeftAlone r) :
    Tool.Handles (Warc2Warc.process c z o) r (stored c o.gzip (decodeCopy r)) := by
  intro s out he hr
  by_cases h1 : firstValue (b! "WARC-Type") r.headers = some (b! "response")
  · have hdec : Warc2Warc.decodeRecord c z o ⟨s, parsed r.version r.headers, out⟩ =
        .ok () ⟨consumed s r.body.length r.body.length, withContent r.version r.headers r.body, out⟩ := by
      rcases hl with hl | hl | ⟨hd, x, hx, hends, hb⟩
      · exact absurd h1 hl
      · simp only [Warc2Warc.decodeRecord, M.bind_apply, M.get_apply]
        rw [if_pos (by rw [parsed_type, h1]; rfl)]
        simp only [M.bind_apply, Tool.content_read s r out he hr]
        have n1 : ¬ firstValue (b! "Content-Type") r.headers = some Warc2Warc.responseType := fun e => (hl _ e).1 rfl
        have n2 : ¬ firstValue (b! "Content-Type") r.headers = some Warc2Warc.requestType := fun e => (hl _ e).2 rfl
        rw [if_neg n1, if_neg n2]
        rfl
      · rw [decodeRecord_step c z o r hd s out he hr]
        have hx' := (C47_wget_no_effect o unknownRequest x).2 hx
        rcases hb with ⟨after, hne, hb⟩ | ⟨n, hn, hb⟩
        · obtain ⟨m', h1, h2, _⟩ := Http.kind_parse c unknownRequest (Warc2Warc.ignoreHeaders o) x hx' after (by simp [hends])
          have hf : Http.feedResponse c r.body (WarcFilter.newResponse (Warc2Warc.ignoreHeaders o)) = .ok after m' := by rw [hb]; exact h1
          simp only [Warc2Warc.decodeWith, M.bind_apply, WarcFilter.local', hf]
          rw [if_neg (by rintro ⟨e, _⟩; exact hne e)]
          rfl
        · obtain ⟨m', h1, _, h3, _⟩ := C38_truncated c unknownRequest (Warc2Warc.ignoreHeaders o) x hx' hends n hn [x.text.take n] (by simp)
          have hf : Http.feedResponse c r.body (WarcFilter.newResponse (Warc2Warc.ignoreHeaders o)) = .ok [] m' := by
            rw [hb]
            have h1' : Http.feedAll (Http.feedResponse c) [x.text.take n] (WarcFilter.newResponse (Warc2Warc.ignoreHeaders o)) = .ok [] m' := h1
            simp only [Http.feedAll, M.bind_apply] at h1'
            cases hq : Http.feedResponse c (x.text.take n) (WarcFilter.newResponse (Warc2Warc.ignoreHeaders o)) with
            | hang => simp [hq] at h1'
            | raise e m => simp [hq] at h1'
            | ok l m => simpa [hq] using h1'
          simp only [Warc2Warc.decodeWith, M.bind_apply, WarcFilter.local', hf]
          rw [if_neg (by rintro ⟨_, e⟩; rw [h3] at e; cases e)]
          rfl
    refine ⟨withContent r.version r.headers r.body, r.body.length, Nat.le_refl _, ?_⟩
    simp only [Warc2Warc.process, M.bind_apply, ho, if_true, hdec, decodeCopy, h1, stored]
    cases o.gzip with
    | true => simp only [if_true]; exact Tool.writeToGz_withContent c _ r out
    | false => simp only [Bool.false_eq_true, if_false]; exact Tool.writeTo_withContent _ r out
  · have hdec : Warc2Warc.decodeRecord c z o ⟨s, parsed r.version r.headers, out⟩ = .ok () ⟨s, parsed r.version r.headers, out⟩ := by
      simp only [Warc2Warc.decodeRecord, M.bind_apply, M.get_apply]
      rw [if_neg (by rw [parsed_type]; exact h1)]
      rfl
    simp only [Warc2Warc.process, M.bind_apply, ho, if_true, hdec, decodeCopy, if_neg h1, stored]
    cases o.gzip with
    | true => simp only [if_true]; exact Tool.handles_writeToGz c r s out he hr
    | false => simp only [Bool.false_eq_true, if_false]; exact Tool.handles_writeTo r s out he hr

/-- **C47** `warc2warc -D` copies the records that it leaves alone, -/
theorem C47_others_copied (c : Codec) (hc : Codec.Laws c) (z : Http.Zlib) (fs : FS) (files : List StoredFile) (h : AllStored c fs files)
    (o : Warc2Warc.Opts) (ho : o.decode = true) (hl : ∀ r ∈ allRecords files, LeftAlone r) :
    Warc2Warc.main c z fs o (files.map StoredFile.name) [] =
      .ok () ((allRecords files).flatMap fun r => stored c o.gzip (decodeCopy r)) := by
  have := forFiles_each c hc fs files h (Warc2Warc.process c z o) (fun r => stored c o.gzip (decodeCopy r))
    (fun r hr => handles_left c z o ho r (hl r hr)) []
  simpa [Warc2Warc.main] using this

/-- **C47 (defect)** but the first record that it should decode stops it: decoding a complete HTTP response
ends in an AttributeError, so nothing from that record on is written. -/
theorem C47_never_decodes (c : Codec) (hc : Codec.Laws c) (z : Http.Zlib) (fs : FS) (files : List StoredFile) (h : AllStored c fs files)
    (o : Warc2Warc.Opts) (ho : o.decode = true) (g : StoredFile) (rest : List Bytes) (rs : List RT) (r : RT) (rs' : List RT)
    (hg : Stored c fs g.name g.compressed g.records) (hrs : g.records = rs ++ r :: rs')
    (hl : ∀ r ∈ allRecords files ++ rs.map Prod.fst, LeftAlone r)
    (hd : Decodable r.1) (x : Http.Message) (hx : x.Ok unknownRequest []) (hb : r.1.body = x.text) :
    Warc2Warc.main c z fs o (files.map StoredFile.name ++ g.name :: rest) [] =
      .raise .attributeError ((allRecords files ++ rs.map Prod.fst).flatMap fun r => stored c o.gzip (decodeCopy r)) := by
  have := forFiles_each_raise c hc fs files g rest rs r rs' h hg hrs (Warc2Warc.process c z o)
    (fun r => stored c o.gzip (decodeCopy r)) (fun r hm => handles_left c z o ho r (hl r hm))
    .attributeError [] (raises_decode c z o ho r.1 hd x hx hb) []
  simpa [Warc2Warc.main] using this

/-- a record that should be decoded -/
def demoDecode : R :=
  ⟨b! "WARC/1.0", [(b! "WARC-Type", b! "response"), (b! "Content-Type", b! "application/http;msgtype=response"),
    (b! "Content-Length", decimal demoChunked.text.length)], demoChunked.text⟩

/-- the hypotheses can be met: the demo records are left alone, this one is not -/
example : LeftAlone demo1.R ∧ LeftAlone demo2.R ∧ Decodable demoDecode ∧ demoDecode.Ok ∧ demoChunked.Ok unknownRequest [] := by
  refine ⟨Or.inr (Or.inl ?_), Or.inl (by decide +kernel), by unfold Decodable; decide +kernel, ⟨?_, ?_, by decide +kernel⟩,
    demoChunked_ok _ (by simp)⟩
  · intro t ht
    have : firstValue (b! "Content-Type") demo1.R.headers = some (b! "application/http; msgtype=response") := by decide +kernel
    rw [this] at ht
    cases ht
    decide
  · exact ⟨[], b! "WARC/", b! "1.0", rfl, by simp, by simp, by decide, by decide⟩
  · intro h hh
    simp only [demoDecode, List.mem_cons, List.not_mem_nil, or_false] at hh
    rcases hh with rfl | rfl | rfl <;> decide +kernel

end Warc
