import Verif.Proofs.HttpZip
import Verif.Props.Decode
/-
  C98: HTTP messages with a gzip body and a Content-Length.
-/
set_option linter.all false
namespace Warc
open Rx Stream Spec Http

/-- **C98** The head of a message with a gzip body and a Content-Length, fed together with the text `t` behind it.  The parser decompresses the
announced number of bytes.  If that gives something, this is the body (already decompressed), the message is complete, and nothing is given back, whatever
`t` holds behind the announced bytes.  If it gives nothing, the message is complete with an empty body and all of `t` is given back, the compressed
bytes included.  If the bytes are not gzip at all (OSError), all of `t` is the body, whatever its length.  Any other exception (EOFError for a
gzip stream that is cut off, zlib.error) comes out of `feed`. -/
theorem C98_one_call (c : Codec) (hc : Codec.Laws c) (k : Http.Kind) (ig : List PyStr) (x : ZipHead) (hx : x.Ok k ig) (t : Bytes) :
    (∀ d, c.dec (t.take x.length) = (d, none) → d ≠ [] →
      ∃ m, k.feed c (x.text ++ t) (k.message ig) = .ok [] m ∧ x.Complete d m) ∧
    (c.dec (t.take x.length) = ([], none) → ∃ m, k.feed c (x.text ++ t) (k.message ig) = .ok t m ∧ x.Complete [] m) ∧
    (∀ d, c.dec (t.take x.length) = (d, some .osError) → ∃ m, k.feed c (x.text ++ t) (k.message ig) = .ok [] m ∧ x.Complete t m) ∧
    (∀ d e, c.dec (t.take x.length) = (d, some e) → e ≠ .osError → ∃ m, k.feed c (x.text ++ t) (k.message ig) = .raise e m) := by
  obtain ⟨h1, h2, h3, h4⟩ := zip_feed c hx t
  refine ⟨fun d e hd => ?_, fun e => ?_, fun d e => ?_, h4⟩
  · obtain ⟨m, g1, g2⟩ := h1 d e hd (by
      rintro rfl
      have := hc.members []
      simp only [List.flatMap_nil, List.flatten_nil] at this
      simp only [List.take_nil, this] at e
      cases e
      exact hd rfl)
    exact ⟨m, g1, g2.toComplete⟩
  · obtain ⟨m, g1, g2⟩ := h2 e
    exact ⟨m, g1, g2.toComplete⟩
  · obtain ⟨m, g1, g2⟩ := h3 d e
    exact ⟨m, g1, g2.toComplete⟩

/-- **C98** A correct message: the body is what was compressed.  (Defect) What follows it in the same call, for instance the next message, is lost. -/
theorem C98_whole (c : Codec) (hc : Codec.Laws c) (k : Http.Kind) (ig : List PyStr) (x : ZipHead) (hx : x.Ok k ig) (d after : Bytes)
    (hn : x.length = (c.enc d).length) (hd : d ≠ []) :
    ∃ m, k.feed c (x.text ++ (c.enc d ++ after)) (k.message ig) = .ok [] m ∧ x.Complete d m := by
  refine (C98_one_call c hc k ig x hx _).1 d ?_ hd
  rw [hn, List.take_append_of_le_length (Nat.le_refl _), List.take_of_length_le (Nat.le_refl _)]
  have := hc.members [d]
  simpa using this

/-- **C98** (defect) When the text of the first call ends with the head, the body is taken to be empty, the message is complete, and everything that is
fed afterwards is given back. -/
theorem C98_after_head (c : Codec) (hc : Codec.Laws c) (k : Http.Kind) (ig : List PyStr) (x : ZipHead) (hx : x.Ok k ig) (t : Bytes) :
    ∃ m, feedAll (k.feed c) [x.text, t] (k.message ig) = .ok t m ∧ x.Complete [] m := by
  have h0 : c.dec (([] : Bytes).take x.length) = ([], none) := by
    have := hc.members []
    simpa using this
  obtain ⟨m, h1, h2⟩ := (zip_feed c hx []).2.1 h0
  rw [List.append_nil] at h1
  refine ⟨m, ?_, h2.toComplete⟩
  rw [feedAll_cons, h1]
  have hend : k.feed c t m = .ok t m := by
    rw [feed_kind (k := k)]
    · exact feed_end c t (.inl h2.mode)
    · intro l m' e hk
      rw [feed_end c t (.inl h2.mode)] at e
      cases e
      exact hx.code h2.head hk
  simp only [andThen, feedAll_cons, hend]
  simp [feedAll]

/-- **C98** (defect) The decoded form of a correct message: the body is not compressed any more, but the head still says that it is (unless the
decompressed body can be decompressed once more); the Content-Length is that of the decompressed body. -/
theorem C98_decoded (c : Codec) (hc : Codec.Laws c) (k : Http.Kind) (ig : List PyStr) (x : ZipHead) (hx : x.Ok k ig) (hplain : x.start.plain)
    (d : Bytes) (hn : x.length = (c.enc d).length) (hd : d ≠ []) (z : Zlib) (h1 : z.zlib d = none) (h2 : z.gzip d = none) (after : Bytes) :
    ∃ m e, k.feed c (x.text ++ (c.enc d ++ after)) (k.message ig) = .ok [] m ∧ encodingOf ig x.fields = some e ∧
      m.getDecoded z = .ok (headText x.start (x.fields.filter (fun f => ¬ dropped f.1) ++
        [(b! "Content-Length", decimal d.length), (b! "Content-Encoding", e)]) ++ d) := by
  have hdec : c.dec ((c.enc d ++ after).take x.length) = (d, none) := by
    rw [hn, List.take_append_of_le_length (Nat.le_refl _), List.take_of_length_le (Nat.le_refl _)]
    have := hc.members [d]
    simpa using this
  have hne : c.enc d ++ after ≠ [] := by
    obtain ⟨t, ht⟩ := hc.magic d
    rw [ht]; simp
  obtain ⟨m, g1, g2⟩ := (zip_feed c hx _).1 d hdec hd hne
  obtain ⟨e, he, hsuf⟩ := hx.gzip
  refine ⟨m, e, g1, he, ?_⟩
  have hst : m.header.decodedStart = .ok x.start.text := g2.head.decodedStart hx.fits hplain
  have hbd : m.header.hasBody = true := (g2.head.hasBody hx.fits).2 hx.body
  have hw : m.header.writeDecoded = .ok (x.start.text ++ Http.fields (x.fields.filter (fun f => ¬ dropped f.1))) := by
    unfold Hdr.writeDecoded
    rw [hst, hbd, if_pos rfl, writeHeaders_body, g2.head.headers, g2.head.trailers, List.append_nil]
    rfl
  unfold Msg.getDecoded
  rw [hw, g2.head.encoding, he, g2.toComplete.body, hbd, if_pos rfl, g2.chunks]
  cases e with
  | nil => simp at hsuf
  | cons a as =>
    simp only [bind, Except.bind, hd, if_false, h1, h2, List.map_cons, List.map_nil, List.sum_cons, List.sum_nil, Int.add_zero]
    simp [headText, Http.fields, fieldText, decimalInt]

/-! ### the tools -/

/-- The content of the record is such a message, complete: what is behind the head can be decompressed to something, is not gzip at all, or
is nothing. -/
def ZipReady (c : Codec) (head : R → ZipHead) (r : R) : Prop :=
  (head r).Ok unknownRequest [] ∧ ∃ t, r.body = (head r).text ++ t ∧
    ((∃ d, d ≠ [] ∧ c.dec (t.take (head r).length) = (d, none)) ∨ (∃ d, c.dec (t.take (head r).length) = (d, some .osError)) ∨ t = [])

theorem zip_ready {c : Codec} (hc : Codec.Laws c) {head : R → ZipHead} {r : R} (h : ZipReady c head r) (ig : List PyStr)
    (hig : (head r).Ok unknownRequest [] → (head r).Ok unknownRequest ig) :
    ∃ m b, Http.feedResponse c r.body (WarcFilter.newResponse ig) = .ok [] m ∧ ZipDone unknownRequest ig (head r) b m := by
  obtain ⟨hx, t, ht, hcase⟩ := h
  obtain ⟨h1, h2, h3, h4⟩ := zip_feed c (hig hx) t
  rw [ht]
  by_cases h0 : t = []
  · subst h0
    obtain ⟨m, g1, g2⟩ := h2 (by have := hc.members []; simpa using this)
    exact ⟨m, _, g1, g2⟩
  · rcases hcase with ⟨d, hd, e⟩ | ⟨d, e⟩ | e
    · obtain ⟨m, g1, g2⟩ := h1 d e hd h0
      exact ⟨m, _, g1, g2⟩
    · obtain ⟨m, g1, g2⟩ := h3 d e
      exact ⟨m, _, g1, g2⟩
    · exact absurd e h0

theorem ZipDone.closed {k : Http.Kind} {ig : List PyStr} {x : ZipHead} {b : Bytes} {m : Msg} (h : ZipDone k ig x b m) : m.close = m := by
  have hm := h.mode
  unfold Msg.close
  rw [if_neg (by rw [hm]; simp), if_neg (by rw [hm]; simp)]

/-- the head as a message, for its media type -/
def Http.ZipHead.asMessage (x : ZipHead) : Http.Message := ⟨x.start, x.fields, .none⟩

theorem handles_zip (c : Codec) (hc : Codec.Laws c) (search : Bytes → Bool) (i : Bool) (head : R → ZipHead) (r : R) (hh : isHttp r = true)
    (hz : ZipReady c head r) :
    Tool.Handles (WarcFilter.filterRecord c search (httpOpts i)) r
      (if matched search (mediaType (ZipHead.asMessage (head r))) != i then r.rewritten.bytes else []) := by
  intro s out he hr
  have hcb := contentBytes_read s r out he hr
  obtain ⟨m', b, hf, hdone⟩ := zip_ready hc hz [] id
  have hp : WarcFilter.parseHttpResponse c ⟨s, parsed r.version r.headers, out⟩ =
      .ok (mediaType (ZipHead.asMessage (head r))) ⟨consumed s r.body.length r.body.length, withContent r.version r.headers r.body, out⟩ := by
    have hcomp := hdone.toComplete.complete
    have hhead := hdone.toComplete.headers
    simp only [WarcFilter.parseHttpResponse, M.bind_apply, hcb, WarcFilter.local', hf, ZipDone.closed hdone, hcomp, hhead]
    simp only [ne_eq, not_true_eq_false, Bool.true_eq_false, or_self, if_false]
    have hct := content_type_fields (head r).fields
    cases hfl : ((head r).fields.filter fun h => lower h.1 == b! "content-type") with
    | nil =>
      rw [hfl] at hct
      simp only [List.head?_nil, Option.map_none] at hct
      simp [mediaType, ZipHead.asMessage, ← hct]
    | cons h t =>
      rw [hfl] at hct
      simp only [List.head?_cons, Option.map_some] at hct
      simp only [mediaType, ZipHead.asMessage, ← hct, Option.map_some, M.pure_apply, splitAll, splitMax_head 59 _ h.2 (Nat.le_refl _)]
  rw [filterHttp_step c search i r hh s out he hr]
  simp only [M.bind_apply, hp, hit_matched]
  exact ⟨_, r.body.length, Nat.le_refl _, writeIf_withContent _ _ r out⟩

/-- what `-H` selects among records some of which hold such messages: `head r` is the head of such a message, `none` that it is not one -/
def zipSelects (msg : R → Http.Message) (head : R → Option ZipHead) (search : Bytes → Bool) (invert : Bool) (r : R) : Bool :=
  isHttp r && (matched search (mediaType (match head r with | some x => ZipHead.asMessage x | none => msg r)) != invert)

theorem handles_zipOr (c : Codec) (hc : Codec.Laws c) (msg : R → Http.Message) (head : R → Option ZipHead) (search : Bytes → Bool) (i : Bool) (r : R)
    (hr : (head r = none ∧ HttpReady msg r) ∨ (∃ x, head r = some x ∧ isHttp r = true ∧ ZipReady c (fun _ => x) r)) :
    Tool.Handles (WarcFilter.filterRecord c search (httpOpts i)) r (if zipSelects msg head search i r then r.rewritten.bytes else []) := by
  rcases hr with ⟨h0, h⟩ | ⟨x, h0, hh, hz⟩
  · have := handles_ready c msg search i r h
    have e : zipSelects msg head search i r = httpSelects msg search i r := by simp only [zipSelects, h0, httpSelects]
    rw [e]; exact this
  · have := handles_zip c hc search i (fun _ => x) r hh hz
    simpa [zipSelects, h0, hh] using this

/-- **C98** `warcfilter -H` (see C45) with such messages among the HTTP responses: they are selected by their media type like the others, even
if something stands behind the announced number of bytes or if they are not compressed at all, which is not noticed. -/
theorem C98_filter (c : Codec) (hc : Codec.Laws c) (fs : FS) (files : List StoredFile) (h : AllStored c fs files)
    (search : Bytes → Bool) (invert : Bool) (msg : R → Http.Message) (head : R → Option ZipHead)
    (hr : ∀ r ∈ allRecords files, (head r = none ∧ HttpReady msg r) ∨ (∃ x, head r = some x ∧ isHttp r = true ∧ ZipReady c (fun _ => x) r)) :
    WarcFilter.main c fs search (httpOpts invert) (files.map StoredFile.name) [] =
      .ok () (archive (((allRecords files).filter (zipSelects msg head search invert)).map R.rewritten)) := by
  have := forFiles_each c hc fs files h (WarcFilter.filterRecord c search (httpOpts invert))
    (fun r => if zipSelects msg head search invert r then r.rewritten.bytes else [])
    (fun r hm => handles_zipOr c hc msg head search invert r (hr r hm)) []
  rw [flatMap_filter (zipSelects msg head search invert)] at this
  simpa [WarcFilter.main] using this

/-- The content of the record is such a message whose gzip stream is cut off or damaged: decompressing the announced bytes raises `ex`, which is
not an OSError; or nothing comes out of it (and something is there). -/
def ZipBroken (c : Codec) (ex : Exc) (r : R) : Prop :=
  ∃ (x : ZipHead) (t : Bytes), x.Ok unknownRequest [] ∧ r.body = x.text ++ t ∧
    ((ex ≠ .osError ∧ ∃ d, c.dec (t.take x.length) = (d, some ex)) ∨ (ex = .nameError ∧ t ≠ [] ∧ c.dec (t.take x.length) = ([], none)))

/-- **C98** (defect) `warcfilter -H` stops at the first such message whose gzip stream is cut off or damaged, with the exception of the gzip library, and at
one that decompresses to nothing (NameError); the records before it are written, later ones are lost. -/
theorem C98_filter_stops (c : Codec) (hc : Codec.Laws c) (fs : FS) (files : List StoredFile) (h : AllStored c fs files)
    (search : Bytes → Bool) (invert : Bool) (msg : R → Http.Message) (head : R → Option ZipHead) (g : StoredFile) (rest : List Bytes)
    (rs : List RT) (r : RT) (rs' : List RT) (hg : Stored c fs g.name g.compressed g.records) (hrs : g.records = rs ++ r :: rs')
    (hr : ∀ r ∈ allRecords files ++ rs.map Prod.fst,
      (head r = none ∧ HttpReady msg r) ∨ (∃ x, head r = some x ∧ isHttp r = true ∧ ZipReady c (fun _ => x) r))
    (ex : Exc) (hh : isHttp r.1 = true) (hbad : ZipBroken c ex r.1) :
    WarcFilter.main c fs search (httpOpts invert) (files.map StoredFile.name ++ g.name :: rest) [] =
      .raise ex (archive (((allRecords files ++ rs.map Prod.fst).filter (zipSelects msg head search invert)).map R.rewritten)) := by
  have hx : Tool.Raises (WarcFilter.filterRecord c search (httpOpts invert)) r.1 ex [] := by
    intro s out he hro
    have hcb := contentBytes_read s r.1 out he hro
    obtain ⟨x, t, hok, ht, hcase⟩ := hbad
    obtain ⟨h1, h2, h3, h4⟩ := zip_feed c hok t
    rw [filterHttp_step c search invert r.1 hh s out he hro]
    rcases hcase with ⟨hne, d, e⟩ | ⟨rfl, hne, e⟩
    · obtain ⟨m, g1⟩ := h4 d ex e hne
      have hf : Http.feedResponse c r.1.body (WarcFilter.newResponse []) = .raise ex m := by rw [ht]; exact g1
      simp only [M.bind_apply, WarcFilter.parseHttpResponse, hcb, WarcFilter.local', hf]
      exact ⟨_, rfl, by simp⟩
    · obtain ⟨m, g1, _⟩ := h2 e
      have hf : Http.feedResponse c r.1.body (WarcFilter.newResponse []) = .ok t m := by rw [ht]; exact g1
      simp only [M.bind_apply, WarcFilter.parseHttpResponse, hcb, WarcFilter.local', hf]
      rw [if_pos (.inl hne)]
      exact ⟨_, rfl, by simp⟩
  have := forFiles_each_raise c hc fs files g rest rs r rs' h hg hrs (WarcFilter.filterRecord c search (httpOpts invert))
    (fun r => if zipSelects msg head search invert r then r.rewritten.bytes else [])
    (fun r hm => handles_zipOr c hc msg head search invert r (hr r hm)) ex [] hx []
  rw [flatMap_filter (zipSelects msg head search invert)] at this
  simpa [WarcFilter.main] using this

/-- **C98** (defect, see C47) `warc2warc -D` stops at the first complete such message with an AttributeError. -/
theorem C98_never_decodes (c : Codec) (hc : Codec.Laws c) (z : Http.Zlib) (fs : FS) (files : List StoredFile) (h : AllStored c fs files)
    (o : Warc2Warc.Opts) (ho : o.decode = true) (g : StoredFile) (rest : List Bytes) (rs : List RT) (r : RT) (rs' : List RT)
    (hg : Stored c fs g.name g.compressed g.records) (hrs : g.records = rs ++ r :: rs')
    (hl : ∀ r ∈ allRecords files ++ rs.map Prod.fst, LeftAlone r)
    (hd : Decodable r.1) (x : ZipHead) (hz : ZipReady c (fun _ => x) r.1) :
    Warc2Warc.main c z fs o (files.map StoredFile.name ++ g.name :: rest) [] =
      .raise .attributeError ((allRecords files ++ rs.map Prod.fst).flatMap fun r => stored c o.gzip (decodeCopy r)) := by
  have hx : Tool.Raises (Warc2Warc.process c z o) r.1 .attributeError [] := by
    intro s out he hr
    obtain ⟨m', b, hf, hdone⟩ := zip_ready hc hz (Warc2Warc.ignoreHeaders o) (fun hx =>
      ⟨hx.fits, hx.start, hx.fields, by rw [framing_wget]; exact hx.framed, hx.body, by
        have := hx.gzip; simp only [Http.gzipField, encodingOf_wget]; exact this⟩)
    have hplain : x.start.plain := by
      have hfit := hz.1.fits
      cases hs : x.start with
      | request a b c => rw [hs] at hfit; exact absurd hfit (by simp [Http.Start.fits])
      | response v c p => trivial
    have hst : m'.header.decodedStart = .ok x.start.text := hdone.head.decodedStart hz.1.fits hplain
    have hw : ∃ w, m'.header.writeDecoded = .ok w := by
      unfold Hdr.writeDecoded
      rw [hst]
      exact ⟨_, rfl⟩
    obtain ⟨w, hw⟩ := hw
    have ht : ∃ t, m'.getDecoded z = .ok t := by
      unfold Msg.getDecoded
      rw [hw]
      simp only [bind, Except.bind]
      cases m'.header.encoding with
      | none => exact ⟨_, rfl⟩
      | some e =>
        cases e with
        | nil => exact ⟨_, rfl⟩
        | cons a as =>
          simp only
          by_cases hb : m'.getBody = []
          · rw [if_pos hb]; exact ⟨_, rfl⟩
          · rw [if_neg hb]
            cases z.zlib m'.getBody with
            | some d => exact ⟨_, rfl⟩
            | none =>
              cases z.gzip m'.getBody with
              | some d => exact ⟨_, rfl⟩
              | none => exact ⟨_, rfl⟩
    obtain ⟨t, ht⟩ := ht
    have hcomp : m'.complete = true := hdone.toComplete.complete
    simp only [Warc2Warc.process, M.bind_apply, ho, if_true, decodeRecord_step c z o r.1 hd s out he hr, Warc2Warc.decodeWith,
      WarcFilter.local', hf, ZipDone.closed hdone, hcomp, and_self, ht]
    exact ⟨_, rfl, by simp⟩
  have := forFiles_each_raise c hc fs files g rest rs r rs' h hg hrs (Warc2Warc.process c z o)
    (fun r => stored c o.gzip (decodeCopy r)) (fun r hm => handles_left c z o ho r (hl r hm)) .attributeError [] hx []
  simpa [Warc2Warc.main] using this

/-! ### the hypotheses can be met -/

/-- a gzip response: the letter Z, compressed with the toy codec to 5 bytes -/
def Spec.demoZip : ZipHead :=
  ⟨.response (b! "HTTP/1.1") 200 (b! "OK"), [(b! "Content-Type", b! "text/html; x"), (b! "Content-Length", b! "5"), (b! "Content-Encoding", b! "gzip")], 5⟩

theorem demoZip_ok (rm : PyStr) (h : rm ≠ .bytes (b! "HEAD")) : demoZip.Ok (.response rm) [] := by
  refine ⟨trivial, by unfold Http.Start.Ok demoZip; decide, ?_, by decide, ⟨h, by decide, by decide, by decide⟩, ⟨b! "gzip", by decide, by decide⟩⟩
  intro f hf
  simp only [demoZip, List.mem_cons, List.not_mem_nil, or_false] at hf
  rcases hf with rfl | rfl | rfl <;> exact ⟨by decide, by decide, by decide, by decide, by decide⟩

example : demoZip.length = (toy.enc (b! "Z")).length ∧ toy.enc (b! "Z") ≠ b! "Z" := by decide

/-- the four outcomes exist: correct, empty, not gzip, cut off -/
example : toy.dec ((toy.enc (b! "Z") ++ b! "next").take 5) = (b! "Z", none) ∧
    toy.dec ((toy.enc []).take 5) = ([], none) ∧ toy.dec ((b! "plain text").take 5) = ([], some .osError) ∧
    toy.dec (((toy.enc (b! "Z")).take 4).take 5) = (b! "Z", some .eofError) := by decide

/-- a record with such a message and data behind it, and one whose gzip stream is cut off -/
def Spec.zipRecord (t : Bytes) : R :=
  ⟨b! "WARC/1.0", [(b! "WARC-Type", b! "response"), (b! "Content-Type", b! "application/http;msgtype=response"),
    (b! "Content-Length", decimal (demoZip.text ++ t).length)], demoZip.text ++ t⟩

example : isHttp (zipRecord (toy.enc (b! "Z") ++ b! "next")) = true ∧ Decodable (zipRecord (toy.enc (b! "Z"))) ∧
    ZipReady toy (fun _ => demoZip) (zipRecord (toy.enc (b! "Z") ++ b! "next")) ∧ ZipBroken toy .eofError (zipRecord ((toy.enc (b! "Z")).take 4)) ∧
    ZipBroken toy .nameError (zipRecord (toy.enc [])) ∧
    mediaType (ZipHead.asMessage demoZip) = some (b! "text/html") :=
  ⟨by decide +kernel, ⟨by decide +kernel, by decide +kernel⟩,
    ⟨demoZip_ok _ (by simp), _, rfl, .inl ⟨b! "Z", by decide, by decide⟩⟩,
    ⟨demoZip, _, demoZip_ok _ (by simp), rfl, .inl ⟨by simp, b! "Z", by decide⟩⟩,
    ⟨demoZip, _, demoZip_ok _ (by simp), rfl, .inr ⟨rfl, by decide, by decide⟩⟩, by decide⟩

end Warc
