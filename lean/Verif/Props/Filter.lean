import Verif.Props.Copy
import Verif.Proofs.HttpDemo
import Verif.Spec.Filter
import Verif.Props.HttpBody
/-
  C45: warcfilter.
-/
set_option linter.all false
namespace Warc
open Rx Stream Spec

theorem hit_matched (search : Bytes → Bool) (i : Bool) (x : Option Bytes) :
    WarcFilter.hit search i x = (matched search x != i) := by
  unfold WarcFilter.hit matched
  cases x with
  | none => cases i <;> rfl
  | some v =>
    cases v with
    | nil => cases i <;> rfl
    | cons b v => simp

theorem parsed_url (v : Bytes) (hs : List Header) : (parsed v hs).url = firstValue (b! "WARC-Target-URI") hs := by
  simp [Rec.url, parsed, Rec.getHeader, lookupHeader_eq, WH.URL, Cls.urlName]
theorem parsed_type (v : Bytes) (hs : List Header) : (parsed v hs).type = firstValue (b! "WARC-Type") hs := by
  simp [Rec.type, parsed, Rec.getHeader, lookupHeader_eq, WH.TYPE]
theorem parsed_date (v : Bytes) (hs : List Header) : (parsed v hs).date = firstValue (b! "WARC-Date") hs := by
  simp [Rec.date, parsed, Rec.getHeader, lookupHeader_eq, WH.DATE, Cls.dateName]

theorem parsed_headers (v : Bytes) (hs : List Header) : (parsed v hs).headers = hs := rfl

theorem handles_writeIf (b : Bool) (r : R) : Tool.Handles (WarcFilter.writeIf b) r (if b then r.bytes else []) := by
  cases b with
  | true => exact Tool.handles_writeTo r
  | false => exact Tool.handles_pure r

theorem writeIf_withContent (b : Bool) (s : Stream) (r : R) (out : Bytes) :
    WarcFilter.writeIf b ⟨s, withContent r.version r.headers r.body, out⟩ =
      .ok () ⟨s, withContent r.version r.headers r.body, out ++ (if b then r.rewritten.bytes else [])⟩ := by
  cases b with
  | true => exact Tool.writeTo_withContent s r out
  | false => simp [WarcFilter.writeIf]

/-- what warcfilter does with one record -/
theorem handles_filter (c : Codec) (search : Bytes → Bool) (m : Mode) (i : Bool) (r : R) :
    Tool.Handles (WarcFilter.filterRecord c search (m.opts i)) r
      (if m.selects search r != i then (m.copy r).bytes else []) := by
  intro s out he hr
  cases m with
  | url =>
    simp only [WarcFilter.filterRecord, M.bind_apply, M.get_apply, Mode.opts, if_true, hit_matched, parsed_url]
    exact handles_writeIf _ r s out he hr
  | type =>
    simp only [WarcFilter.filterRecord, M.bind_apply, M.get_apply, Mode.opts, if_true, hit_matched, parsed_type, Bool.false_eq_true, if_false]
    exact handles_writeIf _ r s out he hr
  | date =>
    simp only [WarcFilter.filterRecord, M.bind_apply, M.get_apply, Mode.opts, if_true, hit_matched, parsed_date, Bool.false_eq_true, if_false]
    exact handles_writeIf _ r s out he hr
  | contentType =>
    rcases Tool.contentType_read s r out he hr with ⟨t, h1, h2⟩ | ⟨h1, h2⟩
    · simp only [WarcFilter.filterRecord, M.bind_apply, M.get_apply, Mode.opts, if_true, Bool.false_eq_true, if_false, h2, hit_matched]
      simp only [Mode.selects, Mode.copy, h1, reduceCtorEq, if_false]
      exact handles_writeIf _ r s out he hr
    · simp only [WarcFilter.filterRecord, M.bind_apply, M.get_apply, Mode.opts, if_true, Bool.false_eq_true, if_false, h2, hit_matched]
      simp only [Mode.selects, Mode.copy, h1, if_true]
      exact ⟨_, r.body.length, Nat.le_refl _, writeIf_withContent _ _ r out⟩
  | whole =>
    simp only [WarcFilter.filterRecord, M.bind_apply, M.get_apply, Mode.opts, Bool.false_eq_true, if_false,
      Tool.content_read s r out he hr]
    refine ⟨withContent r.version r.headers r.body, r.body.length, Nat.le_refl _, ?_⟩
    simp only [Mode.selects, Mode.copy]
    by_cases hx : WarcFilter.inHeaders search (parsed r.version r.headers).headers = true
    · rw [if_pos hx]
      simp only [M.bind_apply, M.pure_apply]
      rw [show (true ^^ i) = (((r.headers.any fun h => search h.2) || search r.body) != i) by
        have hx' : (r.headers.any fun h => search h.2) = true := hx
        rw [hx']; cases i <;> rfl]
      exact writeIf_withContent _ _ r out
    · rw [if_neg hx]
      simp only [M.bind_apply, M.pure_apply]
      rw [show (search r.body ^^ i) = (((r.headers.any fun h => search h.2) || search r.body) != i) by
        have hx' : (r.headers.any fun h => search h.2) = false := Bool.eq_false_iff.2 hx
        rw [hx']; cases i <;> cases search r.body <;> rfl]
      exact writeIf_withContent _ _ r out

theorem flatMap_filter {α : Type} (p : α → Bool) (f : α → R) (rs : List α) :
    rs.flatMap (fun r => if p r then (f r).bytes else []) = archive ((rs.filter p).map f) := by
  induction rs with
  | nil => rfl
  | cons r rs ih =>
    rw [List.flatMap_cons, ih, List.filter_cons]
    cases p r <;> simp [archive]

/-- **C45** `warcfilter` writes exactly the records that match, in order; with `-i` exactly those that do not
match.  A record whose content had to be read is written with new Content-Type and Content-Length headers. -/
theorem C45_filter (c : Codec) (hc : Codec.Laws c) (fs : FS) (files : List StoredFile) (h : AllStored c fs files)
    (search : Bytes → Bool) (m : Mode) (invert : Bool) :
    WarcFilter.main c fs search (m.opts invert) (files.map StoredFile.name) [] =
      .ok () (archive (((allRecords files).filter fun r => m.selects search r != invert).map m.copy)) := by
  have := forFiles_each c hc fs files h (WarcFilter.filterRecord c search (m.opts invert))
    (fun r => if m.selects search r != invert then (m.copy r).bytes else []) (fun r _ => handles_filter c search m invert r) []
  rw [flatMap_filter (fun r => m.selects search r != invert)] at this
  simpa [WarcFilter.main] using this

/-- **C45** so every record is in exactly one of the two outputs -/
theorem C45_partition (c : Codec) (hc : Codec.Laws c) (fs : FS) (files : List StoredFile) (h : AllStored c fs files)
    (search : Bytes → Bool) (m : Mode) :
    ∃ p : R → Bool,
      WarcFilter.main c fs search (m.opts false) (files.map StoredFile.name) [] =
        .ok () (archive (((allRecords files).filter p).map m.copy)) ∧
      WarcFilter.main c fs search (m.opts true) (files.map StoredFile.name) [] =
        .ok () (archive (((allRecords files).filter fun r => !p r).map m.copy)) := by
  refine ⟨m.selects search, ?_, ?_⟩
  · simpa using C45_filter c hc fs files h search m false
  · simpa using C45_filter c hc fs files h search m true

theorem firstValue_append (name : Bytes) (a b : List Header) :
    firstValue name (a ++ b) = (firstValue name a).or (firstValue name b) := by
  induction a with
  | nil => simp [firstValue]
  | cons x xs ih =>
    simp only [List.cons_append, firstValue]
    by_cases hx : lower x.1 = lower name
    · simp [hx]
    · simp [hx, ih]

theorem firstValue_filter (name : Bytes) (p : Header → Bool) (hs : List Header)
    (h : ∀ x ∈ hs, lower x.1 = lower name → p x = true) : firstValue name (hs.filter p) = firstValue name hs := by
  induction hs with
  | nil => rfl
  | cons x xs ih =>
    rw [List.filter_cons]
    by_cases hx : lower x.1 = lower name
    · simp [h x (by simp) hx, firstValue, hx]
    · simp only [firstValue, if_neg hx]
      cases p x with
      | true => simp only [if_true, firstValue, if_neg hx]; exact ih (fun y hy => h y (by simp [hy]))
      | false => exact ih (fun y hy => h y (by simp [hy]))

theorem firstValue_filter_none (name : Bytes) (p : Header → Bool) (hs : List Header)
    (h : ∀ x ∈ hs, lower x.1 = lower name → p x = false) : firstValue name (hs.filter p) = none := by
  induction hs with
  | nil => rfl
  | cons x xs ih =>
    rw [List.filter_cons]
    by_cases hx : lower x.1 = lower name
    · simp only [h x (by simp) hx, Bool.false_eq_true, if_false]
      exact ih (fun y hy => h y (by simp [hy]))
    · cases p x with
      | true => simp only [if_true, firstValue, if_neg hx]; exact ih (fun y hy => h y (by simp [hy]))
      | false => exact ih (fun y hy => h y (by simp [hy]))

/-- **C45** rewriting changes neither version nor content nor any other header; a reader of the output sees the
same value for every header name (Content-Type being spelled in the usual way), and the right length -/
theorem C45_rewritten (r : R) (hok : r.Ok) :
    r.rewritten.Ok ∧ r.rewritten.version = r.version ∧ r.rewritten.body = r.body ∧
    (r.rewritten.headers.filter fun h => h.1 != b! "Content-Type" && h.1 != b! "Content-Length") =
      (r.headers.filter fun h => h.1 != b! "Content-Type" && h.1 != b! "Content-Length") ∧
    ((∀ h ∈ r.headers, lower h.1 = b! "content-type" → h.1 = b! "Content-Type") →
      ∀ name, lower name ≠ b! "content-length" → firstValue name r.rewritten.headers = firstValue name r.headers) := by
  have hct : ∀ t, firstValue (b! "Content-Type") r.headers = some t → 10 ∉ t ∧ strip t = t ∧ t ≠ [] := by
    intro t ht
    obtain ⟨k, hk1, hk2⟩ := Tool.firstValue_mem _ _ _ ht
    have hh := hok.headers _ hk1
    exact ⟨hh.valueNoLF, hh.valueStrip, hh.typeOk hk2⟩
  refine ⟨item_R_ok ⟨r.version, r.headers, firstValue (b! "Content-Type") r.headers, r.body⟩
    ⟨hok.version, hok.headers, fun t ht => ⟨(hct t ht).1, (hct t ht).2.1⟩⟩, rfl, rfl, ?_, ?_⟩
  · simp only [R.rewritten, writtenHeaders]
    cases hf : firstValue (b! "Content-Type") r.headers with
    | none => simp
    | some t =>
      by_cases ht : t = []
      · simp [ht]
      · simp [ht]
  · intro hcanon name hname
    simp only [R.rewritten, writtenHeaders, firstValue_append]
    have hcl : firstValue name [(b! "Content-Length", decimal r.body.length)] = none := by
      have : ¬ lower (b! "Content-Length") = lower name := fun e => hname (by rw [← e]; decide)
      simp only [firstValue, if_neg this]
    rw [hcl]
    by_cases hn : lower name = b! "content-type"
    · have hfv : firstValue name r.headers = firstValue (b! "Content-Type") r.headers := by
        have hl : lower (b! "Content-Type") = lower name := by rw [hn]; decide
        have : ∀ hs : List Header, firstValue name hs = firstValue (b! "Content-Type") hs := by
          intro hs
          induction hs with
          | nil => rfl
          | cons x xs ih => simp only [firstValue, hl, ih]
        exact this _
      rw [firstValue_filter_none _ _ _ (by
        intro x hx hlx
        simp [hcanon x hx (by rw [hlx, hn])])]
      rw [hfv]
      cases hf : firstValue (b! "Content-Type") r.headers with
      | none => simp [firstValue]
      | some t =>
        have hl : lower (b! "Content-Type") = lower name := by rw [hn]; decide
        simp only [if_neg (hct t hf).2.2, firstValue, hl, if_true]
        rfl
    · have hne : ¬ lower (b! "Content-Type") = lower name := fun e => hn (by rw [← e]; decide)
      rw [firstValue_filter]
      · cases hf : firstValue (b! "Content-Type") r.headers with
        | none => simp [firstValue]
        | some t =>
          simp only [if_neg (hct t hf).2.2, firstValue, if_neg hne]
          simp
      · intro x hx hlx
        have h1 : x.1 ≠ b! "Content-Type" := by
          intro e; apply hn; rw [← hlx, e]; decide
        have h2 : x.1 ≠ b! "Content-Length" := by
          intro e; apply hname; rw [← hlx, e]; decide
        simp [h1, h2]

/-! ### the media type of HTTP responses (-H) -/

theorem splitMax_head (sep : Byte) (n : Nat) (v : Bytes) (h : v.length ≤ n) :
    (splitMax sep n v).head? = some (v.takeWhile (· ≠ sep)) := by
  cases n with
  | zero =>
    have : v = [] := List.eq_nil_of_length_eq_zero (by omega)
    subst this
    simp [splitMax]
  | succ n =>
    simp only [splitMax]
    have := Http.splitOnce_before sep v
    cases hq : splitOnce sep v with
    | none => rw [hq] at this; simp only at this ⊢; rw [← this]; rfl
    | some q => rw [hq] at this; simp only at this ⊢; rw [← this]; rfl

theorem content_type_fields (hs : List Header) :
    (hs.filter fun h => lower h.1 == b! "content-type").head?.map Prod.snd = firstValue (b! "Content-Type") hs := by
  have hl : lower (b! "Content-Type") = b! "content-type" := by decide
  induction hs with
  | nil => rfl
  | cons x xs ih =>
    by_cases hx : lower x.1 = b! "content-type"
    · rw [List.filter_cons_of_pos (by simp [hx])]
      simp [firstValue, hl, hx]
    · rw [List.filter_cons_of_neg (by simp [hx]), ih]
      simp [firstValue, hl, hx]

/-- the parser's view of the response: no request method is known -/
abbrev unknownRequest : Http.Kind := .response (.str "")

theorem parseHttp_ok (c : Codec) (s : Stream) (v : Bytes) (hs : List Header) (out : Bytes) (x : Http.Message)
    (hx : x.Ok unknownRequest []) (s' : Stream) (rc : Rec)
    (hc : WarcFilter.contentBytes ⟨s, parsed v hs, out⟩ = .ok x.text ⟨s', rc, out⟩) :
    WarcFilter.parseHttpResponse c ⟨s, parsed v hs, out⟩ = .ok (mediaType x) ⟨s', rc, out⟩ := by
  obtain ⟨m', h1, h2, _⟩ := Http.kind_parse c unknownRequest [] x hx [] (fun _ => rfl)
  rw [List.append_nil] at h1
  have hf : Http.feedResponse c x.text (WarcFilter.newResponse []) = .ok [] m' := h1
  have hclose := h2.close
  have hcomp : m'.close.complete = true := by rw [hclose]; rfl
  have hhead : m'.close.header.headers = x.fields := by rw [hclose]; exact h2.parsed.headers
  simp only [WarcFilter.parseHttpResponse, M.bind_apply, hc, WarcFilter.local', hf, hcomp, hhead]
  simp only [ne_eq, not_true_eq_false, Bool.true_eq_false, or_self, if_false]
  have hct := content_type_fields x.fields
  cases hfl : (x.fields.filter fun h => lower h.1 == b! "content-type") with
  | nil =>
    rw [hfl] at hct
    simp only [List.head?_nil, Option.map_none] at hct
    simp [mediaType, ← hct]
  | cons h t =>
    rw [hfl] at hct
    simp only [List.head?_cons, Option.map_some] at hct
    simp only [mediaType, ← hct, Option.map_some, M.pure_apply, splitAll, splitMax_head 59 _ h.2 (Nat.le_refl _)]

theorem contentBytes_read (s : Stream) (r : R) (out : Bytes) (he : s.eoc = some (r.body.length : Int))
    (hr : ∃ more, s.fh.rest = r.body ++ more) :
    WarcFilter.contentBytes ⟨s, parsed r.version r.headers, out⟩ =
      .ok r.body ⟨consumed s r.body.length r.body.length, withContent r.version r.headers r.body, out⟩ := by
  simp only [WarcFilter.contentBytes, M.bind_apply, Tool.content_read s r out he hr, M.pure_apply]

/-- an HTTP response with something behind it, or cut off -/
def BrokenHttp (body : Bytes) : Prop :=
  ∃ x : Http.Message, x.Ok unknownRequest [] ∧ x.payload.ends = true ∧
    ((∃ after, after ≠ [] ∧ body = x.text ++ after) ∨ (∃ n, n < x.text.length ∧ body = x.text.take n))

theorem parseHttp_broken (c : Codec) (s : Stream) (v : Bytes) (hs : List Header) (out body : Bytes) (hb : BrokenHttp body)
    (s' : Stream) (rc : Rec) (hc : WarcFilter.contentBytes ⟨s, parsed v hs, out⟩ = .ok body ⟨s', rc, out⟩) :
    WarcFilter.parseHttpResponse c ⟨s, parsed v hs, out⟩ = .raise .nameError ⟨s', rc, out⟩ := by
  obtain ⟨x, hx, hends, ⟨after, hne, rfl⟩ | ⟨n, hn, rfl⟩⟩ := hb
  · obtain ⟨m', h1, h2, _⟩ := Http.kind_parse c unknownRequest [] x hx after (by simp [hends])
    have hf : Http.feedResponse c (x.text ++ after) (WarcFilter.newResponse []) = .ok after m' := h1
    simp only [WarcFilter.parseHttpResponse, M.bind_apply, hc, WarcFilter.local', hf]
    rw [if_pos (Or.inl hne)]
    rfl
  · obtain ⟨m', h1, _, h3, _⟩ := C38_truncated c unknownRequest [] x hx hends n hn [x.text.take n] (by simp)
    have hf : Http.feedResponse c (x.text.take n) (WarcFilter.newResponse []) = .ok [] m' := by
      have h1' : Http.feedAll (Http.feedResponse c) [x.text.take n] (WarcFilter.newResponse []) = .ok [] m' := h1
      simp only [Http.feedAll, M.bind_apply] at h1'
      cases hq : Http.feedResponse c (x.text.take n) (WarcFilter.newResponse []) with
      | hang => simp [hq] at h1'
      | raise e m => simp [hq] at h1'
      | ok l m => simpa [hq] using h1'
    simp only [WarcFilter.parseHttpResponse, M.bind_apply, hc, WarcFilter.local', hf]
    rw [if_pos (Or.inr h3)]
    rfl

/-- the options for `-H` -/
def httpOpts (invert : Bool) : WarcFilter.Opts := { httpContentType := true, invert := invert }

theorem isHttp_iff (r : R) : isHttp r = true ↔ firstValue (b! "WARC-Type") r.headers = some (b! "response") ∧
    ∃ t, firstValue (b! "Content-Type") r.headers = some t ∧ startsWith t (b! "application/http") = true := by
  unfold isHttp
  cases firstValue (b! "Content-Type") r.headers <;> simp [startsWith]

theorem filterHttp_step (c : Codec) (search : Bytes → Bool) (i : Bool) (r : R) (hh : isHttp r = true) (s : Stream) (out : Bytes)
    (he : s.eoc = some (r.body.length : Int)) (hr : ∃ more, s.fh.rest = r.body ++ more) :
    WarcFilter.filterRecord c search (httpOpts i) ⟨s, parsed r.version r.headers, out⟩ =
      (WarcFilter.parseHttpResponse c >>= fun mime => WarcFilter.writeIf (WarcFilter.hit search i mime))
        ⟨s, parsed r.version r.headers, out⟩ := by
  obtain ⟨h1, t, h2, h3⟩ := (isHttp_iff r).1 hh
  rcases Tool.contentType_read s r out he hr with ⟨t', g1, g2⟩ | ⟨g1, g2⟩
  · rw [h2] at g1
    cases g1
    simp only [WarcFilter.filterRecord, M.bind_apply, M.get_apply, httpOpts, Bool.false_eq_true, if_false, if_true]
    rw [if_pos (by rw [parsed_type, h1]; rfl)]
    simp only [M.bind_apply, g2, h3, if_true]
  · rw [h2] at g1; cases g1

/-- what `warcfilter -H` does with a record that is not an HTTP response: nothing, even with `-i` -/
theorem handles_http_other (c : Codec) (search : Bytes → Bool) (i : Bool) (r : R) (hh : isHttp r = false)
    (ht : firstValue (b! "WARC-Type") r.headers = some (b! "response") → firstValue (b! "Content-Type") r.headers ≠ none) :
    Tool.Handles (WarcFilter.filterRecord c search (httpOpts i)) r [] := by
  intro s out he hr
  by_cases h1 : firstValue (b! "WARC-Type") r.headers = some (b! "response")
  · rcases Tool.contentType_read s r out he hr with ⟨t, g1, g2⟩ | ⟨g1, g2⟩
    · have h3 : startsWith t (b! "application/http") = false := by
        cases hq : startsWith t (b! "application/http") with
        | false => rfl
        | true => rw [(isHttp_iff r).2 ⟨h1, t, g1, hq⟩] at hh; cases hh
      simp only [WarcFilter.filterRecord, M.bind_apply, M.get_apply, httpOpts, Bool.false_eq_true, if_false, if_true]
      rw [if_pos (by rw [parsed_type, h1]; rfl)]
      simp only [M.bind_apply, g2, h3, Bool.false_eq_true, if_false]
      exact Tool.handles_pure r s out he hr
    · exact absurd g1 (ht h1)
  · simp only [WarcFilter.filterRecord, M.bind_apply, M.get_apply, httpOpts, Bool.false_eq_true, if_false, if_true]
    rw [if_neg (by rw [parsed_type]; exact h1)]
    exact Tool.handles_pure r s out he hr

theorem handles_http (c : Codec) (search : Bytes → Bool) (i : Bool) (r : R) (hh : isHttp r = true) (x : Http.Message)
    (hx : x.Ok unknownRequest []) (hb : r.body = x.text) :
    Tool.Handles (WarcFilter.filterRecord c search (httpOpts i)) r
      (if matched search (mediaType x) != i then r.rewritten.bytes else []) := by
  intro s out he hr
  have hc := contentBytes_read s r out he hr
  have hp := parseHttp_ok c s r.version r.headers out x hx _ _ (by rw [← hb]; exact hc)
  rw [filterHttp_step c search i r hh s out he hr]
  simp only [M.bind_apply, hp, hit_matched]
  exact ⟨_, r.body.length, Nat.le_refl _, writeIf_withContent _ _ r out⟩

theorem raises_http (c : Codec) (search : Bytes → Bool) (i : Bool) (r : R) (hh : isHttp r = true) (hb : BrokenHttp r.body) :
    Tool.Raises (WarcFilter.filterRecord c search (httpOpts i)) r .nameError [] := by
  intro s out he hr
  have hc := contentBytes_read s r out he hr
  have hp := parseHttp_broken c s r.version r.headers out r.body hb _ _ hc
  rw [filterHttp_step c search i r hh s out he hr]
  simp only [M.bind_apply, hp]
  exact ⟨_, rfl, by simp⟩

theorem raises_no_type (c : Codec) (search : Bytes → Bool) (i : Bool) (r : R)
    (h1 : firstValue (b! "WARC-Type") r.headers = some (b! "response"))
    (h2 : firstValue (b! "Content-Type") r.headers = none) :
    Tool.Raises (WarcFilter.filterRecord c search (httpOpts i)) r .attributeError [] := by
  intro s out he hr
  rcases Tool.contentType_read s r out he hr with ⟨t, g1, g2⟩ | ⟨g1, g2⟩
  · rw [h2] at g1; cases g1
  · simp only [WarcFilter.filterRecord, M.bind_apply, M.get_apply, httpOpts, Bool.false_eq_true, if_false, if_true]
    rw [if_pos (by rw [parsed_type, h1]; rfl)]
    simp only [M.bind_apply, g2]
    exact ⟨_, rfl, by simp⟩

/-- The record can be handled by `-H`: response records have a content type, and the content of HTTP records is the
message `msg r`, complete and with nothing behind it. -/
def HttpReady (msg : R → Http.Message) (r : R) : Prop :=
  (firstValue (b! "WARC-Type") r.headers = some (b! "response") → firstValue (b! "Content-Type") r.headers ≠ none) ∧
  (isHttp r = true → (msg r).Ok unknownRequest [] ∧ r.body = (msg r).text)

/-- what `-H` selects -/
def httpSelects (msg : R → Http.Message) (search : Bytes → Bool) (invert : Bool) (r : R) : Bool :=
  isHttp r && (matched search (mediaType (msg r)) != invert)

theorem handles_ready (c : Codec) (msg : R → Http.Message) (search : Bytes → Bool) (i : Bool) (r : R) (hr : HttpReady msg r) :
    Tool.Handles (WarcFilter.filterRecord c search (httpOpts i)) r
      (if httpSelects msg search i r then r.rewritten.bytes else []) := by
  unfold httpSelects
  cases hh : isHttp r with
  | true =>
    obtain ⟨h1, h2⟩ := hr.2 hh
    simpa using handles_http c search i r hh (msg r) h1 h2
  | false =>
    simpa using handles_http_other c search i r hh hr.1

/-- **C45** `warcfilter -H` writes the HTTP responses whose media type matches (with `-i`: does not match);
other records appear in neither output. -/
theorem C45_http (c : Codec) (hc : Codec.Laws c) (fs : FS) (files : List StoredFile) (h : AllStored c fs files)
    (search : Bytes → Bool) (invert : Bool) (msg : R → Http.Message) (hr : ∀ r ∈ allRecords files, HttpReady msg r) :
    WarcFilter.main c fs search (httpOpts invert) (files.map StoredFile.name) [] =
      .ok () (archive (((allRecords files).filter (httpSelects msg search invert)).map R.rewritten)) := by
  have := forFiles_each c hc fs files h (WarcFilter.filterRecord c search (httpOpts invert))
    (fun r => if httpSelects msg search invert r then r.rewritten.bytes else []) (fun r hm => handles_ready c msg search invert r (hr r hm)) []
  rw [flatMap_filter (httpSelects msg search invert)] at this
  simpa [WarcFilter.main] using this

/-- **C45 (defect)** `warcfilter -H` stops with an exception at the first HTTP record with a truncated message
or with data behind the message (NameError), and at the first response record without a content type
(AttributeError): later records are lost. -/
theorem C45_http_stops (c : Codec) (hc : Codec.Laws c) (fs : FS) (files : List StoredFile) (h : AllStored c fs files)
    (search : Bytes → Bool) (invert : Bool) (msg : R → Http.Message) (g : StoredFile) (rest : List Bytes)
    (rs : List RT) (r : RT) (rs' : List RT) (hg : Stored c fs g.name g.compressed g.records) (hrs : g.records = rs ++ r :: rs')
    (hr : ∀ r ∈ allRecords files ++ rs.map Prod.fst, HttpReady msg r) (ex : Exc)
    (hbad : (ex = .nameError ∧ isHttp r.1 = true ∧ BrokenHttp r.1.body) ∨
      (ex = .attributeError ∧ firstValue (b! "WARC-Type") r.1.headers = some (b! "response") ∧
        firstValue (b! "Content-Type") r.1.headers = none)) :
    WarcFilter.main c fs search (httpOpts invert) (files.map StoredFile.name ++ g.name :: rest) [] =
      .raise ex (archive (((allRecords files ++ rs.map Prod.fst).filter (httpSelects msg search invert)).map R.rewritten)) := by
  have hx : Tool.Raises (WarcFilter.filterRecord c search (httpOpts invert)) r.1 ex [] := by
    rcases hbad with ⟨rfl, h1, h2⟩ | ⟨rfl, h1, h2⟩
    · exact raises_http c search invert r.1 h1 h2
    · exact raises_no_type c search invert r.1 h1 h2
  have := forFiles_each_raise c hc fs files g rest rs r rs' h hg hrs (WarcFilter.filterRecord c search (httpOpts invert))
    (fun r => if httpSelects msg search invert r then r.rewritten.bytes else []) (fun r hm => handles_ready c msg search invert r (hr r hm))
    ex [] hx []
  rw [flatMap_filter (httpSelects msg search invert)] at this
  simpa [WarcFilter.main] using this

/-- the response in `demo1`, its body ends with the connection -/
def demoPage : Http.Message :=
  ⟨.response (b! "HTTP/1.1") 200 (b! "OK"), [], .toEnd (b! "WARC/1.0\r\n\r\n")⟩

/-- the demo files satisfy the hypotheses of `C45_http`, and records are selected and not selected -/
example : (∀ r ∈ allRecords [⟨b! "a.warc", false, demoRT⟩], HttpReady (fun _ => demoPage) r) ∧
    isHttp demo1.R = true ∧ isHttp demo2.R = false ∧ mediaType demoPage = none ∧
    Mode.selects .type (fun v => v == b! "response") demo1.R = true ∧
    Mode.selects .type (fun v => v == b! "response") demo2.R = false := by
  have hok : demoPage.Ok unknownRequest [] := by
    refine ⟨trivial, by unfold Http.Start.Ok demoPage; decide, ?_, ?_, ?_, ?_⟩
    · intro f hf; cases hf
    · exact ⟨.close, by decide, ⟨by simp, by decide, by decide, by decide⟩, rfl⟩
    · rintro ⟨b, hb⟩; cases hb
    · intro v p h; cases h
  refine ⟨?_, by decide +kernel, by decide +kernel, by decide +kernel, by decide +kernel, by decide +kernel⟩
  intro r hr
  simp only [allRecords, demoRT, List.flatMap_cons, List.flatMap_nil, List.append_nil, List.map_cons, List.map_nil, List.mem_cons,
    List.not_mem_nil, or_false] at hr
  rcases hr with rfl | rfl
  · exact ⟨fun _ => by decide +kernel, fun _ => ⟨hok, by decide +kernel⟩⟩
  · have h2 : isHttp demo2.R = false := by decide +kernel
    exact ⟨fun h => by revert h; decide +kernel, fun h => by rw [h2] at h; cases h⟩

/-- broken messages exist: a chunked response cut after 100 bytes -/
example : BrokenHttp (demoChunked.text.take 100) :=
  ⟨demoChunked, demoChunked_ok _ (by simp), rfl, Or.inr ⟨100, by decide +kernel, rfl⟩⟩

end Warc
