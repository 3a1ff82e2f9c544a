import Verif.Proofs.ToolRun
set_option linter.all false
namespace Warc
open Rx Stream Spec
namespace Tool

/-- the record after its content was read -/
def fetched (r : Rec) (p : Bytes) : Rec :=
  { r with content := some (firstValue (b! "Content-Type") r.headers, some p), cfile := .none, cfileValid := false }

/-- the stream after `k` more bytes -/
def used (s : Stream) (hs : List Header) (k : Nat) : Stream := { s.adv k with eoc := some (declaredLength hs - k) }

/-- what `record.content` does right behind the head of a record -/
theorem content_full (s : Stream) (r : Rec) (out : Bytes) (hs : List Header) (o : Option Nat) (v : Bytes) (es : List Err) (hb : Behind s hs) (hr : Bare r) (hh : r.headers = hs) :
    World.content ⟨s, r, out⟩ =
      match (⟨o, v, hs, es, s.fh.rest⟩ : Head).payload with
      | none => .raise .valueError ⟨s, { r with cfile := .none, cfileValid := false }, out⟩
      | some p => .ok (firstValue (b! "Content-Type") hs, some p) ⟨used s hs p.length, fetched r p, out⟩ := by
  subst hh
  have hgt : r.getHeader r.cls.contentTypeName = firstValue (b! "Content-Type") r.headers := by
    simp [Rec.getHeader, lookupHeader_eq, hr.cls, Cls.contentTypeName, WH.CONTENT_TYPE]
  have he := hb.eoc
  unfold Head.payload Head.length
  simp only
  by_cases h : declaredLength r.headers < -1
  · rw [if_pos h]
    have hrd : Stream.read none s = .raise .valueError s := by
      have h0 : ¬ (0 : Int) ≤ declaredLength r.headers := by omega
      have h1 : ¬ (declaredLength r.headers = -1 ∨ s.fh.strictNeg = false) := by rw [hb.strictNeg]; simp; omega
      simp only [Stream.read, M.bind_apply, M.get_apply, he, limitOf, rawRead, onFile, File.read, if_neg h0, if_neg h1]
      rw [← he]
    simp only [World.content, hr.content, World.cfileRead, hr.cfile, World.onStream, hrd, World.clearCfile]
  · rw [if_neg h]
    by_cases h1 : declaredLength r.headers = -1
    · rw [if_pos h1]
      have hrd : Stream.read none s = .ok s.fh.rest (used s r.headers s.fh.rest.length) := by
        have h0 : ¬ (0 : Int) ≤ declaredLength r.headers := by omega
        simp only [Stream.read, M.bind_apply, M.get_apply, he, limitOf, rawRead, onFile, File.read, if_neg h0, if_pos (Or.inl h1), File.deliver, hb.fault,
          consume, M.modify_apply, M.pure_apply, Option.map_some, used]
        rfl
      simp only [World.content, hr.content, World.cfileRead, hr.cfile, World.onStream, hrd, World.clearCfile, hgt, fetched]
    · rw [if_neg h1]
      obtain ⟨n, hn⟩ : ∃ n : Nat, declaredLength r.headers = (n : Int) := ⟨_, (Int.toNat_of_nonneg (by omega)).symm⟩
      have ht : (declaredLength r.headers).toNat = n := by rw [hn]; rfl
      rw [hn] at he
      have hop := op_run (.read none) s n he (Or.inr hb.fault)
      simp only [ReadOp.run, ReadOp.result, Option.map_none] at hop
      have hst : ({ s.adv (s.fh.rest.take n).length with eoc := some ((n - (s.fh.rest.take n).length : Nat) : Int) } : Stream) =
          used s r.headers (s.fh.rest.take n).length := by
        simp only [used, hn]
        have : (s.fh.rest.take n).length ≤ n := by simp; omega
        congr 2; omega
      rw [hst] at hop
      simp only [World.content, hr.content, World.cfileRead, hr.cfile, World.onStream, hop, World.clearCfile, hgt, fetched, ht]

/-- how many bytes reading uses -/
theorem payload_used (h : Head) (p : Bytes) (hp : h.payload = some p) : p.length ≤ h.behind.length ∧ (0 ≤ h.length → (p.length : Int) ≤ h.length) ∧
    (h.length < 0 → p.length = if true then h.behind.length else 0) := by
  unfold Head.payload at hp
  by_cases h1 : h.length < -1
  · rw [if_pos h1] at hp; simp at hp
  · rw [if_neg h1] at hp
    by_cases h2 : h.length = -1
    · rw [if_pos h2] at hp; simp only [Option.some.injEq] at hp; subst hp
      exact ⟨Nat.le_refl _, fun h => by omega, fun _ => by simp⟩
    · rw [if_neg h2] at hp; simp only [Option.some.injEq] at hp; subst hp
      refine ⟨by simp; omega, fun h => by simp; omega, fun h => by omega⟩

theorem did_stops (s : Stream) (hs : List Header) (out text : Bytes) (exc : Exc) (r : Res Tool Unit) (s' : Stream) (h : r = .raise exc ⟨s', out ++ text⟩) :
    Did s hs out r (.stops text exc) := ⟨s', h⟩

theorem did_read (s : Stream) (hs : List Header) (out text : Bytes) (o : Option Nat) (v : Bytes) (es : List Err) (p : Bytes) (r : Res Tool Unit)
    (hp : (⟨o, v, hs, es, s.fh.rest⟩ : Head).payload = some p) (h : r = .ok () ⟨used s hs p.length, out ++ text⟩) :
    Did s hs out r (.goes text true) := by
  obtain ⟨h1, h2, h3⟩ := payload_used _ _ hp
  exact ⟨p.length, h, h1, h2, h3⟩

theorem used_zero (s : Stream) (hs : List Header) (hb : Behind s hs) : used s hs 0 = s := by
  obtain ⟨fh, eoc, kind, parser⟩ := s
  have := hb.eoc
  simp only at this
  subst this
  simp [used, Stream.adv, File.advance_zero]

theorem did_left (s : Stream) (hs : List Header) (hb : Behind s hs) (out text : Bytes) (r : Res Tool Unit) (h : r = .ok () ⟨s, out ++ text⟩) :
    Did s hs out r (.goes text false) :=
  ⟨0, by rw [h]; exact congrArg (fun t => Res.ok () (Tool.mk t (out ++ text))) (used_zero s hs hb).symm, Nat.zero_le _, fun h => by omega, fun _ => rfl⟩

/-! ### copying -/

theorem copyLoop_full (fuel : Nat) (s : Stream) (r : Rec) (out : Bytes) (hs : List Header) (o : Option Nat) (v : Bytes) (es : List Err) (hb : Behind s hs) (hcf : r.cfile = .stream)
    (hfuel : s.fh.rest.length + 1 < fuel) :
    match pouring ⟨o, v, hs, es, s.fh.rest⟩ with
    | .never => False
    | .stops text exc => ∃ s', World.copyLoop fuel ⟨s, r, out⟩ = .raise exc ⟨s', r, out ++ text⟩
    | .goes text took => took = true ∧ World.copyLoop fuel ⟨s, r, out⟩ = .ok () ⟨used s hs text.length, r, out ++ text⟩ ∧
        text = s.fh.rest.take (declaredLength hs).toNat ∧ (declaredLength hs < 0 → s.fh.rest = []) := by
  have he := hb.eoc
  unfold pouring Head.length
  simp only
  obtain ⟨fuel, rfl⟩ : ∃ k, fuel = k + 2 := ⟨fuel - 2, by omega⟩
  by_cases h : declaredLength hs < -1
  · rw [if_pos h]
    refine ⟨s, ?_⟩
    have hrd : Stream.read (some 8192) s = .raise .valueError s := by
      have h0 : ¬ (0 : Int) ≤ declaredLength hs := by omega
      have h1 : ¬ (declaredLength hs = -1 ∨ s.fh.strictNeg = false) := by rw [hb.strictNeg]; simp; omega
      have hm : min (8192 : Int) (declaredLength hs) = declaredLength hs := by omega
      simp only [Stream.read, M.bind_apply, M.get_apply, he, limitOf, hm, rawRead, onFile, File.read, if_neg h0, if_neg h1]
      rw [← he]
    simp only [World.copyLoop, M.bind_apply, World.cfileRead, hcf, World.onStream, hrd]
    simp
  · rw [if_neg h]
    by_cases h1 : declaredLength hs = -1
    · have hrd : Stream.read (some 8192) s = .ok s.fh.rest (used s hs s.fh.rest.length) := by
        have h0 : ¬ (0 : Int) ≤ declaredLength hs := by omega
        have hm : min (8192 : Int) (declaredLength hs) = declaredLength hs := by omega
        simp only [Stream.read, M.bind_apply, M.get_apply, he, limitOf, hm, rawRead, onFile, File.read, if_neg h0, if_pos (Or.inl h1), File.deliver, hb.fault,
          consume, M.modify_apply, M.pure_apply, Option.map_some, used]
        rfl
      by_cases h2 : s.fh.rest = []
      · rw [if_neg (by simp [h2])]
        refine ⟨rfl, ?_, rfl, fun _ => h2⟩
        simp only [h2, List.length_nil] at hrd
        simp only [World.copyLoop, M.bind_apply, World.cfileRead, hcf, World.onStream, hrd, if_true, M.pure_apply, h2, List.take_nil, List.length_nil, List.append_nil]
      · rw [if_pos ⟨h1, h2⟩]
        generalize hu : used s hs s.fh.rest.length = u at hrd
        refine ⟨u, ?_⟩
        have hlen : 0 < s.fh.rest.length := List.length_pos_iff.2 h2
        have hue : u.eoc = some (-1 - (s.fh.rest.length : Int)) := by subst hu; simp only [used, h1]
        have hun : u.fh.strictNeg = true := by subst hu; exact hb.strictNeg
        have hrd2 : Stream.read (some 8192) u = .raise .valueError u := by
          have h0 : ¬ (0 : Int) ≤ -1 - (s.fh.rest.length : Int) := by omega
          have h1' : ¬ (-1 - (s.fh.rest.length : Int) = -1 ∨ u.fh.strictNeg = false) := by rw [hun]; simp; omega
          have hm : min (8192 : Int) (-1 - (s.fh.rest.length : Int)) = -1 - (s.fh.rest.length : Int) := by omega
          simp only [Stream.read, M.bind_apply, M.get_apply, hue, limitOf, hm, rawRead, onFile, File.read, if_neg h0, if_neg h1']
          rw [← hue]
        simp only [World.copyLoop, M.bind_apply, World.cfileRead, hcf, World.onStream, hrd, if_neg h2, World.write, M.modify_apply, hrd2]
    · rw [if_neg (by intro hh; exact h1 hh.1)]
      refine ⟨rfl, ?_, rfl, fun hh => by omega⟩
      obtain ⟨n, hn⟩ : ∃ n : Nat, declaredLength hs = (n : Int) := ⟨_, (Int.toNat_of_nonneg (by omega)).symm⟩
      have ht : (declaredLength hs).toNat = n := by rw [hn]; rfl
      rw [hn] at he
      rw [World.copyLoop_stream (fuel + 2) n ⟨s, r, out⟩ hcf he (Or.inr hb.fault) (by simpa using hfuel), ht]
      simp only
      have hst : ({ s.adv (s.fh.rest.take n).length with eoc := some ((n - (s.fh.rest.take n).length : Nat) : Int) } : Stream) =
          used s hs (s.fh.rest.take n).length := by
        simp only [used, hn]
        have : (s.fh.rest.take n).length ≤ n := by simp; omega
        congr 2; omega
      rw [hst]

theorem writeTo_full (s : Stream) (r : Rec) (out : Bytes) (hs : List Header) (o : Option Nat) (es : List Err) (hb : Behind s hs) (hr : Bare r) (hh : r.headers = hs) :
    match copying ⟨o, r.version, hs, es, s.fh.rest⟩ with
    | .never => False
    | .stops text exc => ∃ s' r', World.writeTo CRLF ⟨s, r, out⟩ = .raise exc ⟨s', r', out ++ text⟩
    | .goes text took => took = true ∧ (declaredLength hs < 0 → s.fh.rest = []) ∧
        ∃ r', World.writeTo CRLF ⟨s, r, out⟩ = .ok () ⟨used s hs (s.fh.rest.take (declaredLength hs).toNat).length, r', out ++ text⟩ := by
  have hhas : World.hasCfile r = true := by simp [World.hasCfile, hr.cfile]
  have hrem : World.cfileRemaining ⟨s, r, out⟩ = s.fh.rest.length := by simp [World.cfileRemaining, hr.cfile]
  have hc := copyLoop_full (s.fh.rest.length + 2) s r (out ++ r.version ++ CRLF ++ r.headers.flatMap headerLine ++ CRLF) hs o r.version es hb hr.cfile (by omega)
  have hkey : World.writeTo CRLF ⟨s, r, out⟩ =
      match World.copyLoop (s.fh.rest.length + 2) ⟨s, r, out ++ r.version ++ CRLF ++ r.headers.flatMap headerLine ++ CRLF⟩ with
      | .ok () w => .ok () (if World.hasCfile w.rcd then { w with out := w.out ++ CRLF ++ CRLF, rcd := { w.rcd with cfileValid := false } }
          else { w with out := w.out ++ CRLF ++ CRLF })
      | .raise e w => .raise e w
      | .hang => .hang := by
    simp only [World.writeTo, hr.cfile, hhas, hr.valid, Bool.not_true, Bool.and_false, Bool.false_eq_true, if_false, World.writeBody, hr.cls,
      M.bind_apply, World.write_apply, World.writeHeaders_file, if_true, hrem]
    cases World.copyLoop (s.fh.rest.length + 2) ⟨s, r, out ++ r.version ++ CRLF ++ r.headers.flatMap headerLine ++ CRLF⟩ <;> rfl
  have hhead : out ++ r.version ++ CRLF ++ r.headers.flatMap headerLine ++ CRLF = out ++ headBytes r.version hs := by
    rw [← hh]; simp [headBytes]
  unfold copying Head.length
  unfold pouring Head.length at hc
  simp only at hc ⊢
  by_cases h : declaredLength hs < -1
  · rw [if_pos h] at hc ⊢
    obtain ⟨s', hc⟩ := hc
    exact ⟨s', r, by rw [hkey, hc, hhead]; simp⟩
  · rw [if_neg h] at hc ⊢
    by_cases h1 : declaredLength hs = -1 ∧ s.fh.rest ≠ []
    · rw [if_pos h1] at hc ⊢
      obtain ⟨s', hc⟩ := hc
      exact ⟨s', r, by rw [hkey, hc, hhead]; simp⟩
    · rw [if_neg h1] at hc ⊢
      obtain ⟨-, hc, -, h3⟩ := hc
      refine ⟨rfl, h3, ?_⟩
      rw [hkey, hc, hhead]
      simp only [hhas, if_true]
      refine ⟨{ r with cfileValid := false }, ?_⟩
      simp only [R.bytes, recordBytes, Head.record, List.append_assoc]

theorem bare_parsed (v : Bytes) (hs : List Header) (es : List Err) : Bare { parsed v hs with errors := es } := by
  constructor <;> rfl

/-- from the writer to what a tool does -/
theorem did_copy (s : Stream) (v : Bytes) (hs : List Header) (es : List Err) (o : Option Nat) (out : Bytes) (hb : Behind s hs) (body : M World Unit)
    (h : body ⟨s, { parsed v hs with errors := es }, out⟩ = World.writeTo CRLF ⟨s, { parsed v hs with errors := es }, out⟩) :
    Did s hs out (withRecord { parsed v hs with errors := es } body ⟨s, out⟩) (copying ⟨o, v, hs, es, s.fh.rest⟩) := by
  have hw := writeTo_full s { parsed v hs with errors := es } out hs o es hb (bare_parsed v hs es) rfl
  have hv : ({ parsed v hs with errors := es } : Rec).version = v := rfl
  rw [hv] at hw
  simp only [withRecord, h]
  cases hcp : copying ⟨o, v, hs, es, s.fh.rest⟩ with
  | never => rw [hcp] at hw; exact absurd hw (by simp)
  | stops text exc =>
    rw [hcp] at hw
    obtain ⟨s', r', hw⟩ := hw
    exact ⟨s', by rw [hw]⟩
  | goes text took =>
    rw [hcp] at hw
    obtain ⟨rfl, h0, r', hw⟩ := hw
    refine ⟨(s.fh.rest.take (declaredLength hs).toNat).length, ?_, by simp; omega, fun h => by simp; omega, fun h => by simp [h0 h]⟩
    rw [hw]; rfl

/-- writing a record whose content was read -/
theorem writeTo_fetched (s : Stream) (v : Bytes) (hs : List Header) (es : List Err) (p out : Bytes) :
    World.writeTo CRLF ⟨s, fetched { parsed v hs with errors := es } p, out⟩ =
      .ok () ⟨s, fetched { parsed v hs with errors := es } p, out ++ (R.rewritten ⟨v, hs, p⟩).bytes⟩ := by
  rw [World.writeTo_tuple _ (firstValue (b! "Content-Type") hs) (some p) rfl rfl rfl]
  simp only [R.rewritten, R.bytes, Option.getD_some]
  rfl

/-! ### the tools -/

theorem performs_copy (act := copying) (h : act = copying) (c : Codec) (z : Http.Zlib) :
    Performs act (fun _ r => withRecord r (Warc2Warc.process c z {})) := by
  subst h
  intro s v hs es o out hb
  refine did_copy s v hs es o out hb _ ?_
  simp [Warc2Warc.process, M.bind_apply]

theorem performs_compress (c : Codec) (z : Http.Zlib) (o' : Warc2Warc.Opts) (hd : o'.decode = false) (hg : o'.gzip = true) :
    Performs (compressing c.enc) (fun _ r => withRecord r (Warc2Warc.process c z o')) := by
  intro s v hs es o out hb
  have hw := writeTo_full s { parsed v hs with errors := es } [] hs o es hb (bare_parsed v hs es) rfl
  have hv : ({ parsed v hs with errors := es } : Rec).version = v := rfl
  rw [hv] at hw
  simp only [withRecord, Warc2Warc.process, hd, hg, M.bind_apply, if_true, Bool.false_eq_true, if_false, M.pure_apply, World.writeToGz]
  unfold compressing
  cases hcp : copying ⟨o, v, hs, es, s.fh.rest⟩ with
  | never => rw [hcp] at hw; exact absurd hw (by simp)
  | stops text exc =>
    rw [hcp] at hw
    obtain ⟨s', r', hw⟩ := hw
    exact ⟨s', by rw [hw]; simp⟩
  | goes text took =>
    rw [hcp] at hw
    obtain ⟨rfl, h0, r', hw⟩ := hw
    refine ⟨(s.fh.rest.take (declaredLength hs).toNat).length, ?_, by simp; omega, fun h => by simp; omega, fun h => by simp [h0 h]⟩
    rw [hw]; simp [used]

theorem contentType_full (s : Stream) (r : Rec) (out : Bytes) (hs : List Header) (o : Option Nat) (v : Bytes) (es : List Err) (hb : Behind s hs) (hr : Bare r) (hh : r.headers = hs) :
    World.contentType ⟨s, r, out⟩ =
      match firstValue (b! "Content-Type") hs with
      | some t => .ok (some t) ⟨s, r, out⟩
      | none => match (⟨o, v, hs, es, s.fh.rest⟩ : Head).payload with
        | none => .raise .valueError ⟨s, { r with cfile := .none, cfileValid := false }, out⟩
        | some p => .ok none ⟨used s hs p.length, fetched r p, out⟩ := by
  have hf := content_full s r out hs o v es hb hr hh
  have hgt : r.getHeader r.cls.contentTypeName = firstValue (b! "Content-Type") hs := by
    simp [Rec.getHeader, lookupHeader_eq, hr.cls, Cls.contentTypeName, WH.CONTENT_TYPE, hh]
  simp only [World.contentType, hr.content, hgt, hf]
  cases hct : firstValue (b! "Content-Type") hs with
  | some t => rfl
  | none =>
    simp only
    cases (⟨o, v, hs, es, s.fh.rest⟩ : Head).payload with
    | none => rfl
    | some p => simp only [hct]

theorem performs_filter (c : Codec) (search : Bytes → Bool) (m : Mode) (invert : Bool) :
    Performs (filtering m search invert) (fun _ r => withRecord r (WarcFilter.filterRecord c search (m.opts invert))) := by
  intro s v hs es o out hb
  have hurl : ({ parsed v hs with errors := es } : Rec).url = firstValue (b! "WARC-Target-URI") hs := by
    simp [Rec.url, parsed, Rec.getHeader, lookupHeader_eq, WH.URL, Cls.urlName]
  have htype : ({ parsed v hs with errors := es } : Rec).type = firstValue (b! "WARC-Type") hs := by
    simp [Rec.type, parsed, Rec.getHeader, lookupHeader_eq, WH.TYPE]
  have hdate : ({ parsed v hs with errors := es } : Rec).date = firstValue (b! "WARC-Date") hs := by
    simp [Rec.date, parsed, Rec.getHeader, lookupHeader_eq, WH.DATE, Cls.dateName]
  have hhs : ({ parsed v hs with errors := es } : Rec).headers = hs := rfl
  -- the cases in which the content is not read
  have key : ∀ (b : Bool) (body : M World Unit),
      body ⟨s, { parsed v hs with errors := es }, out⟩ = WarcFilter.writeIf b ⟨s, { parsed v hs with errors := es }, out⟩ →
      Did s hs out (withRecord { parsed v hs with errors := es } body ⟨s, out⟩) (if b then copying ⟨o, v, hs, es, s.fh.rest⟩ else .goes [] false) := by
    intro b body h
    cases b with
    | true =>
      rw [if_pos rfl]
      exact did_copy s v hs es o out hb body (by rw [h]; rfl)
    | false =>
      rw [if_neg (by simp)]
      exact did_left s hs hb out [] _ (by simp [withRecord, h, WarcFilter.writeIf])
  unfold filtering
  cases m with
  | url =>
    rw [if_neg (by simp [Mode.needsContent])]
    refine key _ _ ?_
    simp only [WarcFilter.filterRecord, Mode.opts, M.bind_apply, M.get_apply, if_true, hurl, hit_matched]
    rfl
  | type =>
    rw [if_neg (by simp [Mode.needsContent])]
    refine key _ _ ?_
    simp only [WarcFilter.filterRecord, Mode.opts, M.bind_apply, M.get_apply, if_true, htype, hit_matched, Bool.false_eq_true, if_false]
    rfl
  | date =>
    rw [if_neg (by simp [Mode.needsContent])]
    refine key _ _ ?_
    simp only [WarcFilter.filterRecord, Mode.opts, M.bind_apply, M.get_apply, if_true, hdate, hit_matched, Bool.false_eq_true, if_false]
    rfl
  | contentType =>
    have hct := contentType_full s { parsed v hs with errors := es } out hs o v es hb (bare_parsed v hs es) rfl
    cases hc : firstValue (b! "Content-Type") hs with
    | some t =>
      rw [hc] at hct
      rw [if_neg (by simp [Mode.needsContent, hc])]
      refine key _ _ ?_
      simp only [WarcFilter.filterRecord, Mode.opts, M.bind_apply, M.get_apply, if_true, hct, hit_matched, Bool.false_eq_true, if_false, Mode.selects, Head.record, hc]
    | none =>
      rw [hc] at hct
      rw [if_pos (by simp [Mode.needsContent, hc])]
      unfold Head.reading
      cases hp : (⟨o, v, hs, es, s.fh.rest⟩ : Head).payload with
      | none =>
        rw [hp] at hct
        refine did_stops s hs out [] _ _ s ?_
        simp [withRecord, WarcFilter.filterRecord, Mode.opts, M.bind_apply, M.get_apply, hct]
      | some p =>
        rw [hp] at hct
        refine did_read s hs out _ o v es p _ hp ?_
        simp only [withRecord, WarcFilter.filterRecord, Mode.opts, M.bind_apply, M.get_apply, if_true, hct, hit_matched, Bool.false_eq_true, if_false]
        have hsel : Mode.selects .contentType search (Head.record ⟨o, v, hs, es, s.fh.rest⟩ p) = matched search none := by
          simp [Mode.selects, Head.record, hc]
        rw [hsel]
        by_cases hb' : (matched search none != invert) = true
        · rw [hb', WarcFilter.writeIf, if_pos rfl, writeTo_fetched]; rfl
        · have : (matched search none != invert) = false := by simpa using hb'
          rw [this]; simp [WarcFilter.writeIf]
  | whole =>
    rw [if_pos (by simp [Mode.needsContent])]
    have hf := content_full s { parsed v hs with errors := es } out hs o v es hb (bare_parsed v hs es) rfl
    unfold Head.reading
    cases hp : (⟨o, v, hs, es, s.fh.rest⟩ : Head).payload with
    | none =>
      rw [hp] at hf
      refine did_stops s hs out [] _ _ s ?_
      simp [withRecord, WarcFilter.filterRecord, Mode.opts, M.bind_apply, M.get_apply, hf]
    | some p =>
      rw [hp] at hf
      refine did_read s hs out _ o v es p _ hp ?_
      have hsel : Mode.selects .whole search (Head.record ⟨o, v, hs, es, s.fh.rest⟩ p) = (WarcFilter.inHeaders search hs || search p) := rfl
      have hx : ∀ a b : Bool, (a ^^ b) = (a != b) := by decide
      have hph : (parsed v hs).headers = hs := rfl
      have hwi : ∀ b : Bool, WarcFilter.writeIf b ⟨used s hs p.length, fetched { parsed v hs with errors := es } p, out⟩ =
          .ok () ⟨used s hs p.length, fetched { parsed v hs with errors := es } p, out ++ if b then (R.rewritten ⟨v, hs, p⟩).bytes else []⟩ := by
        intro b
        cases b with
        | true => rw [WarcFilter.writeIf, if_pos rfl, writeTo_fetched]; rfl
        | false => simp [WarcFilter.writeIf]
      rw [hsel]
      simp only at hf hwi ⊢
      generalize hrd : ({ parsed v hs with errors := es } : Rec) = r at hf hwi ⊢
      have hphs : r.headers = hs := by rw [← hrd]; rfl
      simp only [withRecord, WarcFilter.filterRecord, Mode.opts, M.bind_apply, M.get_apply, hf, Bool.false_eq_true, if_false, hphs]
      cases WarcFilter.inHeaders search hs with
      | true =>
        simp only [if_true, M.bind_apply, M.pure_apply, hx, hwi, Bool.true_or]
        rfl
      | false =>
        simp only [Bool.false_eq_true, if_false, M.bind_apply, M.pure_apply, hx, hwi, Bool.false_or]
        rfl

theorem performs_index (name : Bytes) :
    Performs (indexing name) (fun e r => withRecord r (WarcIndex.indexRecord name e.offset)) := by
  intro s v hs es o out hb
  have ht : ({ parsed v hs with errors := es } : Rec).type = firstValue (b! "WARC-Type") hs := by
    simp [Rec.type, parsed, Rec.getHeader, lookupHeader_eq, WH.TYPE]
  have hu : ({ parsed v hs with errors := es } : Rec).url = firstValue (b! "WARC-Target-URI") hs := by
    simp [Rec.url, parsed, Rec.getHeader, lookupHeader_eq, WH.URL, Cls.urlName]
  have hi : ({ parsed v hs with errors := es } : Rec).id = firstValue (b! "WARC-Record-ID") hs := by
    simp [Rec.id, parsed, Rec.getHeader, lookupHeader_eq, WH.ID]
  have hline : ∀ (p : Bytes) (ct : Option Bytes) (n : Int), ct = firstValue (b! "Content-Type") hs → n = shownLength ⟨v, hs, p⟩ →
      join [32] [name, WarcIndex.offsetText o, WarcIndex.orDash (firstValue (b! "WARC-Type") hs),
        WarcIndex.orDash (firstValue (b! "WARC-Target-URI") hs), WarcIndex.orDash (firstValue (b! "WARC-Record-ID") hs),
        WarcIndex.orDash ct, decimalInt n] ++ [10] = indexLine name o ⟨v, hs, p⟩ := by
    intro p ct n hct hn
    rw [hct, hn, orDash_shown, orDash_shown, orDash_shown, orDash_shown, offsetText_eq]
    simp only [join, indexLine, List.append_assoc]
    cases o <;> rfl
  have hgl : ({ parsed v hs with errors := es } : Rec).getHeader ({ parsed v hs with errors := es } : Rec).cls.contentLengthName =
      firstValue (b! "Content-Length") hs := by
    simp [Rec.getHeader, lookupHeader_eq, parsed, Cls.contentLengthName, WH.CONTENT_LENGTH]
  have hnc : ({ parsed v hs with errors := es } : Rec).content = none := rfl
  have hct := contentType_full s { parsed v hs with errors := es } out hs o v es hb (bare_parsed v hs es) rfl
  have hf := content_full s { parsed v hs with errors := es } out hs o v es hb (bare_parsed v hs es) rfl
  have hfl : ∀ p, World.contentLength ⟨used s hs p.length, fetched { parsed v hs with errors := es } p, out⟩ =
          .ok (p.length : Int) ⟨used s hs p.length, fetched { parsed v hs with errors := es } p, out⟩ := fun p => rfl
  simp only
  generalize hrd : ({ parsed v hs with errors := es } : Rec) = r at ht hu hi hgl hnc hct hf hfl ⊢
  unfold indexing
  simp only
  cases hc : firstValue (b! "Content-Type") hs with
  | some t =>
    rw [hc] at hct
    cases hl : firstValue (b! "Content-Length") hs with
    | some x =>
      simp only
      cases hx : pyInt 10 x with
      | none =>
        rw [if_pos (by simp)]
        refine did_stops s hs out [] _ _ s ?_
        simp only [withRecord, WarcIndex.indexRecord, M.bind_apply, M.get_apply, hct, World.contentLength, hnc, hgl, hl, hx]
        simp
      | some n =>
        rw [if_neg (by simp)]
        refine did_left s hs hb out _ _ ?_
        have hn : n = shownLength ⟨v, hs, []⟩ := by simp only [shownLength, hc, hl, hx, Option.getD_some]
        simp only [withRecord, WarcIndex.indexRecord, M.bind_apply, M.get_apply, hct, World.contentLength, hnc, hgl, hl, hx, World.write, M.modify_apply, ht, hu, hi]
        rw [hline [] (some t) n hc.symm hn]
        rfl
    | none =>
      simp only
      unfold Head.reading
      cases hp : (⟨o, v, hs, es, s.fh.rest⟩ : Head).payload with
      | none =>
        rw [hp] at hf
        refine did_stops s hs out [] _ _ s ?_
        simp only [withRecord, WarcIndex.indexRecord, M.bind_apply, M.get_apply, hct, World.contentLength, hnc, hgl, hl, World.lenContent, hf]
        simp
      | some p =>
        rw [hp] at hf
        refine did_read s hs out _ o v es p _ hp ?_
        have hn : (p.length : Int) = shownLength ⟨v, hs, p⟩ := by simp only [shownLength, hc, hl]
        simp only [withRecord, WarcIndex.indexRecord, M.bind_apply, M.get_apply, hct, World.contentLength, hnc, hgl, hl, World.lenContent, hf, M.pure_apply, World.write, M.modify_apply, ht, hu, hi]
        rw [hline p (some t) _ hc.symm hn]
        rfl
  | none =>
    rw [hc] at hct
    simp only
    unfold Head.reading
    cases hp : (⟨o, v, hs, es, s.fh.rest⟩ : Head).payload with
    | none =>
      rw [hp] at hct
      refine did_stops s hs out [] _ _ s ?_
      simp only [withRecord, WarcIndex.indexRecord, M.bind_apply, M.get_apply, hct]
      simp
    | some p =>
      rw [hp] at hct
      refine did_read s hs out _ o v es p _ hp ?_
      have hn : (p.length : Int) = shownLength ⟨v, hs, p⟩ := by simp only [shownLength, hc]
      have hlen := hfl p
      simp only [withRecord, WarcIndex.indexRecord, M.bind_apply, M.get_apply, hct, hlen, World.write, M.modify_apply, ht, hu, hi]
      rw [hline p none _ hc.symm hn]
      rfl

theorem performs_dump (name : Bytes) : Performs (dumping name) (fun e _ => WarcDump.entry name e) := by
  intro s v hs es o out hb
  have hd := dump_record name o s { parsed v hs with errors := es } out (bare_parsed v hs es) []
  have hf := content_full s { parsed v hs with errors := es } [] hs o v es hb (bare_parsed v hs es) rfl
  rw [hf] at hd
  unfold dumping
  simp only
  cases hp : (⟨o, v, hs, es, s.fh.rest⟩ : Head).payload with
  | none =>
    rw [hp] at hd
    exact ⟨s, hd⟩
  | some p =>
    rw [hp] at hd
    simp only at hd ⊢
    have hblock : dumpBlock name ⟨o, ({ parsed v hs with errors := es } : Rec).version, ({ parsed v hs with errors := es } : Rec).headers, ({ parsed v hs with errors := es } : Rec).errors,
        (firstValue (b! "Content-Type") hs, some p)⟩ = dumpBlock name ⟨o, v, hs, es, (none, some p)⟩ := rfl
    rw [hblock] at hd
    cases hq : dumpBlock name ⟨o, v, hs, es, (none, some p)⟩ with
    | mk text ex =>
      rw [hq] at hd
      cases ex with
      | some ex => exact ⟨_, hd⟩
      | none => exact did_read s hs out text o v es p _ hp hd

theorem performs_extract : Performs extracting (fun _ r => withRecord r (do let b ← WarcFilter.contentBytes; World.write b)) := by
  intro s v hs es o out hb
  have hf := content_full s { parsed v hs with errors := es } out hs o v es hb (bare_parsed v hs es) rfl
  unfold extracting Head.reading
  cases hp : (⟨o, v, hs, es, s.fh.rest⟩ : Head).payload with
  | none =>
    rw [hp] at hf
    refine did_stops s hs out [] _ _ s ?_
    simp only [withRecord, WarcFilter.contentBytes, M.bind_apply, hf]
    simp
  | some p =>
    rw [hp] at hf
    refine did_read s hs out _ o v es p _ hp ?_
    simp only [withRecord, WarcFilter.contentBytes, M.bind_apply, hf, M.pure_apply, World.write, M.modify_apply]

theorem performs_pour (http : M World Unit) :
    ∀ (s : Stream) (v : Bytes) (hs : List Header) (es : List Err) (o : Option Nat) (out : Bytes), Behind s hs → isHttp ⟨v, hs, []⟩ = false →
      (firstValue (b! "WARC-Type") hs = some (b! "response") → firstValue (b! "Content-Type") hs ≠ none) →
    Did s hs out (withRecord { parsed v hs with errors := es } (WarcPayload.dumpPayload http) ⟨s, out⟩) (pouring ⟨o, v, hs, es, s.fh.rest⟩) := by
  intro s v hs es o out hb hh hty
  have htype : ({ parsed v hs with errors := es } : Rec).type = firstValue (b! "WARC-Type") hs := by
    simp [Rec.type, parsed, Rec.getHeader, lookupHeader_eq, WH.TYPE]
  have hc := copyLoop_full (s.fh.rest.length + 2) s { parsed v hs with errors := es } out hs o v es hb rfl (by omega)
  have hrem : World.cfileRemaining ⟨s, { parsed v hs with errors := es }, out⟩ = s.fh.rest.length := rfl
  have hkey : WarcPayload.dumpPayload http ⟨s, { parsed v hs with errors := es }, out⟩ =
      World.copyLoop (s.fh.rest.length + 2) ⟨s, { parsed v hs with errors := es }, out⟩ := by
    by_cases hr : firstValue (b! "WARC-Type") hs = some (b! "response")
    · obtain ⟨t, hct⟩ := Option.ne_none_iff_exists'.1 (hty hr)
      have hctf := contentType_full s { parsed v hs with errors := es } out hs o v es hb (bare_parsed v hs es) rfl
      rw [hct] at hctf
      have hnp : ¬ (startsWith t (b! "application/http") = true) := by
        simp only [isHttp, hr, hct, beq_self_eq_true, Bool.true_and] at hh
        simp only [startsWith]
        intro hx
        rw [← Bool.not_eq_true] at hh
        exact hh hx
      have hr' : ({ parsed v hs with errors := es } : Rec).type = some WT.RESPONSE := by rw [htype, hr]; rfl
      simp only [WarcPayload.dumpPayload, M.bind_apply, M.get_apply, if_pos hr', hctf, if_neg hnp]
      rfl
    · have hr' : ¬ ({ parsed v hs with errors := es } : Rec).type = some WT.RESPONSE := by rw [htype]; exact hr
      simp only [WarcPayload.dumpPayload, M.bind_apply, M.get_apply, if_neg hr']
      rfl
  simp only [withRecord, hkey]
  cases hcp : pouring ⟨o, v, hs, es, s.fh.rest⟩ with
  | never => rw [hcp] at hc; exact absurd hc (by simp)
  | stops text exc =>
    rw [hcp] at hc
    obtain ⟨s', hc⟩ := hc
    exact ⟨s', by rw [hc]⟩
  | goes text took =>
    rw [hcp] at hc
    obtain ⟨rfl, hc, htext, h0⟩ := hc
    refine ⟨text.length, by rw [hc]; rfl, by rw [htext]; simp; omega, fun h => by rw [htext]; simp; omega, fun h => by rw [htext]; simp [h0 h]⟩

theorem performs_payload (http : M World Unit) (s : Stream) (v : Bytes) (hs : List Header) (es : List Err) (o : Option Nat) (out : Bytes) (hb : Behind s hs)
    (hh : isHttp ⟨v, hs, []⟩ = false) :
    Did s hs out (withRecord { parsed v hs with errors := es } (WarcPayload.dumpPayload http) ⟨s, out⟩) (payloading ⟨o, v, hs, es, s.fh.rest⟩) := by
  unfold payloading
  by_cases hc : firstValue (b! "WARC-Type") hs = some (b! "response") ∧ firstValue (b! "Content-Type") hs = none
  · rw [if_pos hc]
    have htype : ({ parsed v hs with errors := es } : Rec).type = some WT.RESPONSE := by
      have : ({ parsed v hs with errors := es } : Rec).type = firstValue (b! "WARC-Type") hs := by
        simp [Rec.type, parsed, Rec.getHeader, lookupHeader_eq, WH.TYPE]
      rw [this, hc.1]; rfl
    have hctf := contentType_full s { parsed v hs with errors := es } out hs o v es hb (bare_parsed v hs es) rfl
    rw [hc.2] at hctf
    unfold Head.reading
    cases hp : (⟨o, v, hs, es, s.fh.rest⟩ : Head).payload with
    | none =>
      rw [hp] at hctf
      refine did_stops s hs out [] _ _ s ?_
      simp only [withRecord, WarcPayload.dumpPayload, M.bind_apply, M.get_apply, if_pos htype, hctf]
      simp
    | some p =>
      rw [hp] at hctf
      refine did_stops s hs out [] _ _ (used s hs p.length) ?_
      simp only [withRecord, WarcPayload.dumpPayload, M.bind_apply, M.get_apply, if_pos htype, hctf, M.throw_apply]
      simp
  · rw [if_neg hc]
    exact performs_pour http s v hs es o out hb hh (fun h1 h2 => hc ⟨h1, h2⟩)

end Tool
end Warc
