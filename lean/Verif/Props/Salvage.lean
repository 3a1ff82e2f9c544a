import Verif.Proofs.Salvage
import Verif.Props.Filter
import Verif.Props.IndexAny
import Verif.Props.Damage
/-
  C89: what the tools have written when reading a damaged file stops.
-/
set_option linter.all false
namespace Warc
open Rx Stream Spec

/-! ### copying records -/

theorem copyLoop_fault (fuel n : Nat) (w : World) (ex : Exc) (hcf : w.rcd.cfile = .stream)
    (he : w.strm.eoc = some (n : Int)) (hlt : w.strm.fh.rest.length < n) (hf : w.strm.fh.fault = some ex)
    (hfuel : w.strm.fh.rest.length < fuel) :
    ∃ w' p, World.copyLoop fuel w = .raise ex w' ∧ w'.out = w.out ++ p ∧ p <+: w.strm.fh.rest := by
  induction fuel generalizing n w with
  | zero => omega
  | succ fuel ih =>
    by_cases hle : min 8192 n ≤ w.strm.fh.rest.length
    · have h8 : 8192 ≤ w.strm.fh.rest.length := by omega
      have hrd : World.cfileRead (some 8192) w = .ok (w.strm.fh.rest.take 8192)
          { w with strm := { w.strm.adv 8192 with eoc := some ((n - 8192 : Nat) : Int) } } := by
        have hm : min (8192 : Int) (n : Int) = ((8192 : Nat) : Int) := by omega
        have h3 : (n : Int) - 8192 = ((n - 8192 : Nat) : Int) := by omega
        simp only [World.cfileRead, hcf, World.onStream, Stream.read, M.bind_apply, M.get_apply, he, limitOf]
        simp only [hm]
        rw [rawRead_ok _ _ h8]
        simp [he, h3]
      have hne : w.strm.fh.rest.take 8192 ≠ [] := by
        intro h0
        have := congrArg List.length h0
        rw [List.length_take, Nat.min_eq_left h8] at this
        simp at this
      obtain ⟨w', p, h1, h2, h3⟩ := ih (n - 8192) { w with out := w.out ++ w.strm.fh.rest.take 8192, strm := { w.strm.adv 8192 with eoc := some ((n - 8192 : Nat) : Int) } }
        hcf rfl (by simp only [adv_fh, File.advance_rest, List.length_drop]; omega) hf
        (by simp only [adv_fh, File.advance_rest, List.length_drop]; omega)
      refine ⟨w', w.strm.fh.rest.take 8192 ++ p, ?_, by rw [h2]; simp, ?_⟩
      · simp only [World.copyLoop, M.bind_apply, hrd, if_neg hne, World.write_apply]
        exact h1
      · simp only [adv_fh, File.advance_rest] at h3
        obtain ⟨q, hq⟩ := h3
        refine ⟨q, ?_⟩
        rw [List.append_assoc, hq, List.take_append_drop]
    · refine ⟨{ w with strm := w.strm.adv w.strm.fh.rest.length }, [], ?_, by simp, by simp⟩
      have : World.cfileRead (some 8192) w = .raise ex { w with strm := w.strm.adv w.strm.fh.rest.length } := by
        have hlt' : w.strm.fh.rest.length < min 8192 n := by omega
        simp only [World.cfileRead, hcf, World.onStream, Stream.read, M.bind_apply, M.get_apply, he, limitOf]
        have hm : min (8192 : Int) (n : Int) = ((min 8192 n : Nat) : Int) := by omega
        simp only [hm]
        rw [rawRead_short_fault _ _ hlt' ex hf]
      simp only [World.copyLoop, M.bind_apply, this]

/-- writing any record whose payload cannot be read to its end: the head and a first part of the payload are written -/
theorem writeTo_fault (s : Stream) (r : Rec) (out : Bytes) (n : Nat) (ex : Exc) (hr : Sane r) (he : s.eoc = some (n : Int))
    (hlt : s.fh.rest.length < n) (hf : s.fh.fault = some ex) :
    ∃ w p, World.writeTo CRLF ⟨s, r, out⟩ = .raise ex w ∧ w.out = out ++ (headBytes r.version r.headers ++ p) ∧ p <+: s.fh.rest := by
  have hhas : World.hasCfile r = true := by simp [World.hasCfile, hr.cfile]
  obtain ⟨w, p, h1, h2, h3⟩ := copyLoop_fault (s.fh.rest.length + 2) n ⟨s, r, out ++ headBytes r.version r.headers⟩ ex hr.cfile he hlt hf (by simp only; omega)
  refine ⟨w, p, ?_, by rw [h2]; simp, h3⟩
  have hbody : World.writeBody CRLF ⟨s, r, out⟩ = .raise ex w := by
    have hrem : World.cfileRemaining ⟨s, r, out⟩ = s.fh.rest.length := by simp [World.cfileRemaining, hr.cfile]
    simp only [World.writeBody, hr.cls, hhas, M.bind_apply, World.write_apply, World.writeHeaders_file, if_true, hrem]
    have : (⟨s, r, out ++ r.version ++ CRLF ++ r.headers.flatMap headerLine ++ CRLF⟩ : World) = ⟨s, r, out ++ headBytes r.version r.headers⟩ := by
      simp [headBytes]
    rw [this, h1]
  simp only [World.writeTo, hr.cfile, hhas, hr.valid, Bool.not_true, Bool.and_false, Bool.false_eq_true, if_false, hbody]

theorem same_next (s : Stream) (n : Nat) (he : s.eoc = some (n : Int)) (hn : n ≤ s.fh.rest.length) (offs : Bool) :
    readRecord offs { s.adv n with eoc := some ((0 : Nat) : Int) } = readRecord offs s := by
  rw [readRecord_neg offs 0 _ rfl (by omega), readRecord_skip offs n s he hn]

theorem short_next (s : Stream) (n : Nat) (hlt : s.fh.rest.length < n) (hf : s.fh.fault = none) (offs : Bool) :
    ∃ t', readRecord offs { s.adv s.fh.rest.length with eoc := some ((n - s.fh.rest.length : Nat) : Int) } =
      .raise (.generic "expected more bytes") t' := by
  obtain ⟨t, ht⟩ := readRecord_short_exc offs (n - s.fh.rest.length)
    { s.adv s.fh.rest.length with eoc := some ((n - s.fh.rest.length : Nat) : Int) } rfl (by
      simp only [adv_fh, File.advance_rest, List.length_drop]; omega)
  have hfx : ({ s.adv s.fh.rest.length with eoc := some ((n - s.fh.rest.length : Nat) : Int) } : Stream).fh.fault = none := hf
  rw [hfx] at ht
  exact ⟨t, ht⟩

theorem unread_next (s : Stream) (n : Nat) (he : s.eoc = some (n : Int)) (hlt : s.fh.rest.length < n) (offs : Bool) :
    ∃ t', readRecord offs s = .raise (s.fh.fault.getD (.generic "expected more bytes")) t' :=
  readRecord_short_exc offs n s he hlt

theorem salvages_writeTo : Tool.Salvages (fun _ => True) (fun _ => World.writeTo CRLF) (fun _ => R.bytes) (fun _ => PartOf) where
  whole := by
    intro o s r out n hr _ he hn
    obtain ⟨r', h⟩ := Tool.copies_writeTo s r out n hr he hn
    exact ⟨_, r', h, same_next s n he hn⟩
  short := by
    intro o s r out n hr _ he hlt hf
    have h := World.writeTo_stream ⟨s, r, out⟩ n hr.cls hr.cfile hr.valid he (Or.inr hf)
    have hl : s.fh.rest.take n = s.fh.rest := List.take_of_length_le (by omega)
    simp only [hl] at h
    exact ⟨_, _, h, short_next s n hlt hf⟩
  fault := by
    intro o s r out n ex hr _ he hlt hf
    obtain ⟨w, p, h1, h2, h3⟩ := writeTo_fault s r out n ex hr he hlt hf
    refine ⟨_, ?_, Or.inl ⟨w, h1, h2⟩⟩
    obtain ⟨q, hq⟩ := h3
    exact ⟨q, by simp [← hq]⟩

theorem salvages_writeToGz (c : Codec) : Tool.Salvages (fun _ => True) (fun _ => World.writeToGz c.enc CRLF) (fun _ r => c.enc r.bytes) (fun _ _ p => p = []) where
  whole := by
    intro o s r out n hr _ he hn
    obtain ⟨r', h⟩ := Tool.copies_writeToGz c s r out n hr he hn
    exact ⟨_, r', h, same_next s n he hn⟩
  short := by
    intro o s r out n hr hP he hlt hf
    obtain ⟨t, r', h, hn⟩ := salvages_writeTo.short none s r [] n hr hP he hlt hf
    refine ⟨t, r', ?_, hn⟩
    simp only [World.writeToGz, h, List.nil_append]
  fault := by
    intro o s r out n ex hr _ he hlt hf
    obtain ⟨w, p, h1, h2, h3⟩ := writeTo_fault s r [] n ex hr he hlt hf
    refine ⟨[], rfl, Or.inl ⟨{ w with out := out }, ?_, by simp⟩⟩
    simp only [World.writeToGz, h1]

/-! ### filtering records -/

theorem salvages_writeIf (b : Bool) : Tool.Salvages (fun _ => True) (fun _ => WarcFilter.writeIf b) (fun _ r => if b then r.bytes else []) (fun _ => PartOf) := by
  cases b with
  | true => exact salvages_writeTo
  | false =>
    refine ⟨?_, ?_, ?_⟩
    · intro o s r out n hr _ he hn
      exact ⟨s, r, by simp [WarcFilter.writeIf], fun _ => rfl⟩
    · intro o s r out n hr _ he hlt hf
      refine ⟨s, r, by simp [WarcFilter.writeIf], fun offs => ?_⟩
      have := unread_next s n he hlt offs
      rw [hf] at this; exact this
    · intro o s r out n ex hr _ he hlt hf
      refine ⟨[], by simp [PartOf], Or.inr ⟨s, r, by simp [WarcFilter.writeIf], fun offs => ?_⟩⟩
      have := unread_next s n he hlt offs
      rw [hf] at this; exact this

theorem writeIf_content (b : Bool) (s : Stream) (r : Rec) (v : Bytes) (hs : List Header) (body out : Bytes) (hc : r.cls = .warc) (hv : r.version = v) (hh : r.headers = hs)
    (hcf : r.cfile = .none) (hct : r.content = some (firstValue (b! "Content-Type") hs, some body)) :
    WarcFilter.writeIf b ⟨s, r, out⟩ = .ok () ⟨s, r, out ++ (if b then (R.rewritten ⟨v, hs, body⟩).bytes else [])⟩ := by
  cases b with
  | true =>
    have := World.writeTo_tuple ⟨s, r, out⟩ _ _ hc hcf hct
    subst hv hh
    simpa [WarcFilter.writeIf, R.rewritten, R.bytes] using this
  | false => simp [WarcFilter.writeIf]

/-- what is searched without reading the content -/
def headMode (m : Mode) (hs : List Header) : Prop :=
  m = .url ∨ m = .type ∨ m = .date ∨ (m = .contentType ∧ firstValue (b! "Content-Type") hs ≠ none)

theorem filter_head (c : Codec) (search : Bytes → Bool) (m : Mode) (i : Bool) (s : Stream) (r : Rec) (out body : Bytes) (hr : Sane r)
    (hm : headMode m r.headers) :
    WarcFilter.filterRecord c search (m.opts i) ⟨s, r, out⟩ =
      WarcFilter.writeIf (m.selects search ⟨r.version, r.headers, body⟩ != i) ⟨s, r, out⟩ ∧ m.copy ⟨r.version, r.headers, body⟩ = ⟨r.version, r.headers, body⟩ := by
  have ht : r.type = firstValue (b! "WARC-Type") r.headers := by
    simp [Rec.type, hr.cls, Rec.getHeader, lookupHeader_eq, WH.TYPE]
  have hu : r.url = firstValue (b! "WARC-Target-URI") r.headers := by
    simp [Rec.url, hr.cls, Rec.getHeader, lookupHeader_eq, WH.URL, Cls.urlName]
  have hd : r.date = firstValue (b! "WARC-Date") r.headers := by
    simp [Rec.date, hr.cls, Rec.getHeader, lookupHeader_eq, WH.DATE, Cls.dateName]
  have hgt : r.getHeader r.cls.contentTypeName = firstValue (b! "Content-Type") r.headers := by
    simp [Rec.getHeader, lookupHeader_eq, hr.cls, Cls.contentTypeName, WH.CONTENT_TYPE]
  rcases hm with rfl | rfl | rfl | ⟨rfl, hct⟩
  · refine ⟨?_, rfl⟩
    simp only [WarcFilter.filterRecord, M.bind_apply, M.get_apply, Mode.opts, if_true, hit_matched, hu]; rfl
  · refine ⟨?_, rfl⟩
    simp only [WarcFilter.filterRecord, M.bind_apply, M.get_apply, Mode.opts, if_true, hit_matched, ht, Bool.false_eq_true, if_false]; rfl
  · refine ⟨?_, rfl⟩
    simp only [WarcFilter.filterRecord, M.bind_apply, M.get_apply, Mode.opts, if_true, hit_matched, hd, Bool.false_eq_true, if_false]; rfl
  · refine ⟨?_, by simp only [Mode.copy, if_neg hct]⟩
    obtain ⟨t, h1⟩ := Option.ne_none_iff_exists'.1 hct
    have h2 : World.contentType ⟨s, r, out⟩ = .ok (some t) ⟨s, r, out⟩ := by
      simp only [World.contentType, hr.content, hgt, h1]
    simp only [WarcFilter.filterRecord, M.bind_apply, M.get_apply, Mode.opts, if_true, Bool.false_eq_true, if_false, h2, hit_matched, Mode.selects, h1]

/-- when the content is read, and this gives `body` -/
theorem filter_content (c : Codec) (search : Bytes → Bool) (m : Mode) (i : Bool) (s t : Stream) (r : Rec) (out body : Bytes) (hr : Sane r)
    (hm : ¬ headMode m r.headers)
    (hct : World.content ⟨s, r, out⟩ = .ok (firstValue (b! "Content-Type") r.headers, some body)
        ⟨t, { r with content := some (firstValue (b! "Content-Type") r.headers, some body), cfile := .none, cfileValid := false }, out⟩) :
    ∃ r', WarcFilter.filterRecord c search (m.opts i) ⟨s, r, out⟩ =
      .ok () ⟨t, r', out ++ (if m.selects search ⟨r.version, r.headers, body⟩ != i then (m.copy ⟨r.version, r.headers, body⟩).bytes else [])⟩ := by
  have hgt : r.getHeader r.cls.contentTypeName = firstValue (b! "Content-Type") r.headers := by
    simp [Rec.getHeader, lookupHeader_eq, hr.cls, Cls.contentTypeName, WH.CONTENT_TYPE]
  have hw : ∀ b, WarcFilter.writeIf b ⟨t, { r with content := some (firstValue (b! "Content-Type") r.headers, some body), cfile := .none, cfileValid := false }, out⟩ =
      .ok () ⟨t, { r with content := some (firstValue (b! "Content-Type") r.headers, some body), cfile := .none, cfileValid := false },
        out ++ (if b then (R.rewritten ⟨r.version, r.headers, body⟩).bytes else [])⟩ :=
    fun b => writeIf_content b t _ r.version r.headers body out hr.cls rfl rfl rfl rfl
  cases m with
  | url => exact absurd (Or.inl rfl) hm
  | type => exact absurd (Or.inr (Or.inl rfl)) hm
  | date => exact absurd (Or.inr (Or.inr (Or.inl rfl))) hm
  | contentType =>
    have h0 : firstValue (b! "Content-Type") r.headers = none := by
      cases hx : firstValue (b! "Content-Type") r.headers with
      | none => rfl
      | some v => exact absurd (Or.inr (Or.inr (Or.inr ⟨rfl, by rw [hx]; simp⟩))) hm
    have h2 : World.contentType ⟨s, r, out⟩ = .ok none ⟨t, { r with content := some (none, some body), cfile := .none, cfileValid := false }, out⟩ := by
      rw [h0] at hct
      simp only [World.contentType, hr.content, hgt, h0, hct]
    rw [h0] at hw
    refine ⟨{ r with content := some (none, some body), cfile := .none, cfileValid := false }, ?_⟩
    simp only [WarcFilter.filterRecord, M.bind_apply, M.get_apply, Mode.opts, if_true, Bool.false_eq_true, if_false, h2, hit_matched, Mode.selects, Mode.copy, h0]
    exact hw _
  | whole =>
    refine ⟨{ r with content := some (firstValue (b! "Content-Type") r.headers, some body), cfile := .none, cfileValid := false }, ?_⟩
    · simp only [WarcFilter.filterRecord, M.bind_apply, M.get_apply, Mode.opts, Bool.false_eq_true, if_false, hct]
      simp only [Mode.selects, Mode.copy]
      by_cases hx : WarcFilter.inHeaders search r.headers = true
      · rw [if_pos hx]
        simp only [M.bind_apply, M.pure_apply]
        rw [show (true ^^ i) = (((r.headers.any fun h => search h.2) || search body) != i) by
          have hx' : (r.headers.any fun h => search h.2) = true := hx
          rw [hx']; cases i <;> rfl]
        exact hw _
      · rw [if_neg hx]
        simp only [M.bind_apply, M.pure_apply]
        rw [show (search body ^^ i) = (((r.headers.any fun h => search h.2) || search body) != i) by
          have hx' : (r.headers.any fun h => search h.2) = false := Bool.eq_false_iff.2 hx
          rw [hx']; cases i <;> cases search body <;> rfl]
        exact hw _

theorem filter_content_raise (c : Codec) (search : Bytes → Bool) (m : Mode) (i : Bool) (s : Stream) (r : Rec) (out : Bytes) (hr : Sane r)
    (hm : ¬ headMode m r.headers) (ex : Exc) (w : World) (hct : World.content ⟨s, r, out⟩ = .raise ex w) :
    WarcFilter.filterRecord c search (m.opts i) ⟨s, r, out⟩ = .raise ex w := by
  have hgt : r.getHeader r.cls.contentTypeName = firstValue (b! "Content-Type") r.headers := by
    simp [Rec.getHeader, lookupHeader_eq, hr.cls, Cls.contentTypeName, WH.CONTENT_TYPE]
  cases m with
  | url => exact absurd (Or.inl rfl) hm
  | type => exact absurd (Or.inr (Or.inl rfl)) hm
  | date => exact absurd (Or.inr (Or.inr (Or.inl rfl))) hm
  | contentType =>
    have h0 : firstValue (b! "Content-Type") r.headers = none := by
      cases hx : firstValue (b! "Content-Type") r.headers with
      | none => rfl
      | some v => exact absurd (Or.inr (Or.inr (Or.inr ⟨rfl, by rw [hx]; simp⟩))) hm
    have h2 : World.contentType ⟨s, r, out⟩ = .raise ex w := by
      simp only [World.contentType, hr.content, hgt, h0, hct]
    simp only [WarcFilter.filterRecord, M.bind_apply, M.get_apply, Mode.opts, if_true, Bool.false_eq_true, if_false, h2]
  | whole =>
    simp only [WarcFilter.filterRecord, M.bind_apply, M.get_apply, Mode.opts, Bool.false_eq_true, if_false, hct]

theorem salvages_filter (c : Codec) (search : Bytes → Bool) (m : Mode) (i : Bool) :
    Tool.Salvages (fun _ => True) (fun _ => WarcFilter.filterRecord c search (m.opts i))
      (fun _ r => if m.selects search r != i then (m.copy r).bytes else []) (fun _ => PartOf) where
  whole := by
    intro o s r out n hr hP he hn
    by_cases hm : headMode m r.headers
    · obtain ⟨h1, h2⟩ := filter_head c search m i s r out (s.fh.rest.take n) hr hm
      simp only [h1, h2]
      exact (salvages_writeIf _).whole o s r out n hr hP he hn
    · obtain ⟨r', h⟩ := filter_content c search m i s _ r out _ hr hm ((content_cases s r out n hr he).1 hn)
      exact ⟨_, r', h, same_next s n he hn⟩
  short := by
    intro o s r out n hr hP he hlt hf
    by_cases hm : headMode m r.headers
    · obtain ⟨h1, h2⟩ := filter_head c search m i s r out s.fh.rest hr hm
      simp only [h1, h2]
      exact (salvages_writeIf _).short o s r out n hr hP he hlt hf
    · obtain ⟨r', h⟩ := filter_content c search m i s _ r out _ hr hm ((content_cases s r out n hr he).2.1 hlt hf)
      exact ⟨_, r', h, short_next s n hlt hf⟩
  fault := by
    intro o s r out n ex hr hP he hlt hf
    by_cases hm : headMode m r.headers
    · obtain ⟨h1, h2⟩ := filter_head c search m i s r out s.fh.rest hr hm
      simp only [h1]
      exact (salvages_writeIf _).fault o s r out n ex hr hP he hlt hf
    · obtain ⟨w, hw, hwo⟩ := (content_cases s r out n hr he).2.2 hlt ex hf
      exact ⟨[], by simp [PartOf], Or.inl ⟨w, filter_content_raise c search m i s r out hr hm ex w hw, by rw [hwo]; simp⟩⟩

/-! ### index lines -/

theorem index_line (name : Bytes) (o : Option Nat) (r : Rec) (body : Bytes) (hr : Sane r) (ct : Option Bytes)
    (hct : ct = firstValue (b! "Content-Type") r.headers) :
      join [32] [name, WarcIndex.offsetText o, WarcIndex.orDash r.type,
        WarcIndex.orDash r.url, WarcIndex.orDash r.id,
        WarcIndex.orDash ct, decimalInt (shownLength ⟨r.version, r.headers, body⟩)] ++ [10] =
      indexLine name o ⟨r.version, r.headers, body⟩ := by
  have ht : r.type = firstValue (b! "WARC-Type") r.headers := by
    simp [Rec.type, hr.cls, Rec.getHeader, lookupHeader_eq, WH.TYPE]
  have hu : r.url = firstValue (b! "WARC-Target-URI") r.headers := by
    simp [Rec.url, hr.cls, Rec.getHeader, lookupHeader_eq, WH.URL, Cls.urlName]
  have hi : r.id = firstValue (b! "WARC-Record-ID") r.headers := by
    simp [Rec.id, hr.cls, Rec.getHeader, lookupHeader_eq, WH.ID]
  rw [ht, hu, hi, hct, Tool.orDash_shown, Tool.orDash_shown, Tool.orDash_shown, Tool.orDash_shown, Tool.offsetText_eq]
  simp only [join, indexLine, List.append_assoc]
  cases o <;> rfl

/-- the index line when nothing is read: both headers are there -/
theorem index_head (name : Bytes) (o : Option Nat) (s : Stream) (r : Rec) (out body : Bytes) (hr : Sane r) (hl : NumericLength r.headers)
    (h1 : firstValue (b! "Content-Type") r.headers ≠ none) (h2 : firstValue (b! "Content-Length") r.headers ≠ none) :
    WarcIndex.indexRecord name o ⟨s, r, out⟩ = .ok () ⟨s, r, out ++ indexLine name o ⟨r.version, r.headers, body⟩⟩ := by
  have hgt : r.getHeader r.cls.contentTypeName = firstValue (b! "Content-Type") r.headers := by
    simp [Rec.getHeader, lookupHeader_eq, hr.cls, Cls.contentTypeName, WH.CONTENT_TYPE]
  have hgl : r.getHeader r.cls.contentLengthName = firstValue (b! "Content-Length") r.headers := by
    simp [Rec.getHeader, lookupHeader_eq, hr.cls, Cls.contentLengthName, WH.CONTENT_LENGTH]
  obtain ⟨t, h1⟩ := Option.ne_none_iff_exists'.1 h1
  obtain ⟨v, h2⟩ := Option.ne_none_iff_exists'.1 h2
  obtain ⟨k, hk⟩ := Option.isSome_iff_exists.1 (hl v h2)
  have h4 : shownLength ⟨r.version, r.headers, body⟩ = k := by simp only [shownLength, h1, h2]; rw [hk]; rfl
  rw [← index_line name o r body hr (some t) h1.symm, h4]
  simp only [WarcIndex.indexRecord, M.bind_apply, M.get_apply, World.contentType, World.contentLength, hr.content, hgt, h1, hgl, h2,
    hk, World.write, M.modify_apply]

/-- the index line when the content is read -/
theorem index_content (name : Bytes) (o : Option Nat) (s t : Stream) (r : Rec) (out body : Bytes) (hr : Sane r)
    (h12 : firstValue (b! "Content-Type") r.headers = none ∨ firstValue (b! "Content-Length") r.headers = none)
    (hct : World.content ⟨s, r, out⟩ = .ok (firstValue (b! "Content-Type") r.headers, some body)
        ⟨t, { r with content := some (firstValue (b! "Content-Type") r.headers, some body), cfile := .none, cfileValid := false }, out⟩) :
    ∃ r', WarcIndex.indexRecord name o ⟨s, r, out⟩ = .ok () ⟨t, r', out ++ indexLine name o ⟨r.version, r.headers, body⟩⟩ := by
  have hgt : r.getHeader r.cls.contentTypeName = firstValue (b! "Content-Type") r.headers := by
    simp [Rec.getHeader, lookupHeader_eq, hr.cls, Cls.contentTypeName, WH.CONTENT_TYPE]
  have hgl : r.getHeader r.cls.contentLengthName = firstValue (b! "Content-Length") r.headers := by
    simp [Rec.getHeader, lookupHeader_eq, hr.cls, Cls.contentLengthName, WH.CONTENT_LENGTH]
  refine ⟨{ r with content := some (firstValue (b! "Content-Type") r.headers, some body), cfile := .none, cfileValid := false }, ?_⟩
  · cases h1 : firstValue (b! "Content-Type") r.headers with
    | none =>
      have h4 : shownLength ⟨r.version, r.headers, body⟩ = body.length := by simp only [shownLength, h1]
      rw [h1] at hct
      rw [← index_line name o r body hr none h1.symm, h4]
      simp only [WarcIndex.indexRecord, M.bind_apply, M.get_apply, World.contentType, World.contentLength, hr.content, hgt, h1,
        World.lenContent, hct, World.write, M.modify_apply, M.pure_apply]
      rfl
    | some ty =>
      have h2 : firstValue (b! "Content-Length") r.headers = none := by
        rcases h12 with h | h
        · rw [h1] at h; cases h
        · exact h
      have h4 : shownLength ⟨r.version, r.headers, body⟩ = body.length := by simp only [shownLength, h1, h2]
      rw [h1] at hct
      rw [← index_line name o r body hr (some ty) h1.symm, h4]
      simp only [WarcIndex.indexRecord, M.bind_apply, M.get_apply, World.contentType, World.contentLength, hr.content, hgt, h1, hgl, h2,
        World.lenContent, hct, World.write, M.modify_apply, M.pure_apply]

theorem index_raise (name : Bytes) (o : Option Nat) (s : Stream) (r : Rec) (out : Bytes) (hr : Sane r)
    (h12 : firstValue (b! "Content-Type") r.headers = none ∨ firstValue (b! "Content-Length") r.headers = none)
    (ex : Exc) (w : World) (hct : World.content ⟨s, r, out⟩ = .raise ex w) :
    WarcIndex.indexRecord name o ⟨s, r, out⟩ = .raise ex w := by
  have hgt : r.getHeader r.cls.contentTypeName = firstValue (b! "Content-Type") r.headers := by
    simp [Rec.getHeader, lookupHeader_eq, hr.cls, Cls.contentTypeName, WH.CONTENT_TYPE]
  have hgl : r.getHeader r.cls.contentLengthName = firstValue (b! "Content-Length") r.headers := by
    simp [Rec.getHeader, lookupHeader_eq, hr.cls, Cls.contentLengthName, WH.CONTENT_LENGTH]
  cases h1 : firstValue (b! "Content-Type") r.headers with
  | none =>
    simp only [WarcIndex.indexRecord, M.bind_apply, M.get_apply, World.contentType, hr.content, hgt, h1, hct]
  | some ty =>
    have h2 : firstValue (b! "Content-Length") r.headers = none := by
      rcases h12 with h | h
      · rw [h1] at h; cases h
      · exact h
    simp only [WarcIndex.indexRecord, M.bind_apply, M.get_apply, World.contentType, World.contentLength, hr.content, hgt, h1, hgl, h2,
      World.lenContent, hct]

theorem salvages_index (name : Bytes) :
    Tool.Salvages NumericLength (WarcIndex.indexRecord name) (fun o r => indexLine name o r) (fun o r p => LineOf name o r p) where
  whole := by
    intro o s r out n hr hP he hn
    obtain ⟨t, r', h1, _, h3⟩ := index_sane name o s r out n hr he hn hP
    exact ⟨t, r', h1, h3⟩
  short := by
    intro o s r out n hr hP he hlt hf
    by_cases h12 : firstValue (b! "Content-Type") r.headers = none ∨ firstValue (b! "Content-Length") r.headers = none
    · obtain ⟨r', h⟩ := index_content name o s _ r out _ hr h12 ((content_cases s r out n hr he).2.1 hlt hf)
      exact ⟨_, r', h, short_next s n hlt hf⟩
    · simp only [not_or] at h12
      refine ⟨s, r, index_head name o s r out s.fh.rest hr hP h12.1 h12.2, fun offs => ?_⟩
      have := unread_next s n he hlt offs
      rw [hf] at this; exact this
  fault := by
    intro o s r out n ex hr hP he hlt hf
    by_cases h12 : firstValue (b! "Content-Type") r.headers = none ∨ firstValue (b! "Content-Length") r.headers = none
    · obtain ⟨w, hw, hwo⟩ := (content_cases s r out n hr he).2.2 hlt ex hf
      exact ⟨[], Or.inl rfl, Or.inl ⟨w, index_raise name o s r out hr h12 ex w hw, by rw [hwo]; simp⟩⟩
    · simp only [not_or] at h12
      refine ⟨_, Or.inr rfl, Or.inr ⟨s, r, index_head name o s r out s.fh.rest hr hP h12.1 h12.2, fun offs => ?_⟩⟩
      have := unread_next s n he hlt offs
      rw [hf] at this; exact this

/-! ### the tools -/

theorem forFiles_stop {α : Type} (f : Bytes → M Bytes Unit) (g : α → Bytes) (o : α → Bytes) (xs : List α) (rest : List Bytes)
    (name : Bytes) (out out' : Bytes) (ex : Exc) (h : ∀ x ∈ xs, ∀ out, f (g x) out = .ok () (out ++ o x))
    (hx : f name (out ++ xs.flatMap o) = .raise ex out') :
    forFiles f (xs.map g ++ name :: rest) out = .raise ex out' := by
  induction xs generalizing out with
  | nil => simp at hx; simp [forFiles, hx]
  | cons n ns ih =>
    simp only [List.map_cons, List.cons_append, forFiles, M.bind_apply, h n (by simp) out]
    exact ih _ (fun x hx => h x (by simp [hx])) (by simpa using hx)

/-- a loop over readable files -/
theorem readable_salvage (c : Codec) (fs : FS) (P : List Header → Prop) (body : M World Unit) (f : R → Bytes) (part : R → Bytes → Prop)
    (hb : Tool.Salvages P (fun _ => body) (fun _ => f) (fun _ => part)) (x : Bytes × List Got) (h : Readable c fs x.1 x.2)
    (hn : ∀ g ∈ x.2, 0 ≤ declaredLength g.headers ∧ P g.headers) (out : Bytes) :
    onArchive c fs .warc none x.1 (Tool.each body) out = .ok () (out ++ x.2.flatMap fun g => f g.record) := by
  obtain ⟨s, rounds, ho, hc⟩ := h
  obtain ⟨s', p, h1, h2⟩ := forEach_salvage P body f part hb rounds (Tool.rounds ⟨s, out⟩) s s out _ (openName_warc c fs x.1 s none ho).1 (fun _ => rfl)
    (by
      intro m hm
      have hm' : (m.version, m.headers) ∈ (met false rounds s).map (fun m => (m.version, m.headers)) := List.mem_map.2 ⟨m, hm, rfl⟩
      rw [met_done _ _ _ _ _ hc] at hm'
      obtain ⟨g, hg, hgm⟩ := List.mem_map.1 hm'
      rw [← (Prod.mk.inj hgm).2]
      exact hn g hg) hc (by simp) (by simp [Tool.rounds])
  have hp : p = [] := by
    rcases h2 with rfl | ⟨ex, r, _, h3, _⟩
    · rfl
    · simp [Collected.stop] at h3
  subst hp
  simp only [onArchive, ho, Tool.each, h1, Collected.stop, finish, if_true, List.append_nil]

/-- a loop over the records of a file that cannot be read to its end -/
theorem damaged_salvage (c : Codec) (fs : FS) (P : List Header → Prop) (body : M World Unit) (f : R → Bytes) (part : R → Bytes → Prop)
    (hb : Tool.Salvages P (fun _ => body) (fun _ => f) (fun _ => part)) (name : Bytes) (s : Stream) (ho : openName c fs .warc none name = .ok s)
    (rounds : Nat) (ex : Exc) (hs : (collect false rounds s).stop = some ex)
    (hn : ∀ m ∈ met false rounds s, 0 ≤ declaredLength m.headers ∧ P m.headers) (out : Bytes) :
    ∃ p, onArchive c fs .warc none name (Tool.each body) out =
        .raise ex (out ++ ((collect false rounds s).records.flatMap fun g => f g.record) ++ p) ∧
      Leftover part s (some ex) ((met false rounds s)[(collect false rounds s).records.length]?) p := by
  obtain ⟨s', p, h1, h2⟩ := forEach_salvage P body f part hb rounds (Tool.rounds ⟨s, out⟩) s s out _ (openName_warc c fs name s none ho).1 (fun _ => rfl)
    hn rfl (by
      intro hh
      simp only [Collected.stop, hh] at hs
      cases hs) (by simp [Tool.rounds])
  rw [hs] at h1 h2
  refine ⟨p, ?_, h2⟩
  simp only [onArchive, ho, Tool.each, h1, finish]

theorem archive_map (gs : List Got) (f : R → R) : (gs.flatMap fun g => (f g.record).bytes) = archive (gs.map fun g => f g.record) := by
  simp [archive, List.flatMap_map]

/-- **C89** `warc2warc` on files of which one, whatever its bytes, cannot be read to its end (so that iterating over its records ends with
an exception): it ends with the same exception, and its output consists of all records of the files before, all records that a reader gets from
the damaged file, and - only if decompression failed inside a record - a first part of that record. -/
theorem C89_copy (c : Codec) (z : Http.Zlib) (fs : FS) (files : List (Bytes × List Got))
    (h : ∀ f ∈ files, Readable c fs f.1 f.2) (hf : ∀ f ∈ files, ∀ g ∈ f.2, 0 ≤ declaredLength g.headers)
    (name : Bytes) (rest : List Bytes) (s : Stream) (ho : openName c fs .warc none name = .ok s) (rounds : Nat) (ex : Exc)
    (hs : (collect false rounds s).stop = some ex) (hn : ∀ m ∈ met false rounds s, 0 ≤ declaredLength m.headers) :
    ∃ p, Warc2Warc.main c z fs {} (files.map Prod.fst ++ name :: rest) [] =
        .raise ex (archive ((files.flatMap Prod.snd ++ (collect false rounds s).records).map Got.record) ++ p) ∧
      Leftover PartOf s (some ex) ((met false rounds s)[(collect false rounds s).records.length]?) p := by
  obtain ⟨p, h1, h2⟩ := damaged_salvage c fs _ (Warc2Warc.process c z {}) R.bytes PartOf salvages_writeTo name s ho rounds ex hs (fun m hm => ⟨hn m hm, trivial⟩)
    ([] ++ files.flatMap fun x => x.2.flatMap fun g => g.record.bytes)
  refine ⟨p, ?_, h2⟩
  have := forFiles_stop (fun name => onArchive c fs .warc none name (Tool.each (Warc2Warc.process c z {}))) Prod.fst
    (fun x => x.2.flatMap fun g => g.record.bytes) files rest name [] _ ex
    (fun x hx out => readable_salvage c fs _ (Warc2Warc.process c z {}) R.bytes PartOf salvages_writeTo x (h x hx) (fun g hg => ⟨hf x hx g hg, trivial⟩) out) h1
  rw [Warc2Warc.main, this]
  simp [archive, List.flatMap_map, List.flatMap_assoc]

/-- **C89** the same for `warc2warc -Z`; of a record in which decompression failed no complete gzip member is written -/
theorem C89_copy_gz (c : Codec) (z : Http.Zlib) (fs : FS) (files : List (Bytes × List Got))
    (h : ∀ f ∈ files, Readable c fs f.1 f.2) (hf : ∀ f ∈ files, ∀ g ∈ f.2, 0 ≤ declaredLength g.headers)
    (name : Bytes) (rest : List Bytes) (s : Stream) (ho : openName c fs .warc none name = .ok s) (rounds : Nat) (ex : Exc)
    (hs : (collect false rounds s).stop = some ex) (hn : ∀ m ∈ met false rounds s, 0 ≤ declaredLength m.headers) :
    Warc2Warc.main c z fs { gzip := true } (files.map Prod.fst ++ name :: rest) [] =
      .raise ex (((files.flatMap Prod.snd ++ (collect false rounds s).records).map Got.record).flatMap fun r => c.enc r.bytes) := by
  obtain ⟨p, h1, h2⟩ := damaged_salvage c fs _ (Warc2Warc.process c z { gzip := true }) (fun r => c.enc r.bytes) (fun _ p => p = []) (salvages_writeToGz c) name s ho rounds ex hs (fun m hm => ⟨hn m hm, trivial⟩)
    ([] ++ files.flatMap fun x => x.2.flatMap fun g => c.enc g.record.bytes)
  have hp : p = [] := by
    rcases h2 with rfl | ⟨_, _, _, _, _, _, h3⟩
    · rfl
    · exact h3
  subst hp
  have := forFiles_stop (fun name => onArchive c fs .warc none name (Tool.each (Warc2Warc.process c z { gzip := true }))) Prod.fst
    (fun x => x.2.flatMap fun g => c.enc g.record.bytes) files rest name [] _ ex
    (fun x hx out => readable_salvage c fs _ (Warc2Warc.process c z { gzip := true }) (fun r => c.enc r.bytes) (fun _ p => p = []) (salvages_writeToGz c) x (h x hx) (fun g hg => ⟨hf x hx g hg, trivial⟩) out) h1
  rw [Warc2Warc.main, this]
  simp [List.flatMap_map, List.flatMap_assoc]

/-- **C89** `warcfilter` (not `-H`) on any files that can be read to their end writes exactly the records that match (with `-i`: that do not). -/
theorem C89_filter_any (c : Codec) (fs : FS) (search : Bytes → Bool) (m : Mode) (invert : Bool) (files : List (Bytes × List Got))
    (h : ∀ f ∈ files, Readable c fs f.1 f.2) (hf : ∀ f ∈ files, ∀ g ∈ f.2, 0 ≤ declaredLength g.headers) :
    WarcFilter.main c fs search (m.opts invert) (files.map Prod.fst) [] =
      .ok () (archive ((((files.flatMap Prod.snd).map Got.record).filter fun r => m.selects search r != invert).map m.copy)) := by
  have := forFiles_ok (fun name => onArchive c fs .warc none name (Tool.each (WarcFilter.filterRecord c search (m.opts invert)))) Prod.fst
    _ files [] (fun x hx out => readable_salvage c fs _ _ _ _ (salvages_filter c search m invert) x (h x hx) (fun g hg => ⟨hf x hx g hg, trivial⟩) out)
  rw [WarcFilter.main, this, ← flatMap_filter (fun r => m.selects search r != invert)]
  simp [List.flatMap_map, List.flatMap_assoc]

/-- **C89** `warcfilter` (not `-H`) with a file that cannot be read to its end: it has written every matching record that a reader gets, and ends
with the reader's exception. -/
theorem C89_filter (c : Codec) (fs : FS) (search : Bytes → Bool) (m : Mode) (invert : Bool) (files : List (Bytes × List Got))
    (h : ∀ f ∈ files, Readable c fs f.1 f.2) (hf : ∀ f ∈ files, ∀ g ∈ f.2, 0 ≤ declaredLength g.headers)
    (name : Bytes) (rest : List Bytes) (s : Stream) (ho : openName c fs .warc none name = .ok s) (rounds : Nat) (ex : Exc)
    (hs : (collect false rounds s).stop = some ex) (hn : ∀ m ∈ met false rounds s, 0 ≤ declaredLength m.headers) :
    ∃ p, WarcFilter.main c fs search (m.opts invert) (files.map Prod.fst ++ name :: rest) [] =
        .raise ex (archive ((((files.flatMap Prod.snd ++ (collect false rounds s).records).map Got.record).filter
          fun r => m.selects search r != invert).map m.copy) ++ p) ∧
      Leftover PartOf s (some ex) ((met false rounds s)[(collect false rounds s).records.length]?) p := by
  obtain ⟨p, h1, h2⟩ := damaged_salvage c fs _ _ _ _ (salvages_filter c search m invert) name s ho rounds ex hs (fun m hm => ⟨hn m hm, trivial⟩)
    ([] ++ files.flatMap fun x => x.2.flatMap fun g => if m.selects search g.record != invert then (m.copy g.record).bytes else [])
  refine ⟨p, ?_, h2⟩
  have := forFiles_stop (fun name => onArchive c fs .warc none name (Tool.each (WarcFilter.filterRecord c search (m.opts invert)))) Prod.fst
    _ files rest name [] _ ex
    (fun x hx out => readable_salvage c fs _ _ _ _ (salvages_filter c search m invert) x (h x hx) (fun g hg => ⟨hf x hx g hg, trivial⟩) out) h1
  rw [WarcFilter.main, this, ← flatMap_filter (fun r => m.selects search r != invert)]
  simp [List.flatMap_map, List.flatMap_assoc]

/-- **C89** `warcindex` with a file on which `read_records` raises: it has written the lines of all records of the files before and of all
records that a reader gets from that file - and, if decompression failed inside a record, perhaps the line of that record - and ends with
the reader's exception. -/
theorem C89_index (c : Codec) (fs : FS) (files : List (Bytes × List Got)) (h : ∀ f ∈ files, ReadableAt c fs f.1 f.2)
    (hf : ∀ f ∈ files, ∀ g ∈ f.2, 0 ≤ declaredLength g.headers ∧ NumericLength g.headers)
    (name : Bytes) (rest : List Bytes) (s : Stream) (ho : openName c fs .warc none name = .ok s) (rounds : Nat) (ex : Exc)
    (hs : (collect true rounds s).exc = some ex) (hn : ∀ m ∈ met true rounds s, 0 ≤ declaredLength m.headers ∧ NumericLength m.headers) :
    ∃ p o, WarcIndex.main c fs (files.map Prod.fst ++ name :: rest) [] =
        .raise ex (b! "#WARC filename offset warc-type warc-subject-uri warc-record-id content-type content-length\n" ++
          (files ++ [(name, (collect true rounds s).records)]).flatMap (fun f => f.2.flatMap fun g => indexLine f.1 g.offset g.record) ++ p) ∧
      Leftover (LineOf name o) s (some ex) ((met true rounds s)[(collect true rounds s).records.length]?) p := by
  obtain ⟨s', p, o, h1, h2⟩ := forRecords_salvage _ _ _ _ (salvages_index name) true rounds (s.fh.rest.length + 2) s s
    (([] ++ WarcIndex.heading) ++ files.flatMap fun f => f.2.flatMap fun g => indexLine f.1 g.offset g.record) _ (openName_warc c fs name s none ho).1
    (fun _ => rfl) hn rfl (by
      intro hh
      simp only [Collected.exc, hh] at hs
      cases hs) (by simp)
  rw [hs] at h1 h2
  refine ⟨p, o, ?_, h2⟩
  have := forFiles_stop (fun name => onArchive c fs .warc none name (Tool.eachEntry true none (WarcIndex.indexRecord name)))
    Prod.fst (fun f => f.2.flatMap fun g => indexLine f.1 g.offset g.record) files rest name ([] ++ WarcIndex.heading)
    ((([] ++ WarcIndex.heading) ++ files.flatMap fun f => f.2.flatMap fun g => indexLine f.1 g.offset g.record) ++
      ((collect true rounds s).records.flatMap fun g => indexLine name g.offset g.record) ++ p) ex
    (by
      intro x hx out
      obtain ⟨s, rounds, l, ho, hc⟩ := h x hx
      obtain ⟨s', he⟩ := index_any x.1 rounds (Tool.rounds ⟨s, out⟩) s s out x.2 l (openName_warc c fs x.1 s none ho).1 (fun _ => rfl)
        (fun g hg => (hf x hx g hg).1) (fun g hg => (hf x hx g hg).2) hc (by simp [Tool.rounds])
      simp only [onArchive, ho, Tool.eachEntry, he])
    (by
      simp only [onArchive, ho, Tool.eachEntry, Tool.rounds, h1, finish])
  simp only [WarcIndex.main, M.bind_apply, M.modify_apply]
  rw [this]
  simp [WarcIndex.heading]

/-! ### cut archives -/

/-- the records that a reader of a damaged file comes across are those of the undamaged one -/
theorem met_like {more : Bytes} {g : Option Exc} {e : Exc} (offs : Bool) (n m : Nat) (s : Stream) (hb : Bad e s)
    (hn : s.fh.rest.length < n) (hm : (ext more g s).fh.rest.length < m) (i : Nat) (a : R) (ha : (met offs n s)[i]? = some a) :
    (met offs m (ext more g s))[i]? = some ⟨a.version, a.headers, a.body ++ more⟩ := by
  induction n generalizing m s i with
  | zero => omega
  | succ n ih =>
    obtain ⟨m, rfl⟩ : ∃ k, m = k + 1 := ⟨m - 1, by omega⟩
    have hl : Like more g e s (readRecord offs) (readRecord offs) := like_readRecord offs hb
    simp only [Like] at hl
    rw [met] at ha ⊢
    cases hq : readRecord offs s with
    | hang => simp [hq] at ha
    | raise e' s1 => simp [hq] at ha
    | ok en s1 =>
      simp only [hq] at hl ha
      obtain ⟨h1, h2, h3⟩ := hl
      simp only [h1]
      cases hr : en.rcd with
      | none => simp [hr] at ha
      | some r =>
        simp only [hr] at ha ⊢
        obtain ⟨s0, off, line, s2, off', _, _, _, _, _, _, _, _, _, hparse, _⟩ := readRecord_inv offs s s1 en hq
        obtain ⟨ho1, ho2⟩ := gives_parseWith _ _ _ _ _ r hparse hr
        have huse := readRecord_uses offs s s1 en r hq hr
        have huse' := readRecord_uses offs _ _ en r h1 hr
        have hc := content_like (more := more) (g := g) h2 r ho1 ho2
        cases i with
        | zero =>
          simp only [List.getElem?_cons_zero, Option.some.injEq] at ha ⊢
          subst ha
          simp only [ext_rest h2]
        | succ i =>
          simp only [List.getElem?_cons_succ] at ha ⊢
          cases hx : World.content ⟨s1, r, []⟩ with
          | hang => simp [hx] at ha
          | raise e' w => simp [hx] at ha
          | ok c w =>
            simp only [hx] at hc ha
            obtain ⟨c1, c2, w', c3, c4⟩ := hc
            simp only [c3, c4]
            have hw : (ext more g w.strm).fh.rest.length ≤ (ext more g s1).fh.rest.length := by
              rw [ext_rest c1, ext_rest h2]; simp only [List.length_append]; omega
            exact ih m w.strm c1 (by omega) (by omega) i ha

/-- what a reader of a cut archive comes across -/
theorem cut_met (c : Codec) (hc : Codec.Laws c) (hx : Codec.Cut c) (rs : List RT) (hok : OkT rs)
    (ms : List Bytes) (m : Bytes) (ms' : List Bytes) (hms : (ms ++ m :: ms').flatten = archiveT rs) (k : Nat)
    (h0 : 0 < k) (hk : k < (c.enc m).length) (h2 : 2 ≤ (ms.flatMap c.enc ++ (c.enc m).take k).length) (name : Bool) (s : Stream)
    (ho : openArchive c (some .warc) name .auto none (ms.flatMap c.enc ++ (c.enc m).take k) = .ok s) (offs : Bool) (n : Nat)
    (hn : s.fh.rest.length < n) (i : Nat) (a : R) (ha : (met offs n s)[i]? = some a) :
    ∃ r, rs[i]? = some r ∧ a.version = r.1.version ∧ a.headers = r.1.headers ∧ (a.body.length ≤ r.1.body.length → a.body <+: r.1.body) := by
  obtain ⟨p, e, ⟨q, hp⟩, hd⟩ := hx.cut ms m k h0 hk
  obtain ⟨cl, hs, hcl⟩ := open_gz c _ name _ _ s (Or.inl rfl) (magic_cut c hc ms m k h2) ho
  have hcl : cl = .warc := by
    rcases hcl with h | h
    · exact (Option.some.inj h).symm
    · exact absurd h.1 (by simp)
  subst hcl
  have r1 : ∀ x, (File.openFile x).rest = x := by intro x; simp [File.openFile, File.rest]
  have hb : Bad e s := by rw [hs]; exact bad_open c _ e _ _ (by rw [hd])
  have hdata : s.fh.rest = ms.flatten ++ p := by rw [hs]; simp [gzipFileOf, r1, hd]; simp [File.rest]
  have hall : (ms.flatten ++ p) ++ (q ++ ms'.flatten) = archiveT rs := by rw [← hms, ← hp]; simp
  have hext : (ext (q ++ ms'.flatten) none s).fh.rest = archiveT rs := by rw [ext_rest hb, hdata, hall]
  have hkind : s.kind = .gzipRecord := by rw [hs]
  have hpar : s.parser = .warc := by rw [hs]; rfl
  have heoc : s.eoc = none := by rw [hs]
  have hfull := collect_archiveT offs ((archiveT rs).length + rs.length + 1) (ext (q ++ ms'.flatten) none s) rs (by show s.kind ≠ _; rw [hkind]; simp)
    heoc rfl hok (fun _ _ => Or.inl hpar) hext (by omega)
  have hep : (ext (q ++ ms'.flatten) none s).fh.pos = 0 := by rw [hs]; rfl
  have hek : (ext (q ++ ms'.flatten) none s).kind = .gzipRecord := hkind
  rw [hek, hep, noted_positions] at hfull
  have hlike := met_like (more := q ++ ms'.flatten) (g := none) offs n ((archiveT rs).length + rs.length + 1) s hb hn (by rw [hext]; omega) i a ha
  have hdone := met_done _ _ _ _ _ hfull
  have hnn : ∀ x ∈ met offs ((archiveT rs).length + rs.length + 1) (ext (q ++ ms'.flatten) none s), 0 ≤ declaredLength x.headers := by
    intro x hx
    have hx' : (x.version, x.headers) ∈ (met offs ((archiveT rs).length + rs.length + 1) (ext (q ++ ms'.flatten) none s)).map (fun m => (m.version, m.headers)) :=
      List.mem_map.2 ⟨x, hx, rfl⟩
    rw [hdone, noted, List.map_map] at hx'
    obtain ⟨r, hr, hrx⟩ := List.mem_map.1 hx'
    rw [← (Prod.mk.inj hrx).2]
    simp only [(hok r hr).1.length]
    omega
  have hcon := met_content _ _ (ext (q ++ ms'.flatten) none s) _ _ hpar hnn hfull
  have hi := congrArg (fun l => l[i]?) hcon
  simp only [List.getElem?_map, hlike, Option.map_some, noted] at hi
  cases hri : rs[i]? with
  | none => simp [hri] at hi
  | some r =>
    simp only [hri, Option.map_some, Option.some.injEq, Got.record, R.mk.injEq] at hi
    obtain ⟨e1, e2, e3⟩ := hi
    refine ⟨r, rfl, e1, e2, ?_⟩
    intro hle
    rw [e2, (hok r (List.mem_of_getElem? hri)).1.length, Int.toNat_natCast] at e3
    have : a.body <+: (a.body ++ (q ++ ms'.flatten)).take r.1.body.length := by
      rw [List.take_append]
      exact ⟨_, by rw [List.take_of_length_le hle]⟩
    rw [e3] at this
    simpa using this

/-- **C89** Recovering a compressed archive that was cut anywhere inside a member (however the records are distributed over the members): `warc2warc`
writes the first `j` records unaltered, among them every record that lies in the undamaged members, and at most a first part of the next
record, and ends with an exception. -/
theorem C89_recover (c : Codec) (hc : Codec.Laws c) (hx : Codec.Cut c) (z : Http.Zlib) (fs : FS) (name : Bytes) (rs : List RT) (hok : OkT rs)
    (ms : List Bytes) (m : Bytes) (ms' : List Bytes) (hms : (ms ++ m :: ms').flatten = archiveT rs) (k : Nat)
    (h0 : 0 < k) (hk : k < (c.enc m).length) (h2 : 2 ≤ (ms.flatMap c.enc ++ (c.enc m).take k).length)
    (hf : fs name = some (ms.flatMap c.enc ++ (c.enc m).take k)) :
    ∃ j e p, Warc2Warc.main c z fs {} [name] [] = .raise e (archive ((rs.take j).map Prod.fst) ++ p) ∧ j ≤ rs.length ∧
      (∀ i (hi : i < rs.length), (archiveT (rs.take i)).length + rs[i].1.core.length ≤ ms.flatten.length → i < j) ∧
      (p = [] ∨ ∃ r, rs[j]? = some r ∧ p <+: r.1.core) := by
  obtain ⟨s, j, e, ho, hcol, hj, hall⟩ := C67_archive c hc hx rs hok ms m ms' hms k h0 hk h2 (nameGz name) .auto (Or.inl rfl) false
  have hmet := cut_met c hc hx rs hok ms m ms' hms k h0 hk h2 (nameGz name) s ho false (s.fh.rest.length + 1) (by omega)
  have hcol := hcol (s.fh.rest.length + 1) (by omega)
  obtain ⟨p, h1, h3⟩ := C89_copy c z fs [] (by simp) (by simp) name [] s (by simp [openName, hf, ho]) (s.fh.rest.length + 1) e
    (by rw [hcol]; rfl) (by
      intro x hx
      obtain ⟨i, hi, hxi⟩ := List.mem_iff_getElem.1 hx
      obtain ⟨r, hr, _, hh, _⟩ := hmet i x (by rw [← hxi]; exact List.getElem?_eq_getElem hi)
      rw [hh, (hok r (List.mem_of_getElem? hr)).1.length]
      omega)
  refine ⟨j, e, p, ?_, hj, hall, ?_⟩
  · rw [hcol] at h1
    simpa [noted, Got.record, Function.comp_def] using h1
  · rcases h3 with rfl | ⟨ex, a, _, _, ha, hlt, hpart⟩
    · exact Or.inl rfl
    · right
      obtain ⟨r, hr, e1, e2, e3⟩ := hmet _ a ha
      rw [hcol] at hr
      have hlen : (noted (rs.take j)).length = j := by simp [noted]; omega
      simp only [hlen] at hr
      refine ⟨r, hr, ?_⟩
      rw [e2, (hok r (List.mem_of_getElem? hr)).1.length] at hlt
      rw [PartOf, e1, e2] at hpart
      have := e3 (by omega)
      refine hpart.trans ?_
      rw [R.core]
      exact (List.prefix_append_right_inj _).2 this

deriving instance DecidableEq for R

/-- a file that ends within its second record -/
def cutFile : Bytes := b! "junk\nWARC/1.0\r\nContent-Length: 3\r\n\r\nabc\r\n\r\nWARC/1.0\r\nContent-Length: 9\r\n\r\nxy"

def cutStream : Stream := ⟨File.openFile cutFile, none, .plain, .warc⟩

/-- both records are copied, the second with what there is of it; then the same exception as that of the reader -/
example (z : Http.Zlib) : Warc2Warc.main toy z (fun _ => some cutFile) {} [b! "a"] [] =
    .raise (.generic "expected more bytes") (archive [⟨b! "WARC/1.0", [(b! "Content-Length", b! "3")], b! "abc"⟩,
      ⟨b! "WARC/1.0", [(b! "Content-Length", b! "9")], b! "xy"⟩]) := by
  obtain ⟨p, h1, h2⟩ := C89_copy toy z (fun _ => some cutFile) [] (by simp) (by simp) (b! "a") [] cutStream
    (openName_plain toy _ _ _ rfl (by decide) (by decide)) 9 (.generic "expected more bytes") (by decide +kernel) (by decide +kernel)
  have hp : p = [] := by
    rcases h2 with rfl | ⟨ex, r, h, _⟩
    · rfl
    · cases h
  subst hp
  have hr : (collect false 9 cutStream).records.map Got.record = [⟨b! "WARC/1.0", [(b! "Content-Length", b! "3")], b! "abc"⟩,
      ⟨b! "WARC/1.0", [(b! "Content-Length", b! "9")], b! "xy"⟩] := by decide +kernel
  simpa [hr] using h1

/-- the hypotheses of `C89_index` for the same file -/
example : (collect true 9 cutStream).exc = some (.generic "expected more bytes") ∧
    (∀ m ∈ met true 9 cutStream, 0 ≤ declaredLength m.headers ∧ (firstValue (b! "Content-Length") m.headers).all (fun v => (pyInt 10 v).isSome) = true) := by
  decide +kernel

/-- two records in two members, the file cut in the second -/
example (z : Http.Zlib) (fs : FS) (hf : fs (b! "a") = some ((perRecord (demoRT.take 1)).flatMap toy.enc ++ (toy.enc (demoRT[1].1.core ++ demoRT[1].2)).take 32)) :
    ∃ j e p, Warc2Warc.main toy z fs {} [b! "a"] [] = .raise e (archive ((demoRT.take j).map Prod.fst) ++ p) ∧ 0 < j ∧
      (p = [] ∨ ∃ r, demoRT[j]? = some r ∧ p <+: r.1.core) := by
  obtain ⟨j, e, p, h1, h2, h3, h4⟩ := C89_recover toy toy_laws toy_cut z fs (b! "a") demoRT demoRT_ok (perRecord (demoRT.take 1)) (demoRT[1].1.core ++ demoRT[1].2) []
    (by decide +kernel) 32 (by decide) (by decide +kernel) (by decide +kernel) hf
  exact ⟨j, e, p, h1, h3 0 (by decide) (by decide +kernel), h4⟩

end Warc
