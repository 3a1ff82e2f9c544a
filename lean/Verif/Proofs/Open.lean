import Verif.Proofs.Scan
import Verif.Spec.Collect
/-
  Opening archives, and programs that read every record with its content.
-/
set_option linter.all false
namespace Warc
open Rx Stream Spec

theorem lookupHeader_eq (name : Bytes) (hs : List Header) : lookupHeader name hs = firstValue name hs := by
  induction hs with
  | nil => rfl
  | cons h hs ih =>
    obtain ⟨k, v⟩ := h
    simp only [lookupHeader, firstValue, ih, eq_comm]

/-- `record.content` of a record just returned by the parser -/
theorem content_parsed (s : Stream) (v : Bytes) (hs : List Header) (n : Nat) (he : s.eoc = some (n : Int))
    (hn : n ≤ s.fh.rest.length) :
    ∃ r', World.content ⟨s, parsed v hs, []⟩ =
      .ok (firstValue (b! "Content-Type") hs, some (s.fh.rest.take n))
        ⟨{ s.adv n with eoc := some 0 }, r', []⟩ := by
  have hop := op_run (.read none) s n he (Or.inl hn)
  simp only [ReadOp.run, ReadOp.result, Option.map_none] at hop
  have hl : (s.fh.rest.take n).length = n := by simp; omega
  rw [hl, Nat.sub_self] at hop
  simp only [World.content, parsed, World.cfileRead, World.onStream, hop, Rec.getHeader, lookupHeader_eq,
    Cls.contentTypeName]
  exact ⟨_, rfl⟩

theorem collect_congr (offs : Bool) (fuel : Nat) (s a : Stream) (h : readRecord offs s = readRecord offs a) :
    collect offs fuel s = collect offs fuel a := by
  cases fuel with
  | zero => rfl
  | succ fuel => simp only [collect, h]

theorem terminator_crlf2 : Terminator (CRLF ++ CRLF) := by
  refine ⟨by decide, by decide⟩

/-- reading a whole well formed archive with all contents -/
theorem collect_archive (offs : Bool) (fuel : Nat) (s : Stream) (rs : List R)
    (hk : s.kind ≠ .gzipFile) (he : s.eoc = none) (hf : s.fh.fault = none)
    (hok : ∀ r ∈ rs, r.Ok) (hm : ∀ r ∈ rs, WarcMode s (r.version ++ CRLF))
    (hr : s.fh.rest = archive rs) (hfuel : rs.length < fuel) :
    collect offs fuel s =
      ⟨expectGot (reported s.kind offs) s.fh.pos rs,
       some ⟨reported s.kind offs (s.fh.pos + (archive rs).length), none, []⟩, .done⟩ := by
  induction rs generalizing fuel s with
  | nil =>
    obtain ⟨fuel, rfl⟩ : ∃ k, fuel = k + 1 := ⟨fuel - 1, by omega⟩
    simp only [collect, readRecord_eof offs s hk he hf hr]
    simp [expectGot, archive]
  | cons r rs ih =>
    obtain ⟨fuel, rfl⟩ : ∃ k, fuel = k + 1 := ⟨fuel - 1, by omega⟩
    have hrok := hok r (by simp)
    have hr' : s.fh.rest = headBytes r.version r.headers ++ (r.body ++ ((CRLF ++ CRLF) ++ archive rs)) := by
      rw [hr]; simp [archive, R.bytes, recordBytes]
    have hhead := readRecord_head offs [] r.version r.headers (r.body ++ ((CRLF ++ CRLF) ++ archive rs)) s hk he
      ⟨by simp, Or.inl rfl⟩ hrok.version hrok.headers (hm r (by simp)) hr'
    rw [hrok.length] at hhead
    simp only [List.length_nil, Nat.zero_add, Nat.add_zero] at hhead
    simp only [collect, hhead]
    have hrest : (s.adv (headBytes r.version r.headers).length).fh.rest = r.body ++ ((CRLF ++ CRLF) ++ archive rs) := by
      rw [adv_fh, File.advance_rest, hr']; simp
    obtain ⟨r', hc⟩ := content_parsed { s.adv (headBytes r.version r.headers).length with
        eoc := some (r.body.length : Int) } r.version r.headers r.body.length rfl (by
          show r.body.length ≤ (s.adv (headBytes r.version r.headers).length).fh.rest.length
          rw [hrest]; simp)
    simp only [hc]
    have htake : (s.adv (headBytes r.version r.headers).length).fh.rest.take r.body.length = r.body := by
      rw [hrest]; simp
    simp only [htake]
    have hneg := readRecord_neg offs 0 { (({ s.adv (headBytes r.version r.headers).length with
        eoc := some (r.body.length : Int) } : Stream).adv r.body.length) with eoc := some 0 } rfl (by omega)
    have hs2 : ({ ({ (({ s.adv (headBytes r.version r.headers).length with
        eoc := some (r.body.length : Int) } : Stream).adv r.body.length) with eoc := some 0 } : Stream) with eoc := none } : Stream)
        = s.adv r.core.length := by
      obtain ⟨fh, eoc, kind, parser⟩ := s
      simp at he; subst he
      simp [adv, R.core]
    have hterm := readRecord_terminator offs (CRLF ++ CRLF) (archive rs) (s.adv r.core.length) he
      terminator_crlf2 (by rw [adv_fh, File.advance_rest, hr']; simp [R.core])
    rw [hs2, hterm, adv_adv] at hneg
    rw [collect_congr offs fuel _ _ hneg]
    have hlen : r.core.length + (CRLF ++ CRLF).length = r.bytes.length := by
      simp [R.core, R.bytes, recordBytes]; omega
    rw [hlen, ih fuel (s.adv r.bytes.length) hk he hf (fun x hx => hok x (by simp [hx]))
      (fun x hx => hm x (by simp [hx])) (by
        rw [adv_fh, File.advance_rest, hr]; simp [archive]) (by simp at hfuel; omega)]
    simp [expectGot, archive, parsed, Nat.add_assoc]

/-! ### detection -/
namespace Detect

theorem isGzipFile_apply (f : File) (hf : f.fault = none) :
    isGzipFile f = .ok (f.rest.take 2 == [0x1f, 0x8b]) f := by
  have h2 : (2 : Int) = ((2 : Nat) : Int) := rfl
  have hread : File.read (some 2) f = .ok (f.rest.take 2) (f.advance (f.rest.take 2).length) := by
    rw [h2]
    by_cases hle : 2 ≤ f.rest.length
    · rw [fileRead_ok f 2 hle]
      congr 2; simp; omega
    · rw [fileRead_short f 2 (by omega) hf]
      rw [List.take_of_length_le (by omega)]
  simp only [isGzipFile, M.bind_apply, hread]
  simp only [File.seek, File.advance_pos]
  have : (((f.pos + (f.rest.take 2).length : Nat) : Int) + -((f.rest.take 2).length : Int)).toNat = f.pos := by
    omega
  rw [if_neg (by decide), if_pos trivial, this]
  simp [File.advance]

theorem seek_tell (f : File) (n : Nat) : File.seek (f.tell : Int) 0 (f.advance n) = .ok () f := by
  simp [File.seek, File.tell, File.advance]

theorem guess_plain (c : Codec) (f : File) (hf : f.fault = none)
    (hg : f.rest.take 2 ≠ [0x1f, 0x8b]) :
    guessRecordType c f = .ok (classify (File.firstLine f.rest)) f := by
  have : (f.rest.take 2 == [0x1f, 0x8b]) = false := by simpa using hg
  simp only [guessRecordType, isGzipFile_apply f hf, this, M.bind_apply, fileReadline_ok f (Or.inl hf),
    seek_tell, M.pure_apply]

theorem guess_gzip (c : Codec) (f : File) (hf : f.fault = none)
    (hg : f.rest.take 2 = [0x1f, 0x8b])
    (hd : (c.dec f.rest).2 = none ∨ 10 ∈ (c.dec f.rest).1) :
    guessRecordType c f = .ok (classify (File.firstLine (c.dec f.rest).1)) f := by
  have : (f.rest.take 2 == [0x1f, 0x8b]) = true := by simpa using hg
  have h0 := seek_tell f 0
  rw [File.advance_zero] at h0
  have hrest : (gzipFileOf c f).rest = (c.dec f.rest).1 := by simp [gzipFileOf, File.rest]
  have hl := fileReadline_ok (gzipFileOf c f) (by rw [hrest]; exact hd)
  rw [hrest] at hl
  simp only [guessRecordType, isGzipFile_apply f hf, this, M.bind_apply, hl,
    h0, M.pure_apply]

end Detect

/-! ### opening -/

theorem openArchive_plain (c : Codec) (cls : Option RecClass) (k : RecClass) (gz : GzMode)
    (data : Bytes) (hgz : gz = .auto ∨ gz = .off)
    (hcls : cls = some k ∨ cls = none ∧ Detect.classify (File.firstLine data) = some k)
    (hg : data.take 2 ≠ [0x1f, 0x8b]) :
    openArchive c cls false gz none data = .ok ⟨File.openFile data, none, .plain, k.makeParser⟩ := by
  have hf : (File.openFile data).fault = none := rfl
  have hrest : (File.openFile data).rest = data := by simp [File.openFile, File.rest]
  have hgu := Detect.guess_plain c (File.openFile data) hf (by rw [hrest]; exact hg)
  have hb : (data.take 2 == [0x1f, 0x8b]) = false := by simpa using hg
  have his := Detect.isGzipFile_apply (File.openFile data) hf
  rw [hrest] at hgu his
  rw [hb] at his
  rcases hcls with rfl | ⟨rfl, hcl⟩ <;> rcases hgz with rfl | rfl <;>
    simp [openArchive, openRecordStream, hgu, his, *]

theorem openArchive_gzip (c : Codec) (cls : Option RecClass) (k : RecClass) (name : Bool) (gz : GzMode)
    (data : Bytes) (hgz : gz = .auto ∨ gz = .record)
    (hcls : cls = some k ∨ cls = none ∧ Detect.classify (File.firstLine (c.dec data).1) = some k)
    (hg : data.take 2 = [0x1f, 0x8b]) (hd : (c.dec data).2 = none ∨ 10 ∈ (c.dec data).1) :
    openArchive c cls name gz none data =
      .ok ⟨gzipFileOf c (File.openFile data), none, .gzipRecord, k.makeParser⟩ := by
  have hf : (File.openFile data).fault = none := rfl
  have hrest : (File.openFile data).rest = data := by simp [File.openFile, File.rest]
  have hgu := Detect.guess_gzip c (File.openFile data) hf (by rw [hrest]; exact hg) (by rw [hrest]; exact hd)
  have hb : (data.take 2 == [0x1f, 0x8b]) = true := by simpa using hg
  have his := Detect.isGzipFile_apply (File.openFile data) hf
  rw [hrest] at hgu his
  rw [hb] at his
  rcases hcls with rfl | ⟨rfl, hcl⟩ <;> rcases hgz with rfl | rfl <;> cases name <;>
    simp [openArchive, openRecordStream, hgu, his, *]

theorem classify_version (line : Bytes) (p) (h : vspec line = some p) : Detect.classify line = some .warc := by
  have : rxTest versionRx line = true := by simp [rxTest, pmatch_versionRx, h]
  simp [Detect.classify, this]

theorem classify_nil : Detect.classify [] = some .warc := by decide

theorem versionOk_not_gzip {v x : Bytes} (h : VersionOk v) : (v ++ x).take 2 ≠ [0x1f, 0x8b] := by
  obtain ⟨w, t, n, rfl, hw, hw10, ht, hn⟩ := h
  have hfirst : ∃ c cs, w ++ t ++ n ++ x = c :: cs ∧ c ≠ 0x1f := by
    cases w with
    | nil =>
      cases t with
      | nil => simp [lower] at ht
      | cons c cs =>
        refine ⟨c, cs ++ n ++ x, by simp, ?_⟩
        rintro rfl
        simp only [lower, List.map_cons, List.cons.injEq] at ht
        exact absurd ht.1 (by decide)
    | cons c cs =>
      refine ⟨c, cs ++ t ++ n ++ x, by simp, ?_⟩
      rintro rfl
      exact absurd (hw 0x1f (by simp)) (by decide)
  obtain ⟨c, cs, h1, h2⟩ := hfirst
  rw [h1]
  cases cs with
  | nil => simp
  | cons d ds => simp [h2]

/-- the first line of a non-empty archive is a version line -/
theorem archive_firstLine (r : R) (rs : List R) (hok : r.Ok) :
    File.firstLine (archive (r :: rs)) = r.version ++ CRLF := by
  have : archive (r :: rs) = (r.version ++ [13]) ++ 10 :: (r.headers.flatMap headerLine ++ CRLF ++ r.body ++ CRLF ++ CRLF ++ archive rs) := by
    simp [archive, R.bytes, recordBytes, headBytes]
  rw [this, File.firstLine_append _ _ (by simp [versionOk_noLF hok.version])]
  simp

theorem archive_classify (rs : List R) (hok : ∀ r ∈ rs, r.Ok) :
    Detect.classify (File.firstLine (archive rs)) = some .warc := by
  cases rs with
  | nil => exact classify_nil
  | cons r rs =>
    rw [archive_firstLine r rs (hok r (by simp))]
    obtain ⟨n, _, hv⟩ := vspec_versionOk (hok r (by simp)).version
    exact classify_version _ _ hv

theorem archive_not_gzip (rs : List R) (hok : ∀ r ∈ rs, r.Ok) : (archive rs).take 2 ≠ [0x1f, 0x8b] := by
  cases rs with
  | nil => simp [archive]
  | cons r rs =>
    have : archive (r :: rs) = r.version ++ (CRLF ++ r.headers.flatMap headerLine ++ CRLF ++ r.body ++ CRLF ++ CRLF ++ archive rs) := by
      simp [archive, R.bytes, recordBytes, headBytes]
    rw [this]
    exact versionOk_not_gzip (hok r (by simp)).version

theorem writeToGz_tuple (c : Codec) (it : Item) (out : Bytes) :
    ∃ w, World.writeToGz c.enc CRLF ⟨⟨File.ofBytes [], none, .plain, .warc⟩, it.record, out⟩ = .ok () w ∧
      w.out = out ++ c.enc it.R.bytes := by
  simp only [World.writeToGz]
  rw [World.writeTo_tuple _ it.ctype (some it.body) rfl rfl rfl]
  exact ⟨_, rfl, by simp [R.bytes, Item.R, Item.record, Rec.mkWarc]⟩

theorem writeAllGz_ok (c : Codec) (its : List Item) (out : Bytes) :
    writeAllGz c its out = some (out ++ (its.map fun it => it.R.bytes).flatMap c.enc) := by
  induction its generalizing out with
  | nil => simp [writeAllGz]
  | cons it its ih =>
    obtain ⟨w, h1, h2⟩ := writeToGz_tuple c it out
    simp only [writeAllGz, h1, h2, ih]
    simp

end Warc
