import Verif.Spec.Extract
import Verif.Proofs.ToolDemo
/-
  C51: warcextract and warcpayload.
-/
set_option linter.all false
namespace Warc
open Rx Stream Spec

theorem core_not_gzip (r : R) (h : r.Ok) (x : Bytes) : (r.core ++ x).take 2 ≠ [0x1f, 0x8b] := by
  have h2 := versionOk_not_gzip (x := CRLF ++ r.headers.flatMap headerLine ++ CRLF ++ r.body ++ x) h.version
  simpa [R.core, headBytes] using h2

theorem gzipFileOf_rest (c : Codec) (F : File) : (gzipFileOf c F).rest = (c.dec F.rest).1 := by
  simp [gzipFileOf, File.rest]

theorem core_ne_nil (r : R) : r.core ≠ [] := by
  simp [R.core, headBytes]

/-- a stream that is just before the record `r` -/
structure Before (s : Stream) (r : R) : Prop where
  kind : s.kind ≠ .gzipFile
  eoc : s.eoc = none
  parser : s.parser = .warc
  rest : ∃ after, s.fh.rest = r.core ++ after

theorem first_of (s : Stream) (r : R) (hok : r.Ok) (h : Before s r) :
    ∃ s1 o, readRecord false s = .ok ⟨o, some (parsed r.version r.headers), []⟩ s1 ∧
      s1.eoc = some (r.body.length : Int) ∧ ∃ more, s1.fh.rest = r.body ++ more := by
  obtain ⟨after, hr⟩ := h.rest
  obtain ⟨s1, h1, h2, h3, _⟩ := first_record false s r [] after h.kind h.eoc hok ⟨by simp, Or.inl rfl⟩ (Or.inl h.parser) (by simpa using hr)
  exact ⟨s1, _, h1, h2, _, h3⟩

theorem dumpRecord_before (s : Stream) (r : R) (hok : r.Ok) (h : Before s r) (out : Bytes) :
    ∃ t, WarcExtract.dumpRecord ⟨s, out⟩ = .ok () ⟨t, out ++ r.body⟩ := by
  obtain ⟨s1, o, h1, h2, h3⟩ := first_of s r hok h
  simp only [WarcExtract.dumpRecord, M.bind_apply, Tool.onStream, h1, Tool.withRecord, WarcFilter.contentBytes,
    Tool.content_read s1 r out h2 h3, M.pure_apply, World.write, M.modify_apply]
  exact ⟨_, rfl⟩

theorem plain_before (c : Codec) (fs : FS) (name : Bytes) (off : Nat) (r : R) (h : PlainAt fs name off r) :
    ∃ contents s, fs name = some contents ∧ openName c fs .warc none name = .ok s ∧
      ∃ s', WarcExtract.seekFresh c contents off s = .ok () s' ∧ Before s' r := by
  obtain ⟨hok, hn, before, after, hfs, rfl, hg⟩ := h
  have hng : nameGz name = false := by
    rw [nameGz, Bool.eq_false_iff]; exact fun hh => hn ((endsWith_iff _ _).1 hh)
  refine ⟨_, ⟨File.openFile (before ++ (r.core ++ after)), none, .plain, .warc⟩, hfs, ?_,
    ⟨{ File.openFile (before ++ (r.core ++ after)) with pos := before.length }, none, .plain, .warc⟩, ?_, ⟨by simp, rfl, rfl, after, ?_⟩⟩
  · simp only [openName, hfs, hng]
    exact openArchive_plain c (some .warc) .warc .auto _ (Or.inl rfl) (Or.inl rfl) hg
  · simp [WarcExtract.seekFresh, Stream.seek, onFile, File.seek]
  · simp [File.rest, File.openFile]

theorem gz_before (c : Codec) (hc : Codec.Laws c) (fs : FS) (name : Bytes) (off : Nat) (r : R) (h : CompressedAt c fs name off r) :
    ∃ contents s, fs name = some contents ∧ openName c fs .warc none name = .ok s ∧
      ∃ s', WarcExtract.seekFresh c contents off s = .ok () s' ∧ Before s' r := by
  obtain ⟨hok, before, after, ms, hfs, hms, rfl, hg⟩ := h
  refine ⟨_, ⟨gzipFileOf c (File.openFile (before ++ ms.flatMap c.enc)), none, .gzipRecord, .warc⟩, hfs, ?_,
    ⟨gzipFileOf c { File.openFile (before ++ ms.flatMap c.enc) with pos := before.length }, none, .gzipRecord, .warc⟩, ?_,
    ⟨by simp, rfl, rfl, after, ?_⟩⟩
  · simp only [openName, hfs]
    cases hz : nameGz name with
    | true => exact openArchive_named c .warc _
    | false =>
      have hsig : (before ++ ms.flatMap c.enc).take 2 = [0x1f, 0x8b] := by
        rcases hg with hg | hg
        · rw [nameGz, (endsWith_iff _ _).2 hg] at hz; cases hz
        · exact hg
      have his := Detect.isGzipFile_apply (File.openFile (before ++ ms.flatMap c.enc)) rfl
      have hrest : (File.openFile (before ++ ms.flatMap c.enc)).rest = before ++ ms.flatMap c.enc := by simp [File.openFile, File.rest]
      rw [hrest, hsig] at his
      simp [openArchive, openRecordStream, his, RecClass.makeParser]
  · simp [WarcExtract.seekFresh]
  · have : ({ File.openFile (before ++ ms.flatMap c.enc) with pos := before.length } : File).rest = ms.flatMap c.enc := by
      simp [File.rest, File.openFile]
    rw [gzipFileOf_rest, this, hc.members, hms]

/-- **C51** `warcextract file offset` writes exactly the payload of the record that starts at that offset of an uncompressed
file, whatever stands before and after it. -/
theorem C51_extract (c : Codec) (fs : FS) (name : Bytes) (off : Nat) (r : R) (h : PlainAt fs name off r) (out : Bytes) :
    WarcExtract.main c fs name off out = .ok () (out ++ r.body) := by
  obtain ⟨contents, s, h1, h2, s', h3, h4⟩ := plain_before c fs name off r h
  obtain ⟨t, h5⟩ := dumpRecord_before s' r h.1 h4 out
  simp only [WarcExtract.main, onArchive, h2, M.bind_apply, Tool.onStream, h1, Option.getD_some, h3, h5]

/-- **C51** The same for compressed files, with the offset of a gzip member that starts with the record. -/
theorem C51_extract_gz (c : Codec) (hc : Codec.Laws c) (fs : FS) (name : Bytes) (off : Nat) (r : R)
    (h : CompressedAt c fs name off r) (out : Bytes) :
    WarcExtract.main c fs name off out = .ok () (out ++ r.body) := by
  obtain ⟨contents, s, h1, h2, s', h3, h4⟩ := gz_before c hc fs name off r h
  obtain ⟨t, h5⟩ := dumpRecord_before s' r h.1 h4 out
  simp only [WarcExtract.main, onArchive, h2, M.bind_apply, Tool.onStream, h1, Option.getD_some, h3, h5]

theorem positions_split (rs : List RT) (start pos : Nat) (r : R) (h : (pos, r) ∈ positions start rs) :
    ∃ rs1 T rs2, rs = rs1 ++ (r, T) :: rs2 ∧ pos = start + (archiveT rs1).length := by
  induction rs generalizing start with
  | nil => cases h
  | cons x rs ih =>
    rcases List.mem_cons.1 h with h | h
    · cases h
      exact ⟨[], x.2, rs, rfl, by simp [archiveT]⟩
    · obtain ⟨rs1, T, rs2, rfl, rfl⟩ := ih _ h
      refine ⟨x :: rs1, T, rs2, rfl, ?_⟩
      simp [archiveT, Nat.add_assoc]

/-- **C51** Every offset that a scan (or `warcindex`) reports for an uncompressed archive leads `warcextract` to the payload
of that record. -/
theorem C51_extract_indexed (c : Codec) (fs : FS) (name : Bytes) (rs : List RT) (h : Stored c fs name false rs)
    (pos : Nat) (r : R) (hp : (pos, r) ∈ positions 0 rs) (out : Bytes) :
    WarcExtract.main c fs name pos out = .ok () (out ++ r.body) := by
  obtain ⟨hok, h⟩ := h
  simp only [Bool.false_eq_true, if_false] at h
  obtain ⟨rs1, T, rs2, rfl, rfl⟩ := positions_split rs 0 pos r hp
  have hsplit : archiveT (rs1 ++ (r, T) :: rs2) = archiveT rs1 ++ (r.core ++ (T ++ archiveT rs2)) := by simp [archiveT]
  refine C51_extract c fs name _ r ⟨(hok (r, T) (by simp)).1, h.2, archiveT rs1, T ++ archiveT rs2, ?_, by simp, ?_⟩ out
  · rw [h.1, hsplit]
  · rw [← hsplit]; exact archiveT_not_gzip _ hok

/-! ### warcpayload -/

/-- not an HTTP response: another type, or a response with another content type -/
def NotHttp (r : R) : Prop :=
  firstValue (b! "WARC-Type") r.headers ≠ some (b! "response") ∨
  ∃ t, firstValue (b! "Content-Type") r.headers = some t ∧ ¬ b! "application/http" <+: t

theorem handles_copy (r : R) (s : Stream) (out : Bytes) (he : s.eoc = some (r.body.length : Int))
    (hr : ∃ more, s.fh.rest = r.body ++ more) :
    ∃ s', World.copyLoop (World.cfileRemaining ⟨s, parsed r.version r.headers, out⟩ + 2) ⟨s, parsed r.version r.headers, out⟩ =
      .ok () ⟨s', parsed r.version r.headers, out ++ r.body⟩ := by
  obtain ⟨more, hr⟩ := hr
  have hn : r.body.length ≤ s.fh.rest.length := by rw [hr]; simp
  have ht : s.fh.rest.take r.body.length = r.body := by rw [hr]; simp
  have := World.copyLoop_stream (World.cfileRemaining ⟨s, parsed r.version r.headers, out⟩ + 2) r.body.length
    ⟨s, parsed r.version r.headers, out⟩ rfl he (Or.inl hn) (by simp [World.cfileRemaining, parsed])
  simp only [ht] at this
  exact ⟨_, this⟩

theorem dumpPayload_copy (http : M World Unit) (r : R) (hn : NotHttp r) (s : Stream) (out : Bytes)
    (he : s.eoc = some (r.body.length : Int)) (hr : ∃ more, s.fh.rest = r.body ++ more) :
    ∃ s', WarcPayload.dumpPayload http ⟨s, parsed r.version r.headers, out⟩ =
      .ok () ⟨s', parsed r.version r.headers, out ++ r.body⟩ := by
  have ht : (parsed r.version r.headers).type = firstValue (b! "WARC-Type") r.headers := by
    simp [Rec.type, parsed, Rec.getHeader, lookupHeader_eq, WH.TYPE]
  obtain ⟨s', hc⟩ := handles_copy r s out he hr
  refine ⟨s', ?_⟩
  simp only [WarcPayload.dumpPayload, M.bind_apply, M.get_apply]
  by_cases hresp : firstValue (b! "WARC-Type") r.headers = some WT.RESPONSE
  · rw [if_pos (by rw [ht]; exact hresp)]
    rcases hn with hn | ⟨t, h1, h2⟩
    · exact absurd hresp hn
    · rcases Tool.contentType_read s r out he hr with ⟨t', e1, e2⟩ | ⟨e1, e2⟩
      · rw [h1] at e1; cases e1
        simp only [M.bind_apply, e2]
        rw [if_neg (by simpa [startsWith] using h2)]
        exact hc
      · rw [h1] at e1; cases e1
  · rw [if_neg (by rw [ht]; exact hresp)]
    exact hc

theorem payload_open (c : Codec) (hc : Codec.Laws c) (fs : FS) (name : Bytes) (off : Nat) (r : R)
    (h : PlainAt fs name off r ∨ CompressedAt c fs name off r) :
    ∃ s, openName c fs .warc (some off) name = .ok s ∧ Before s r := by
  have hseek : ∀ (d : Bytes) (o : Nat), File.seek (o : Int) 0 (File.openFile d) = .ok () { File.openFile d with pos := o } := by
    intro d o; simp [File.seek]
  rcases h with ⟨hok, hn, before, after, hfs, rfl, hg⟩ | ⟨hok, before, after, ms, hfs, hms, rfl, hg⟩
  · have hng : nameGz name = false := by
      rw [nameGz, Bool.eq_false_iff]; exact fun hh => hn ((endsWith_iff _ _).1 hh)
    have hrest : ({ File.openFile (before ++ (r.core ++ after)) with pos := before.length } : File).rest = r.core ++ after := by
      simp [File.rest, File.openFile]
    have his := Detect.isGzipFile_apply { File.openFile (before ++ (r.core ++ after)) with pos := before.length } rfl
    have hb : ((r.core ++ after).take 2 == [0x1f, 0x8b]) = false := by simpa using core_not_gzip r hok after
    rw [hrest, hb] at his
    refine ⟨⟨{ File.openFile (before ++ (r.core ++ after)) with pos := before.length }, none, .plain, .warc⟩, ?_, ⟨by simp, rfl, rfl, after, hrest⟩⟩
    simp only [openName, hfs, hng]
    simp only [openArchive, hseek, openRecordStream, M.bind_apply, M.pure_apply, M.get_apply, Bool.false_eq_true, if_false, his]
    rfl
  · have hrest : ({ File.openFile (before ++ ms.flatMap c.enc) with pos := before.length } : File).rest = ms.flatMap c.enc := by
      simp [File.rest, File.openFile]
    refine ⟨⟨gzipFileOf c { File.openFile (before ++ ms.flatMap c.enc) with pos := before.length }, none, .gzipRecord, .warc⟩, ?_,
      ⟨by simp, rfl, rfl, after, ?_⟩⟩
    · simp only [openName, hfs]
      cases hz : nameGz name with
      | true =>
        simp only [openArchive, hseek, openRecordStream, M.bind_apply, M.pure_apply, M.get_apply, if_true]
        rfl
      | false =>
        have his := Detect.isGzipFile_apply { File.openFile (before ++ ms.flatMap c.enc) with pos := before.length } rfl
        have hb : ((ms.flatMap c.enc).take 2 == [0x1f, 0x8b]) = true := by
          cases ms with
          | nil => exact absurd hms.symm (by simp [core_ne_nil])
          | cons m ms => obtain ⟨t, ht⟩ := hc.magic m; simp [ht]
        rw [hrest, hb] at his
        simp only [openArchive, hseek, openRecordStream, M.bind_apply, M.pure_apply, M.get_apply, Bool.false_eq_true, if_false, his]
        rfl
    · rw [gzipFileOf_rest, hrest, hc.members, hms]

/-- **C51** `warcpayload file:offset` writes exactly the payload of the record at that offset, of any size, in uncompressed and
compressed files, when the record is not an HTTP response. -/
theorem C51_payload (c : Codec) (hc : Codec.Laws c) (fs : FS) (http : M World Unit) (name : Bytes) (off : Nat) (r : R)
    (h : PlainAt fs name off r ∨ CompressedAt c fs name off r) (hn : NotHttp r) (out : Bytes) :
    WarcPayload.main c fs http name off out = .ok () (out ++ r.body) := by
  obtain ⟨s, h1, h2⟩ := payload_open c hc fs name off r h
  have hok : r.Ok := by rcases h with h | h <;> exact h.1
  obtain ⟨s1, o, h3, h4, h5⟩ := first_of s r hok h2
  obtain ⟨s2, h6⟩ := dumpPayload_copy http r hn s1 out h4 h5
  simp only [WarcPayload.main, onArchive, h1, WarcPayload.dumpStream, M.bind_apply, Tool.onStream, h3, Tool.withRecord, h6]

/-- **C51** (defect) A response record without a Content-Type makes `warcpayload` raise AttributeError. -/
theorem C51_payload_no_type (c : Codec) (hc : Codec.Laws c) (fs : FS) (http : M World Unit) (name : Bytes) (off : Nat) (r : R)
    (h : PlainAt fs name off r ∨ CompressedAt c fs name off r)
    (h1 : firstValue (b! "WARC-Type") r.headers = some (b! "response"))
    (h2 : firstValue (b! "Content-Type") r.headers = none) (out : Bytes) :
    WarcPayload.main c fs http name off out = .raise .attributeError out := by
  obtain ⟨s, e1, e2⟩ := payload_open c hc fs name off r h
  have hok : r.Ok := by rcases h with h | h <;> exact h.1
  obtain ⟨s1, o, h3, h4, h5⟩ := first_of s r hok e2
  have ht : (parsed r.version r.headers).type = firstValue (b! "WARC-Type") r.headers := by
    simp [Rec.type, parsed, Rec.getHeader, lookupHeader_eq, WH.TYPE]
  have hraise : ∃ w, WarcPayload.dumpPayload http ⟨s1, parsed r.version r.headers, out⟩ = .raise .attributeError w ∧ w.out = out := by
    simp only [WarcPayload.dumpPayload, M.bind_apply, M.get_apply]
    rw [if_pos (by rw [ht]; exact h1)]
    rcases Tool.contentType_read s1 r out h4 h5 with ⟨t', q1, q2⟩ | ⟨q1, q2⟩
    · rw [h2] at q1; cases q1
    · simp only [M.bind_apply, q2]
      exact ⟨_, rfl, rfl⟩
  obtain ⟨w, hw, hwo⟩ := hraise
  simp only [WarcPayload.main, onArchive, e1, WarcPayload.dumpStream, M.bind_apply, Tool.onStream, h3, Tool.withRecord, hw, hwo]

/-! ### offsets where there is no record -/

/-- **C51** (defect: NameError instead of the error message) At an offset of an uncompressed file where six lines follow that are not
the beginning of a record, both tools raise and write nothing. -/
theorem C51_no_record (c : Codec) (fs : FS) (http : M World Unit) (name before more : Bytes) (junk : List Bytes)
    (hjs : ∀ j ∈ junk, JunkLine j) (hj6 : 6 ≤ junk.length) (hfs : fs name = some (before ++ (junk.flatten ++ more)))
    (hn : ¬ b! ".gz" <:+ name) (hg : ¬ [0x1f, 0x8b] <+: before ++ (junk.flatten ++ more))
    (hg' : ¬ [0x1f, 0x8b] <+: junk.flatten ++ more) (out : Bytes) :
    WarcExtract.main c fs name before.length out = .raise .nameError out ∧
    WarcPayload.main c fs http name before.length out = .raise .nameError out := by
  have hng : nameGz name = false := by
    rw [nameGz, Bool.eq_false_iff]; exact fun hh => hn ((endsWith_iff _ _).1 hh)
  have hrest : ({ File.openFile (before ++ (junk.flatten ++ more)) with pos := before.length } : File).rest = junk.flatten ++ more := by
    simp [File.rest, File.openFile]
  have ho : openName c fs .warc none name = .ok ⟨File.openFile (before ++ (junk.flatten ++ more)), none, .plain, .warc⟩ := by
    simp only [openName, hfs, hng]
    exact openArchive_plain c (some .warc) .warc .auto _ (Or.inl rfl) (Or.inl rfl)
      (fun hh => hg (by rw [← hh]; exact List.take_prefix _ _))
  have hsk : WarcExtract.seekFresh c (before ++ (junk.flatten ++ more)) before.length
      ⟨File.openFile (before ++ (junk.flatten ++ more)), none, .plain, .warc⟩ =
      .ok () ⟨{ File.openFile (before ++ (junk.flatten ++ more)) with pos := before.length }, none, .plain, .warc⟩ := by
    simp [WarcExtract.seekFresh, Stream.seek, onFile, File.seek]
  have hop : openName c fs .warc (some before.length) name =
      .ok ⟨{ File.openFile (before ++ (junk.flatten ++ more)) with pos := before.length }, none, .plain, .warc⟩ := by
    have hseek : File.seek (before.length : Int) 0 (File.openFile (before ++ (junk.flatten ++ more))) =
        .ok () { File.openFile (before ++ (junk.flatten ++ more)) with pos := before.length } := by simp [File.seek]
    have his := Detect.isGzipFile_apply { File.openFile (before ++ (junk.flatten ++ more)) with pos := before.length } rfl
    have hb : ((junk.flatten ++ more).take 2 == [0x1f, 0x8b]) = false := by
      rw [Bool.eq_false_iff]; intro hh; rw [beq_iff_eq] at hh
      exact hg' (by rw [← hh]; exact List.take_prefix _ _)
    rw [hrest, hb] at his
    simp only [openName, hfs, hng]
    simp only [openArchive, hseek, openRecordStream, M.bind_apply, M.pure_apply, M.get_apply, Bool.false_eq_true, if_false, his]
    rfl
  have h2 := readRecord_giveUp false [] (junk.take 6) ((junk.drop 6).flatten ++ more)
    ⟨{ File.openFile (before ++ (junk.flatten ++ more)) with pos := before.length }, none, .plain, .warc⟩
    (by simp) rfl rfl ⟨by simp, Or.inl rfl⟩ (fun j hj => hjs j (List.mem_of_mem_take hj)) (by simp; omega) (by
      show ({ File.openFile (before ++ (junk.flatten ++ more)) with pos := before.length } : File).rest = _
      rw [hrest, List.nil_append, ← List.append_assoc ((junk.take 6).flatten), ← List.flatten_append, List.take_append_drop])
  constructor
  · simp only [WarcExtract.main, onArchive, ho, M.bind_apply, Tool.onStream, hfs, Option.getD_some, hsk, WarcExtract.dumpRecord, h2]
    rw [if_pos (by simp)]
    rfl
  · simp only [WarcPayload.main, onArchive, hop, WarcPayload.dumpStream, M.bind_apply, Tool.onStream, h2]
    rw [if_pos (by simp)]
    rfl

/-- **C51** At or beyond the end of an uncompressed file both tools write nothing and raise nothing. -/
theorem C51_at_end (c : Codec) (fs : FS) (http : M World Unit) (name contents : Bytes) (off : Nat) (hoff : contents.length ≤ off)
    (hfs : fs name = some contents) (hn : ¬ b! ".gz" <:+ name) (hg : ¬ [0x1f, 0x8b] <+: contents) (out : Bytes) :
    WarcExtract.main c fs name off out = .ok () out ∧ WarcPayload.main c fs http name off out = .ok () out := by
  have hng : nameGz name = false := by
    rw [nameGz, Bool.eq_false_iff]; exact fun hh => hn ((endsWith_iff _ _).1 hh)
  have hrest : ({ File.openFile contents with pos := off } : File).rest = [] := by
    simp [File.rest, File.openFile]; omega
  have ho : openName c fs .warc none name = .ok ⟨File.openFile contents, none, .plain, .warc⟩ := by
    simp only [openName, hfs, hng]
    exact openArchive_plain c (some .warc) .warc .auto _ (Or.inl rfl) (Or.inl rfl)
      (fun hh => hg (by rw [← hh]; exact List.take_prefix _ _))
  have hsk : WarcExtract.seekFresh c contents off ⟨File.openFile contents, none, .plain, .warc⟩ =
      .ok () ⟨{ File.openFile contents with pos := off }, none, .plain, .warc⟩ := by
    simp [WarcExtract.seekFresh, Stream.seek, onFile, File.seek]
  have hop : openName c fs .warc (some off) name = .ok ⟨{ File.openFile contents with pos := off }, none, .plain, .warc⟩ := by
    have hseek : File.seek (off : Int) 0 (File.openFile contents) = .ok () { File.openFile contents with pos := off } := by
      simp [File.seek]
    have his := Detect.isGzipFile_apply { File.openFile contents with pos := off } rfl
    rw [hrest] at his
    simp only [openName, hfs, hng]
    simp only [openArchive, hseek, openRecordStream, M.bind_apply, M.pure_apply, M.get_apply, Bool.false_eq_true, if_false, his]
    rfl
  have h2 := readRecord_eof false ⟨{ File.openFile contents with pos := off }, none, .plain, .warc⟩ (by simp) rfl rfl hrest
  constructor
  · simp only [WarcExtract.main, onArchive, ho, M.bind_apply, Tool.onStream, hfs, Option.getD_some, hsk, WarcExtract.dumpRecord, h2]
    rfl
  · simp only [WarcPayload.main, onArchive, hop, WarcPayload.dumpStream, M.bind_apply, Tool.onStream, h2]
    rfl

/-- an offset that is inside a payload -/
example (c : Codec) (http : M World Unit) (fs : FS) (hfs : fs (b! "j") = some (b! "x" ++ ((List.replicate 7 (b! "ab\n")).flatten ++ []))) :
    WarcExtract.main c fs (b! "j") 1 [] = .raise .nameError [] ∧ WarcPayload.main c fs http (b! "j") 1 [] = .raise .nameError [] :=
  C51_no_record c fs http (b! "j") (b! "x") [] (List.replicate 7 (b! "ab\n"))
    (by intro j hj; obtain rfl := List.eq_of_mem_replicate hj; exact ⟨⟨b! "ab", rfl, by decide⟩, by decide, by decide⟩) (by decide)
    hfs (by decide) (by decide +kernel) (by decide +kernel) []

/-! examples: the second record of the two demo files -/

theorem demo2_at : PlainAt demoFS (b! "a.warc") demo1.R.bytes.length demo2.R := by
  refine ⟨item_R_ok _ demo2_ok, by decide, demo1.R.bytes, CRLF ++ CRLF, ?_, rfl, ?_⟩
  · simp [demoFS, archiveT, demoRT, R.bytes, R.core, recordBytes]
  · decide +kernel

theorem demo2_gz_at : CompressedAt toy demoFS (b! "b.warc.gz") (toy.enc demo1.R.bytes).length demo2.R := by
  refine ⟨item_R_ok _ demo2_ok, toy.enc demo1.R.bytes, CRLF ++ CRLF, [demo2.R.bytes], ?_, ?_, rfl, Or.inl (by decide)⟩
  · simp [demoFS]
  · simp [R.bytes, R.core, recordBytes]

example (http : M World Unit) : WarcPayload.main toy demoFS http (b! "b.warc.gz") (toy.enc demo1.R.bytes).length [] =
    .ok () demo2.R.body :=
  C51_payload toy toy_laws demoFS http _ _ demo2.R (Or.inr demo2_gz_at) (Or.inl (by decide)) []

example : WarcExtract.main toy demoFS (b! "a.warc") 0 [] = .ok () demo1.R.body :=
  C51_extract_indexed toy demoFS _ demoRT demo_plain 0 demo1.R (by simp [demoRT, positions]) []

end Warc
