import Verif.Proofs.Lines
import Verif.Proofs.Frame
import Verif.Spec.Toy
/-
  C22, C23, C25, C26: format detection, and the two compressed stream classes.
-/
set_option linter.all false
namespace Warc
open Rx Stream Spec

/-! ### C22: detection does not disturb the file -/

/-- **C22** `is_gzip_file` says whether the next two bytes are the gzip signature, and leaves the file
where it was. -/
theorem C22_is_gzip (f : File) (hf : f.fault = none) :
    Detect.isGzipFile f = .ok (decide ([0x1f, 0x8b] <+: f.rest)) f := by
  rw [Detect.isGzipFile_apply f hf]
  congr 1
  rw [Bool.eq_iff_iff, beq_iff_eq, decide_eq_true_iff]
  constructor
  · intro h; rw [← h]; exact List.take_prefix _ _
  · rintro ⟨t, ht⟩; rw [← ht]; rfl

theorem guess_cases (c : Codec) (f : File) (hf : f.fault = none) :
    Detect.guessRecordType c f =
      if f.rest.take 2 = [0x1f, 0x8b] then
        match (c.dec f.rest).2, decide (10 ∈ (c.dec f.rest).1) with
        | some e, false => .raise e f
        | _, _ => .ok (Detect.classify (File.firstLine (c.dec f.rest).1)) f
      else .ok (Detect.classify (File.firstLine f.rest)) f := by
  split
  · rename_i hg
    by_cases h10 : 10 ∈ (c.dec f.rest).1
    · rw [Detect.guess_gzip c f hf hg (Or.inr h10)]
      simp [h10]
    · cases hd : (c.dec f.rest).2 with
      | none => rw [Detect.guess_gzip c f hf hg (Or.inl hd)]
      | some e =>
        have hb : (f.rest.take 2 == [0x1f, 0x8b]) = true := by simpa using hg
        have hrest : (gzipFileOf c f).rest = (c.dec f.rest).1 := by simp [gzipFileOf, File.rest]
        have hl : (File.firstLine (c.dec f.rest).1).getLast? ≠ some 10 := by
          intro h
          apply h10
          have h1 : 10 ∈ File.firstLine (c.dec f.rest).1 := List.mem_of_getLast? h
          have : ∀ x : Bytes, 10 ∈ File.firstLine x → 10 ∈ x := by
            intro x
            induction x with
            | nil => simp [File.firstLine]
            | cons y ys ih =>
              unfold File.firstLine
              split
              · rename_i hy; intro _; simp at hy; simp [hy]
              · intro h; rcases List.mem_cons.1 h with h | h
                · simp [h]
                · simp [ih h]
          exact this _ h1
        have hread : File.readline none (gzipFileOf c f) = .raise e ((gzipFileOf c f).advance (gzipFileOf c f).rest.length) := by
          simp only [File.readline, File.deliver, hrest]
          rw [decide_eq_true hl]
          simp [gzipFileOf, hd]
        simp only [Detect.guessRecordType, Detect.isGzipFile_apply f hf, hb, hread, h10, decide_false]
  · rename_i hg
    exact Detect.guess_plain c f hf hg

/-- **C22** `guess_record_type` leaves the file where it was, whatever its answer. -/
theorem C22_guess_position (c : Codec) (f : File) (hf : f.fault = none) :
    (∃ r, Detect.guessRecordType c f = .ok r f) ∨ (∃ e, Detect.guessRecordType c f = .raise e f) := by
  rw [guess_cases c f hf]
  split
  · split
    · exact Or.inr ⟨_, rfl⟩
    · exact Or.inl ⟨_, rfl⟩
  · exact Or.inl ⟨_, rfl⟩

/-- **C22** its answer is determined by the bytes from the current position on. -/
theorem C22_guess_determined (c : Codec) (f g : File) (hf : f.fault = none) (hg : g.fault = none)
    (h : f.rest = g.rest) :
    (∃ r, Detect.guessRecordType c f = .ok r f ∧ Detect.guessRecordType c g = .ok r g) ∨
    (∃ e, Detect.guessRecordType c f = .raise e f ∧ Detect.guessRecordType c g = .raise e g) := by
  rw [guess_cases c f hf, guess_cases c g hg, h]
  split
  · split
    · exact Or.inr ⟨_, rfl, rfl⟩
    · exact Or.inl ⟨_, rfl, rfl⟩
  · exact Or.inl ⟨_, rfl, rfl⟩

/-- in the middle of a file: the second record is recognised, and the position stays -/
example : Detect.guessRecordType toy { data := b! "junk\nWARC/1.0\r\n", pos := 5, strictNeg := true } =
    .ok (some .warc) { data := b! "junk\nWARC/1.0\r\n", pos := 5, strictNeg := true } := by
  rw [guess_cases _ _ rfl]; decide +kernel

/-- and inside compressed data -/
example : Detect.guessRecordType toy (File.openFile (toy.enc (b! "filedesc://a\n"))) =
    .ok (some .arc) (File.openFile (toy.enc (b! "filedesc://a\n"))) := by
  rw [guess_cases _ _ rfl]; decide +kernel

/-! ### C23: what is recognised as what -/

/-- the format announced by the first line: WARC for a version line (`WARC/` anywhere in a complete
line) and for an empty line or file, ARC for a line that starts with `filedesc://` -/
def Spec.formatOf (line : Bytes) : Option RecClass :=
  if (versionNumber line).isSome ∨ line = [] ∨ line = [10] then some .warc
  else if b! "filedesc://" <+: line then some .arc
  else none

theorem rxTest_blankRx (line : Bytes) : rxTest Detect.blankRx line = decide (line = [] ∨ line = [10]) := by
  simp only [rxTest, Detect.blankRx, pmatch, seqs, m]
  by_cases h : line = [] ∨ line = [10] <;> simp [h]

theorem m_str {α : Type} (s x : Bytes) (prev) (caps) (k : MSt → Option α) :
    (m (str s) ⟨prev, x, caps⟩ k).isSome → s <+: x := by
  induction s generalizing x prev with
  | nil => simp
  | cons a s ih =>
    cases s with
    | nil =>
      cases x with
      | nil => simp [str, seqs, lit, m]
      | cons c cs =>
        simp only [str, List.map_cons, List.map_nil, seqs, lit, m]
        split
        · rename_i h; simp at h; subst h; simp
        · simp
    | cons b s =>
      cases x with
      | nil => simp [str, seqs, lit, m]
      | cons c cs =>
        have := ih (x := cs) (prev := some c)
        simp only [str, List.map_cons, seqs, lit, m] at this ⊢
        split
        · rename_i h; simp at h; subst h
          intro hh
          simpa using this hh
        · simp

theorem m_str_some {α : Type} (s x : Bytes) (prev) (caps) (k : MSt → Option α)
    (hk : ∀ st, (k st).isSome) : (m (str s) ⟨prev, s ++ x, caps⟩ k).isSome := by
  induction s generalizing prev with
  | nil => exact hk _
  | cons a s ih =>
    cases s with
    | nil =>
      simp only [str, List.map_cons, List.map_nil, seqs, lit, m, List.cons_append, beq_self_eq_true, if_true]
      exact hk _
    | cons b s =>
      have := ih (prev := some a)
      simp only [str, List.map_cons, seqs, lit, m, List.cons_append, beq_self_eq_true, if_true] at this ⊢
      exact this

theorem rxTest_filedescRx (line : Bytes) : rxTest Detect.filedescRx line = decide (b! "filedesc://" <+: line) := by
  rw [Bool.eq_iff_iff, decide_eq_true_iff]
  have e : rxTest Detect.filedescRx line =
      (m (str (b! "filedesc://")) ⟨none, line, []⟩ fun st => some (⟨st.caps, st.rest⟩ : Match)).isSome := by
    simp only [rxTest, Detect.filedescRx, pmatch, seqs]
    rw [show m (bos.seq (str (b! "filedesc://"))) ⟨none, line, []⟩ (fun st => some (⟨st.caps, st.rest⟩ : Match)) =
      m (str (b! "filedesc://")) ⟨none, line, []⟩ fun st => some (⟨st.caps, st.rest⟩ : Match) from rfl]
  rw [e]
  constructor
  · exact m_str _ _ _ _ _
  · rintro ⟨t, rfl⟩
    exact m_str_some _ _ _ _ _ fun _ => rfl

theorem classify_format {line : Bytes} (h : LineLike line) : Detect.classify line = formatOf line := by
  have hv : rxTest versionRx line = (versionNumber line).isSome := by
    rw [← vspec_number h]
    simp [rxTest, pmatch_versionRx]
  simp only [Detect.classify, formatOf, hv, rxTest_blankRx, rxTest_filedescRx]
  by_cases h1 : (versionNumber line).isSome <;> by_cases h2 : line = [] ∨ line = [10] <;> simp [h1, h2]

/-- **C23** The format of an uncompressed file is decided by its first line alone, in this way. -/
theorem C23_plain (c : Codec) (f : File) (hf : f.fault = none) (hg : ¬ [0x1f, 0x8b] <+: f.rest) :
    Detect.guessRecordType c f = .ok (formatOf (File.firstLine f.rest)) f := by
  rw [← classify_format (firstLine_lineLike _)]
  apply Detect.guess_plain c f hf
  intro h
  apply hg
  rw [← h]
  exact List.take_prefix _ _

/-- **C23** The format of a compressed file is decided in the same way by the first line of the
decompressed data. -/
theorem C23_gzip (c : Codec) (f : File) (hf : f.fault = none) (hg : [0x1f, 0x8b] <+: f.rest)
    (hd : (c.dec f.rest).2 = none ∨ 10 ∈ (c.dec f.rest).1) :
    Detect.guessRecordType c f = .ok (formatOf (File.firstLine (c.dec f.rest).1)) f := by
  rw [← classify_format (firstLine_lineLike _)]
  obtain ⟨t, ht⟩ := hg
  exact Detect.guess_gzip c f hf (by rw [← ht]; rfl) hd

/-- **C23** `ArchiveRecord.open_archive` returns a stream with the parser for that format, or refuses
the file with an exception if there is none. -/
theorem C23_open (c : Codec) (contents : Bytes) (hg : ¬ [0x1f, 0x8b] <+: contents) :
    openArchive c none false .auto none contents =
      match formatOf (File.firstLine contents) with
      | some k => .ok ⟨File.openFile contents, none, .plain, k.makeParser⟩
      | none => .error (.generic "Failed to guess compression") := by
  have hf : (File.openFile contents).fault = none := rfl
  have hrest : (File.openFile contents).rest = contents := by simp [File.openFile, File.rest]
  have h1 := C23_plain c (File.openFile contents) hf (by rw [hrest]; exact hg)
  rw [hrest] at h1
  have hne : contents.take 2 ≠ [0x1f, 0x8b] := by
    intro h; apply hg; rw [← h]; exact List.take_prefix _ _
  cases hfmt : formatOf (File.firstLine contents) with
  | some k =>
    exact openArchive_plain c none k .auto contents (Or.inl rfl)
      (Or.inr ⟨rfl, by rw [classify_format (firstLine_lineLike _), hfmt]⟩) hne
  | none =>
    rw [hfmt] at h1
    simp [openArchive, openRecordStream, h1]

/-- **C23** a file whose first line starts with a version stamp is opened as WARC, for every known
version and every rest -/
theorem C23_warc (c : Codec) (v more : Bytes) (hv : VersionOk v) :
    openArchive c none false .auto none (v ++ CRLF ++ more) =
      .ok ⟨File.openFile (v ++ CRLF ++ more), none, .plain, .warc⟩ := by
  have hne : (v ++ CRLF ++ more).take 2 ≠ [0x1f, 0x8b] := by
    rw [List.append_assoc]; exact versionOk_not_gzip hv
  have hfl : File.firstLine (v ++ CRLF ++ more) = v ++ CRLF := by
    rw [show v ++ CRLF ++ more = (v ++ [13]) ++ 10 :: more by simp,
      File.firstLine_append _ _ (by simp [versionOk_noLF hv])]
    simp
  obtain ⟨n, _, hvs⟩ := vspec_versionOk hv
  exact openArchive_plain c none .warc .auto _ (Or.inl rfl)
    (Or.inr ⟨rfl, by rw [hfl]; exact classify_version _ _ hvs⟩) hne

/-- **C23** a file that starts with a `filedesc://` line is opened as ARC, provided that the line does
not contain `WARC/` in any letter case -/
theorem C23_arc (c : Codec) (name more : Bytes) (hname : 10 ∉ name)
    (htag : afterTag (b! "filedesc://" ++ name ++ [10]) = none) :
    openArchive c none false .auto none (b! "filedesc://" ++ name ++ [10] ++ more) =
      .ok ⟨File.openFile (b! "filedesc://" ++ name ++ [10] ++ more), none, .plain, .arc ArcSt.init⟩ := by
  have hfl : File.firstLine (b! "filedesc://" ++ name ++ [10] ++ more) = b! "filedesc://" ++ name ++ [10] := by
    rw [show b! "filedesc://" ++ name ++ [10] ++ more = (b! "filedesc://" ++ name) ++ 10 :: more by simp,
      File.firstLine_append _ _ (by simp [hname])]
  rw [C23_open c _ (by simp)]
  have : formatOf (File.firstLine (b! "filedesc://" ++ name ++ [10] ++ more)) = some .arc := by
    rw [hfl, formatOf, if_neg, if_pos]
    · rw [List.append_assoc]; exact List.prefix_append _ _
    · rintro (h | h | h)
      · rw [versionNumber, htag] at h
        split at h <;> simp at h
      · simp at h
      · simp at h
  rw [this]
  rfl

theorem afterTag_infix (pre tag post : Bytes) (ht : lower tag = b! "warc/") : (afterTag (pre ++ (tag ++ post))).isSome = true := by
  have hlen : tag.length = 5 := by
    have := congrArg List.length ht
    simpa [lower] using this
  induction pre with
  | nil =>
    match tag, hlen with
    | [x0, x1, x2, x3, x4], _ =>
      simp only [List.nil_append, List.cons_append]
      rw [afterTag, if_pos (show lower ((x0 :: x1 :: x2 :: x3 :: x4 :: post).take 5) = _ from ht)]; rfl
  | cons x xs ih =>
    rw [List.cons_append, afterTag]
    by_cases h : lower ((x :: (xs ++ (tag ++ post))).take 5) = b! "warc/"
    · rw [if_pos h]; rfl
    · rw [if_neg h]; exact ih

/-- **C23 (defect)** an ARC file whose first line contains `warc/` in any letter case (for example in the path of the file) is opened as a WARC file -/
theorem C23_arc_misdetected (c : Codec) (pre tag post more : Bytes) (ht : lower tag = b! "warc/") (h1 : 10 ∉ pre) (h2 : 10 ∉ post) :
    openArchive c none false .auto none (b! "filedesc://" ++ (pre ++ tag ++ post) ++ [10] ++ more) =
      .ok ⟨File.openFile (b! "filedesc://" ++ (pre ++ tag ++ post) ++ [10] ++ more), none, .plain, .warc⟩ := by
  have h3 : 10 ∉ tag := by
    intro h
    have : lowerByte 10 ∈ lower tag := List.mem_map.2 ⟨10, h, rfl⟩
    rw [ht] at this
    exact absurd this (by decide)
  have hfl : File.firstLine (b! "filedesc://" ++ (pre ++ tag ++ post) ++ [10] ++ more) = b! "filedesc://" ++ (pre ++ tag ++ post) ++ [10] := by
    rw [show b! "filedesc://" ++ (pre ++ tag ++ post) ++ [10] ++ more = (b! "filedesc://" ++ (pre ++ tag ++ post)) ++ 10 :: more by simp,
      File.firstLine_append _ _ (by simp [h1, h2, h3])]
  rw [C23_open c _ (by simp)]
  have : formatOf (File.firstLine (b! "filedesc://" ++ (pre ++ tag ++ post) ++ [10] ++ more)) = some .warc := by
    rw [hfl, formatOf, if_pos]
    left
    rw [versionNumber, if_pos (by rw [complete, List.getLast?_append]; rfl)]
    have := afterTag_infix (b! "filedesc://" ++ pre) tag (post ++ [10]) ht
    simp only [Option.isSome_map]
    simpa using this
  rw [this]
  rfl

example (c : Codec) (more : Bytes) := C23_arc_misdetected c (b! "old-") (b! "Warc/") (b! "1.arc 0.0.0.0 20000101000000 text/plain 77") more
  (by decide) (by decide) (by decide)

example : afterTag (b! "filedesc://" ++ b! "IAH-0001.arc 0.0.0.0 20000101000000 text/plain 77" ++ [10]) = none := by
  decide +kernel

example : formatOf (b! "filedesc://x.arc 0.0.0.0\n") = some .arc ∧ formatOf (b! "  Warc/1.0\r\n") = some .warc ∧
    formatOf (b! "hello\n") = none ∧ formatOf (b! "\r\n") = none ∧ formatOf (b! "WARC/1.0") = none := by decide +kernel

/-! ### C25: offsets in compressed archives -/

theorem gzipRecord_offset (offs : Bool) (s s' : Stream) (e : Entry) (hk : s.kind = .gzipRecord)
    (h : readRecord offs s = .ok e s') : e.offset = none := by
  obtain ⟨_, _, _, _, _, _, _, _, _, _, _, _, _, _, _, ho⟩ := readRecord_inv offs s s' e h
  rw [ho, hk]; simp

/-- **C25** Every entry that is read from a record-compressed archive has no offset (`None`), even when
offsets are asked for. -/
theorem C25_offsets_missing (offs : Bool) (fuel : Nat) (limit : Option Nat) (s : Stream)
    (hk : s.kind = .gzipRecord) : ∀ e ∈ (readRecords offs fuel limit s).1, e.offset = none := by
  induction fuel generalizing limit s with
  | zero => simp [readRecords]
  | succ fuel ih =>
    unfold readRecords
    split
    · simp
    · split
      · simp
      · simp
      · rename_i e s' hread
        have h1 := gzipRecord_offset offs s s' e hk hread
        split
        · simpa using h1
        · intro x hx
          rcases List.mem_cons.1 hx with rfl | hx
          · exact h1
          · exact ih _ s' ((readRecord_same offs hread).1.trans hk) x hx

/-- **C25** In particular for every archive written with `gzip=True` (see C24 for the records). -/
theorem C25_opened (c : Codec) (cls : Option RecClass) (name : Bool) (contents : Bytes) (s : Stream)
    (hg : ∃ t, contents = 0x1f :: 0x8b :: t) (gz : GzMode) (hgz : gz = .auto ∨ gz = .record)
    (h : openArchive c cls name gz none contents = .ok s) (fuel : Nat) (limit : Option Nat) :
    ∀ e ∈ (readRecords true fuel limit s).1, e.offset = none := by
  apply C25_offsets_missing
  obtain ⟨t, rfl⟩ := hg
  have hf : (File.openFile (0x1f :: 0x8b :: t)).fault = none := rfl
  have his := Detect.isGzipFile_apply (File.openFile (0x1f :: 0x8b :: t)) hf
  have hb : ((File.openFile (0x1f :: 0x8b :: t)).rest.take 2 == [0x1f, 0x8b]) = true := by
    simp [File.openFile, File.rest]
  rw [hb] at his
  have hopen : ∀ (k : RecClass) (f : File), f = File.openFile (0x1f :: 0x8b :: t) → ∀ gz, gz = GzMode.auto ∨ gz = .record →
      ∀ s f', openRecordStream c (some k) name gz f = .ok s f' → s.kind = .gzipRecord := by
    rintro k f rfl gz (rfl | rfl) s f' hh
    · cases name
      · simp [openRecordStream, his] at hh; rw [← hh.1]
      · simp [openRecordStream] at hh; rw [← hh.1]
    · simp [openRecordStream] at hh; rw [← hh.1]
  simp only [openArchive, M.bind_apply, M.pure_apply] at h
  split at h
  · rename_i s1 f1 hh
    simp only [Except.ok.injEq] at h
    subst h
    cases cls with
    | some k => exact hopen k _ rfl gz hgz _ _ hh
    | none =>
      rcases C22_guess_position c _ hf with ⟨r, hr⟩ | ⟨e, hr⟩
      · cases r with
        | none => simp [openRecordStream, hr] at hh
        | some k =>
          apply hopen k _ rfl gz hgz _ _
          rw [← hh]
          simp [openRecordStream, hr]
      · simp [openRecordStream, hr] at hh
  · simp at h
  · simp at h

/-- a compressed archive of two records, whose offsets are not reported -/
example : ∃ s, openArchive toy none false .auto none (toy.enc demo1.R.bytes ++ toy.enc demo2.R.bytes) = .ok s ∧
    (readRecords true 3 none s).1.map (·.offset) = [none, none, none] := by
  refine ⟨⟨gzipFileOf toy (File.openFile (toy.enc demo1.R.bytes ++ toy.enc demo2.R.bytes)), none, .gzipRecord, .warc⟩,
    openArchive_gzip toy none .warc false .auto _ (Or.inl rfl) (Or.inr ⟨rfl, by decide +kernel⟩) (by decide +kernel)
      (Or.inl (by decide +kernel)), by decide +kernel⟩

/-! ### C26: gzip='file' -/

/-- **C26** A stream opened with `gzip='file'` never yields an entry: every attempt raises or does
not return. -/
theorem C26_nothing_read (offs : Bool) (s : Stream) (hk : s.kind = .gzipFile) :
    ∀ e s', readRecord offs s ≠ .ok e s' := by
  intro e s' h
  obtain ⟨_, _, _, _, _, _, _, _, _, _, _, _, hne, _⟩ := readRecord_inv offs s s' e h
  exact hne hk

/-- **C26** so neither `read_records` nor iteration yields anything, whatever the file contains -/
theorem C26_scan_empty (c : Codec) (cls : Option RecClass) (name : Bool) (contents : Bytes) (s : Stream)
    (h : openArchive c cls name .file none contents = .ok s) (offs : Bool) (fuel : Nat) :
    (readRecords offs fuel none s).1 = [] ∧ (iterate fuel s).1 = [] ∧
      (readRecords offs fuel none s).2 ≠ .done ∧ (iterate fuel s).2 ≠ .done := by
  have hk : s.kind = .gzipFile := by
    simp only [openArchive, M.bind_apply, M.pure_apply] at h
    split at h
    · rename_i s1 f1 hh
      simp only [Except.ok.injEq] at h
      subst h
      cases cls with
      | some k => simp [openRecordStream] at hh; rw [← hh.1]
      | none =>
        rcases C22_guess_position c (File.openFile contents) rfl with ⟨r, hr⟩ | ⟨e, hr⟩
        · cases r with
          | none => simp [openRecordStream, hr] at hh
          | some k => simp [openRecordStream, hr] at hh; rw [← hh.1]
        · simp [openRecordStream, hr] at hh
    · simp at h
    · simp at h
  cases fuel with
  | zero => simp [readRecords, iterate]
  | succ fuel =>
    have h1 := C26_nothing_read offs s hk
    have h2 := C26_nothing_read false s hk
    unfold readRecords iterate
    cases hr : readRecord offs s with
    | ok e s' => exact absurd hr (h1 e s')
    | raise e s' =>
      cases hr2 : readRecord false s with
      | ok e s' => exact absurd hr2 (h2 e s')
      | raise e s' => simp
      | hang => simp
    | hang =>
      cases hr2 : readRecord false s with
      | ok e s' => exact absurd hr2 (h2 e s')
      | raise e s' => simp
      | hang => simp

/-- on a well-formed file the exception is the `NameError` -/
example : ∃ s, openArchive toy (some .warc) false .file none (toy.enc demo1.R.bytes) = .ok s ∧
    readRecords true 3 none s = ([], .raised .nameError) := by
  have h1 : openArchive toy (some .warc) false .file none (toy.enc demo1.R.bytes) =
      .ok ⟨gzipFileOf toy (File.openFile (toy.enc demo1.R.bytes)), none, .gzipFile, .warc⟩ := rfl
  exact ⟨_, h1, by decide +kernel⟩

end Warc
