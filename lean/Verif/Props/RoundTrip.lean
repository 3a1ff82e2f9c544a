import Verif.Proofs.Open
import Verif.Spec.Toy
/-
  C01, C02, C03, C18, C24, C25: archives written by `write_to` and read back.
-/
set_option linter.all false
namespace Warc
open Rx Stream Spec

theorem items_ok {its : List Item} (h : ∀ it ∈ its, it.Ok) : ∀ r ∈ its.map Item.R, r.Ok := by
  intro r hr
  obtain ⟨it, hit, rfl⟩ := List.mem_map.1 hr
  exact item_R_ok it (h it hit)

/-- **C01** Writing any list of representable records one after the other and reading the file
back, with or without format guessing, yields exactly these records in order (version, headers,
no errors, content type and content), then a final entry without record or errors; the offsets are
the record positions. -/
theorem C01_round_trip (c : Codec) (its : List Item) (h : ∀ it ∈ its, it.Ok)
    (cls : Option RecClass) (hcls : cls = none ∨ cls = some .warc)
    (gz : GzMode) (hgz : gz = .auto ∨ gz = .off) (fuel : Nat) (hfuel : its.length < fuel) :
    ∃ file s, writeAll its [] = some file ∧ openArchive c cls false gz none file = .ok s ∧
      collect true fuel s =
        ⟨expectGot some 0 (its.map Item.R), some ⟨some file.length, none, []⟩, .done⟩ := by
  refine ⟨archive (its.map Item.R), ⟨File.openFile (archive (its.map Item.R)), none, .plain, .warc⟩,
    by simpa using writeAll_ok its [], ?_, ?_⟩
  · apply openArchive_plain c cls .warc gz _ hgz _ (archive_not_gzip _ (items_ok h))
    rcases hcls with rfl | rfl
    · exact Or.inr ⟨rfl, archive_classify _ (items_ok h)⟩
    · exact Or.inl rfl
  · rw [collect_archive true fuel _ (its.map Item.R) (by simp) rfl rfl (items_ok h)
      (fun _ _ => Or.inl rfl) (by simp [File.openFile, File.rest]) (by simpa using hfuel)]
    have hrep : reported .plain true = some := by funext p; rfl
    simp [hrep, File.openFile]

/-- the same when the items carry no odd spelling of `Content-Type`: then `record.content` is the
tuple that was written -/
theorem C01_content (its : List Item) (h : ∀ it ∈ its, it.Ok)
    (hcanon : ∀ it ∈ its, ∀ x ∈ it.headers, lower x.1 = b! "content-type" → x.1 = b! "Content-Type")
    (hct : ∀ it ∈ its, it.ctype ≠ some []) (report : Nat → Option Nat) (pos : Nat) :
    (expectGot report pos (its.map Item.R)).map (fun g => (g.version, g.errors, g.content)) =
      its.map (fun it => (it.version, [], (it.ctype, some it.body))) := by
  induction its generalizing pos with
  | nil => rfl
  | cons it its ih =>
    have h1 : firstValue (b! "Content-Type") it.R.headers = it.ctype := by
      have hnone : firstValue (b! "Content-Type")
          (it.headers.filter (fun h => h.1 != b! "Content-Type" && h.1 != b! "Content-Length")) = none := by
        have : ∀ l : List Header, (∀ x ∈ l, lower x.1 = b! "content-type" → x.1 = b! "Content-Type") →
            firstValue (b! "Content-Type")
              (l.filter (fun h => h.1 != b! "Content-Type" && h.1 != b! "Content-Length")) = none := by
          intro l hl
          induction l with
          | nil => rfl
          | cons x l ih2 =>
            rw [List.filter_cons]
            split
            · rename_i hx
              rw [firstValue, if_neg, ih2 (fun y hy => hl y (by simp [hy]))]
              intro e
              have := hl x (by simp) e
              simp [this] at hx
            · exact ih2 (fun y hy => hl y (by simp [hy]))
        exact this _ (hcanon it (by simp))
      have happ : ∀ a b : List Header, firstValue (b! "Content-Type") a = none →
          firstValue (b! "Content-Type") (a ++ b) = firstValue (b! "Content-Type") b := by
        intro a b ha
        induction a with
        | nil => rfl
        | cons x a ih2 =>
          rw [firstValue] at ha
          split at ha
          · simp at ha
          · rename_i hx
            rw [List.cons_append, firstValue, if_neg hx, ih2 ha]
      show firstValue _ (writtenHeaders it.headers it.ctype it.body) = _
      unfold writtenHeaders
      rw [List.append_assoc, happ _ _ hnone]
      cases hc : it.ctype with
      | none => simp [firstValue]; decide
      | some t =>
        have : t ≠ [] := by rintro rfl; exact hct it (by simp) hc
        simp [this, firstValue]
    simp only [List.map_cons, expectGot, h1]
    rw [ih (fun x hx => h x (by simp [hx])) (fun x hx => hcanon x (by simp [hx]))
      (fun x hx => hct x (by simp [hx]))]
    rfl

example : ∃ file s, writeAll [demo1, demo2] [] = some file ∧
    openArchive toy none false .auto none file = .ok s ∧
    collect true 3 s = ⟨expectGot some 0 [demo1.R, demo2.R], some ⟨some file.length, none, []⟩, .done⟩ :=
  C01_round_trip toy [demo1, demo2] (by simp [demo1_ok, demo2_ok]) none (Or.inl rfl) .auto (Or.inl rfl) 3
    (by decide)

/-! ### C02 -/

/-- **C02** The reported offsets are exactly the positions where the records start: dropping that
many bytes of the file leaves the archive of the remaining records; the final entry carries the file
length. -/
theorem C02_offsets (c : Codec) (its : List Item) (h : ∀ it ∈ its, it.Ok)
    (cls : Option RecClass) (hcls : cls = none ∨ cls = some .warc)
    (gz : GzMode) (hgz : gz = .auto ∨ gz = .off) (fuel : Nat) (hfuel : its.length < fuel) :
    ∃ file s, writeAll its [] = some file ∧ openArchive c cls false gz none file = .ok s ∧
      (collect true fuel s).records.length = its.length ∧
      (∀ i (hi : i < (collect true fuel s).records.length), ∃ o,
        ((collect true fuel s).records[i]).offset = some o ∧
        o = (archive ((its.take i).map Item.R)).length ∧
        file.drop o = archive ((its.drop i).map Item.R)) ∧
      (collect true fuel s).last = some ⟨some file.length, none, []⟩ := by
  obtain ⟨file, s, h1, h2, h3⟩ := C01_round_trip c its h cls hcls gz hgz fuel hfuel
  refine ⟨file, s, h1, h2, ?_⟩
  rw [h3]
  have hfile : file = archive (its.map Item.R) := by
    rw [writeAll_ok] at h1; simpa using h1.symm
  have key : ∀ (its : List Item) (pos i : Nat) (hi : i < (expectGot some pos (its.map Item.R)).length),
      ((expectGot some pos (its.map Item.R))[i]).offset =
        some (pos + (archive ((its.take i).map Item.R)).length) := by
    intro its
    induction its with
    | nil => intro pos i hi; simp [expectGot] at hi
    | cons it its ih =>
      intro pos i hi
      cases i with
      | zero => simp [expectGot, archive]
      | succ i =>
        simp only [List.map_cons, expectGot, List.getElem_cons_succ, List.take_succ_cons]
        rw [ih]
        simp [archive, Nat.add_assoc]
  have hlen : ∀ (its : List Item) (pos : Nat), (expectGot some pos (its.map Item.R)).length = its.length := by
    intro its
    induction its with
    | nil => intro pos; rfl
    | cons it its ih => intro pos; simp [expectGot, ih]
  refine ⟨hlen its 0, ?_, rfl⟩
  intro i hi
  refine ⟨(archive ((its.take i).map Item.R)).length, ?_, rfl, ?_⟩
  · simpa using key its 0 i hi
  · rw [hfile]
    have : archive (its.map Item.R) = archive ((its.take i).map Item.R) ++ archive ((its.drop i).map Item.R) := by
      rw [archive, archive, archive, ← List.flatMap_append, ← List.map_append, List.take_append_drop]
    rw [this, List.drop_left]

/-! ### C03 -/

/-- **C03** Seeking a freshly opened archive to the offset reported for record `i` (or opening it
there) and reading on gives exactly what the sequential scan gives from record `i` on: same
offsets, headers, contents and end. -/
theorem C03_random_access (c : Codec) (its : List Item) (h : ∀ it ∈ its, it.Ok) (file : Bytes)
    (hfile : writeAll its [] = some file)
    (cls : Option RecClass) (hcls : cls = none ∨ cls = some .warc)
    (gz : GzMode) (hgz : gz = .auto ∨ gz = .off) (i o : Nat) (hi : i ≤ its.length)
    (ho : o = (archive ((its.take i).map Item.R)).length) (fuel : Nat) (hfuel : its.length < fuel)
    (s : Stream) (hs : openArchive c cls false gz none file = .ok s) :
    (∃ s1, Stream.seek (o : Int) 0 s = .ok () s1 ∧
      collect true fuel s1 =
        ⟨(collect true fuel s).records.drop i, (collect true fuel s).last, .done⟩) ∧
    (∃ s2, openArchive c cls false gz (some o) file = .ok s2 ∧
      collect true fuel s2 =
        ⟨(collect true fuel s).records.drop i, (collect true fuel s).last, .done⟩) := by
  have hf : file = archive (its.map Item.R) := by
    rw [writeAll_ok] at hfile; simpa using hfile.symm
  have hsplit : archive (its.map Item.R) = archive ((its.take i).map Item.R) ++ archive ((its.drop i).map Item.R) := by
    rw [archive, archive, archive, ← List.flatMap_append, ← List.map_append, List.take_append_drop]
  have hop : openArchive c cls false gz none file = .ok ⟨File.openFile file, none, .plain, .warc⟩ := by
    rw [hf]
    apply openArchive_plain c cls .warc gz _ hgz _ (archive_not_gzip _ (items_ok h))
    rcases hcls with rfl | rfl
    · exact Or.inr ⟨rfl, archive_classify _ (items_ok h)⟩
    · exact Or.inl rfl
  rw [hop] at hs
  simp only [Except.ok.injEq] at hs
  subst hs
  have hfull := collect_archive true fuel ⟨File.openFile file, none, .plain, .warc⟩ (its.map Item.R)
    (by simp) rfl rfl (items_ok h) (fun _ _ => Or.inl rfl) (by simp [File.openFile, File.rest, hf])
    (by simpa using hfuel)
  have hdropok : ∀ it ∈ its.drop i, it.Ok := fun it hit => h it (List.mem_of_mem_drop hit)
  have hrest : ({ File.openFile file with pos := o } : File).rest = archive ((its.drop i).map Item.R) := by
    simp only [File.rest, File.openFile]
    rw [hf, hsplit, ho, List.drop_left]
  have hpart := collect_archive true fuel ⟨{ File.openFile file with pos := o }, none, .plain, .warc⟩
    ((its.drop i).map Item.R) (by simp) rfl rfl (items_ok hdropok) (fun _ _ => Or.inl rfl) hrest
    (by simp; omega)
  have hrec : ∀ (its : List Item) (pos i : Nat), (expectGot some pos (its.map Item.R)).drop i =
      expectGot some (pos + (archive ((its.take i).map Item.R)).length) ((its.drop i).map Item.R) := by
    intro its
    induction its with
    | nil => intro pos i; simp [expectGot]
    | cons it its ih =>
      intro pos i
      cases i with
      | zero => simp [archive]
      | succ i =>
        simp only [List.map_cons, expectGot, List.drop_succ_cons, List.take_succ_cons, ih]
        simp [archive, Nat.add_assoc]
  have hres : collect true fuel ⟨{ File.openFile file with pos := o }, none, .plain, .warc⟩ =
      ⟨(collect true fuel ⟨File.openFile file, none, .plain, .warc⟩).records.drop i,
        (collect true fuel ⟨File.openFile file, none, .plain, .warc⟩).last, .done⟩ := by
    rw [hfull, hpart]
    have hrep : reported .plain true = some := by funext p; rfl
    simp only [hrep, File.openFile, hrec, Nat.zero_add, ← ho]
    rw [hsplit, List.length_append, ← ho]
  refine ⟨⟨_, ?_, hres⟩, ⟨_, ?_, hres⟩⟩
  · simp [Stream.seek, onFile, File.seek]
  · have hrest2 : (File.openFile file).data = file := rfl
    have hng : ({ File.openFile file with pos := o } : File).rest.take 2 ≠ [0x1f, 0x8b] := by
      rw [hrest]; exact archive_not_gzip _ (items_ok hdropok)
    have hgu := Detect.guess_plain c { File.openFile file with pos := o } rfl hng
    rw [hrest, archive_classify _ (items_ok hdropok)] at hgu
    have hb : (({ File.openFile file with pos := o } : File).rest.take 2 == [0x1f, 0x8b]) = false := by
      simpa using hng
    have his := Detect.isGzipFile_apply { File.openFile file with pos := o } rfl
    rw [hb] at his
    have hseek : File.seek (o : Int) 0 (File.openFile file) = .ok () { File.openFile file with pos := o } := by
      simp [File.seek]
    rcases hcls with rfl | rfl <;> rcases hgz with rfl | rfl <;>
      simp [openArchive, openRecordStream, hgu, his, hseek, RecClass.makeParser]

example : ∃ file s s1 o, writeAll [demo1, demo2] [] = some file ∧ 0 < o ∧
    openArchive toy none false .auto none file = .ok s ∧ Stream.seek (o : Int) 0 s = .ok () s1 ∧
    collect true 3 s1 = ⟨(collect true 3 s).records.drop 1, (collect true 3 s).last, .done⟩ := by
  obtain ⟨file, s, h1, h2, -⟩ := C01_round_trip toy [demo1, demo2] (by simp [demo1_ok, demo2_ok]) none
    (Or.inl rfl) .auto (Or.inl rfl) 3 (by decide)
  obtain ⟨⟨s1, h3, h4⟩, -⟩ := C03_random_access toy [demo1, demo2] (by simp [demo1_ok, demo2_ok]) file h1 none
    (Or.inl rfl) .auto (Or.inl rfl) 1 _ (by decide) rfl 3 (by decide) s h2
  refine ⟨file, s, s1, _, h1, ?_, h2, h3, h4⟩
  simp [archive, R.bytes, recordBytes, headBytes]; omega

/-! ### C18 -/

/-- **C18** Writing a record with a content tuple appends the version line, the supplied headers in
order without the ones named Content-Type and Content-Length, the type of the tuple (if any), the
true length, a blank line, the content and two CRLFs; nothing else, and it never raises. -/
theorem C18_written_bytes (w : World) (ctype : Option Bytes) (buf : Option Bytes)
    (hcls : w.rcd.cls = .warc) (hcf : w.rcd.cfile = .none) (hc : w.rcd.content = some (ctype, buf)) :
    ∃ w', World.writeTo CRLF w = .ok () w' ∧ w'.rcd = w.rcd ∧ w'.strm = w.strm ∧
      w'.out = w.out ++ (w.rcd.version ++ CRLF ++
        (w.rcd.headers.filter
          (fun h => !(h.1 == b! "Content-Type") && !(h.1 == b! "Content-Length"))).flatMap
            (fun h => h.1 ++ b! ": " ++ h.2 ++ CRLF) ++
        (if ctype.getD [] = [] then [] else b! "Content-Type: " ++ ctype.getD [] ++ CRLF) ++
        b! "Content-Length: " ++ decimal (buf.getD []).length ++ CRLF ++ CRLF ++
        buf.getD [] ++ CRLF ++ CRLF) := by
  refine ⟨_, World.writeTo_tuple w ctype buf hcls hcf hc, rfl, rfl, ?_⟩
  have : headerLine = fun h => h.1 ++ b! ": " ++ h.2 ++ CRLF := rfl
  cases ctype with
  | none => simp [recordBytes, headBytes, writtenHeaders, this, bne]
  | some t =>
    by_cases ht : t = []
    · subst ht; simp [recordBytes, headBytes, writtenHeaders, this, bne]
    · simp [recordBytes, headBytes, writtenHeaders, this, bne, ht]

/-- and the length that is written is read back as the length of the content -/
theorem C18_length_is_real (it : Item) :
    declaredLength it.R.headers = it.body.length ∧ pyInt 10 (decimal it.body.length) = some (it.body.length : Int) := by
  refine ⟨?_, pyInt_decimal _⟩
  show declaredLength (writtenHeaders it.headers it.ctype it.body) = _
  unfold writtenHeaders
  rw [declaredLength_snoc, if_pos (by simp only; decide), pyInt_decimal]
  rfl

/-! ### C24, C25 -/

/-- the compressed file that `write_to(gzip=True)` makes -/
theorem gz_dec (c : Codec) (hc : Codec.Laws c) (its : List Item) :
    c.dec ((its.map fun it => it.R.bytes).flatMap c.enc) = (archive (its.map Item.R), none) := by
  rw [hc.members]; simp [archive, List.flatMap, Function.comp_def]

/-- **C24** Appending the records `its2` with `gzip=True` to the record-compressed archive of `its1`
(possibly empty) gives a file that, opened with automatic detection of format and compression,
yields the records `its1 ++ its2` exactly as the uncompressed archive does. -/
theorem C24_compressed_round_trip (c : Codec) (hc : Codec.Laws c) (its1 its2 : List Item)
    (h1 : ∀ it ∈ its1, it.Ok) (h2 : ∀ it ∈ its2, it.Ok) (hne : its1 ++ its2 ≠ [])
    (cls : Option RecClass) (hcls : cls = none ∨ cls = some .warc) (name : Bool)
    (gz : GzMode) (hgz : gz = .auto ∨ gz = .record) (fuel : Nat)
    (hfuel : (its1 ++ its2).length < fuel) :
    ∃ file1 file s, writeAllGz c its1 [] = some file1 ∧ writeAllGz c its2 file1 = some file ∧
      openArchive c cls name gz none file = .ok s ∧
      collect true fuel s =
        ⟨expectGot (fun _ => none) 0 ((its1 ++ its2).map Item.R), some ⟨none, none, []⟩, .done⟩ := by
  have hok : ∀ it ∈ its1 ++ its2, it.Ok := by
    intro it hit
    rcases List.mem_append.1 hit with hh | hh
    · exact h1 it hh
    · exact h2 it hh
  refine ⟨_, ((its1 ++ its2).map fun it => it.R.bytes).flatMap c.enc, ⟨gzipFileOf c (File.openFile (((its1 ++ its2).map fun it => it.R.bytes).flatMap c.enc)), none,
    .gzipRecord, .warc⟩, writeAllGz_ok c its1 [], ?_, ?_, ?_⟩
  · rw [writeAllGz_ok]; simp
  · apply openArchive_gzip c cls .warc name gz _ hgz
    · rw [gz_dec c hc]
      rcases hcls with rfl | rfl
      · exact Or.inr ⟨rfl, archive_classify _ (items_ok hok)⟩
      · exact Or.inl rfl
    · cases hh : its1 ++ its2 with
      | nil => exact absurd hh hne
      | cons it its =>
        obtain ⟨t, ht⟩ := hc.magic it.R.bytes
        simp [ht]
    · rw [gz_dec c hc]; exact Or.inl rfl
  · have hrest : (File.openFile (((its1 ++ its2).map fun it => it.R.bytes).flatMap c.enc)).rest =
        ((its1 ++ its2).map fun it => it.R.bytes).flatMap c.enc := by simp [File.openFile, File.rest]
    rw [collect_archive true fuel _ ((its1 ++ its2).map Item.R) (by simp) rfl
      (by simp only [gzipFileOf]; rw [hrest, gz_dec c hc]) (items_ok hok)
      (fun _ _ => Or.inl rfl)
      (by simp only [gzipFileOf, File.rest, List.drop_zero]
          have := hrest
          simp only [File.rest] at this
          rw [this, gz_dec c hc]) (by simpa using hfuel)]
    have hrep : reported .gzipRecord true = fun _ => none := by funext p; rfl
    simp [hrep, gzipFileOf]

example : ∃ file1 file s, writeAllGz toy [demo1] [] = some file1 ∧
    writeAllGz toy [demo2, demo1] file1 = some file ∧ openArchive toy none false .auto none file = .ok s ∧
    collect true 9 s =
      ⟨expectGot (fun _ => none) 0 [demo1.R, demo2.R, demo1.R], some ⟨none, none, []⟩, .done⟩ :=
  C24_compressed_round_trip toy toy_laws [demo1] [demo2, demo1] (by simp [demo1_ok])
    (by simp [demo1_ok, demo2_ok]) (by simp) none (Or.inl rfl) false .auto (Or.inl rfl) 9 (by decide)

end Warc
