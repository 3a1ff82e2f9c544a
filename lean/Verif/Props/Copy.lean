import Verif.Proofs.AnyFile
/-
  C46: warc2warc copies.  C58: records that were read can be written and read again.
-/
set_option linter.all false
namespace Warc
open Rx Stream Spec

theorem reported_false (k : Kind) (p : Nat) : reported k false p = none := by cases k <;> rfl

theorem expectGot_none (pos : Nat) (rs : List R) : expectGot (fun _ => none) pos rs = rs.map R.asRead := by
  induction rs generalizing pos with
  | nil => rfl
  | cons r rs ih => simp [expectGot, ih, R.asRead]

theorem asRead_record (r : R) : r.asRead.record = r := rfl

theorem archive_eq_T (rs : List R) : archive rs = archiveT (rs.map fun r => (r, CRLF ++ CRLF)) := by
  induction rs with
  | nil => rfl
  | cons r rs ih =>
    simp only [archive, archiveT, List.flatMap_cons, List.map_cons] at ih ⊢
    rw [ih]
    simp [R.bytes, R.core, recordBytes]

theorem okT_crlf {rs : List R} (h : ∀ r ∈ rs, r.Ok) : OkT (rs.map fun r => (r, CRLF ++ CRLF)) := by
  intro r hr
  obtain ⟨x, hx, rfl⟩ := List.mem_map.1 hr
  exact ⟨h x hx, crlf2_terminator⟩

/-- an uncompressed file made of the bytes of well formed records -/
theorem stored_archive (c : Codec) (fs : FS) (name : Bytes) (rs : List R) (h : ∀ r ∈ rs, r.Ok)
    (hf : fs name = some (archive rs)) (hn : ¬ b! ".gz" <:+ name) :
    Stored c fs name false (rs.map fun r => (r, CRLF ++ CRLF)) := by
  refine ⟨okT_crlf h, ?_⟩
  simp only [Bool.false_eq_true, if_false]
  exact ⟨by rw [hf, archive_eq_T], hn⟩

/-- a file made of compressed records -/
theorem stored_gz (c : Codec) (fs : FS) (name : Bytes) (rs : List R) (h : ∀ r ∈ rs, r.Ok)
    (hf : fs name = some (rs.flatMap fun r => c.enc r.bytes)) (hn : rs ≠ [] ∨ b! ".gz" <:+ name) :
    Stored c fs name true (rs.map fun r => (r, CRLF ++ CRLF)) := by
  refine ⟨okT_crlf h, ?_⟩
  simp only [if_true]
  refine ⟨rs.map R.bytes, ?_, ?_, ?_⟩
  · rw [← archive_eq_T, archive, List.flatMap_def]
  · rw [hf, List.flatMap_map]
  · simpa using hn

/-- reading all records of a stream over a well formed archive -/
theorem collect_fresh (z : Bool) (s : Stream) (rs : List RT) (hf : Fresh s z rs) (hok : OkT rs) (fuel : Nat)
    (hfuel : rs.length < fuel) :
    collect false fuel s = ⟨rs.map fun r => r.1.asRead, some ⟨none, none, []⟩, .done⟩ := by
  have hk : s.kind ≠ .gzipFile := by rw [hf.kind]; cases z <;> simp
  have key : ∀ (rs : List RT) (s : Stream) (fuel : Nat), s.kind ≠ .gzipFile → s.eoc = none → s.parser = .warc → s.fh.fault = none →
      s.fh.rest = archiveT rs → OkT rs → rs.length < fuel →
      collect false fuel s = ⟨rs.map fun r => r.1.asRead, some ⟨none, none, []⟩, .done⟩ := by
    intro rs
    induction rs with
    | nil =>
      intro s fuel hk he hp hf hr hok hfu
      obtain ⟨fuel, rfl⟩ : ∃ k, fuel = k + 1 := ⟨fuel - 1, by simp at hfu; omega⟩
      simp only [collect, readRecord_eof false s hk he hf (by rw [hr]; simp [archiveT])]
      simp [reported_false]
    | cons r rs ih =>
      intro s fuel hk he hp hf hr hok hfu
      obtain ⟨fuel, rfl⟩ : ∃ k, fuel = k + 1 := ⟨fuel - 1, by simp at hfu; omega⟩
      have hr' : s.fh.rest = r.1.core ++ r.2 ++ archiveT rs := by rw [hr]; simp [archiveT]
      obtain ⟨s1, h1, h2, h3, h4, h5, h6, h7, h8⟩ := first_record false s r.1 r.2 (archiveT rs) hk he
        (hok r (by simp)).1 (hok r (by simp)).2 (Or.inl hp) hr'
      have hcong : ∀ a b : Stream, readRecord false a = readRecord false b → collect false fuel a = collect false fuel b := by
        intro a b h
        cases fuel with
        | zero => rfl
        | succ fuel => simp only [collect, h]
      simp only [collect, h1, Tool.content_read s1 r.1 [] h2 ⟨_, h3⟩]
      rw [hcong _ _ (h8 false r.1.body.length (Nat.le_refl _))]
      rw [ih (s.adv (r.1.core ++ r.2).length) fuel hk he hp hf
        (by rw [adv_fh, File.advance_rest, hr', List.drop_left]) (fun x hx => hok x (by simp [hx])) (by simp at hfu; omega)]
      simp [R.asRead, parsed, reported_false]
  exact key rs s fuel hk hf.eoc hf.parser hf.fault hf.rest hok hfuel

/-- files of well formed records are readable -/
theorem stored_readable (c : Codec) (hc : Codec.Laws c) (fs : FS) (name : Bytes) (z : Bool) (rs : List RT)
    (h : Stored c fs name z rs) : Readable c fs name (rs.map fun r => r.1.asRead) := by
  obtain ⟨s, ho, hf⟩ := open_stored c hc fs name z rs h
  exact ⟨s, rs.length + 1, ho, collect_fresh z s rs hf h.1 _ (by omega)⟩

/-- **C46** `warc2warc` (without options) writes every record of its input files, in order: the version
line, the headers as they were, the content, two line ends.  The files may be compressed or not, in any
division into gzip members, with any line ends between the records. -/
theorem C46_copies (c : Codec) (hc : Codec.Laws c) (z : Http.Zlib) (fs : FS) (files : List StoredFile) (h : AllStored c fs files) :
    Warc2Warc.main c z fs {} (files.map StoredFile.name) [] = .ok () (archive (allRecords files)) := by
  have := forFiles_each c hc fs files h (Warc2Warc.process c z {}) R.bytes (fun r _ => Tool.handles_writeTo r) []
  simpa [Warc2Warc.main, archive] using this

/-- **C46** with `-Z` every record becomes a gzip member of its own -/
theorem C46_compresses (c : Codec) (hc : Codec.Laws c) (z : Http.Zlib) (fs : FS) (files : List StoredFile) (h : AllStored c fs files) :
    Warc2Warc.main c z fs { gzip := true } (files.map StoredFile.name) [] =
      .ok () ((allRecords files).flatMap fun r => c.enc r.bytes) := by
  have := forFiles_each c hc fs files h (Warc2Warc.process c z { gzip := true }) (fun r => c.enc r.bytes)
    (fun r _ => Tool.handles_writeToGz c r) []
  simpa [Warc2Warc.main] using this

/-- **C46** Six or more junk lines where a record should start are not skipped silently: the records before them are
written, then an exception is raised. -/
theorem C46_junk_raises (c : Codec) (z : Http.Zlib) (fs : FS) (name : Bytes) (rs : List RT) (junk : List Bytes) (more : Bytes)
    (hok : OkT rs) (hjs : ∀ j ∈ junk, JunkLine j) (hj6 : 6 ≤ junk.length)
    (hfs : fs name = some (archiveT rs ++ (junk.flatten ++ more))) (hn : ¬ b! ".gz" <:+ name)
    (hg : ¬ [0x1f, 0x8b] <+: archiveT rs ++ (junk.flatten ++ more)) (rest : List Bytes) :
    Warc2Warc.main c z fs {} (name :: rest) [] =
      .raise (.generic "Errors while decoding") (archive (rs.map Prod.fst)) := by
  have hng : nameGz name = false := by
    rw [nameGz, Bool.eq_false_iff]; exact fun hh => hn ((endsWith_iff _ _).1 hh)
  have ho : openName c fs .warc none name =
      .ok ⟨File.openFile (archiveT rs ++ (junk.flatten ++ more)), none, .plain, .warc⟩ := by
    simp only [openName, hfs, hng]
    exact openArchive_plain c (some .warc) .warc .auto _ (Or.inl rfl) (Or.inl rfl)
      (fun hh => hg (by rw [← hh]; exact List.take_prefix _ _))
  have hrest : (File.openFile (archiveT rs ++ (junk.flatten ++ more))).rest = archiveT rs ++ (junk.flatten ++ more) := by
    simp [File.openFile, File.rest]
  have hlen := Tool.archiveT_length rs
  obtain ⟨fuel, hfu⟩ : ∃ k, Tool.rounds ⟨⟨File.openFile (archiveT rs ++ (junk.flatten ++ more)), none, .plain, .warc⟩, []⟩ =
      rs.length + (k + 1) := ⟨(archiveT rs ++ (junk.flatten ++ more)).length + 2 - rs.length - 1, by
        simp only [Tool.rounds, hrest, List.length_append]; omega⟩
  have h1 := Tool.forEach_archive (Warc2Warc.process c z {}) R.bytes (fuel + 1)
    ⟨File.openFile (archiveT rs ++ (junk.flatten ++ more)), none, .plain, .warc⟩ [] rs (junk.flatten ++ more) (by simp) rfl hok
    (fun _ _ => Or.inl rfl) hrest (fun r _ => Tool.handles_writeTo r.1)
  have h2 := readRecord_giveUp false [] (junk.take 6) ((junk.drop 6).flatten ++ more)
    ((⟨File.openFile (archiveT rs ++ (junk.flatten ++ more)), none, .plain, .warc⟩ : Stream).adv (archiveT rs).length)
    (by simp [adv]) rfl rfl ⟨by simp, Or.inl rfl⟩ (fun j hj => hjs j (List.mem_of_mem_take hj)) (by simp; omega) (by
      rw [adv_fh, File.advance_rest, hrest, List.drop_left, List.nil_append, ← List.append_assoc ((junk.take 6).flatten),
        ← List.flatten_append, List.take_append_drop])
  have h3 : archive (rs.map Prod.fst) = [] ++ rs.flatMap fun r => R.bytes r.1 := by
    simp [archive, List.flatMap_map]
  simp only [Warc2Warc.main, forFiles, M.bind_apply, onArchive, ho, Tool.each, hfu, h1, Tool.forEach, Tool.onStream, h2, h3]
  rw [if_neg (by simp)]
  rfl

/-- a record and six junk lines -/
example (c : Codec) (z : Http.Zlib) (fs : FS)
    (hfs : fs (b! "j.warc") = some (archiveT [(demo1.R, CRLF ++ CRLF)] ++ ((List.replicate 6 (b! "x\n")).flatten ++ b! "y"))) :
    Warc2Warc.main c z fs {} [b! "j.warc"] [] = .raise (.generic "Errors while decoding") (archive [demo1.R]) :=
  C46_junk_raises c z fs _ [(demo1.R, CRLF ++ CRLF)] (List.replicate 6 (b! "x\n")) (b! "y")
    (fun r hr => demoRT_ok r (by simp only [List.mem_singleton] at hr; subst hr; simp [demoRT]))
    (by intro j hj; obtain rfl := List.eq_of_mem_replicate hj; exact ⟨⟨b! "x", rfl, by decide⟩, by decide, by decide⟩) (by decide)
    hfs (by decide) (by decide +kernel) []

/-- **C46** for any input files, whatever their bytes, that can be read to their end without exception: the
output consists of the records that reading gives -/
theorem C46_any (c : Codec) (z : Http.Zlib) (fs : FS) (files : List (Bytes × List Got))
    (h : ∀ f ∈ files, Readable c fs f.1 f.2) (hn : ∀ f ∈ files, ∀ g ∈ f.2, 0 ≤ declaredLength g.headers) :
    Warc2Warc.main c z fs {} (files.map Prod.fst) [] = .ok () (archive ((files.flatMap Prod.snd).map Got.record)) ∧
    Warc2Warc.main c z fs { gzip := true } (files.map Prod.fst) [] =
      .ok () (((files.flatMap Prod.snd).map Got.record).flatMap fun r => c.enc r.bytes) := by
  have h1 := forFiles_any c fs files h hn (Warc2Warc.process c z {}) R.bytes Tool.copies_writeTo []
  have h2 := forFiles_any c fs files h hn (Warc2Warc.process c z { gzip := true }) (fun r => c.enc r.bytes) (Tool.copies_writeToGz c) []
  constructor
  · simpa [Warc2Warc.main, archive, List.flatMap_map] using h1
  · simpa [Warc2Warc.main, List.flatMap_map] using h2

/-- a record that was read without errors and none of whose header values begins with a blank -/
def Tidy (g : Got) : Prop :=
  g.errors = [] ∧ 0 ≤ declaredLength g.headers ∧ ∀ h ∈ g.headers, ∀ b, h.2.head? = some b → isWs b = false

theorem readable_got (c : Codec) (fs : FS) (name : Bytes) (gs : List Got) (h : Readable c fs name gs)
    (hn : ∀ g ∈ gs, 0 ≤ declaredLength g.headers) :
    ∀ g ∈ gs, VersionOk g.version ∧ (∀ h ∈ g.headers, 58 ∉ h.1 ∧ 10 ∉ h.1 ∧ strip h.1 = h.1 ∧ 10 ∉ h.2) ∧
      declaredLength g.headers = g.record.body.length ∧
      g.content = (firstValue (b! "Content-Type") g.headers, some g.record.body) ∧
      (g.errors = [] → ∀ h ∈ g.headers, ValueOk h ∧ ∀ c, h.2.getLast? = some c → isWs c = false) ∧ g.offset = none := by
  obtain ⟨s, rounds, ho, hcol⟩ := h
  intro g hg
  obtain ⟨h1, h2, h3, h4, h5, h6⟩ := collect_sane false rounds s gs _ (openName_warc c fs name s none ho).1 hn hcol g hg
  exact ⟨h1, h2, h3, h4, h5, h6 rfl⟩

/-- **C58** A record that was read without errors from any input can be written again, unless a header
value begins with a blank (which only folded headers can) -/
theorem C58_writable (c : Codec) (fs : FS) (name : Bytes) (gs : List Got) (h : Readable c fs name gs)
    (ht : ∀ g ∈ gs, Tidy g) : ∀ g ∈ gs, g.record.Ok ∧ g.record.asRead = g := by
  intro g hg
  obtain ⟨h1, h2, h3, h4, h5, h6⟩ := readable_got c fs name gs h (fun g hg => (ht g hg).2.1) g hg
  obtain ⟨t1, t2, t3⟩ := ht g hg
  constructor
  · refine ⟨h1, ?_, h3⟩
    intro x hx
    obtain ⟨a1, a2, a3, a4⟩ := h2 x hx
    obtain ⟨⟨b1, b2⟩, b3⟩ := h5 t1 x hx
    exact ⟨a1, a2, a3, a4, strip_eq_self (fun c cs e => t3 x hx c (by rw [e]; rfl)) b3, b1, b2⟩
  · obtain ⟨o, v, hs, es, ct⟩ := g
    simp only at h4 h6 t1
    subst h6 t1
    simp only [R.asRead, Got.record]
    rw [h4]
    rfl

/-- **C58** The bytes of records that were read without errors (no header value beginning with a blank), stored
in any file, plain or compressed record by record, are read as the same records. -/
theorem C58_rereads (c : Codec) (hc : Codec.Laws c) (fs : FS) (name : Bytes) (gs : List Got) (h : Readable c fs name gs)
    (ht : ∀ g ∈ gs, Tidy g) (fs' : FS) (name' : Bytes) :
    (fs' name' = some (archive (gs.map Got.record)) → ¬ b! ".gz" <:+ name' → Readable c fs' name' gs) ∧
    (fs' name' = some ((gs.map Got.record).flatMap fun r => c.enc r.bytes) → b! ".gz" <:+ name' → Readable c fs' name' gs) := by
  have hw := C58_writable c fs name gs h ht
  have hok : ∀ r ∈ gs.map Got.record, r.Ok := by
    intro r hr
    obtain ⟨g, hgm, rfl⟩ := List.mem_map.1 hr
    exact (hw g hgm).1
  have hid : gs.map (((fun r : RT => r.1.asRead) ∘ (fun r : R => (r, CRLF ++ CRLF))) ∘ Got.record) = gs := by
    conv => rhs; rw [← List.map_id gs]
    apply List.map_congr_left
    intro g hgm
    exact (hw g hgm).2
  constructor
  · intro hf hg
    have := stored_readable c hc fs' name' false _ (stored_archive c fs' name' _ hok hf hg)
    rwa [List.map_map, List.map_map, hid] at this
  · intro hf hg
    have := stored_readable c hc fs' name' true _ (stored_gz c fs' name' _ hok hf (Or.inr hg))
    rwa [List.map_map, List.map_map, hid] at this

/-- **C46, C58** If the records of the input files were read without errors and no header value begins with
a blank, then the output of `warc2warc`, stored anywhere, is read as exactly the same records (version,
headers, content, no errors), and running `warc2warc` on it reproduces it byte by byte. -/
theorem C46_same_records (c : Codec) (hc : Codec.Laws c) (z : Http.Zlib) (fs : FS) (files : List (Bytes × List Got))
    (h : ∀ f ∈ files, Readable c fs f.1 f.2) (ht : ∀ f ∈ files, ∀ g ∈ f.2, Tidy g) :
    ∃ out, Warc2Warc.main c z fs {} (files.map Prod.fst) [] = .ok () out ∧
      ∀ fs' name, fs' name = some out → ¬ b! ".gz" <:+ name →
        Readable c fs' name (files.flatMap Prod.snd) ∧
        Warc2Warc.main c z fs' {} [name] [] = .ok () out := by
  have hn : ∀ f ∈ files, ∀ g ∈ f.2, 0 ≤ declaredLength g.headers := fun f hf g hg => (ht f hf g hg).2.1
  have hw : ∀ g ∈ files.flatMap Prod.snd, g.record.Ok ∧ g.record.asRead = g := by
    intro g hg
    obtain ⟨f, hf, hg⟩ := List.mem_flatMap.1 hg
    exact C58_writable c fs f.1 f.2 (h f hf) (ht f hf) g hg
  refine ⟨_, (C46_any c z fs files h hn).1, ?_⟩
  intro fs' name hf hg
  have hok : ∀ r ∈ (files.flatMap Prod.snd).map Got.record, r.Ok := by
    intro r hr
    obtain ⟨g, hgm, rfl⟩ := List.mem_map.1 hr
    exact (hw g hgm).1
  have hst := stored_archive c fs' name _ hok hf hg
  constructor
  · have := stored_readable c hc fs' name false _ hst
    rw [List.map_map, List.map_map] at this
    have hid : (files.flatMap Prod.snd).map (((fun r : RT => r.1.asRead) ∘ (fun r : R => (r, CRLF ++ CRLF))) ∘ Got.record) =
        files.flatMap Prod.snd := by
      conv => rhs; rw [← List.map_id (files.flatMap Prod.snd)]
      apply List.map_congr_left
      intro g hgm
      exact (hw g hgm).2
    rwa [hid] at this
  · have := C46_copies c hc z fs' [⟨name, false, _⟩] (by
      intro f hf
      simp only [List.mem_singleton] at hf
      subst hf
      exact hst)
    simpa [allRecords, List.map_map, Function.comp_def] using this

/-- **C46** the same for compressed output -/
theorem C46_same_records_gz (c : Codec) (hc : Codec.Laws c) (z : Http.Zlib) (fs : FS) (files : List (Bytes × List Got))
    (h : ∀ f ∈ files, Readable c fs f.1 f.2) (ht : ∀ f ∈ files, ∀ g ∈ f.2, Tidy g) :
    ∃ out, Warc2Warc.main c z fs { gzip := true } (files.map Prod.fst) [] = .ok () out ∧
      ∀ fs' name, fs' name = some out → b! ".gz" <:+ name →
        Readable c fs' name (files.flatMap Prod.snd) ∧
        Warc2Warc.main c z fs' { gzip := true } [name] [] = .ok () out := by
  have hn : ∀ f ∈ files, ∀ g ∈ f.2, 0 ≤ declaredLength g.headers := fun f hf g hg => (ht f hf g hg).2.1
  have hw : ∀ g ∈ files.flatMap Prod.snd, g.record.Ok ∧ g.record.asRead = g := by
    intro g hg
    obtain ⟨f, hf, hg⟩ := List.mem_flatMap.1 hg
    exact C58_writable c fs f.1 f.2 (h f hf) (ht f hf) g hg
  refine ⟨_, (C46_any c z fs files h hn).2, ?_⟩
  intro fs' name hf hg
  have hok : ∀ r ∈ (files.flatMap Prod.snd).map Got.record, r.Ok := by
    intro r hr
    obtain ⟨g, hgm, rfl⟩ := List.mem_map.1 hr
    exact (hw g hgm).1
  have hst := stored_gz c fs' name _ hok hf (Or.inr hg)
  constructor
  · have := stored_readable c hc fs' name true _ hst
    rw [List.map_map, List.map_map] at this
    have hid : (files.flatMap Prod.snd).map (((fun r : RT => r.1.asRead) ∘ (fun r : R => (r, CRLF ++ CRLF))) ∘ Got.record) =
        files.flatMap Prod.snd := by
      conv => rhs; rw [← List.map_id (files.flatMap Prod.snd)]
      apply List.map_congr_left
      intro g hgm
      exact (hw g hgm).2
    rwa [hid] at this
  · have := C46_compresses c hc z fs' [⟨name, true, _⟩] (by
      intro f hf
      simp only [List.mem_singleton] at hf
      subst hf
      exact hst)
    simpa [allRecords, List.map_map, Function.comp_def] using this

/-- a file with lines ending in LF only between its records and a folded header, both forms of storage -/
example : AllStored toy demoFS [⟨b! "a.warc", false, demoRT⟩, ⟨b! "b.warc.gz", true, demoRT⟩] ∧
    Readable toy demoFS (b! "a.warc") (demoRT.map fun r => r.1.asRead) ∧
    (∀ g ∈ demoRT.map fun r => r.1.asRead, Tidy g) := by
  refine ⟨?_, stored_readable toy toy_laws demoFS _ false demoRT demo_plain, ?_⟩
  · intro f hf
    simp only [List.mem_cons, List.not_mem_nil, or_false] at hf
    rcases hf with rfl | rfl
    · exact demo_plain
    · exact demo_gz
  · intro g hg
    obtain ⟨r, hr, rfl⟩ := List.mem_map.1 hg
    obtain ⟨hv, hh, hl⟩ := (demoRT_ok r hr).1
    refine ⟨rfl, by simp only [R.asRead]; rw [hl]; omega, ?_⟩
    intro h hm b hb
    cases hv : h.2 with
    | nil => rw [hv] at hb; cases hb
    | cons x xs =>
      rw [hv] at hb
      simp only [List.head?_cons, Option.some.injEq] at hb
      subst hb
      exact strip_self_head (hh h hm).valueStrip hv

/-- the folded header with an empty first piece -/
def foldedFS : FS := fun n =>
  if n = b! "in" then some (b! "WARC/1.0\r\nX: \r\n abc\r\nContent-Length: 0\r\n\r\n\r\n\r\n") else none

/-- **C58 (defect)** a folded header whose first line is empty is read, without errors, as a value that
begins with a blank, and the copy made of this record is read as another value -/
theorem C58_folded_changes (z : Http.Zlib) :
    Readable toy foldedFS (b! "in") [⟨none, b! "WARC/1.0", [(b! "X", b! " abc"), (b! "Content-Length", b! "0")], [], (none, some [])⟩] ∧
    ∃ out, Warc2Warc.main toy z foldedFS {} [b! "in"] [] = .ok () out ∧
      Readable toy (fun _ => some out) (b! "out")
        [⟨none, b! "WARC/1.0", [(b! "X", b! "abc"), (b! "Content-Length", b! "0")], [], (none, some [])⟩] := by
  have h1 : ∃ s, openName toy foldedFS .warc none (b! "in") = .ok s ∧ collect false 2 s =
      ⟨[⟨none, b! "WARC/1.0", [(b! "X", b! " abc"), (b! "Content-Length", b! "0")], [], (none, some [])⟩], some ⟨none, none, []⟩, .done⟩ := by
    have : (match openName toy foldedFS .warc none (b! "in") with
      | .ok s => decide (collect false 2 s = ⟨[⟨none, b! "WARC/1.0", [(b! "X", b! " abc"), (b! "Content-Length", b! "0")], [], (none, some [])⟩], some ⟨none, none, []⟩, .done⟩)
      | _ => false) = true := by decide +kernel
    split at this
    · rename_i s hs
      exact ⟨s, hs, of_decide_eq_true this⟩
    · cases this
  obtain ⟨s, hs1, hs2⟩ := h1
  have hr : Readable toy foldedFS (b! "in") _ := ⟨s, 2, hs1, hs2⟩
  refine ⟨hr, _, (C46_any toy z foldedFS [(b! "in", _)] (by simpa using hr) (by
    intro f hf g hg
    simp only [List.mem_singleton] at hf
    subst hf
    simp only [List.mem_singleton] at hg
    subst hg
    decide)).1, ?_⟩
  have h2 : ∃ s, openName toy (fun _ => some (archive (([(b! "in", [(⟨none, b! "WARC/1.0", [(b! "X", b! " abc"), (b! "Content-Length", b! "0")], [], (none, some [])⟩ : Got)])].flatMap Prod.snd).map Got.record)))
      .warc none (b! "out") = .ok s ∧ collect false 2 s =
      ⟨[⟨none, b! "WARC/1.0", [(b! "X", b! "abc"), (b! "Content-Length", b! "0")], [], (none, some [])⟩], some ⟨none, none, []⟩, .done⟩ := by
    have : (match openName toy (fun _ => some (archive (([(b! "in", [(⟨none, b! "WARC/1.0", [(b! "X", b! " abc"), (b! "Content-Length", b! "0")], [], (none, some [])⟩ : Got)])].flatMap Prod.snd).map Got.record)))
      .warc none (b! "out") with
      | .ok s => decide (collect false 2 s = ⟨[⟨none, b! "WARC/1.0", [(b! "X", b! "abc"), (b! "Content-Length", b! "0")], [], (none, some [])⟩], some ⟨none, none, []⟩, .done⟩)
      | _ => false) = true := by decide +kernel
    split at this
    · rename_i s hs
      exact ⟨s, hs, of_decide_eq_true this⟩
    · cases this
  obtain ⟨s, hs1, hs2⟩ := h2
  exact ⟨s, 2, hs1, hs2⟩

end Warc
