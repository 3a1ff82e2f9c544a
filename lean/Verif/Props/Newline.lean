import Verif.Proofs.Newline
import Verif.Props.RoundTrip
import Verif.Props.ValidReport
set_option linter.all false
/-
  C112: records written with another line end.
-/
namespace Warc
open Rx Stream Spec

/-! ### the bytes -/

/-- **C112** The bytes that `write_to(out, newline)` writes for a record with a content tuple, whatever the line end is. -/
theorem C112_bytes (nl : Bytes) (w : World) (ctype : Option Bytes) (buf : Option Bytes)
    (hcls : w.rcd.cls = .warc) (hcf : w.rcd.cfile = .none) (hc : w.rcd.content = some (ctype, buf)) :
    ∃ w', World.writeTo nl w = .ok () w' ∧ w'.rcd = w.rcd ∧ w'.strm = w.strm ∧
      w'.out = w.out ++ (w.rcd.version ++ nl ++
        (w.rcd.headers.filter
          (fun h => !(h.1 == b! "Content-Type") && !(h.1 == b! "Content-Length"))).flatMap
            (fun h => h.1 ++ b! ": " ++ h.2 ++ nl) ++
        (if ctype.getD [] = [] then [] else b! "Content-Type: " ++ ctype.getD [] ++ nl) ++
        b! "Content-Length: " ++ decimal (buf.getD []).length ++ nl ++ nl ++
        buf.getD [] ++ nl ++ nl) := by
  refine ⟨_, World.writeTo_tuple_with nl w ctype buf hcls hcf hc, rfl, rfl, ?_⟩
  cases ctype with
  | none => simp [recordWith, writtenHeaders, bne]
  | some t =>
    by_cases ht : t = []
    · subst ht; simp [recordWith, writtenHeaders, bne]
    · simp [recordWith, writtenHeaders, bne, ht]

/-- **C112** The same for a record with a content file (all headers as they are, the file is read to its end, the record cannot be written again). -/
theorem C112_bytes_file (nl : Bytes) (w : World) (f : File) (hf : f.fault = none) (hcls : w.rcd.cls = .warc)
    (hcf : w.rcd.cfile = .file f) (hv : w.rcd.cfileValid = true) :
    ∃ w', World.writeTo nl w = .ok () w' ∧ w'.rcd.cfileValid = false ∧ w'.strm = w.strm ∧
      w'.out = w.out ++ (w.rcd.version ++ nl ++ w.rcd.headers.flatMap (fun h => h.1 ++ b! ": " ++ h.2 ++ nl) ++ nl ++ f.rest ++ nl ++ nl) :=
  ⟨_, World.writeTo_file_with nl w f hf hcls hcf hv, rfl, rfl, rfl⟩

/-- **C112** The same for a record that was just read: its payload is copied from the stream. -/
theorem C112_bytes_read (nl : Bytes) (w : World) (n : Nat) (hcls : w.rcd.cls = .warc) (hcf : w.rcd.cfile = .stream)
    (hv : w.rcd.cfileValid = true) (he : w.strm.eoc = some (n : Int)) (hok : n ≤ w.strm.fh.rest.length) :
    ∃ w', World.writeTo nl w = .ok () w' ∧ w'.rcd.cfileValid = false ∧
      w'.out = w.out ++ (w.rcd.version ++ nl ++ w.rcd.headers.flatMap (fun h => h.1 ++ b! ": " ++ h.2 ++ nl) ++ nl ++
        w.strm.fh.rest.take n ++ nl ++ nl) :=
  ⟨_, World.writeTo_stream_with nl w n hcls hcf hv he (Or.inl hok), rfl, rfl⟩

/-- **C112** With `gzip=True` the same bytes become one member. -/
theorem C112_bytes_gzip (enc : Bytes → Bytes) (nl : Bytes) (w : World) (ctype : Option Bytes) (buf : Option Bytes)
    (hcls : w.rcd.cls = .warc) (hcf : w.rcd.cfile = .none) (hc : w.rcd.content = some (ctype, buf)) :
    ∃ w' w'', World.writeTo nl { w with out := [] } = .ok () w' ∧ World.writeToGz enc nl w = .ok () w'' ∧ w''.out = w.out ++ enc w'.out := by
  have h := World.writeTo_tuple_with nl { w with out := [] } ctype buf hcls hcf hc
  have hg : World.writeToGz enc nl w = .ok () { w with out := w.out ++ enc ([] ++
      recordWith nl w.rcd.version (writtenHeaders w.rcd.headers ctype (buf.getD [])) (buf.getD [])) } := by
    simp only [World.writeToGz]
    rw [h]
  exact ⟨_, _, h, hg, rfl⟩

/-- the records of a whole list, one after the other -/
theorem C112_written (nl : Bytes) (c : Codec) (its : List Item) :
    writeAllWith nl its [] = some (archiveWith nl (its.map Item.R)) ∧
    writeAllGzWith c nl its [] = some ((its.map fun it => recordWith nl it.R.version it.R.headers it.R.body).flatMap c.enc) := by
  rw [writeAllWith_ok, writeAllGzWith_ok]; exact ⟨rfl, rfl⟩

/-! ### reading LF archives -/

theorem next_line_feeds (k : Nat) : next (List.replicate k (10 : Byte)) = .none [] k := by
  have hl : Spec.lines (List.replicate k (10 : Byte)) = List.replicate k [10] := by
    induction k with
    | zero => rfl
    | succ k ih => simp [List.replicate_succ, Spec.lines, ih]
  have hd : dropTerminators (List.replicate k [(10 : Byte)]) = [] := by
    unfold dropTerminators
    induction k with
    | zero => rfl
    | succ k ih =>
      rw [List.replicate_succ, List.dropWhile_cons_of_pos (by decide)]
      clear ih
      have : ∀ n, List.dropWhile (fun l : Bytes => l.all fun c => c == 13 || c == 10) (List.replicate n [(10 : Byte)]) = [] := by
        intro n
        induction n with
        | zero => rfl
        | succ n ih => rw [List.replicate_succ, List.dropWhile_cons_of_pos (by decide)]; exact ih
      exact this k
  rw [next, hl, hd]
  simp [look, ignored]

theorem meaning_lf (report : Nat → Option Nat) (rs : List R) (hok : ∀ r ∈ rs, r.Ok) (rounds pos k : Nat) (hr : rs.length < rounds) :
    meaning report rounds pos (List.replicate k (10 : Byte) ++ archiveWith [10] rs) =
      ⟨expectLF report (pos + k) rs, some ⟨report (pos + k + (archiveWith [10] rs).length), none, []⟩, .done⟩ := by
  induction rs generalizing rounds pos k with
  | nil =>
    cases rounds with
    | zero => simp at hr
    | succ rounds => simp [meaning, archiveWith, next_line_feeds, expectLF]
  | cons r rs ih =>
    cases rounds with
    | zero => simp at hr
    | succ rounds =>
      have hk := hok r (by simp)
      have hn := next_lf k r.version r.headers (r.body ++ (List.replicate 2 (10 : Byte) ++ archiveWith [10] rs)) hk.version hk.headers
      have hdata : List.replicate k (10 : Byte) ++ archiveWith [10] (r :: rs) =
          List.replicate k (10 : Byte) ++ (r.version ++ [10] ++ r.headers.flatMap (fun h : Header => h.1 ++ b! ": " ++ h.2 ++ [10]) ++ [10] ++
            (r.body ++ (List.replicate 2 (10 : Byte) ++ archiveWith [10] rs))) := by
        simp [archiveWith, recordWith, List.replicate]
      rw [hdata, meaning, hn]
      generalize hH : r.version ++ [10] ++ r.headers.flatMap (fun h : Header => h.1 ++ b! ": " ++ h.2 ++ [10]) ++ [10] = H
      have hd : (List.replicate k (10 : Byte) ++ (H ++ (r.body ++ (List.replicate 2 (10 : Byte) ++ archiveWith [10] rs)))).drop (k + H.length) =
          r.body ++ (List.replicate 2 (10 : Byte) ++ archiveWith [10] rs) := by
        rw [← List.append_assoc, List.drop_left' (by simp)]
      have hlen : (recordWith [10] r.version r.headers r.body).length = H.length + r.body.length + 2 := by
        rw [← hH]; simp [recordWith]; omega
      have harch : (archiveWith [10] (r :: rs)).length = H.length + r.body.length + 2 + (archiveWith [10] rs).length := by
        rw [archiveWith, List.flatMap_cons, List.length_append, hlen]; rfl
      simp only [hd, hk.length, Int.toNat_natCast]
      rw [if_neg (by omega), if_neg (by omega), if_neg (by simp), List.take_left' rfl, List.drop_left' rfl,
        ih (fun r hr => hok r (by simp [hr])) rounds _ 2 (by simp at hr; omega)]
      simp only [Collected.behind, expectLF, hlen, harch, lineFeedErrors, List.cons_append, List.nil_append]
      have e1 : pos + (k + H.length) + r.body.length + 2 = pos + k + (H.length + r.body.length + 2) := by omega
      have e2 : pos + k + (H.length + r.body.length + 2) + (archiveWith [10] rs).length =
        pos + k + (H.length + r.body.length + 2 + (archiveWith [10] rs).length) := by omega
      rw [e1, e2]

theorem classify_lf (rs : List R) (hok : ∀ r ∈ rs, r.Ok) : Detect.classify (File.firstLine (archiveWith [10] rs)) = some .warc := by
  cases rs with
  | nil => exact classify_nil
  | cons r rs =>
    have hk := hok r (by simp)
    have e : archiveWith [10] (r :: rs) = r.version ++ 10 :: (r.headers.flatMap (fun h : Header => h.1 ++ b! ": " ++ h.2 ++ [10]) ++
        [10] ++ r.body ++ [10] ++ [10] ++ archiveWith [10] rs) := by simp [archiveWith, recordWith]
    rw [e, File.firstLine_append _ _ (versionOk_noLF hk.version)]
    have hll : LineLike (r.version ++ [10]) := by rw [LineLike, List.dropLast_concat]; exact versionOk_noLF hk.version
    obtain ⟨h1, _⟩ := lf_version hk.version
    cases hv : vspec (r.version ++ [10]) with
    | none =>
      have := (vspec_none_iff hll).1 hv
      simp only [List.mem_cons, List.not_mem_nil, or_false] at h1
      rcases h1 with h | h | h <;> rw [h] at this <;> simp at this
    | some p => exact classify_version _ _ hv

theorem lf_not_gzip (rs : List R) (hok : ∀ r ∈ rs, r.Ok) : (archiveWith [10] rs).take 2 ≠ [0x1f, 0x8b] := by
  cases rs with
  | nil => simp [archiveWith]
  | cons r rs =>
    have e : archiveWith [10] (r :: rs) = r.version ++ ([10] ++ r.headers.flatMap (fun h : Header => h.1 ++ b! ": " ++ h.2 ++ [10]) ++
        [10] ++ r.body ++ [10] ++ [10] ++ archiveWith [10] rs) := by simp [archiveWith, recordWith]
    rw [e]; exact versionOk_not_gzip (hok r (by simp)).version

/-- **C112** Records written with LF as the line end and read back, with or without format guessing: nothing is lost — versions, headers, contents and offsets are those of the
records — but every record carries one complaint about its version line and one about every header line. -/
theorem C112_line_feed (c : Codec) (its : List Item) (h : ∀ it ∈ its, it.Ok)
    (cls : Option RecClass) (hcls : cls = none ∨ cls = some .warc) (gz : GzMode) (hgz : gz = .auto ∨ gz = .off) :
    ∃ file s, writeAllWith [10] its [] = some file ∧ openArchive c cls false gz none file = .ok s ∧
      ∀ fuel, file.length + 1 < fuel → its.length < fuel →
        collect true fuel s = ⟨expectLF some 0 (its.map Item.R), some ⟨some file.length, none, []⟩, .done⟩ := by
  refine ⟨archiveWith [10] (its.map Item.R), ⟨File.openFile (archiveWith [10] (its.map Item.R)), none, .plain, .warc⟩,
    by simpa using writeAllWith_ok [10] its [], ?_, ?_⟩
  · apply openArchive_plain c cls .warc gz _ hgz _ (lf_not_gzip _ (items_ok h))
    rcases hcls with rfl | rfl
    · exact Or.inr ⟨rfl, classify_lf _ (items_ok h)⟩
    · exact Or.inl rfl
  · intro fuel hfuel hf2
    have hrest : (File.openFile (archiveWith [10] (its.map Item.R))).rest = archiveWith [10] (its.map Item.R) := by simp [File.openFile, File.rest]
    rw [collect_exact true fuel _ rfl (by simp) rfl rfl rfl (by simp only [hrest]; omega)]
    simp only [hrest]
    have hm := meaning_lf (reported .plain true) (its.map Item.R) (items_ok h) fuel 0 0 (by simpa using hf2)
    simp only [List.replicate_zero, List.nil_append, Nat.zero_add] at hm
    have hrep : reported .plain true = some := by funext p; rfl
    rw [hrep] at hm ⊢
    exact hm

/-- **C112** The same with `gzip=True`, except that no offsets are reported. -/
theorem C112_line_feed_gzip (c : Codec) (hc : Codec.Laws c) (its : List Item) (h : ∀ it ∈ its, it.Ok) (hne : its ≠ [])
    (cls : Option RecClass) (hcls : cls = none ∨ cls = some .warc) (name : Bool) (gz : GzMode) (hgz : gz = .auto ∨ gz = .record) :
    ∃ file s, writeAllGzWith c [10] its [] = some file ∧ openArchive c cls name gz none file = .ok s ∧
      ∀ fuel, (archiveWith [10] (its.map Item.R)).length + 1 < fuel → its.length < fuel →
        collect true fuel s = ⟨expectLF (fun _ => none) 0 (its.map Item.R), some ⟨none, none, []⟩, .done⟩ := by
  have hdec : c.dec ((its.map fun it => recordWith [10] it.R.version it.R.headers it.R.body).flatMap c.enc) =
      (archiveWith [10] (its.map Item.R), none) := by
    rw [hc.members]; simp [archiveWith, List.flatMap, Function.comp_def]
  refine ⟨_, ⟨gzipFileOf c (File.openFile ((its.map fun it => recordWith [10] it.R.version it.R.headers it.R.body).flatMap c.enc)), none,
    .gzipRecord, .warc⟩, (C112_written [10] c its).2, ?_, ?_⟩
  · apply openArchive_gzip c cls .warc name gz _ hgz
    · rw [hdec]
      rcases hcls with rfl | rfl
      · exact Or.inr ⟨rfl, classify_lf _ (items_ok h)⟩
      · exact Or.inl rfl
    · cases hh : its with
      | nil => exact absurd hh hne
      | cons it its =>
        obtain ⟨t, ht⟩ := hc.magic (recordWith [10] it.R.version it.R.headers it.R.body)
        simp [ht]
    · rw [hdec]; exact Or.inl rfl
  · intro fuel hfuel hf2
    have hrest : (File.openFile ((its.map fun it => recordWith [10] it.R.version it.R.headers it.R.body).flatMap c.enc)).rest =
        (its.map fun it => recordWith [10] it.R.version it.R.headers it.R.body).flatMap c.enc := by simp [File.openFile, File.rest]
    have hf : gzipFileOf c (File.openFile ((its.map fun it => recordWith [10] it.R.version it.R.headers it.R.body).flatMap c.enc)) =
        { data := archiveWith [10] (its.map Item.R), pos := 0, strictNeg := true, fault := none } := by
      simp only [gzipFileOf, hrest, hdec]
    have hr0 : ({ data := archiveWith [10] (its.map Item.R), pos := 0, strictNeg := true, fault := none } : File).rest = archiveWith [10] (its.map Item.R) := by
      simp [File.rest]
    rw [hf, collect_exact true fuel _ rfl (by simp) rfl rfl rfl (by simp only [hr0]; omega)]
    simp only [hr0]
    have hm := meaning_lf (reported .gzipRecord true) (its.map Item.R) (items_ok h) fuel 0 0 (by simpa using hf2)
    simp only [List.replicate_zero, List.nil_append, Nat.zero_add] at hm
    have hrep : reported .gzipRecord true = fun _ => none := by funext p; rfl
    rw [hrep] at hm ⊢
    exact hm

/-- **C112** warcvalid rejects such a file: the complaints about the first record, with offset 0 and exit code -1. -/
theorem C112_rejected (c : Codec) (fs : FS) (name file : Bytes) (it : Item) (its : List Item) (h : ∀ x ∈ it :: its, x.Ok)
    (hn : ¬ b! ".gz" <:+ name) (hw : writeAllWith [10] (it :: its) [] = some file) (hfs : fs name = some file) :
    WarcValid.report c fs [name] =
      some ([.errorsAt name 0 (.badNlVersion [10] :: (writtenHeaders it.headers it.ctype it.body).map fun _ => .badNlHeader [10])], -1) := by
  rw [(C112_written [10] c (it :: its)).1] at hw
  cases hw
  have hok := items_ok h
  have hg := lf_not_gzip _ hok
  have hm := C105_messages c fs [(name, firstFlaw ((archiveWith [10] ((it :: its).map Item.R)).length + 2) 0 (archiveWith [10] ((it :: its).map Item.R)))] (by
    intro p hp
    simp only [List.mem_singleton] at hp
    subst hp
    exact .plain _ hfs hn hg)
  have hk := hok it.R (by simp)
  have hnx := next_lf 0 it.R.version it.R.headers (it.R.body ++ (List.replicate 2 (10 : Byte) ++ archiveWith [10] (its.map Item.R))) hk.version hk.headers
  have hdata : archiveWith [10] ((it :: its).map Item.R) =
      List.replicate 0 (10 : Byte) ++ (it.R.version ++ [10] ++ it.R.headers.flatMap (fun h : Header => h.1 ++ b! ": " ++ h.2 ++ [10]) ++ [10] ++
        (it.R.body ++ (List.replicate 2 (10 : Byte) ++ archiveWith [10] (its.map Item.R)))) := by
    simp [archiveWith, recordWith, List.replicate]
  have hff : firstFlaw ((archiveWith [10] ((it :: its).map Item.R)).length + 2) 0 (archiveWith [10] ((it :: its).map Item.R)) =
      .flawed 0 (.badNlVersion [10] :: it.R.headers.map fun _ => .badNlHeader [10]) := by
    rw [firstFlaw, hdata, hnx]
    simp
  rw [hff] at hm
  exact hm

/-! ### concrete cases -/

example : ∃ file s, writeAllWith [10] [demo1, demo2] [] = some file ∧ openArchive toy none false .auto none file = .ok s ∧
    ∀ fuel, file.length + 1 < fuel → 2 < fuel →
      collect true fuel s = ⟨expectLF some 0 [demo1.R, demo2.R], some ⟨some file.length, none, []⟩, .done⟩ :=
  C112_line_feed toy [demo1, demo2] (by simp [demo1_ok, demo2_ok]) none (Or.inl rfl) .auto (Or.inl rfl)

example := C112_line_feed_gzip toy toy_laws [demo1, demo2] (by simp [demo1_ok, demo2_ok]) (by simp) none (Or.inl rfl) true .auto (Or.inl rfl)

example := C112_rejected toy (fun _ => some (archiveWith [10] [demo1.R, demo2.R])) (b! "a.warc") _ demo1 [demo2] (by simp [demo1_ok, demo2_ok])
  (by decide) (C112_written [10] toy [demo1, demo2]).1 rfl

/-- with CR as the line end the record is not readable at all: its version line never ends before the first LF of the content -/
example : next (recordWith [13] (b! "WARC/1.0") [(b! "Content-Length", b! "3")] (b! "abc")) = .unknown := by decide +kernel

end Warc
