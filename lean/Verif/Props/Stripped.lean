import Verif.Proofs.StrippedArc
import Verif.Props.Convert
import Verif.Props.ValidReport
import Verif.Props.Arc2WarcAny
set_option linter.all false
/-
  C120: what arc2warc writes can be read back.
-/
namespace Warc
open Rx Stream Spec

/-! ### records with white space around header values -/

/-- **C120** Records whose header values have white space around them (but no line feed in them), one after the other, are read back, with or without format
guessing, with nothing lost but that white space: versions, headers, contents and offsets are theirs, and there are no complaints. -/
theorem C120_white_space (c : Codec) (rs : List R) (h : ∀ r ∈ rs, r.Loose)
    (cls : Option RecClass) (hcls : cls = none ∨ cls = some .warc) (gz : GzMode) (hgz : gz = .auto ∨ gz = .off) :
    ∃ s, openArchive c cls false gz none (archive rs) = .ok s ∧
      ∀ fuel, (archive rs).length + 1 < fuel → rs.length < fuel →
        collect true fuel s = ⟨expectTidied some 0 rs, some ⟨some (archive rs).length, none, []⟩, .done⟩ := by
  refine ⟨⟨File.openFile (archive rs), none, .plain, .warc⟩, ?_, ?_⟩
  · apply openArchive_plain c cls .warc gz _ hgz _ (loose_not_gzip _ h)
    rcases hcls with rfl | rfl
    · exact Or.inr ⟨rfl, classify_loose _ h⟩
    · exact Or.inl rfl
  · intro fuel hfuel hf2
    have hrest : (File.openFile (archive rs)).rest = archive rs := by simp [File.openFile, File.rest]
    rw [collect_exact true fuel _ rfl (by simp) rfl rfl rfl (by simp only [hrest]; omega)]
    simp only [hrest]
    have hm := meaning_loose (reported .plain true) rs h fuel 0 0 hf2
    have he : ends 0 = [] := rfl
    simp only [he, List.nil_append, List.length_nil, Nat.zero_add] at hm
    have hrep : reported .plain true = some := by funext p; rfl
    rw [hrep] at hm ⊢
    exact hm

/-- **C120** The same when every record is compressed on its own, except that no offsets are reported. -/
theorem C120_white_space_gzip (c : Codec) (hc : Codec.Laws c) (rs : List R) (h : ∀ r ∈ rs, r.Loose) (hne : rs ≠ [])
    (cls : Option RecClass) (hcls : cls = none ∨ cls = some .warc) (name : Bool) (gz : GzMode) (hgz : gz = .auto ∨ gz = .record) :
    ∃ s, openArchive c cls name gz none ((rs.map R.bytes).flatMap c.enc) = .ok s ∧
      ∀ fuel, (archive rs).length + 1 < fuel → rs.length < fuel →
        collect true fuel s = ⟨expectTidied (fun _ => none) 0 rs, some ⟨none, none, []⟩, .done⟩ := by
  have hdec : c.dec ((rs.map R.bytes).flatMap c.enc) = (archive rs, none) := by
    rw [hc.members]; simp [archive, List.flatMap]
  refine ⟨⟨gzipFileOf c (File.openFile ((rs.map R.bytes).flatMap c.enc)), none, .gzipRecord, .warc⟩, ?_, ?_⟩
  · apply openArchive_gzip c cls .warc name gz _ hgz
    · rw [hdec]
      rcases hcls with rfl | rfl
      · exact Or.inr ⟨rfl, classify_loose _ h⟩
      · exact Or.inl rfl
    · cases hh : rs with
      | nil => exact absurd hh hne
      | cons it its =>
        obtain ⟨t, ht⟩ := hc.magic it.bytes
        simp [ht]
    · rw [hdec]; exact Or.inl rfl
  · intro fuel hfuel hf2
    have hrest : (File.openFile ((rs.map R.bytes).flatMap c.enc)).rest = (rs.map R.bytes).flatMap c.enc := by simp [File.openFile, File.rest]
    have hf : gzipFileOf c (File.openFile ((rs.map R.bytes).flatMap c.enc)) =
        { data := archive rs, pos := 0, strictNeg := true, fault := none } := by
      simp only [gzipFileOf, hrest, hdec]
    have hr0 : ({ data := archive rs, pos := 0, strictNeg := true, fault := none } : File).rest = archive rs := by
      simp [File.rest]
    rw [hf, collect_exact true fuel _ rfl (by simp) rfl rfl rfl (by simp only [hr0]; omega)]
    simp only [hr0]
    have hm := meaning_loose (reported .gzipRecord true) rs h fuel 0 0 hf2
    have he : ends 0 = [] := rfl
    simp only [he, List.nil_append, List.length_nil, Nat.zero_add] at hm
    have hrep : reported .gzipRecord true = fun _ => none := by funext p; rfl
    rw [hrep] at hm ⊢
    exact hm

theorem firstFlaw_loose (rs : List R) (h : ∀ r ∈ rs, r.Loose) (rounds pos k : Nat) (hr : rs.length < rounds) :
    firstFlaw rounds pos (ends k ++ archive rs) = .fine := by
  induction rs generalizing rounds pos k with
  | nil =>
    cases rounds with
    | zero => simp at hr
    | succ rounds => simp [firstFlaw, archive, next_ends]
  | cons r rs ih =>
    cases rounds with
    | zero => simp at hr
    | succ rounds =>
      have hk := h r (by simp)
      have hn := next_loose k r.version r.headers (r.body ++ (ends 2 ++ archive rs)) hk.tidied.version (loose_headers hk) hk.noLF
      have hdata : ends k ++ archive (r :: rs) = ends k ++ (headBytes r.version r.headers ++ (r.body ++ (ends 2 ++ archive rs))) := by
        simp [archive, R.bytes, recordBytes, ends, List.replicate]
      rw [hdata, firstFlaw, hn]
      generalize headBytes r.version r.headers = H
      have hd : (ends k ++ (H ++ (r.body ++ (ends 2 ++ archive rs)))).drop ((ends k).length + H.length) = r.body ++ (ends 2 ++ archive rs) := by
        rw [← List.append_assoc, List.drop_left' (by simp)]
      have hdl : declaredLength (r.headers.map tidyH) = r.body.length := hk.tidied.length
      simp only [hd, hdl, Int.toNat_natCast]
      rw [if_neg (by simp), if_neg (by simp), List.drop_left' rfl]
      exact ih (fun r hr => h r (by simp [hr])) rounds _ 2 (by simp at hr; omega)

theorem archive_count (rs : List R) : rs.length ≤ (archive rs).length := by
  induction rs with
  | nil => simp
  | cons r rs ih =>
    have : 1 ≤ r.bytes.length := by simp [R.bytes, recordBytes, CRLF]; omega
    simp only [archive, List.flatMap_cons, List.length_append, List.length_cons] at ih ⊢
    omega

/-! ### what arc2warc writes -/

/-- **C120** Whenever arc2warc returns, whatever its ARC files hold — header values with white space, records without a length, damaged dates or not —: what it has
written, in both modes, is a list of records `rs`, what the records of the files become one by one, and each of them has header values without line feeds, a known
version, and the right Content-Length.  (Of WARC records in its input, which are copied, this has to be assumed.) -/
theorem C120_proper (c : Codec) (fs : FS) (g : Arc2Warc.Cfg) (gzip : Bool) (names : List Bytes) (out : Bytes) (st' : Arc2Warc.St)
    (h : Arc2Warc.main c fs g gzip names ([], {}) = .ok () (out, st'))
    (hnow : ∀ k, (g.now k).Valid ∧ (g.now k).offset = none) (hfile : ∀ f, g.outputFilename = some (.bytes f) → 10 ∉ f)
    (hw : ∀ name ∈ names, ∀ ps, Pieces c fs name ps → WarcPiecesOk ps) :
    ∃ (files : List (Bytes × List Piece)) (rs : List R), files.map Prod.fst = names ∧ (∀ f ∈ files, Pieces c fs f.1 f.2) ∧
      BecomesAll c g {} (files.flatMap Prod.snd) rs st' ∧ out = written c gzip rs ∧ ∀ r ∈ rs, r.Loose := by
  obtain ⟨files, h1, h2, rs, h3, h4⟩ := C91_returns c fs g gzip names [] out {} st' h
  refine ⟨files, rs, h1, h2, h3, by simpa using h4, ?_⟩
  refine becomesAll_loose h3 ?_ ?_ hnow hfile (by intro i hi; cases hi)
  · intro p hp
    obtain ⟨f, hf, hpf⟩ := List.mem_flatMap.1 hp
    obtain ⟨t, fuel, ho, hps⟩ := h2 f hf
    have := pieces_fit fuel t p
    rw [hps] at this
    exact this hpf
  · intro p hp hc body hb
    obtain ⟨f, hf, hpf⟩ := List.mem_flatMap.1 hp
    exact hw f.1 (by rw [← h1]; exact List.mem_map_of_mem hf) f.2 (h2 f hf) p hpf hc body hb

/-- **C120** So what it has written can be read back: as many records, in this order, with these contents, with these headers but for white space around the values, at
the offsets where they were written, and without a complaint. -/
theorem C120_readable (c : Codec) (fs : FS) (g : Arc2Warc.Cfg) (names : List Bytes) (out : Bytes) (st' : Arc2Warc.St)
    (h : Arc2Warc.main c fs g false names ([], {}) = .ok () (out, st'))
    (hnow : ∀ k, (g.now k).Valid ∧ (g.now k).offset = none) (hfile : ∀ f, g.outputFilename = some (.bytes f) → 10 ∉ f)
    (hw : ∀ name ∈ names, ∀ ps, Pieces c fs name ps → WarcPiecesOk ps)
    (cls : Option RecClass) (hcls : cls = none ∨ cls = some .warc) (gz : GzMode) (hgz : gz = .auto ∨ gz = .off) :
    ∃ (files : List (Bytes × List Piece)) (rs : List R) (s : Stream), files.map Prod.fst = names ∧ (∀ f ∈ files, Pieces c fs f.1 f.2) ∧
      BecomesAll c g {} (files.flatMap Prod.snd) rs st' ∧ openArchive c cls false gz none out = .ok s ∧
      ∀ fuel, out.length + 1 < fuel → collect true fuel s = ⟨expectTidied some 0 rs, some ⟨some out.length, none, []⟩, .done⟩ := by
  obtain ⟨files, rs, h1, h2, h3, h4, h5⟩ := C120_proper c fs g false names out st' h hnow hfile hw
  have ha : out = archive rs := by simpa [written, archive] using h4
  obtain ⟨s, h6, h7⟩ := C120_white_space c rs h5 cls hcls gz hgz
  rw [ha]
  have := archive_count rs
  exact ⟨files, rs, s, h1, h2, h3, h6, fun fuel hf => h7 fuel hf (by omega)⟩

/-- **C120** The same for compressed output, of at least one record. -/
theorem C120_readable_gzip (c : Codec) (hc : Codec.Laws c) (fs : FS) (g : Arc2Warc.Cfg) (names : List Bytes) (out : Bytes) (st' : Arc2Warc.St)
    (h : Arc2Warc.main c fs g true names ([], {}) = .ok () (out, st')) (hne : out ≠ [])
    (hnow : ∀ k, (g.now k).Valid ∧ (g.now k).offset = none) (hfile : ∀ f, g.outputFilename = some (.bytes f) → 10 ∉ f)
    (hw : ∀ name ∈ names, ∀ ps, Pieces c fs name ps → WarcPiecesOk ps)
    (cls : Option RecClass) (hcls : cls = none ∨ cls = some .warc) (name : Bool) (gz : GzMode) (hgz : gz = .auto ∨ gz = .record) :
    ∃ (files : List (Bytes × List Piece)) (rs : List R) (s : Stream), files.map Prod.fst = names ∧ (∀ f ∈ files, Pieces c fs f.1 f.2) ∧
      BecomesAll c g {} (files.flatMap Prod.snd) rs st' ∧ openArchive c cls name gz none out = .ok s ∧
      ∀ fuel, (c.dec out).1.length + 1 < fuel → collect true fuel s = ⟨expectTidied (fun _ => none) 0 rs, some ⟨none, none, []⟩, .done⟩ := by
  obtain ⟨files, rs, h1, h2, h3, h4, h5⟩ := C120_proper c fs g true names out st' h hnow hfile hw
  have ha : out = (rs.map R.bytes).flatMap c.enc := by rw [h4]; simp [written, List.flatMap_map]
  have hrs : rs ≠ [] := by rintro rfl; exact hne (by simpa [written] using h4)
  obtain ⟨s, h6, h7⟩ := C120_white_space_gzip c hc rs h5 hrs cls hcls name gz hgz
  have hdec : (c.dec out).1 = archive rs := by rw [ha, hc.members]; simp [archive, List.flatMap]
  rw [hdec, ha]
  have := archive_count rs
  exact ⟨files, rs, s, h1, h2, h3, h6, fun fuel hf => h7 fuel hf (by omega)⟩

/-- **C120** And warcvalid has nothing to say about it: exit code 0, no messages. -/
theorem C120_valid (c : Codec) (hc : Codec.Laws c) (fs fs' : FS) (g : Arc2Warc.Cfg) (gzip : Bool) (names : List Bytes) (out name : Bytes) (st' : Arc2Warc.St)
    (h : Arc2Warc.main c fs g gzip names ([], {}) = .ok () (out, st'))
    (hnow : ∀ k, (g.now k).Valid ∧ (g.now k).offset = none) (hfile : ∀ f, g.outputFilename = some (.bytes f) → 10 ∉ f)
    (hw : ∀ name ∈ names, ∀ ps, Pieces c fs name ps → WarcPiecesOk ps)
    (hn : b! ".gz" <:+ name ↔ gzip = true) (hs : fs' name = some out) :
    WarcValid.report c fs' [name] = some ([], 0) := by
  obtain ⟨files, rs, h1, h2, h3, h4, h5⟩ := C120_proper c fs g gzip names out st' h hnow hfile hw
  have hff := firstFlaw_loose rs h5 ((archive rs).length + 2) 0 0 (by have := archive_count rs; omega)
  have he : ends 0 = [] := rfl
  rw [he, List.nil_append] at hff
  have hf : Findable c fs' name .fine := by
    rw [← hff]
    cases gzip with
    | false =>
      have ha : out = archive rs := by simpa [written, archive] using h4
      subst ha
      exact .plain _ hs (by rw [hn]; simp) (loose_not_gzip _ h5)
    | true =>
      have ha : out = (rs.map R.bytes).flatMap c.enc := by rw [h4]; simp [written, List.flatMap_map]
      have hdec : c.dec out = (archive rs, none) := by rw [ha, hc.members]; simp [archive, List.flatMap]
      have := Findable.compressed (c := c) out _ hs (Or.inl (hn.2 rfl)) hdec
      rw [hff] at this ⊢
      exact this
  exact C105_messages c fs' [(name, .fine)] (by intro p hp; simp only [List.mem_singleton] at hp; subst hp; exact hf)

/-- **C120** When an exception stops arc2warc: complete records which can be read back, and then nothing or the beginning of one more.  (When compressing, a record whose
writing raises leaves a gzip member whose completion is up to Python's finalisation; the model does not show it, see `World.writeToGz`, so `p = []` there is about what
comes before it.) -/
theorem C120_stopped (c : Codec) (fs : FS) (g : Arc2Warc.Cfg) (gzip : Bool) (names : List Bytes) (out : Bytes) (st' : Arc2Warc.St) (ex : Exc)
    (h : Arc2Warc.main c fs g gzip names ([], {}) = .raise ex (out, st'))
    (hnow : ∀ k, (g.now k).Valid ∧ (g.now k).offset = none) (hfile : ∀ f, g.outputFilename = some (.bytes f) → 10 ∉ f)
    (hw : ∀ name ∈ names, ∀ t fuel, openName c fs .mixed none name = .ok t → WarcPiecesOk (pieces fuel t).1) :
    ∃ (rs : List R) (p : Bytes) (next : Option R), out = written c gzip rs ++ p ∧ (∀ r ∈ rs, r.Loose) ∧ Begun g gzip next p ∧ (gzip = true → p = []) := by
  obtain ⟨files, name, later, ps, p, h1, h2, h3, rs, st1, h4, h5⟩ := C91_stops c fs g gzip names [] out {} st' ex h
  have hmem : ∀ f ∈ files, f.1 ∈ names := fun f hf => by rw [h1]; simp; exact Or.inl ⟨f.2, hf⟩
  have hname : name ∈ names := by rw [h1]; simp
  have hb : ∃ next, Begun g gzip next p := by
    rcases h3 with ⟨next, -, hb⟩ | ⟨-, -, rfl⟩
    · exact ⟨next, hb⟩
    · exact ⟨none, .nothing⟩
  obtain ⟨next, hb⟩ := hb
  refine ⟨rs, p, next, by simpa using h5, ?_, hb, ?_⟩
  · have hps : ∀ q ∈ ps, ∃ t fuel, openName c fs .mixed none name = .ok t ∧ q ∈ (pieces fuel t).1 := by
      rcases h3 with ⟨next, ⟨t, fuel, ho, hpre, -⟩, -⟩ | ⟨-, rfl, -⟩
      · exact fun q hq => ⟨t, fuel, ho, hpre.subset hq⟩
      · intro q hq; cases hq
    have hall : ∀ q ∈ files.flatMap Prod.snd ++ ps, ∃ n ∈ names, ∃ t fuel, openName c fs .mixed none n = .ok t ∧ q ∈ (pieces fuel t).1 := by
      intro q hq
      rcases List.mem_append.1 hq with hq | hq
      · obtain ⟨f, hf, hqf⟩ := List.mem_flatMap.1 hq
        obtain ⟨t, fuel, ho, hpf⟩ := h2 f hf
        exact ⟨f.1, hmem f hf, t, fuel, ho, by rw [hpf]; exact hqf⟩
      · obtain ⟨t, fuel, ho, hq⟩ := hps q hq
        exact ⟨name, hname, t, fuel, ho, hq⟩
    refine becomesAll_loose h4 ?_ ?_ hnow hfile (by intro i hi; cases hi)
    · intro q hq
      obtain ⟨n, -, t, fuel, -, hq⟩ := hall q hq
      exact pieces_fit fuel t q hq
    · intro q hq hc body hbody
      obtain ⟨n, hn, t, fuel, ho, hq⟩ := hall q hq
      exact hw n hn t fuel ho q hq hc body hbody
  · rintro rfl
    cases hb with
    | nothing => rfl
    | copied _ _ _ hg => cases hg
    | data _ _ _ _ hg => cases hg
    | filedesc _ _ _ _ hg => cases hg

/-- **C120** And unless it ends with the beginning of a record, warcvalid has nothing to say about what an uncompressed conversion has written until the exception. -/
theorem C120_stopped_valid (c : Codec) (fs fs' : FS) (g : Arc2Warc.Cfg) (names : List Bytes) (out name : Bytes) (st' : Arc2Warc.St) (ex : Exc)
    (h : Arc2Warc.main c fs g false names ([], {}) = .raise ex (out, st'))
    (hnow : ∀ k, (g.now k).Valid ∧ (g.now k).offset = none) (hfile : ∀ f, g.outputFilename = some (.bytes f) → 10 ∉ f)
    (hw : ∀ name ∈ names, ∀ t fuel, openName c fs .mixed none name = .ok t → WarcPiecesOk (pieces fuel t).1)
    (hn : ¬ b! ".gz" <:+ name) (hs : fs' name = some out) :
    WarcValid.report c fs' [name] = some ([], 0) ∨
    ∃ (rs : List R) (p : Bytes) (next : Option R), p ≠ [] ∧ out = archive rs ++ p ∧ (∀ r ∈ rs, r.Loose) ∧ Begun g false next p := by
  obtain ⟨rs, p, next, h1, h2, h4, -⟩ := C120_stopped c fs g false names out st' ex h hnow hfile hw
  have ha : out = archive rs ++ p := by simpa [written, archive] using h1
  by_cases hp : p = []
  · subst hp
    rw [List.append_nil] at ha
    subst ha
    have hff := firstFlaw_loose rs h2 ((archive rs).length + 2) 0 0 (by have := archive_count rs; omega)
    have he : ends 0 = [] := rfl
    rw [he, List.nil_append] at hff
    have hf : Findable c fs' name .fine := by
      rw [← hff]
      exact .plain _ hs hn (loose_not_gzip _ h2)
    exact Or.inl (C105_messages c fs' [(name, .fine)] (by intro p hp; simp only [List.mem_singleton] at hp; subst hp; exact hf))
  · exact Or.inr ⟨rs, p, next, hp, ha, h2, h4⟩

/-! ### a concrete case -/

/-- an ARC file whose URL ends in a CR and whose content type begins with a blank; there is one more blank before the length -/
def looseArc : Bytes := b! "filedesc://a 20100101000000 - 52\n1 0 IA\nURL Archive-date Content-type Archive-length\nftp://h/\r 20100101  +x 4\nabcd"

def looseFS : FS := fun n => if n = b! "a.arc" then some looseArc else none

theorem loose_pieces : (match openName toy looseFS .mixed none (b! "a.arc") with
    | .ok t => (pieces 9 t).2 && (pieces 9 t).1.map (fun p => (p.cls, p.headers)) ==
        [(.arcHeader, [(b! "URL", b! "filedesc://a"), (b! "Archive-date", b! "20100101000000"), (b! "Content-type", b! "-"), (b! "Archive-length", b! "52")]),
         (.arc, [(b! "URL", b! "ftp://h/\r"), (b! "Archive-date", b! "20100101"), (b! "Content-type", b! " +x"), (b! "Archive-length", b! "4")])]
    | .error _ => false) = true := by decide +kernel

theorem loose_noWarc (ps : List Piece) (h : Pieces toy looseFS (b! "a.arc") ps) : WarcPiecesOk ps := by
  have hl := loose_pieces
  obtain ⟨t, k, ho, hp⟩ := h
  rw [ho] at hl
  simp only [Bool.and_eq_true, beq_iff_eq] at hl
  have hps := pieces_unique k 9 t ps (pieces 9 t).1 hp (Prod.ext rfl hl.1)
  intro p hpm hc
  rw [hps] at hpm
  have := List.mem_map_of_mem (f := fun p : Piece => (p.cls, p.headers)) hpm
  rw [hl.2] at this
  simp only [List.mem_cons, List.not_mem_nil, or_false, Prod.mk.injEq, hc] at this
  rcases this with h | h <;> exact absurd h.1 (by decide)

theorem loose_converted : outcome (Arc2Warc.main toy looseFS plainCfg false [b! "a.arc"] ([], {})) = some (true, 893) := by decide +kernel

/-- the CR of the URL stands before the CR LF of the line -/
theorem loose_text : (match Arc2Warc.main toy looseFS plainCfg false [b! "a.arc"] ([], {}) with
    | .ok _ (out, _) => decide (b! "WARC-Target-URI: ftp://h/\r\r\n" <:+: out) && decide (b! "Content-Type:  +x\r\n" <:+: out)
    | _ => false) = true := by decide +kernel

example : ∃ out st', Arc2Warc.main toy looseFS plainCfg false [b! "a.arc"] ([], {}) = .ok () (out, st') ∧
    WarcValid.report toy (fun _ => some out) [b! "a.warc"] = some ([], 0) := by
  have h := loose_converted
  cases hm : Arc2Warc.main toy looseFS plainCfg false [b! "a.arc"] ([], {}) with
  | hang => rw [hm] at h; cases h
  | raise e z => rw [hm] at h; simp [outcome] at h
  | ok u z =>
    obtain ⟨out, st'⟩ := z
    refine ⟨out, st', rfl, ?_⟩
    refine C120_valid toy toy_laws looseFS (fun _ => some out) plainCfg false [b! "a.arc"] out (b! "a.warc") st' hm (fun _ => (by decide : (⟨2020, 1, 2, 3, 4, 5, 0, none⟩ : DateTime).Valid ∧ (⟨2020, 1, 2, 3, 4, 5, 0, none⟩ : DateTime).offset = none)) (by intro f hf; cases hf) ?_
      (by decide) rfl
    intro name hn ps hp
    simp only [List.mem_singleton] at hn
    subst hn
    exact loose_noWarc ps hp

/-- a record with such headers, read back -/
def looseRecord : R := ⟨b! "WARC/1.0", [(b! "WARC-Target-URI", b! "\tftp://h/ \r"), (b! "Content-Type", b! " x "), (b! "Content-Length", b! "3 ")], b! "abc"⟩

theorem looseRecord_ok : looseRecord.Loose := ⟨⟨⟨[], b! "WARC/", b! "1.0", by decide⟩, by decide, by decide⟩, by decide⟩

example : expectTidied some 0 [looseRecord, looseRecord] =
    [⟨some 0, b! "WARC/1.0", [(b! "WARC-Target-URI", b! "ftp://h/"), (b! "Content-Type", b! "x"), (b! "Content-Length", b! "3")], [], (some (b! "x"), some (b! "abc"))⟩,
     ⟨some 88, b! "WARC/1.0", [(b! "WARC-Target-URI", b! "ftp://h/"), (b! "Content-Type", b! "x"), (b! "Content-Length", b! "3")], [], (some (b! "x"), some (b! "abc"))⟩] := by
  decide +kernel

example := C120_white_space toy [looseRecord, looseRecord] (by simp [looseRecord_ok]) none (Or.inl rfl) .auto (Or.inl rfl)
example := C120_white_space_gzip toy toy_laws [looseRecord, looseRecord] (by simp [looseRecord_ok]) (by simp) none (Or.inl rfl) true .auto (Or.inl rfl)

/-- reading on does not find more records once fewer than the fuel were found -/
theorem pieces_stable (j k : Nat) (s : Stream) (h : (pieces j s).1.length < j) : ∀ p ∈ (pieces k s).1, p ∈ (pieces j s).1 := by
  induction j generalizing k s with
  | zero => simp at h
  | succ j ih =>
    cases k with
    | zero => intro p hp; cases hp
    | succ k =>
      intro p hp
      rw [pieces] at h hp ⊢
      cases hq : readRecord false s with
      | hang => simp [hq] at hp
      | raise e t => simp [hq] at hp
      | ok e t =>
        cases hr : e.rcd with
        | none => simp [hq, hr] at hp
        | some r =>
          cases hc : World.content ⟨t, r, []⟩ with
          | hang => simp [hq, hr, hc] at hp
          | raise e w => simp [hq, hr, hc] at hp
          | ok x w =>
            simp only [hq, hr, hc, List.length_cons, Nat.add_lt_add_iff_right, List.mem_cons] at h hp ⊢
            rcases hp with hp | hp
            · exact Or.inl hp
            · exact Or.inr (ih k w.strm h p hp)

/-- the same ARC file with the beginning of a header line behind it -/
def cutFS : FS := fun n => if n = b! "a.arc" then some (looseArc ++ b! "\nftp://i/ 2010") else none

theorem cut_noWarc (t : Stream) (k : Nat) (h : openName toy cutFS .mixed none (b! "a.arc") = .ok t) : WarcPiecesOk (pieces k t).1 := by
  have hl : (match openName toy cutFS .mixed none (b! "a.arc") with
    | .ok t => (pieces 9 t).1.all (fun p => p.cls != .warc) && decide ((pieces 9 t).1.length < 9)
    | .error _ => false) = true := by decide +kernel
  rw [h] at hl
  simp only [Bool.and_eq_true, List.all_eq_true, decide_eq_true_eq, bne_iff_ne, ne_eq] at hl
  intro p hp hc
  exact absurd hc (hl.1 p (pieces_stable 9 k t hl.2 p hp))

theorem cut_stopped : outcome (Arc2Warc.main toy cutFS plainCfg false [b! "a.arc"] ([], {})) = some (false, 893) := by decide +kernel

theorem cut_report : (match Arc2Warc.main toy cutFS plainCfg false [b! "a.arc"] ([], {}) with
    | .raise _ (out, _) => decide (WarcValid.report toy (fun _ => some out) [b! "a.warc"] = some ([], 0))
    | _ => false) = true := by decide +kernel

/-- the conversion stops, and what it has written is complete records -/
example : ∃ ex out st', Arc2Warc.main toy cutFS plainCfg false [b! "a.arc"] ([], {}) = .raise ex (out, st') ∧ out.length = 893 ∧
    ∃ (rs : List R) (p : Bytes) (next : Option R), out = written toy false rs ++ p ∧ (∀ r ∈ rs, r.Loose) ∧ Begun plainCfg false next p ∧ (false = true → p = []) := by
  have h := cut_stopped
  cases hm : Arc2Warc.main toy cutFS plainCfg false [b! "a.arc"] ([], {}) with
  | hang => rw [hm] at h; cases h
  | ok u z => rw [hm] at h; simp [outcome] at h
  | raise ex z =>
    rw [hm] at h
    obtain ⟨out, st'⟩ := z
    refine ⟨ex, out, st', rfl, by simpa [outcome] using h, ?_⟩
    refine C120_stopped toy cutFS plainCfg false [b! "a.arc"] out st' ex hm (fun _ => (by decide : (⟨2020, 1, 2, 3, 4, 5, 0, none⟩ : DateTime).Valid ∧ (⟨2020, 1, 2, 3, 4, 5, 0, none⟩ : DateTime).offset = none)) (by intro f hf; cases hf) ?_
    intro name hn t k ho
    simp only [List.mem_singleton] at hn
    subst hn
    exact cut_noWarc t k ho

end Warc
