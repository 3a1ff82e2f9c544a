import Verif.Props.Interrupted
import Verif.Props.StrippedCut
set_option linter.all false
/-
  C121 (continued): reading what an exception left of compressed output.
-/
namespace Warc
open Rx Stream Spec

/-- **C121** Complete records, and behind them anything, in gzip members cut anywhere: a reader gets the records first. -/
theorem C121_first (c : Codec) (hc : Codec.Laws c) (rs : List R) (h : ∀ r ∈ rs, r.Loose) (hne : rs ≠ []) (x : Bytes) (ms : List Bytes)
    (hms : ms.flatten = archive rs ++ x) (name : Bool) (gz : GzMode) (hgz : gz = .auto ∨ gz = .record) :
    ∃ s, openArchive c (some .warc) name gz none (ms.flatMap c.enc) = .ok s ∧
      ∀ fuel, (archive rs ++ x).length + 1 < fuel → expectTidied (fun _ => none) 0 rs <+: (collect true fuel s).records := by
  have hdec : c.dec (ms.flatMap c.enc) = (archive rs ++ x, none) := by rw [hc.members, hms]
  refine ⟨⟨gzipFileOf c (File.openFile (ms.flatMap c.enc)), none, .gzipRecord, .warc⟩, ?_, ?_⟩
  · apply openArchive_gzip c (some .warc) .warc name gz _ hgz
    · exact Or.inl rfl
    · cases hh : ms with
      | nil =>
        exfalso
        subst hh
        have h0 := archive_count rs
        have h1 := congrArg List.length hms
        simp only [List.flatten_nil, List.length_nil, List.length_append] at h1
        exact hne (List.length_eq_zero_iff.1 (by omega))
      | cons it its =>
        obtain ⟨t, ht⟩ := hc.magic it
        simp [ht]
    · rw [hdec]; exact Or.inl rfl
  · intro fuel hfuel
    have hrest : (File.openFile (ms.flatMap c.enc)).rest = ms.flatMap c.enc := by simp [File.openFile, File.rest]
    have hf : gzipFileOf c (File.openFile (ms.flatMap c.enc)) = { data := archive rs ++ x, pos := 0, strictNeg := true, fault := none } := by
      simp only [gzipFileOf, hrest, hdec]
    have hr0 : ({ data := archive rs ++ x, pos := 0, strictNeg := true, fault := none } : File).rest = archive rs ++ x := by
      simp [File.rest]
    rw [hf, collect_exact true fuel _ rfl (by simp) rfl rfl rfl (by simp only [hr0]; omega)]
    simp only [hr0]
    have hcnt := archive_count rs
    have hm := meaning_loose_then (reported .gzipRecord true) rs h x fuel 0 0 (by simp only [List.length_append] at hfuel; omega)
    have he : ends 0 = [] := rfl
    simp only [he, List.nil_append, List.length_nil, Nat.zero_add] at hm
    have hrep : reported .gzipRecord true = fun _ => none := by funext p; rfl
    rw [hrep] at hm ⊢
    exact hm

/-- **C121** When an exception stops arc2warc -Z, whatever its ARC files hold, what it leaves decompresses without an error to complete records and at most the beginning of
one more, and a reader of it gets the complete records, with their contents, before anything else. -/
theorem C121_recovered (c : Codec) (hc : Codec.Laws c) (fs : FS) (g : Arc2Warc.Cfg) (names : List Bytes) (out : Bytes) (st' : Arc2Warc.St) (ex : Exc)
    (h : Arc2Warc.mainLeft c fs g names ([], {}) = .raise ex (out, st'))
    (hnow : ∀ k, (g.now k).Valid ∧ (g.now k).offset = none) (hfile : ∀ f, g.outputFilename = some (.bytes f) → 10 ∉ f)
    (hw : ∀ name ∈ names, ∀ t fuel, openName c fs .mixed none name = .ok t → WarcPiecesOk (pieces fuel t).1)
    (name : Bool) (gz : GzMode) (hgz : gz = .auto ∨ gz = .record) :
    ∃ (rs : List R) (p : Bytes) (next : Option R), c.dec out = (archive rs ++ p, none) ∧ Begun g false next p ∧ (∀ r ∈ rs, r.Loose) ∧
      (rs ≠ [] → ∃ s, openArchive c (some .warc) name gz none out = .ok s ∧
        ∀ fuel, (archive rs ++ p).length + 1 < fuel → expectTidied (fun _ => none) 0 rs <+: (collect true fuel s).records) := by
  have hs := Arc2Warc.alike_main (R := World.Packed c) (E := World.Packed c) (fun _ _ h => h) c fs g false
    (by simpa [Arc2Warc.writeAs] using World.alike_write c CRLF) (by intro a b m h; simpa using h.add m) names ([], {}) ([], {}) rfl (packed_nil c)
  rw [h] at hs
  cases hy : Arc2Warc.main c fs g false names ([], {}) with
  | hang => rw [hy] at hs; exact hs.elim
  | ok u z => rw [hy] at hs; exact hs.elim
  | raise e z =>
    rw [hy] at hs
    obtain ⟨plain, st⟩ := z
    obtain ⟨rfl, -, ms, h1, h2⟩ := hs
    simp only at h1 h2
    obtain ⟨rs, p, next, h3, h4, h5, -⟩ := C120_stopped c fs g false names plain st ex hy hnow hfile hw
    have ha : plain = archive rs ++ p := by simpa [written, archive] using h3
    have hms : ms.flatten = archive rs ++ p := by rw [← h2, ha]
    refine ⟨rs, p, next, ?_, h5, h4, fun hne => ?_⟩
    · rw [h1, hc.members, hms]
    · rw [h1]
      exact C121_first c hc rs h4 hne p ms hms name gz hgz

example := C121_first toy toy_laws [looseRecord, looseRecord] (by simp [looseRecord_ok]) (by simp) (b! "WARC/1.0\r\nX") [(archive [looseRecord, looseRecord]).take 5, (archive [looseRecord, looseRecord]).drop 5, b! "WARC/1.0\r\nX"]
  (by rw [List.flatten_cons, List.flatten_cons, List.flatten_cons, List.flatten_nil, List.append_nil, ← List.append_assoc, List.take_append_drop]) true .auto (Or.inl rfl)

/-- what is left of the conversion of `cutFS` meets the hypotheses of `C121_recovered` -/
example : ∃ ex out st', Arc2Warc.mainLeft toy cutFS plainCfg [b! "a.arc"] ([], {}) = .raise ex (out, st') ∧
    ∃ (rs : List R) (p : Bytes), toy.dec out = (archive rs ++ p, none) ∧ (archive rs ++ p).length = 893 := by
  obtain ⟨ex, b, ⟨out, st'⟩, h1, h2, h3, h4⟩ := cut_left
  obtain ⟨rs, p, next, h5, -⟩ := C121_recovered toy toy_laws cutFS plainCfg [b! "a.arc"] out st' ex h3
    (fun _ => (by decide : (⟨2020, 1, 2, 3, 4, 5, 0, none⟩ : DateTime).Valid ∧ (⟨2020, 1, 2, 3, 4, 5, 0, none⟩ : DateTime).offset = none)) (by intro f hf; cases hf)
    (by
      intro name hn t k ho
      simp only [List.mem_singleton] at hn
      subst hn
      exact cut_noWarc t k ho) true .auto (Or.inl rfl)
  refine ⟨ex, out, st', h3, rs, p, h5, ?_⟩
  have h4 : toy.dec out = (b.1, none) := h4
  rw [h5] at h4
  rw [(Prod.mk.inj h4).1]
  exact h2

end Warc
