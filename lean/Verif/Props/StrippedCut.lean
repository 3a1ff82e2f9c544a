import Verif.Props.Stripped
set_option linter.all false
/-
  C120 (continued): complete records in front of anything.
-/
namespace Warc
open Rx Stream Spec

theorem meaning_loose_then (report : Nat → Option Nat) (rs : List R) (hok : ∀ r ∈ rs, r.Loose) (x : Bytes) (rounds pos k : Nat) (hr : rs.length ≤ rounds) :
    expectTidied report (pos + (ends k).length) rs <+: (meaning report rounds pos (ends k ++ (archive rs ++ x))).records := by
  induction rs generalizing rounds pos k with
  | nil => simp [expectTidied]
  | cons r rs ih =>
    cases rounds with
    | zero => simp at hr
    | succ rounds =>
      have hk := hok r (by simp)
      have hn := next_loose k r.version r.headers (r.body ++ (ends 2 ++ (archive rs ++ x))) hk.tidied.version (loose_headers hk) hk.noLF
      have hdata : ends k ++ (archive (r :: rs) ++ x) = ends k ++ (headBytes r.version r.headers ++ (r.body ++ (ends 2 ++ (archive rs ++ x)))) := by
        simp [archive, R.bytes, recordBytes, ends, List.replicate]
      rw [hdata, meaning, hn]
      have hlen : r.bytes.length = (headBytes r.version r.headers).length + r.body.length + 4 := by
        simp [R.bytes, recordBytes, CRLF]; omega
      generalize headBytes r.version r.headers = H at hlen ⊢
      have hd : (ends k ++ (H ++ (r.body ++ (ends 2 ++ (archive rs ++ x))))).drop ((ends k).length + H.length) = r.body ++ (ends 2 ++ (archive rs ++ x)) := by
        rw [← List.append_assoc, List.drop_left' (by simp)]
      have hdl : declaredLength (r.headers.map tidyH) = r.body.length := hk.tidied.length
      simp only [hd, hdl, Int.toNat_natCast]
      rw [if_neg (by omega), if_neg (by omega), if_neg (by simp), List.take_left' rfl, List.drop_left' rfl]
      have h := ih (fun r hr => hok r (by simp [hr])) rounds (pos + ((ends k).length + H.length) + r.body.length) 2 (by simp at hr; omega)
      have h4 : (ends 2).length = 4 := by decide
      have e1 : pos + ((ends k).length + H.length) + r.body.length + 4 = pos + (ends k).length + (H.length + r.body.length + 4) := by omega
      rw [h4, e1] at h
      simp only [Collected.behind, expectTidied, hlen, tidied_headers, List.cons_append, List.nil_append]
      exact (List.prefix_cons_inj _).2 h

/-- **C120** Complete records, and behind them anything - the beginning of a record, another file, junk: a reader gets the records first, with nothing lost but the white space
around their header values. -/
theorem C120_first (c : Codec) (rs : List R) (h : ∀ r ∈ rs, r.Loose) (hne : rs ≠ []) (x : Bytes)
    (cls : Option RecClass) (hcls : cls = none ∨ cls = some .warc) (gz : GzMode) (hgz : gz = .auto ∨ gz = .off) :
    ∃ s, openArchive c cls false gz none (archive rs ++ x) = .ok s ∧
      ∀ fuel, (archive rs ++ x).length + 1 < fuel → expectTidied some 0 rs <+: (collect true fuel s).records := by
  obtain ⟨l, t, hl, h10⟩ : ∃ l t, archive rs = l ++ 10 :: t ∧ 10 ∉ l := by
    cases rs with
    | nil => exact absurd rfl hne
    | cons r rs =>
      have hk : VersionOk r.version := (h r (by simp)).tidied.version
      refine ⟨r.version ++ [13], r.headers.flatMap headerLine ++ CRLF ++ r.body ++ CRLF ++ CRLF ++ archive rs, ?_, ?_⟩
      · simp [archive, R.bytes, recordBytes, headBytes, CRLF]
      · simp only [List.mem_append, not_or]; exact ⟨versionOk_noLF hk, by decide⟩
  have hfirst : File.firstLine (archive rs ++ x) = File.firstLine (archive rs) := by
    rw [hl, List.append_assoc, List.cons_append, File.firstLine_append _ _ h10, File.firstLine_append _ _ h10]
  have htake : (archive rs ++ x).take 2 ≠ [0x1f, 0x8b] := by
    have h2 : 2 ≤ (archive rs).length := by
      cases rs with
      | nil => exact absurd rfl hne
      | cons r rs => simp [archive, R.bytes, recordBytes, CRLF]; omega
    rw [List.take_append_of_le_length h2]
    exact loose_not_gzip _ h
  refine ⟨⟨File.openFile (archive rs ++ x), none, .plain, .warc⟩, ?_, ?_⟩
  · apply openArchive_plain c cls .warc gz _ hgz _ htake
    rcases hcls with rfl | rfl
    · exact Or.inr ⟨rfl, by rw [hfirst]; exact classify_loose _ h⟩
    · exact Or.inl rfl
  · intro fuel hfuel
    have hrest : (File.openFile (archive rs ++ x)).rest = archive rs ++ x := by simp [File.openFile, File.rest]
    rw [collect_exact true fuel _ rfl (by simp) rfl rfl rfl (by simp only [hrest]; omega)]
    simp only [hrest]
    have hc := archive_count rs
    have hm := meaning_loose_then (reported .plain true) rs h x fuel 0 0 (by simp only [List.length_append] at hfuel; omega)
    have he : ends 0 = [] := rfl
    simp only [he, List.nil_append, List.length_nil, Nat.zero_add] at hm
    have hrep : reported .plain true = some := by funext p; rfl
    rw [hrep] at hm ⊢
    exact hm

/-- **C120** So when an exception stops arc2warc, whatever its ARC files hold, a reader of the uncompressed output gets, before anything else, every record that was written
completely, with its content. -/
theorem C120_recovered (c : Codec) (fs : FS) (g : Arc2Warc.Cfg) (names : List Bytes) (out : Bytes) (st' : Arc2Warc.St) (ex : Exc)
    (h : Arc2Warc.main c fs g false names ([], {}) = .raise ex (out, st'))
    (hnow : ∀ k, (g.now k).Valid ∧ (g.now k).offset = none) (hfile : ∀ f, g.outputFilename = some (.bytes f) → 10 ∉ f)
    (hw : ∀ name ∈ names, ∀ t fuel, openName c fs .mixed none name = .ok t → WarcPiecesOk (pieces fuel t).1)
    (cls : Option RecClass) (hcls : cls = none ∨ cls = some .warc) (gz : GzMode) (hgz : gz = .auto ∨ gz = .off) :
    ∃ (rs : List R) (p : Bytes) (next : Option R), out = archive rs ++ p ∧ Begun g false next p ∧
      (rs ≠ [] → ∃ s, openArchive c cls false gz none out = .ok s ∧
        ∀ fuel, out.length + 1 < fuel → expectTidied some 0 rs <+: (collect true fuel s).records) := by
  obtain ⟨rs, p, next, h1, h2, h4, -⟩ := C120_stopped c fs g false names out st' ex h hnow hfile hw
  have ha : out = archive rs ++ p := by simpa [written, archive] using h1
  refine ⟨rs, p, next, ha, h4, fun hne => ?_⟩
  rw [ha]
  exact C120_first c rs h2 hne p cls hcls gz hgz

example := C120_first toy [looseRecord, looseRecord] (by simp [looseRecord_ok]) (by simp) (b! "WARC/1.0\r\nX") none (Or.inl rfl) .auto (Or.inl rfl)

end Warc
