import Verif.Proofs.ToolDemo
/-
  C44: warcindex.
-/
set_option linter.all false
namespace Warc
open Rx Stream Spec

/-- **C44** On files that hold well formed records, `warcindex` writes the heading and then one line per
record in file order: file name, offset (`None` in compressed files), type, target uri, record id and
content type (`-` for a missing or empty value) and length. -/
theorem C44_index (c : Codec) (hc : Codec.Laws c) (fs : FS) (files : List StoredFile) (h : AllStored c fs files) :
    WarcIndex.main c fs (files.map StoredFile.name) [] =
      .ok () (b! "#WARC filename offset warc-type warc-subject-uri warc-record-id content-type content-length\n" ++
        files.flatMap fun f => indexOf f.name f.compressed f.records) := by
  have := forFiles_ok (fun name => onArchive c fs .warc none name (Tool.eachEntry true none (WarcIndex.indexRecord name)))
    StoredFile.name (fun f => indexOf f.name f.compressed f.records) files ([] ++ WarcIndex.heading) ?_
  · simp only [WarcIndex.main, M.bind_apply, M.modify_apply]
    rw [this]
    rfl
  · intro x hx out
    obtain ⟨s, ho, hf⟩ := open_stored c hc fs _ _ _ (h x hx)
    obtain ⟨s', he⟩ := Tool.eachEntry_archive (WarcIndex.indexRecord x.name) (indexLine x.name) x.compressed s out
      x.records hf (h x hx).1 (fun r hr o => Tool.handles_index x.name o r.1 ((h x hx).1 r hr).1)
    simp only [onArchive, ho, he]
    rfl

/-- one line per record -/
theorem positions_length (pos : Nat) (rs : List RT) : (positions pos rs).length = rs.length := by
  induction rs generalizing pos with
  | nil => rfl
  | cons r rs ih => simp [positions, ih]

/-- **C44** the `i`-th line is about the `i`-th record and its offset is the position at which that record
starts in the file -/
theorem C44_positions (rs : List RT) (i : Nat) (hi : i < rs.length) :
    (positions 0 rs)[i]? = some ((archiveT (rs.take i)).length, rs[i].1) ∧
      ∃ more, (archiveT rs).drop (archiveT (rs.take i)).length = rs[i].1.core ++ more := by
  have key : ∀ (rs : List RT) (i pos : Nat) (hi : i < rs.length),
      (positions pos rs)[i]? = some (pos + (archiveT (rs.take i)).length, rs[i].1) := by
    intro rs
    induction rs with
    | nil => intro i pos hi; simp at hi
    | cons r rs ih =>
      intro i pos hi
      cases i with
      | zero => simp [positions, archiveT]
      | succ i =>
        simp only [positions, List.getElem?_cons_succ, List.getElem_cons_succ, List.take_succ_cons]
        rw [ih i _ (by simpa using hi)]
        simp [archiveT, Nat.add_assoc]
  refine ⟨by simpa using key rs i 0 hi, rs[i].2 ++ archiveT (rs.drop (i + 1)), ?_⟩
  have h1 : rs.take i ++ rs[i] :: rs.drop (i + 1) = rs := by
    rw [← List.drop_eq_getElem_cons hi, List.take_append_drop]
  have h2 : archiveT rs = archiveT (rs.take i) ++ (rs[i].1.core ++ (rs[i].2 ++ archiveT (rs.drop (i + 1)))) := by
    have h3 : archiveT rs = archiveT (rs.take i ++ rs[i] :: rs.drop (i + 1)) := by rw [h1]
    rw [h3]
    simp only [archiveT, List.flatMap_append, List.flatMap_cons, List.append_assoc]
  rw [h2, List.drop_left]

theorem firstValue_none (name : Bytes) (hs : List Header) (h : firstValue name hs = none) :
    ∀ x ∈ hs, lower x.1 ≠ lower name := by
  induction hs with
  | nil => simp
  | cons x xs ih =>
    simp only [firstValue] at h
    by_cases hx : lower x.1 = lower name
    · rw [if_pos hx] at h; cases h
    · rw [if_neg hx] at h
      intro y hy
      rcases List.mem_cons.1 hy with rfl | hy
      · exact hx
      · exact ih h y hy

/-- **C44** the length in the index is the number of payload bytes, unless the record repeats its
Content-Length header (then it is the first of them, and the payload has the length given by the last) -/
theorem C44_length (r : R) (hok : r.Ok)
    (hone : (r.headers.filter fun h => lower h.1 == b! "content-length").length ≤ 1) :
    shownLength r = r.body.length := by
  unfold shownLength
  cases ht : firstValue (b! "Content-Type") r.headers with
  | none => rfl
  | some t =>
    cases hl : firstValue (b! "Content-Length") r.headers with
    | none => rfl
    | some v =>
      simp only
      rw [← hok.length]
      have key : ∀ (hs : List Header) (acc : Int), (∀ h ∈ hs, HeaderOk h) →
          (hs.filter fun h => lower h.1 == b! "content-length").length ≤ 1 →
          firstValue (b! "Content-Length") hs = some v →
          (pyInt 10 v).getD 0 = hs.foldl (fun acc h =>
            if lower h.1 = b! "content-length" then (pyInt 10 h.2).getD acc else acc) acc := by
        intro hs
        induction hs with
        | nil => intro acc _ _ h; simp [firstValue] at h
        | cons x xs ih =>
          intro acc hh h1 h2
          simp only [firstValue] at h2
          by_cases hx : lower x.1 = lower (b! "Content-Length")
          · rw [if_pos hx] at h2
            simp only [Option.some.injEq] at h2
            have hx' : lower x.1 = b! "content-length" := hx
            rw [List.filter_cons_of_pos (by simp [hx'])] at h1
            have hnil : xs.filter (fun h => lower h.1 == b! "content-length") = [] := by
              apply List.eq_nil_of_length_eq_zero
              simp only [List.length_cons] at h1; omega
            obtain ⟨n, hn⟩ := Option.isSome_iff_exists.1 ((hh x (by simp)).lengthOk hx')
            simp only [List.foldl_cons, if_pos hx']
            rw [h2] at hn
            rw [h2, hn]
            simp only [Option.getD_some]
            have h0 : ∀ (xs : List Header) (acc : Int), xs.filter (fun h => lower h.1 == b! "content-length") = [] →
                xs.foldl (fun acc h => if lower h.1 = b! "content-length" then (pyInt 10 h.2).getD acc else acc) acc = acc := by
              intro xs
              induction xs with
              | nil => intros; rfl
              | cons y ys ih =>
                intro acc hy
                by_cases hyy : lower y.1 = b! "content-length"
                · rw [List.filter_cons_of_pos (by simp [hyy])] at hy; cases hy
                · rw [List.filter_cons_of_neg (by simp [hyy])] at hy
                  simp only [List.foldl_cons, if_neg hyy]
                  exact ih acc hy
            exact (h0 xs n hnil).symm
          · rw [if_neg hx] at h2
            have hx' : ¬ lower x.1 = b! "content-length" := hx
            rw [List.filter_cons_of_neg (by simp [hx'])] at h1
            simp only [List.foldl_cons, if_neg hx']
            exact ih acc (fun y hy => hh y (by simp [hy])) h1 h2
      exact key r.headers 0 hok.headers hone hl

/-- a plain and a compressed file -/
example : AllStored toy demoFS [⟨b! "a.warc", false, demoRT⟩, ⟨b! "b.warc.gz", true, demoRT⟩] ∧
    indexOf (b! "a.warc") false demoRT =
      b! "a.warc 0 response - - application/http; msgtype=response 31\na.warc 138 - - - - 0\n" ∧
    indexOf (b! "b.warc.gz") true demoRT =
      b! "b.warc.gz None response - - application/http; msgtype=response 31\nb.warc.gz None - - - - 0\n" := by
  refine ⟨?_, by decide +kernel, by decide +kernel⟩
  intro f hf
  simp only [List.mem_cons, List.not_mem_nil, or_false] at hf
  rcases hf with rfl | rfl
  · exact demo_plain
  · exact demo_gz

end Warc
