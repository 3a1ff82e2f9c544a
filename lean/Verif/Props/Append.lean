import Verif.Proofs.Grow
import Verif.Proofs.Scan
import Verif.Proofs.ToolDemo
import Verif.Spec.Append
/-
  **C79** What was read does not depend on what is appended later.
-/
set_option linter.all false
namespace Warc
open Rx Stream Spec

theorem longer_ext (more : Bytes) (s : Stream) (h : s.fh.fault = none) : longer more s = ext more none s := by
  obtain ⟨⟨d, p, n, f⟩, e, k, q⟩ := s
  simp only at h
  subst h
  rfl

theorem left_iff (s : Stream) : s.fh.pos < s.fh.data.length ↔ s.fh.rest ≠ [] := by
  rw [← List.length_pos_iff]
  simp only [File.rest, List.length_drop]
  omega

/-- **C79** Reading a record, and anything of its content, from an ordinary file (in whatever state the reader is, whatever the file
contains) without coming to the end of the file: had the file been longer, exactly the same would have happened. -/
theorem C79_record (more : Bytes) (offs : Bool) (ops : List ReadOp) (s s1 s2 : Stream) (e : Entry) (outs : List Bytes)
    (hf : s.fh.fault = none) (hp : s.fh.pos ≤ s.fh.data.length)
    (h1 : readRecord offs s = .ok e s1) (h2 : runOps ops s1 = .ok outs s2) (hl : s2.fh.pos < s2.fh.data.length) :
    readRecord offs (longer more s) = .ok e (longer more s1) ∧ runOps ops (longer more s1) = .ok outs (longer more s2) := by
  have g1 := grow_readRecord (more := more) offs (s := s) ⟨hf, hp⟩
  simp only [Grow, h1] at g1
  have g2 := grow_runOps (more := more) ops g1.1
  simp only [Grow, h2] at g2
  have hr := (left_iff s2).1 hl
  rw [longer_ext _ _ hf, longer_ext _ _ g1.1.fault, longer_ext _ _ g2.1.fault]
  exact ⟨g1.2.2 (rest_ne g2.2.1 hr), g2.2.2 hr⟩

/-- **C79** The same for a reading that raises before the end of the file. -/
theorem C79_error (more : Bytes) (offs : Bool) (s s1 : Stream) (e : Exc) (hf : s.fh.fault = none) (hp : s.fh.pos ≤ s.fh.data.length)
    (h1 : readRecord offs s = .raise e s1) (hl : s1.fh.pos < s1.fh.data.length) :
    readRecord offs (longer more s) = .raise e (longer more s1) := by
  have g1 := grow_readRecord (more := more) offs (s := s) ⟨hf, hp⟩
  simp only [Grow, h1] at g1
  rw [longer_ext _ _ hf, longer_ext _ _ g1.1.fault]
  exact g1.2.2 ((left_iff s1).1 hl)

theorem scan_record_left (offs : Bool) (plan : Nat → List ReadOp) (n i : Nat) (s : Stream) (b : Seen)
    (h : (scan offs plan n i s).1[0]? = some b) (hb : b.entry.rcd ≠ none) : s.fh.rest ≠ [] := by
  cases n with
  | zero => simp [scan] at h
  | succ n =>
    simp only [scan] at h
    cases hq : readRecord offs s with
    | hang => simp [hq] at h
    | raise e s1 => simp [hq] at h
    | ok e s1 =>
      simp only [hq] at h
      have he : b.entry = e := by
        cases hr : e.rcd with
        | none => simp only [hr] at h; simp at h; rw [← h]
        | some r =>
          simp only [hr] at h
          cases ho : runOps (plan i) s1 with
          | hang => simp only [ho] at h; simp at h; rw [← h]
          | raise x s2 => simp only [ho] at h; simp at h; rw [← h]
          | ok outs s2 => simp only [ho] at h; simp at h; rw [← h]
      rw [he] at hb
      cases hr : e.rcd with
      | none => exact absurd hr hb
      | some r =>
        have := (readRecord_uses offs s s1 e r hq hr).2
        intro h0
        rw [h0] at this
        simp at this

/-- **C79** A scan of a longer file sees every record of the shorter one that is followed by another record there: the same
headers, errors, offset, and the same results of all calls made on the content files. -/
theorem C79_scan (more : Bytes) (offs : Bool) (plan : Nat → List ReadOp) (n m i : Nat) (hm : n ≤ m) (s : Stream)
    (hf : s.fh.fault = none) (hp : s.fh.pos ≤ s.fh.data.length) :
    AgreeButLast (scan offs plan n i s).1 (scan offs plan m i (longer more s)).1 := by
  induction n generalizing m i s with
  | zero => intro j a b h; simp [scan] at h
  | succ n ih =>
    obtain ⟨m, rfl⟩ : ∃ k, m = k + 1 := ⟨m - 1, by omega⟩
    intro j a b ha hb hne
    simp only [scan] at ha hb ⊢
    cases hq : readRecord offs s with
    | hang => simp [hq] at ha
    | raise e s1 => simp [hq] at ha
    | ok e s1 =>
      simp only [hq] at ha hb
      cases hr : e.rcd with
      | none => simp [hr] at hb
      | some r =>
        simp only [hr] at ha hb
        cases ho : runOps (plan i) s1 with
        | hang => simp [ho] at hb
        | raise x s2 => simp [ho] at hb
        | ok outs s2 =>
          simp only [ho] at ha hb
          have g1 := grow_readRecord (more := more) offs (s := s) ⟨hf, hp⟩
          simp only [Grow, hq] at g1
          have g2 := grow_runOps (more := more) (plan i) g1.1
          simp only [Grow, ho] at g2
          have hleft : s2.fh.rest ≠ [] := by
            by_cases hz : s2.fh.rest = []
            · exfalso
              cases hsc : (scan offs plan n (i + 1) s2).1 with
              | nil => rw [hsc] at hb; simp at hb
              | cons c cs =>
                have hc : c.entry.rcd = none := by
                  by_cases hc : c.entry.rcd = none
                  · exact hc
                  · exact absurd hz (scan_record_left offs plan n (i + 1) s2 c (by rw [hsc]; rfl) hc)
                -- the scan ends with that entry
                have hcs : cs = [] := by
                  cases n with
                  | zero => simp [scan] at hsc
                  | succ n =>
                    simp only [scan] at hsc
                    cases hq2 : readRecord offs s2 with
                    | hang => simp [hq2] at hsc
                    | raise e s1 => simp [hq2] at hsc
                    | ok e2 s3 =>
                      simp only [hq2] at hsc
                      cases hr2 : e2.rcd with
                      | none => simp only [hr2] at hsc; simp at hsc; exact hsc.2.symm ▸ rfl
                      | some r2 =>
                        have := (readRecord_uses offs s2 s3 e2 r2 hq2 hr2).2
                        rw [hz] at this
                        simp at this
                rw [hsc, hcs] at hb
                cases j with
                | zero => simp at hb; rw [← hb] at hne; exact hne hc
                | succ j => simp at hb
            · exact hz
          obtain ⟨k1, k2⟩ := C79_record more offs (plan i) s s1 s2 e outs hf hp hq ho ((left_iff s2).2 hleft)
          simp only [k1, hr, k2]
          cases j with
          | zero => simpa using ha
          | succ j =>
            simp only [List.getElem?_cons_succ] at ha hb ⊢
            exact ih m (i + 1) (by omega) s2 g2.1.fault g2.1.pos j a b ha hb hne

/-- **C79** On files: opening an uncompressed file to which something has been appended gives the same kind of stream, and a scan of it
sees, unaltered and at the same places, every record that a scan of the original file saw and that was followed there by another one. (The class is given, or guessed from the first
line, which must be complete.) Read from right to left: cutting a file anywhere behind its first line costs no record but those
that are cut, and alters none but possibly the last that is left. -/
theorem C79_file (c : Codec) (cls : Option RecClass) (gz : GzMode) (hgz : gz = .auto ∨ gz = .off) (A B : Bytes) (h2 : 2 ≤ A.length)
    (hz : A.take 2 ≠ [0x1f, 0x8b]) (hcls : cls = none → 10 ∈ A) (s : Stream) (ho : openArchive c cls false gz none A = .ok s) :
    ∃ t, openArchive c cls false gz none (A ++ B) = .ok t ∧ t.kind = s.kind ∧ t.parser = s.parser ∧
      ∀ offs plan n m, n ≤ m → AgreeButLast (scan offs plan n 0 s).1 (scan offs plan m 0 t).1 := by
  have htake : (A ++ B).take 2 = A.take 2 := List.take_append_of_le_length h2
  have key : ∀ k, (cls = some k ∨ cls = none ∧ Detect.classify (File.firstLine A) = some k) →
      ∃ t, openArchive c cls false gz none (A ++ B) = .ok t ∧ t.kind = s.kind ∧ t.parser = s.parser ∧
      ∀ offs plan n m, n ≤ m → AgreeButLast (scan offs plan n 0 s).1 (scan offs plan m 0 t).1 := by
    intro k hk
    rw [openArchive_plain c cls k gz A hgz hk hz] at ho
    cases ho
    refine ⟨_, openArchive_plain c cls k gz (A ++ B) hgz ?_ (by rw [htake]; exact hz), rfl, rfl, ?_⟩
    · rcases hk with h | ⟨h, h'⟩
      · exact Or.inl h
      · refine Or.inr ⟨h, ?_⟩
        rw [firstLine_ext A B, h']
        exact firstLine_nl A (hcls h)
    · intro offs plan n m hm
      exact C79_scan B offs plan n m 0 hm ⟨File.openFile A, none, .plain, k.makeParser⟩ rfl (Nat.zero_le _)
  cases cls with
  | some k => exact key k (Or.inl rfl)
  | none =>
    cases hcl : Detect.classify (File.firstLine A) with
    | some k => exact key k (Or.inr ⟨rfl, hcl⟩)
    | none =>
      exfalso
      have hgu := Detect.guess_plain c (File.openFile A) rfl (by simpa [File.openFile, File.rest] using hz)
      have hrest : (File.openFile A).rest = A := by simp [File.openFile, File.rest]
      rw [hrest, hcl] at hgu
      simp [openArchive, openRecordStream, hgu] at ho

/-- **C79** The same for members appended to a compressed file. -/
theorem C79_members (c : Codec) (hc : Codec.Laws c) (cls : Option RecClass) (name : Bool) (gz : GzMode) (hgz : gz = .auto ∨ gz = .record)
    (ms ms' : List Bytes) (hne : ms ≠ []) (hcls : cls = none → 10 ∈ ms.flatten) (s : Stream)
    (ho : openArchive c cls name gz none (ms.flatMap c.enc) = .ok s) :
    ∃ t, openArchive c cls name gz none (ms.flatMap c.enc ++ ms'.flatMap c.enc) = .ok t ∧ t.kind = s.kind ∧ t.parser = s.parser ∧
      ∀ offs plan n m, n ≤ m → AgreeButLast (scan offs plan n 0 s).1 (scan offs plan m 0 t).1 := by
  have magic : ∀ x : Bytes, (ms.flatMap c.enc ++ x).take 2 = [0x1f, 0x8b] := by
    intro x
    cases ms with
    | nil => exact absurd rfl hne
    | cons b bs => obtain ⟨t, ht⟩ := hc.magic b; simp [ht]
  have m0 : (ms.flatMap c.enc).take 2 = [0x1f, 0x8b] := by simpa using magic []
  have d0 := hc.members ms
  have d1 : c.dec (ms.flatMap c.enc ++ ms'.flatMap c.enc) = (ms.flatten ++ ms'.flatten, none) := by
    rw [← List.flatMap_append, hc.members, List.flatten_append]
  have r1 : ∀ x, (File.openFile x).rest = x := by intro x; simp [File.openFile, File.rest]
  have key : ∀ k, (cls = some k ∨ cls = none ∧ Detect.classify (File.firstLine ms.flatten) = some k) →
      ∃ t, openArchive c cls name gz none (ms.flatMap c.enc ++ ms'.flatMap c.enc) = .ok t ∧ t.kind = s.kind ∧ t.parser = s.parser ∧
      ∀ offs plan n m, n ≤ m → AgreeButLast (scan offs plan n 0 s).1 (scan offs plan m 0 t).1 := by
    intro k hk
    rw [openArchive_gzip c cls k name gz _ hgz (by rw [d0]; exact hk) m0 (Or.inl (by rw [d0]))] at ho
    cases ho
    refine ⟨_, openArchive_gzip c cls k name gz _ hgz ?_ (magic _) (Or.inl (by rw [d1])), rfl, rfl, ?_⟩
    · rw [d1]
      rcases hk with h | ⟨h, h'⟩
      · exact Or.inl h
      · refine Or.inr ⟨h, ?_⟩
        show Detect.classify (File.firstLine (ms.flatten ++ ms'.flatten)) = some k
        rw [firstLine_ext _ _ (firstLine_nl _ (hcls h)), h']
    · intro offs plan n m hm
      have hs : (⟨gzipFileOf c (File.openFile (ms.flatMap c.enc ++ ms'.flatMap c.enc)), none, .gzipRecord, k.makeParser⟩ : Stream) =
          longer ms'.flatten ⟨gzipFileOf c (File.openFile (ms.flatMap c.enc)), none, .gzipRecord, k.makeParser⟩ := by
        simp [longer, gzipFileOf, r1, d0, d1]
      rw [hs]
      exact C79_scan ms'.flatten offs plan n m 0 hm _ (by simp [gzipFileOf, r1, d0]) (Nat.zero_le _)
  cases cls with
  | some k => exact key k (Or.inl rfl)
  | none =>
    cases hcl : Detect.classify (File.firstLine ms.flatten) with
    | some k => exact key k (Or.inr ⟨rfl, hcl⟩)
    | none =>
      exfalso
      have hgu := Detect.guess_gzip c (File.openFile (ms.flatMap c.enc)) rfl (by rw [r1]; exact m0) (Or.inl (by rw [r1, d0]))
      rw [r1, d0] at hgu
      simp only at hgu
      rw [hcl] at hgu
      simp [openArchive, openRecordStream, hgu] at ho

/-- a file of two records to which a third is appended: the first of them is followed by another record in the shorter file -/
example : AgreeButLast (scan true (fun _ => [.read (some 2), .readline none]) 4 0 (mk' .plain (File.openFile (archiveT demoRT)) .warc)).1
    (scan true (fun _ => [.read (some 2), .readline none]) 5 0 (longer demo1.R.bytes (mk' .plain (File.openFile (archiveT demoRT)) .warc))).1 :=
  C79_scan _ true _ 4 5 0 (by omega) _ rfl (Nat.zero_le _)

example : ∃ a b, (scan true (fun _ => [.read (some 2), .readline none]) 4 0 (mk' .plain (File.openFile (archiveT demoRT)) .warc)).1[0]? = some a ∧
    (scan true (fun _ => [.read (some 2), .readline none]) 4 0 (mk' .plain (File.openFile (archiveT demoRT)) .warc)).1[1]? = some b ∧
    b.entry.rcd ≠ none ∧ a.reads ≠ [] := by
  have h : ∀ x : List Seen, (match x[0]?, x[1]? with | some a, some b => decide (b.entry.rcd ≠ none ∧ a.reads ≠ []) | _, _ => false) = true →
      ∃ a b, x[0]? = some a ∧ x[1]? = some b ∧ b.entry.rcd ≠ none ∧ a.reads ≠ [] := by
    intro x h
    cases h0 : x[0]? with
    | none => simp [h0] at h
    | some a =>
      cases h1 : x[1]? with
      | none => simp [h0, h1] at h
      | some b =>
        simp only [h0, h1] at h
        have h := of_decide_eq_true h
        exact ⟨a, b, rfl, rfl, h.1, h.2⟩
  exact h _ (by decide +kernel)

/-- and the file can be opened, with the class guessed -/
example : ∃ s, openArchive toy none false .auto none (archiveT demoRT) = .ok s ∧ 2 ≤ (archiveT demoRT).length ∧
    (archiveT demoRT).take 2 ≠ [0x1f, 0x8b] ∧ 10 ∈ archiveT demoRT :=
  ⟨_, openArchive_plain toy none .warc .auto _ (Or.inl rfl) (Or.inr ⟨rfl, by decide +kernel⟩) (by decide +kernel), by decide +kernel, by decide +kernel, by decide +kernel⟩

/-- a reading that raises before the end of the file: an ARC record before any filedesc line -/
example : (match readRecord true (mk' .plain (File.openFile (b! "x y\nz\n")) (.arc ArcSt.init)) with
    | .raise _ s1 => decide (s1.fh.pos < s1.fh.data.length)
    | _ => false) = true := by
  decide +kernel

end Warc
