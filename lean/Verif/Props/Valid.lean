import Verif.Proofs.Phantom
import Verif.Proofs.ToolDemo
import Verif.Props.Reading
/-
  C43: warcvalid.
-/
set_option linter.all false
namespace Warc
open Rx Stream Spec

/-- the stream can be scanned to its end: the scan ends normally, no entry carries parse errors and no
record carries errors -/
def ScansClean (s : Stream) : Prop :=
  ∃ rounds es, readRecords true rounds none s = (es, .done) ∧
    ∀ e ∈ es, e.errors = [] ∧ ∀ r, e.rcd = some r → r.errors = []

theorem check_clean (fuel : Nat) (s : Stream) :
    (∃ s', WarcValid.checkEntries fuel s = .ok .clean s') ↔
      ∃ es, readRecords true fuel none s = (es, .done) ∧
        ∀ e ∈ es, e.errors = [] ∧ ∀ r, e.rcd = some r → r.errors = [] := by
  induction fuel generalizing s with
  | zero => simp [WarcValid.checkEntries, readRecords, M.diverge]
  | succ fuel ih =>
    simp only [WarcValid.checkEntries, readRecords, M.bind_apply, reduceCtorEq, if_false]
    cases hq : readRecord true s with
    | hang => simp
    | raise e s1 => simp
    | ok e s1 =>
      obtain ⟨off, rcd, errs⟩ := e
      simp only
      by_cases he : errs = []
      · subst he
        cases rcd with
        | none => simp
        | some r =>
          simp only [ne_eq, not_true_eq_false, if_false, Option.isNone_some, Bool.false_eq_true, Option.map_none]
          by_cases hr : r.errors = []
          · simp only [hr, not_true_eq_false, if_false]
            rw [ih s1]
            constructor
            · rintro ⟨es, h1, h2⟩
              rw [h1]
              refine ⟨_, rfl, ?_⟩
              intro x hx
              rcases List.mem_cons.1 hx with rfl | hx
              · exact ⟨rfl, fun r' h => by cases h; exact hr⟩
              · exact h2 x hx
            · rintro ⟨es, h1, h2⟩
              cases hrr : readRecords true fuel none s1 with
              | mk es' fin =>
                rw [hrr] at h1
                simp only [Prod.mk.injEq] at h1
                obtain ⟨rfl, rfl⟩ := h1
                exact ⟨es', rfl, fun x hx => h2 x (by simp [hx])⟩
          · simp only [hr, not_false_eq_true, if_true]
            constructor
            · rintro ⟨s', h⟩
              by_cases ho : off = none <;> simp [ho] at h
            · rintro ⟨es, h1, h2⟩
              simp only [Prod.mk.injEq] at h1
              exact absurd ((h2 ⟨off, some r, []⟩ (by rw [← h1.1]; simp)).2 r rfl) hr
      · simp only [ne_eq, he, not_false_eq_true, if_true]
        constructor
        · rintro ⟨s', h⟩
          by_cases ho : off = none <;> simp [ho] at h
        · rintro ⟨es, h1, h2⟩
          cases rcd with
          | none =>
            simp at h1
            exact absurd (h2 ⟨off, none, errs⟩ (by rw [← h1]; simp)).1 he
          | some r =>
            simp only [Option.isNone_some, Bool.false_eq_true, if_false, Prod.mk.injEq] at h1
            exact absurd (h2 ⟨off, some r, errs⟩ (by rw [← h1.1]; simp)).1 he

/-- more rounds do not change a scan that ended -/
theorem readRecords_more (offs : Bool) (rounds rounds' : Nat) (limit : Option Nat) (s : Stream) (es : List Entry) (f : End)
    (hf : f ≠ .hangs) (hr : rounds ≤ rounds') (h : readRecords offs rounds limit s = (es, f)) :
    readRecords offs rounds' limit s = (es, f) := by
  induction rounds generalizing limit s es rounds' with
  | zero => simp [readRecords] at h; exact absurd h.2.symm hf
  | succ rounds ih =>
    obtain ⟨r', rfl⟩ : ∃ k, rounds' = k + 1 := ⟨rounds' - 1, by omega⟩
    simp only [readRecords] at h ⊢
    by_cases hl : limit = some 0
    · simpa [hl] using h
    · simp only [hl, if_false] at h ⊢
      cases hq : readRecord offs s with
      | hang => simpa [hq] using h
      | raise e s1 => simpa [hq] using h
      | ok e s1 =>
        simp only [hq] at h ⊢
        by_cases hn : e.rcd.isNone = true
        · simpa [hn] using h
        · simp only [hn, if_false] at h ⊢
          cases hrr : readRecords offs rounds (limit.map (· - 1)) s1 with
          | mk es' fin =>
            rw [hrr] at h
            simp only [Bool.false_eq_true, if_false, Prod.mk.injEq] at h
            obtain ⟨h1, rfl⟩ := h
            have := ih r' _ s1 es' (by omega) hrr
            simp [this, h1]

theorem openName_warc (c : Codec) (fs : FS) (name : Bytes) (s : Stream) (o : Option Nat)
    (h : openName c fs .warc o name = .ok s) : s.parser = .warc ∧ s.kind ≠ .gzipFile := by
  simp only [openName] at h
  cases hf : fs name with
  | none => simp [hf] at h
  | some contents =>
    simp only [hf, openArchive] at h
    split at h
    · rename_i s1 f1 hh
      simp only [Except.ok.injEq] at h
      subst h
      have key : ∀ f s1 f1, openRecordStream c (some .warc) (nameGz name) .auto f = .ok s1 f1 → s1.parser = .warc ∧ s1.kind ≠ .gzipFile := by
        intro f s1 f1 hh
        simp only [openRecordStream, M.bind_apply, M.pure_apply] at hh
        by_cases hg : nameGz name = true
        · simp only [hg, if_true, M.bind_apply, M.pure_apply, M.get_apply, Res.ok.injEq] at hh
          rw [← hh.1]; exact ⟨rfl, by simp⟩
        · simp only [hg, M.bind_apply] at hh
          cases hi : Detect.isGzipFile f with
          | hang => simp [hi] at hh
          | raise e x => simp [hi] at hh
          | ok b x =>
            cases b <;> simp [hi] at hh <;> rw [← hh.1] <;> exact ⟨rfl, by simp⟩
      cases o with
      | none => simp only [M.bind_apply, M.pure_apply] at hh; exact key _ _ _ hh
      | some o =>
        simp only [M.bind_apply] at hh
        cases hs : File.seek (↑o) 0 (File.openFile contents) with
        | hang => simp [hs] at hh
        | raise e x => simp [hs] at hh
        | ok b x => simp only [hs] at hh; exact key _ _ _ hh
    · cases h
    · cases h

theorem checkFile_clean (c : Codec) (fs : FS) (name : Bytes) :
    WarcValid.checkFile c fs name = .clean ↔ ∃ s, openName c fs .warc none name = .ok s ∧ ScansClean s := by
  unfold WarcValid.checkFile
  cases ho : openName c fs .warc none name with
  | error e => simp
  | ok s =>
    simp only [Except.ok.injEq, exists_eq_left']
    have hp := (openName_warc c fs name s none ho).1
    have h1 := check_clean (s.fh.rest.length + 2) s
    have h2 : (match WarcValid.checkEntries (s.fh.rest.length + 2) s with
        | .ok v _ => v | .raise _ _ => .raised | .hang => .hangs) = WarcValid.Verdict.clean ↔
        ∃ s', WarcValid.checkEntries (s.fh.rest.length + 2) s = .ok .clean s' := by
      cases hq : WarcValid.checkEntries (s.fh.rest.length + 2) s with
      | hang => simp
      | raise e x => simp
      | ok v x => simp
    have h3 : (∃ s', WarcValid.checkEntries (s.fh.rest.length + 2) s = .ok .clean s') ↔ ScansClean s := by
      rw [h1]
      constructor
      · rintro ⟨es, h⟩; exact ⟨_, es, h⟩
      · rintro ⟨rounds, es, h, hc⟩
        refine ⟨es, ?_, hc⟩
        have hm := readRecords_more true rounds (max rounds (s.fh.rest.length + 2)) none s es .done (by simp)
          (Nat.le_max_left _ _) h
        rw [(C09_scan_terminates true (s.fh.rest.length + 2) none s hp (by omega)).2 _ (Nat.le_max_right _ _)] at hm
        exact hm
    rw [← h3, ← h2]
    cases WarcValid.checkEntries (s.fh.rest.length + 2) s <;> rfl

theorem run_zero (c : Codec) (fs : FS) (correct : Bool) (names : List Bytes) :
    WarcValid.run c fs correct names = some 0 ↔
      correct = true ∧ ∀ name ∈ names, WarcValid.checkFile c fs name = .clean := by
  induction names generalizing correct with
  | nil => cases correct <;> simp [WarcValid.run]
  | cons n ns ih =>
    simp only [WarcValid.run]
    cases h : WarcValid.checkFile c fs n <;> simp [h, ih]

/-- **C43** `warcvalid` returns 0 exactly when every file can be opened and scanned to its end without
exception, parse errors or record errors. -/
theorem C43_accepts_iff (c : Codec) (fs : FS) (names : List Bytes) :
    WarcValid.main c fs names = some 0 ↔
      ∀ name ∈ names, ∃ s, openName c fs .warc none name = .ok s ∧ ScansClean s := by
  rw [WarcValid.main, run_zero]
  simp only [true_and, checkFile_clean]

theorem run_codes (c : Codec) (fs : FS) (correct : Bool) (names : List Bytes) (k : Int)
    (h : WarcValid.run c fs correct names = some k) : k = 0 ∨ k = -1 := by
  induction names generalizing correct with
  | nil => cases correct <;> simp [WarcValid.run] at h <;> simp [← h]
  | cons n ns ih =>
    simp only [WarcValid.run] at h
    cases hc : WarcValid.checkFile c fs n with
    | clean => simp only [hc] at h; exact ih _ h
    | broken => simp only [hc] at h; exact ih _ h
    | raised => simp [hc] at h; simp [← h]
    | hangs => simp [hc] at h

/-- **C43** the only other exit code is -1 -/
theorem C43_exit_codes (c : Codec) (fs : FS) (names : List Bytes) (k : Int)
    (h : WarcValid.main c fs names = some k) : k = 0 ∨ k = -1 := run_codes c fs true names k h

theorem check_hang (fuel : Nat) (s : Stream) (h : WarcValid.checkEntries fuel s = .hang) :
    (readRecords true fuel none s).2 = .hangs := by
  induction fuel generalizing s with
  | zero => simp [readRecords]
  | succ fuel ih =>
    simp only [WarcValid.checkEntries, readRecords, M.bind_apply, reduceCtorEq, if_false] at h ⊢
    cases hq : readRecord true s with
    | hang => simp
    | raise e s1 => simp [hq] at h
    | ok e s1 =>
      obtain ⟨off, rcd, errs⟩ := e
      simp only [hq] at h ⊢
      by_cases he : errs = []
      · subst he
        cases rcd with
        | none => simp at h
        | some r =>
          simp only [ne_eq, not_true_eq_false, if_false, Option.isNone_some, Bool.false_eq_true, Option.map_none] at h ⊢
          by_cases hr : r.errors = []
          · simp only [hr, not_true_eq_false, if_false] at h
            exact ih s1 h
          · simp only [hr, not_false_eq_true, if_true] at h
            by_cases ho : off = none <;> simp [ho] at h
      · simp only [ne_eq, he, not_false_eq_true, if_true] at h
        by_cases ho : off = none <;> simp [ho] at h

/-- **C43** `warcvalid` ends, unless a file contains a header block on which the reader hangs (C09). -/
theorem C43_terminates (c : Codec) (fs : FS) (names : List Bytes)
    (hgood : ∀ name ∈ names, ∀ s, openName c fs .warc none name = .ok s →
      ∀ rounds, s.fh.rest.length < rounds → (readRecords true rounds none s).2 ≠ .hangs) :
    WarcValid.main c fs names = some 0 ∨ WarcValid.main c fs names = some (-1) := by
  have key : ∀ correct, WarcValid.run c fs correct names ≠ none := by
    induction names with
    | nil => intro correct; simp [WarcValid.run]
    | cons n ns ih =>
      intro correct
      simp only [WarcValid.run]
      cases hc : WarcValid.checkFile c fs n with
      | clean => exact ih (fun x hx => hgood x (by simp [hx])) _
      | broken => exact ih (fun x hx => hgood x (by simp [hx])) _
      | raised => simp
      | hangs =>
        exfalso
        unfold WarcValid.checkFile at hc
        cases ho : openName c fs .warc none n with
        | error e => simp [ho] at hc
        | ok s =>
          simp only [ho] at hc
          cases hq : WarcValid.checkEntries (s.fh.rest.length + 2) s with
          | hang => exact hgood n (by simp) s ho _ (by omega) (check_hang _ _ hq)
          | raise e x => simp [hq] at hc
          | ok v x =>
            simp only [hq] at hc
            have : ∀ fuel s x, WarcValid.checkEntries fuel s ≠ .ok .hangs x := by
              intro fuel
              induction fuel with
              | zero => simp [WarcValid.checkEntries, M.diverge]
              | succ fuel ih =>
                intro s x h
                simp only [WarcValid.checkEntries, M.bind_apply] at h
                cases hq : readRecord true s with
                | hang => simp [hq] at h
                | raise e s1 => simp [hq] at h
                | ok e s1 =>
                  obtain ⟨off, rcd, errs⟩ := e
                  simp only [hq] at h
                  by_cases he : errs = []
                  · subst he
                    cases rcd with
                    | none => simp at h
                    | some r =>
                      simp only [ne_eq, not_true_eq_false, if_false] at h
                      by_cases hr : r.errors = []
                      · simp only [hr, not_true_eq_false, if_false] at h
                        exact ih s1 x h
                      · simp only [hr, not_false_eq_true, if_true] at h
                        by_cases ho : off = none <;> simp [ho] at h
                  · simp only [ne_eq, he, not_false_eq_true, if_true] at h
                    by_cases ho : off = none <;> simp [ho] at h
            exact this _ _ _ (by rw [hq, hc])
  cases h : WarcValid.main c fs names with
  | none => exact absurd h (key true)
  | some k => rcases C43_exit_codes c fs names k h with rfl | rfl <;> simp

/-- **C43** in terms of the file: it ends if no header block anywhere in the (decompressed) data holds a
line that is neither blank nor a header -/
theorem C43_ends (c : Codec) (fs : FS) (names : List Bytes)
    (hgood : ∀ name ∈ names, ∀ s, openName c fs .warc none name = .ok s → s.fh.fault = none ∧
      ∀ pos n ls, findVersion 0 (dropTerminators (lines (s.fh.data.drop pos))) = .version n ls → stuck false ls = false) :
    WarcValid.main c fs names = some 0 ∨ WarcValid.main c fs names = some (-1) := by
  refine C43_terminates c fs names ?_
  intro name hn s ho rounds hr hh
  obtain ⟨hp, hk⟩ := openName_warc c fs name s none ho
  obtain ⟨h1, h2⟩ := hgood name hn s ho
  obtain ⟨s', e1, e2, e3, e4, e5⟩ := (C09_scan_terminates true rounds none s hp hr).1 hh
  obtain ⟨pos, n, ls, _, hf, _, hs⟩ := readRecord_hang_stuck true s' e1 (by rw [e4]; exact hk) (by rw [e3]; exact h1) e5
  rw [e2] at hf
  rw [h2 pos n ls hf] at hs
  cases hs

/-- for instance on a file that is not an archive at all -/
example (c : Codec) (fs : FS) (h : fs (b! "x") = some (b! "hello")) :
    WarcValid.main c fs [b! "x"] = some 0 ∨ WarcValid.main c fs [b! "x"] = some (-1) := by
  refine C43_ends c fs _ ?_
  intro name hn s ho
  simp only [List.mem_singleton] at hn
  subst hn
  have : openName c fs .warc none (b! "x") = .ok ⟨File.openFile (b! "hello"), none, .plain, .warc⟩ := by
    simp only [openName, h]
    exact openArchive_plain c (some .warc) .warc .auto _ (Or.inl rfl) (Or.inl rfl) (by decide)
  rw [this] at ho
  simp only [Except.ok.injEq] at ho
  subst ho
  refine ⟨rfl, ?_⟩
  intro pos n ls hf
  have key : ∀ p, p ≤ 5 → (match findVersion 0 (dropTerminators (lines ((b! "hello").drop p))) with | .version _ _ => false | _ => true) = true := by
    decide +kernel
  have hd : (File.openFile (b! "hello")).data.drop pos = (b! "hello").drop (min pos 5) := by
    show (b! "hello").drop pos = _
    by_cases hp : pos ≤ 5
    · rw [Nat.min_eq_left hp]
    · rw [Nat.min_eq_right (by omega), List.drop_of_length_le (by simp; omega)]; rfl
  rw [hd] at hf
  have := key (min pos 5) (Nat.min_le_right _ _)
  rw [hf] at this
  cases this

theorem scan_readRecords (fuel i : Nat) (s : Stream) :
    readRecords true fuel none s =
      ((scan true (fun _ => []) fuel i s).1.map Seen.entry, (scan true (fun _ => []) fuel i s).2) := by
  induction fuel generalizing i s with
  | zero => simp [readRecords, scan]
  | succ fuel ih =>
    simp only [readRecords, scan, reduceCtorEq, if_false]
    cases hq : readRecord true s with
    | hang => simp
    | raise e s1 => simp
    | ok e s1 =>
      obtain ⟨off, rcd, errs⟩ := e
      cases rcd with
      | none => simp
      | some r =>
        simp only [Option.isNone_some, Bool.false_eq_true, if_false, Option.map_none, runOps, M.pure_apply]
        rw [ih (i + 1) s1]
        simp

theorem readRecords_archive (fuel : Nat) (s : Stream) (rs : List RT) (more : Bytes) (hk : s.kind ≠ .gzipFile)
    (he : s.eoc = none) (hok : OkT rs) (hp : s.parser = .warc) (hr : s.fh.rest = archiveT rs ++ more) :
    ∃ es, (∀ e ∈ es, e.errors = [] ∧ ∀ r, e.rcd = some r → r.errors = []) ∧
      readRecords true (rs.length + fuel) none s =
        (es ++ (readRecords true fuel none (s.adv (archiveT rs).length)).1,
          (readRecords true fuel none (s.adv (archiveT rs).length)).2) := by
  have h1 := scan_readRecords (rs.length + fuel) 0 s
  rw [scan_archive true (fun _ => []) fuel 0 s rs more hk he hok (fun _ _ => Or.inl hp) hr] at h1
  have h2 := scan_readRecords fuel (0 + rs.length) (s.adv (archiveT rs).length)
  refine ⟨(expect (reported s.kind true) (fun _ => []) 0 s.fh.pos rs).map Seen.entry, ?_, ?_⟩
  rotate_left
  · rw [h1]
    simp only [List.map_append]
    rw [h2]
  · have key : ∀ (rs : List RT) (i pos : Nat) rep,
        ∀ e ∈ (expect rep (fun _ => []) i pos rs).map Seen.entry, e.errors = [] ∧ ∀ r, e.rcd = some r → r.errors = [] := by
      intro rs
      induction rs with
      | nil => intro i pos rep e h; simp [expect] at h
      | cons r rs ih =>
        intro i pos rep e h
        simp only [expect, List.map_cons, List.mem_cons] at h
        rcases h with rfl | h
        · exact ⟨rfl, fun r' h => by cases h; rfl⟩
        · exact ih _ _ _ e h
    exact key rs 0 _ _

theorem openName_plain (c : Codec) (fs : FS) (name data : Bytes) (hf : fs name = some data) (hn : ¬ b! ".gz" <:+ name)
    (hg : data.take 2 ≠ [0x1f, 0x8b]) :
    openName c fs .warc none name = .ok ⟨File.openFile data, none, .plain, .warc⟩ := by
  have hng : nameGz name = false := by
    rw [nameGz, Bool.eq_false_iff]; exact fun hh => hn ((endsWith_iff _ _).1 hh)
  simp only [openName, hf, hng]
  exact openArchive_plain c (some .warc) .warc .auto _ (Or.inl rfl) (Or.inl rfl) hg

/-- **C43** files that hold well formed records, compressed or not, are accepted -/
theorem C43_accepts_archives (c : Codec) (hc : Codec.Laws c) (fs : FS) (names : List Bytes)
    (h : ∀ name ∈ names, ∃ z rs, Stored c fs name z rs) : WarcValid.main c fs names = some 0 := by
  rw [C43_accepts_iff]
  intro name hn
  obtain ⟨z, rs, hst⟩ := h name hn
  obtain ⟨s, ho, hf⟩ := open_stored c hc fs name z rs hst
  refine ⟨s, ho, rs.length + 1, ?_⟩
  have hk : s.kind ≠ .gzipFile := by rw [hf.kind]; cases z <;> simp
  obtain ⟨es, h1, h2⟩ := readRecords_archive 1 s rs [] hk hf.eoc hst.1 hf.parser (by rw [hf.rest]; simp)
  have heof := readRecord_eof true (s.adv (archiveT rs).length) hk hf.eoc hf.fault (by
    rw [adv_fh, File.advance_rest, hf.rest]; simp)
  have h3 : readRecords true 1 none (s.adv (archiveT rs).length) =
      ([⟨reported s.kind true (s.adv (archiveT rs).length).fh.pos, none, []⟩], .done) := by
    simp [readRecords, heof]
  rw [h3] at h2
  refine ⟨_, h2, ?_⟩
  intro e he
  rcases List.mem_append.1 he with he | he
  · exact h1 e he
  · simp at he; subst he; exact ⟨rfl, by simp⟩

/-- **C43** an uncompressed file that was cut inside the payload of a record is rejected, wherever it stands
among the arguments -/
theorem C43_rejects_truncated (c : Codec) (fs : FS) (names : List Bytes) (name : Bytes) (hmem : name ∈ names)
    (rs : List RT) (hok : OkT rs) (cut i : Nat) (hi : i < rs.length)
    (hlo : (archiveT (rs.take i)).length + (headBytes rs[i].1.version rs[i].1.headers).length ≤ cut)
    (hhi : cut < (archiveT (rs.take i)).length + rs[i].1.core.length)
    (hf : fs name = some ((archiveT rs).take cut)) (hn : ¬ b! ".gz" <:+ name) :
    WarcValid.main c fs names ≠ some 0 := by
  rw [Ne, C43_accepts_iff]
  intro hall
  obtain ⟨s, ho, rounds, es, hs, _⟩ := hall name hmem
  have hng : ((archiveT rs).take cut).take 2 ≠ [0x1f, 0x8b] := by
    intro h
    apply archiveT_not_gzip rs hok
    have hl := congrArg List.length h
    simp only [List.length_take, List.length_cons, List.length_nil] at hl
    rw [List.take_take, Nat.min_eq_left (by omega)] at h
    exact h
  rw [openName_plain c fs name _ hf hn hng] at ho
  simp only [Except.ok.injEq] at ho
  subst ho
  obtain ⟨exc, h1, _⟩ := C08_cut_in_payload (max rounds (i + 2)) rs hok cut i hi hlo hhi (by omega)
  have h2 := readRecords_more true rounds (max rounds (i + 2)) none _ es .done (by simp) (Nat.le_max_left _ _) hs
  rw [scan_readRecords _ 0] at h2
  rw [show (⟨File.openFile ((archiveT rs).take cut), none, .plain, .warc⟩ : Stream) =
    Stream.mk' .plain (File.openFile ((archiveT rs).take cut)) .warc from rfl] at h2
  rw [h1] at h2
  simp at h2

/-- **C43 (defect)** but a file that ends after a header line of its last record is accepted when no
Content-Length came before the cut: the blank line, the other headers and the payload may all be
missing. -/
theorem C43_accepts_cut_header (c : Codec) (fs : FS) (name : Bytes) (rs : List RT) (hok : OkT rs)
    (v : Bytes) (hs : List Header) (hv : VersionOk v) (hhs : ∀ h ∈ hs, HeaderOk h)
    (hnl : ∀ h ∈ hs, lower h.1 ≠ b! "content-length")
    (hf : fs name = some (archiveT rs ++ (v ++ CRLF ++ hs.flatMap headerLine))) (hn : ¬ b! ".gz" <:+ name) :
    WarcValid.main c fs [name] = some 0 := by
  rw [C43_accepts_iff]
  intro n hmem
  simp only [List.mem_singleton] at hmem
  subst hmem
  have hng : (archiveT rs ++ (v ++ CRLF ++ hs.flatMap headerLine)).take 2 ≠ [0x1f, 0x8b] := by
    cases rs with
    | nil =>
      have := versionOk_not_gzip (x := CRLF ++ hs.flatMap headerLine) hv
      simpa [archiveT] using this
    | cons r rs =>
      have := (hok r (by simp)).1.version
      have h2 := versionOk_not_gzip (x := CRLF ++ r.1.headers.flatMap headerLine ++ CRLF ++ r.1.body ++ r.2 ++ archiveT rs ++
        (v ++ CRLF ++ hs.flatMap headerLine)) this
      simpa [archiveT, R.core, headBytes] using h2
  refine ⟨_, openName_plain c fs n _ hf hn hng, ?_⟩
  obtain ⟨es, h1, h2⟩ := readRecords_archive 2 ⟨File.openFile (archiveT rs ++ (v ++ CRLF ++ hs.flatMap headerLine)), none, .plain, .warc⟩
    rs (v ++ CRLF ++ hs.flatMap headerLine) (by simp) rfl hok rfl (by simp [File.openFile, File.rest])
  generalize hsa : (⟨File.openFile (archiveT rs ++ (v ++ CRLF ++ hs.flatMap headerLine)), none, .plain, .warc⟩ : Stream) = s0 at h2 ⊢
  generalize hsb : s0.adv (archiveT rs).length = s1 at h2
  have hrest : s1.fh.rest = [] ++ (v ++ CRLF ++ hs.flatMap headerLine) := by
    rw [← hsb, ← hsa, adv_fh, File.advance_rest]; simp [File.openFile, File.rest]
  obtain ⟨s2, h3, h4, h5, h6, h7⟩ := readRecord_phantom true [] v hs s1 (by rw [← hsb, ← hsa]; simp) (by rw [← hsb, ← hsa]; rfl)
    (by rw [← hsb, ← hsa]; rfl) ⟨by simp, Or.inl rfl⟩ hv hhs (Or.inl (by rw [← hsb, ← hsa]; rfl)) hrest
  have hd : declaredLength hs = 0 := by
    have : ∀ (hs : List Header) (acc : Int), (∀ h ∈ hs, lower h.1 ≠ b! "content-length") → hs.foldl (fun acc h =>
        if lower h.1 = b! "content-length" then (pyInt 10 h.2).getD acc else acc) acc = acc := by
      intro hs
      induction hs with
      | nil => intros; rfl
      | cons h hs ih =>
        intro acc hh
        simp only [List.foldl_cons]
        rw [if_neg (hh h (by simp))]
        exact ih acc (fun x hx => hh x (by simp [hx]))
    exact this hs 0 hnl
  have hk2 : s2.kind ≠ .gzipFile := by rw [h7, ← hsb, ← hsa]; simp
  have h8 := readRecord_skip true 0 s2 (by rw [h4, hd]; rfl) (by omega)
  have h9 := readRecord_eof true { s2.adv 0 with eoc := none } hk2 rfl h6 (by
    rw [show ({ s2.adv 0 with eoc := none } : Stream).fh.rest = (s2.adv 0).fh.rest from rfl, adv_fh, File.advance_rest, h5]; rfl)
  rw [h9] at h8
  have h10 : readRecords true 2 none s1 =
      ([⟨reported s1.kind true (s1.fh.pos + ([] : Bytes).length), some (parsed v hs), []⟩,
        ⟨reported s2.kind true (s2.adv 0).fh.pos, none, []⟩], .done) := by
    simp only [readRecords, reduceCtorEq, if_false, h3, Option.isNone_some, Bool.false_eq_true, Option.map_none, h8,
      Option.isNone_none, if_true]
    rfl
  rw [h10] at h2
  refine ⟨_, _, h2, ?_⟩
  intro e he
  rcases List.mem_append.1 he with he | he
  · exact h1 e he
  · simp only [List.mem_cons, List.not_mem_nil, or_false] at he
    rcases he with rfl | rfl
    · exact ⟨rfl, fun r h => by cases h; rfl⟩
    · exact ⟨rfl, by simp⟩

/-- the second demo record without its last two header lines -/
example : WarcValid.main toy (fun n => if n = b! "a.warc" then
      some (archiveT [(demo1.R, CRLF ++ CRLF)] ++ b! " warc/0.18\r\nX-Note: a: b\r\n") else none) [b! "a.warc"] = some 0 := by
  refine C43_accepts_cut_header toy _ _ [(demo1.R, CRLF ++ CRLF)] ?_ (b! " warc/0.18") [(b! "X-Note", b! "a: b")]
    demo2_ok.version (by decide) (by decide) ?_ (by decide)
  · intro r hr
    simp only [List.mem_singleton] at hr
    subst hr
    exact ⟨item_R_ok _ demo1_ok, crlf2_terminator⟩
  · simp [headerLine]

/-- an uncompressed archive and one in two gzip members are accepted -/
example : WarcValid.main toy demoFS [b! "a.warc", b! "b.warc.gz"] = some 0 := by
  refine C43_accepts_archives toy toy_laws _ _ ?_
  intro name hn
  simp only [List.mem_cons, List.not_mem_nil, or_false] at hn
  rcases hn with rfl | rfl
  · exact ⟨false, demoRT, demo_plain⟩
  · exact ⟨true, demoRT, demo_gz⟩

/-- the same archive cut in the payload of the first record is rejected -/
example (fs : FS) (hf : fs (b! "cut.warc") = some ((archiveT demoRT).take (demo1.R.core.length - 1))) :
    WarcValid.main toy fs [b! "cut.warc"] ≠ some 0 := by
  refine C43_rejects_truncated toy fs _ (b! "cut.warc") (by simp) demoRT demoRT_ok _ 0 (by simp [demoRT]) ?_ ?_ hf (by decide)
  · decide +kernel
  · decide +kernel

end Warc
