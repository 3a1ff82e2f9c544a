import Verif.Proofs.SurveyAny
import Verif.Props.MoreCommands
import Verif.Props.ToolDamaged
import Verif.Props.ValidAny
set_option linter.all false
/-
  C119: what warclinks counts, for any files.
-/
namespace Warc
open Rx Stream Spec Cli Spec.Cli
open Unpack (Text)

/-- a file is opened, and gone through as its bytes say; or it is not there -/
theorem survey_file (c : Codec) (fs : FS) (name : Bytes) :
    (fs name = none ∧ openName c fs .warc none name = .error .osError) ∨
    ∃ s, openName c fs .warc none name = .ok s ∧ survey (s.fh.rest.length + 2) s = surveyFile c fs name ∧ (fs name).isSome = true := by
  cases hfs : fs name with
  | none => exact .inl ⟨rfl, by simp only [openName, hfs]⟩
  | some stored =>
    refine .inr ⟨_, open_any_file c fs name stored hfs, ?_, rfl⟩
    unfold surveyFile
    rw [hfs]
    simp only
    by_cases hc : Compressed name stored
    · simp only [if_pos hc]
      cases hd : (c.dec stored).2 with
      | none =>
        have e2 : ({ data := (c.dec stored).1, pos := 0, strictNeg := true, fault := none } : File).rest = (c.dec stored).1 := by simp [File.rest]
        rw [survey_exact _ _ rfl (by simp) rfl rfl rfl (by simp)]
        simp only [e2]
      | some e =>
        have e2 : ({ data := (c.dec stored).1, pos := 0, strictNeg := true, fault := some e } : File).rest = (c.dec stored).1 := by simp [File.rest]
        rw [survey_damaged (e := e) _ _ rfl rfl rfl ⟨rfl, Nat.zero_le _⟩ rfl (by simp)]
        simp only [e2]
    · simp only [if_neg hc]
      have e2 : (File.openFile stored).rest = stored := by simp [File.openFile, File.rest]
      rw [survey_exact _ _ rfl (by simp) rfl rfl rfl (by simp)]
      simp only [e2]

/-- **C119** Which files can be gone through (`GoesThrough`), which cannot (`GivesUp`), and on which the reading never ends, is a function of their bytes; these are all. -/
theorem C119_file (c : Codec) (fs : FS) (name : Bytes) :
    (surveyFile c fs name = .done ↔ GoesThrough c fs name) ∧ ((∃ e, surveyFile c fs name = .raised e) ↔ GivesUp c fs name) := by
  rcases survey_file c fs name with ⟨hfs, ho⟩ | ⟨s, ho, hs, hsome⟩
  · have h1 : surveyFile c fs name = .raised .osError := by simp [surveyFile, hfs]
    refine ⟨⟨fun h => (by rw [h1] at h; cases h), ?_⟩, ⟨fun _ => .inl ⟨_, ho⟩, fun _ => ⟨_, h1⟩⟩⟩
    rintro ⟨s, n, h, _⟩; rw [ho] at h; cases h
  · refine ⟨⟨fun h => ⟨s, _, ho, by rw [hs, h]⟩, ?_⟩, ⟨?_, ?_⟩⟩
    · rintro ⟨t, n, h, ht⟩
      rw [ho] at h; cases h
      have := survey_bound n s (by rw [ht]; simp)
      rw [← hs, this, ht]
    · rintro ⟨e, h⟩; exact .inr ⟨s, _, e, ho, by rw [hs, h]⟩
    · rintro (⟨e, h⟩ | ⟨t, n, e, h, ht⟩)
      · rw [ho] at h; cases h
      · rw [ho] at h; cases h
        have := survey_bound n s (by rw [ht]; simp)
        exact ⟨e, by rw [← hs, this, ht]⟩

/-- a file on which the reading never ends -/
theorem linksOfFile_hangs (line : Text → Bytes) (extract : Option Bytes → Bytes → List Text) (c : Codec) (fs : FS) (name out : Bytes)
    (h : surveyFile c fs name = .hangs) : linksOfFile line extract c fs name out = .hang := by
  rcases survey_file c fs name with ⟨hfs, ho⟩ | ⟨s, ho, hs, hsome⟩
  · simp [surveyFile, hfs] at h
  · simp only [linksOfFile, ho, Links.extractLinks]
    rcases links_survey c extract (s.fh.rest.length + 2) ⟨s, []⟩ with ⟨_, h2⟩ | ⟨h1, _⟩ | ⟨e, h1, _⟩
    · simp only [h2]
    · simp only [hs, h] at h1; cases h1
    · simp only [hs, h] at h1; cases h1

theorem linksOfFiles_hangs (line : Text → Bytes) (extract : Option Bytes → Bytes → List Text) (c : Codec) (fs : FS) (out : Bytes) :
    ∀ names : List Bytes, (∃ n ∈ names, surveyFile c fs n = .hangs) → linksOfFiles line extract c fs names out = .hang
  | [], h => by obtain ⟨n, hn, _⟩ := h; cases hn
  | n :: names, h => by
    simp only [linksOfFiles, M.bind_apply]
    cases hs : surveyFile c fs n with
    | hangs => simp only [linksOfFile_hangs line extract c fs n out hs]
    | done =>
      have ih := linksOfFiles_hangs line extract c fs out names (by
        obtain ⟨m, hm, hh⟩ := h
        rcases List.mem_cons.1 hm with rfl | hm
        · rw [hs] at hh; cases hh
        · exact ⟨m, hm, hh⟩)
      simp only [(linksOfFile_run line extract c fs n out).1 ((C119_file c fs n).1.1 hs), ih]
    | raised e =>
      have ih := linksOfFiles_hangs line extract c fs out names (by
        obtain ⟨m, hm, hh⟩ := h
        rcases List.mem_cons.1 hm with rfl | hm
        · rw [hs] at hh; cases hh
        · exact ⟨m, hm, hh⟩)
      simp only [(linksOfFile_run line extract c fs n out).2 ((C119_file c fs n).2.1 ⟨e, hs⟩), ih]

variable (help : Bytes) (c : Codec) (fs : FS) (acc : S3.Account) (fuel : Nat) (line : Text → Bytes) (extract : Option Bytes → Bytes → List Text)

/-- **C119** `warclinks` on any files: if reading never ends on one of them, neither does the command; otherwise nothing is printed and the exit status is, modulo 256, minus the
number of files that cannot be gone through. -/
theorem C119_warclinks (args : List Bytes) (ss : List Setting) (names : List Bytes) (hm : Means linksOpts args ss names) (hne : names ≠ [])
    (hs3 : NoS3 names) (level : Bytes) (hl : LastValue (b! "log_level") ss (b! "info") level)
    (hlev : level ∈ [b! "debug", b! "info", b! "warning", b! "error", b! "critical"]) (out : Bytes) :
    ((∃ n ∈ names, surveyFile c fs n = .hangs) → Cli.warclinks help line extract c fs acc fuel args out = .hang) ∧
    ((∀ n ∈ names, surveyFile c fs n ≠ .hangs) → ∃ status, Cli.warclinks help line extract c fs acc fuel args out = .ok status out ∧ status < 256 ∧
      (status + names.countP fun n => decide (surveyFile c fs n ≠ .done)) % 256 = 0) := by
  refine ⟨fun h => ?_, fun h => ?_⟩
  · have hj := (C94_warclinks args ss names hm level hl).2 hlev
    rw [if_neg hne] at hj
    simp only [Cli.warclinks, hj, expand_local acc fuel names hs3, M.bind_apply, linksOfFiles_hangs line extract c fs out names h]
  · refine C97_warclinks help c fs acc fuel line extract args ss names hm hne hs3 level hl hlev _ (fun n hn => ?_) out
    refine ⟨fun hb => (C119_file c fs n).1.1 (by simpa using hb), fun hb => (C119_file c fs n).2.1 ?_⟩
    cases hs : surveyFile c fs n with
    | done => simp [hs] at hb
    | hangs => exact absurd hs (h n hn)
    | raised e => exact ⟨e, rfl⟩

/-- **C119** A damaged compressed file counts as good only if the reader has given up, over junk and with a complaint, before it comes to the damage. -/
theorem C119_damaged (e : Exc) (rounds : Nat) (data : Bytes) (h : surveyDamaged e rounds data = .done) :
    ∃ k es size, nextDamaged (data.drop k) = some (.none es size) ∧ es ≠ [] := by
  induction rounds generalizing data with
  | zero => cases h
  | succ rounds ih =>
    have lift : ∀ k, (∃ j es size, nextDamaged ((data.drop k).drop j) = some (.none es size) ∧ es ≠ []) →
        ∃ j es size, nextDamaged (data.drop j) = some (.none es size) ∧ es ≠ [] := by
      rintro k ⟨j, es, size, h1, h2⟩
      rw [List.drop_drop] at h1
      exact ⟨_, es, size, h1, h2⟩
    rw [surveyDamaged] at h
    cases hn : nextDamaged data with
    | none => rw [hn] at h; cases h
    | some n =>
      rw [hn] at h
      cases n with
      | stuck => cases h
      | unknown => cases h
      | none es size => exact ⟨0, es, size, hn, damaged_none_errors hn⟩
      | record start v hs es size =>
        simp only at h
        by_cases h1 : declaredLength hs < -1
        · rw [if_pos h1] at h; exact lift size (ih _ h)
        · rw [if_neg h1] at h
          by_cases h2 : declaredLength hs = -1 ∨ (data.drop size).length < (declaredLength hs).toNat
          · rw [if_pos h2] at h; cases h
          · rw [if_neg h2, List.drop_drop] at h
            exact lift _ (ih _ h)

/-! ### concrete cases -/

/-- a length below -1: the loop goes on behind the head, and finds the record in its content -/
theorem survey_cases :
    surveyOn 99 (b! "WARC/1.0\r\nContent-Length: -7\r\n\r\nWARC/1.0\r\nContent-Length: 3\r\n\r\nabc\r\n\r\n") = .done ∧
    surveyOn 99 (b! "WARC/1.0\r\nContent-Length: -7\r\n\r\nWARC/1.0\r\nContent-Length: 3\r\n\r\nab") = .raised (.generic "expected more bytes") ∧
    surveyOn 99 (b! "WARC/1.0\r\nContent-Length: -1\r\n\r\nWARC/1.0\r\nContent-Length: 3\r\n\r\nab") = .done ∧
    surveyOn 99 (b! "WARC/1.0\r\nContent-Length: 3\r\n\r\nabc\r\n\r\nWARC/1.0\r\nno field\r\n\r\n") = .hangs ∧
    surveyOn 99 (b! "a\nb\n") = .done ∧
    surveyDamaged .eofError 99 (halfRead ++ b! "ab") = .raised .eofError ∧
    surveyDamaged .eofError 99 (halfRead ++ b! "abc\r\n\r\n") = .raised .eofError ∧
    surveyDamaged .eofError 99 (b! "WARC/1.0\r\nContent-Length: -1\r\n\r\n") = .raised .eofError ∧
    surveyDamaged .eofError 99 (b! "a\nb\n") = .raised .eofError ∧
    surveyDamaged .eofError 99 (b! "a\nb\nc\nd\ne\nf\n") = .done := by decide +kernel

/-- an archive, a damaged one, one with junk -/
def threeFS : FS := fun n =>
  if n = b! "a.gz" then some cutTwice else if n = b! "b" then some halfRead else if n = b! "c" then some (b! "a\nb\n") else none

theorem threeFS_counts : [b! "a.gz", b! "b", b! "c", b! "d"].countP (fun n => decide (surveyFile toy threeFS n ≠ .done)) = 3 ∧
    ∀ n ∈ [b! "a.gz", b! "b", b! "c", b! "d"], surveyFile toy threeFS n ≠ .hangs := by decide +kernel

example : Cli.warclinks [] (fun _ => []) (fun _ _ => []) toy threeFS (fun _ => none) 0 [b! "a.gz", b! "b", b! "c", b! "d"] [] = .ok 253 [] := by
  obtain ⟨st, h1, h2, h3⟩ := (C119_warclinks [] toy threeFS (fun _ => none) 0 (fun _ => []) (fun _ _ => [])
    [b! "a.gz", b! "b", b! "c", b! "d"] [] [b! "a.gz", b! "b", b! "c", b! "d"]
    (((C94_parse linksOpts (C94_tables _ (by simp)) _).1 _ _).1 (by rfl)) (by simp) (by
      intro n hn
      simp only [List.mem_cons, List.not_mem_nil, or_false] at hn
      rcases hn with rfl | rfl | rfl | rfl <;> decide) (b! "info") (.inr ⟨(by rintro ⟨v, hv⟩; cases hv), rfl⟩) (by decide) []).2 threeFS_counts.2
  rw [h1]
  have : st = 253 := by rw [threeFS_counts.1] at h3; omega
  rw [this]

end Warc
