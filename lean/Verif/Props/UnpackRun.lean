import Verif.Model.UnpackRun
import Verif.Proofs.Tools
import Verif.Proofs.Unpack
import Verif.Spec.Toy
/-
  C69: warcunpack_ia on Python 3 unpacks nothing.
-/
set_option linter.all false
namespace Warc
open Rx Stream Spec Unpack

namespace Unpack

theorem bind_some {α β : Type} {x : M World α} {f : α → M World β} {w w' : World} {b : β} (h : (x >>= f) w = .ok b w') :
    ∃ a w1, x w = .ok a w1 ∧ f a w1 = .ok b w' := by
  rw [M.bind_apply] at h
  cases hx : x w with
  | ok a w1 => rw [hx] at h; exact ⟨a, w1, rfl, h⟩
  | raise e w1 => rw [hx] at h; cases h
  | hang => rw [hx] at h; cases h

theorem unpackRecord_none (c : Codec) (env : Env) (fuel : Nat) (out dn : Text) (w w' : World) (o : Out × Bytes) :
    unpackRecord c env fuel out dn w ≠ .ok (some o) w' := by
  intro h
  obtain ⟨w0, w1, h0, h⟩ := bind_some h
  cases h0
  obtain ⟨⟨ctype, body⟩, w2, h2, h⟩ := bind_some h
  simp only at h
  split at h
  · cases ctype <;> simp only [Option.map_none, Option.map_some, startswith] at h <;> cases h
  · cases h

theorem unpackEntry_disk (c : Codec) (env : Env) (fuel : Nat) (out dn : Text) (e : Entry) (run : Run) :
    unpackEntry c env fuel out dn e run = .hang ∨
      ∃ s, unpackEntry c env fuel out dn e run = .ok () { run with strm := s } := by
  unfold unpackEntry
  cases e.rcd with
  | none => exact .inr ⟨run.strm, rfl⟩
  | some r =>
    simp only
    cases hx : unpackRecord c env fuel out dn ⟨run.strm, r, []⟩ with
    | hang => exact .inl rfl
    | raise ex w => exact .inr ⟨w.strm, rfl⟩
    | ok o w =>
      cases o with
      | none => exact .inr ⟨w.strm, rfl⟩
      | some o => exact (unpackRecord_none _ _ _ _ _ _ _ _ hx).elim

end Unpack

/-- **C69** Whatever the archive contains, `unpack_records` writes no file and counts no collision: on Python 3 every record is skipped or
makes a `str` meet a `bytes`. -/
theorem C69_writes_nothing (c : Codec) (env : Env) (fuel : Nat) (outputDir defaultName : Text) (run : Run) :
    match unpackRecords c env fuel outputDir defaultName run with
    | .ok _ r => r.disk = run.disk ∧ r.collisions = run.collisions
    | .raise _ r => r.disk = run.disk ∧ r.collisions = run.collisions
    | .hang => True := by
  have key : ∀ n (run : Run), match Stream.forRecords Unpack.onStream true (unpackEntry c env fuel outputDir defaultName) n none run with
      | .ok _ r => r.disk = run.disk ∧ r.collisions = run.collisions
      | .raise _ r => r.disk = run.disk ∧ r.collisions = run.collisions
      | .hang => True := by
    intro n
    induction n with
    | zero => intro run; trivial
    | succ n ih =>
      intro run
      simp only [Stream.forRecords, M.bind_apply, reduceCtorEq, if_false]
      unfold Unpack.onStream
      cases hr : readRecord true run.strm with
      | hang => trivial
      | raise e s => exact ⟨rfl, rfl⟩
      | ok e s =>
        simp only
        rcases unpackEntry_disk c env fuel outputDir defaultName e { run with strm := s } with h | ⟨s', h⟩
        · simp only [h]
        · simp only [h]
          cases e.rcd with
          | none => exact ⟨rfl, rfl⟩
          | some r => exact ih { run with strm := s' }
  exact key _ run

/-- **C69** An archive with a successful HTTP response is read to its end, and nothing is unpacked. -/
def Spec.unpackDemo : Bytes :=
  b! "WARC/1.0\r\nWARC-Type: response\r\nWARC-Target-URI: http://h/x\r\nContent-Type: application/http; msgtype=response\r\nContent-Length: 41\r\n\r\nHTTP/1.1 200 OK\r\nContent-Length: 2\r\n\r\nhi\r\n\r\n\r\n"

def Spec.unpackEnv : Env := ⟨fun c => c.isAlphanum, fun _ => none, [['w']], fun _ => false, fun _ => ['u']⟩

example : (match unpackRecords toy unpackEnv 5 "out".toList "d".toList ⟨⟨File.openFile unpackDemo, none, .plain, .warc⟩, fun _ => none, 0⟩ with
    | .ok _ r => decide (r.strm.fh.rest = [] ∧ r.collisions = 0 ∧ r.disk ["x".toList, "h".toList, "http".toList, "out".toList, ['w']] = none)
    | _ => false) = true := by
  decide +kernel

/-- **C69** With file names on the command line, `main` never gets to an archive: it opens the log file of the first name, which empties it,
and raises TypeError when it prints the heading into it (or OSError if the log file cannot be opened).  No other file is touched. -/
theorem C69_main (c : Codec) (env : Env) (fuel : Nat) (writable : List Text → Bool) (outputDir defaultName : Text) (logFile : Option Text)
    (name : Text) (names : List Text) (d : Disk) :
    Unpack.main c env fuel writable outputDir defaultName logFile (name :: names) d =
      if writable (resolve env.cwd (logName outputDir logFile name)) then
        .raise .typeError (fun p => if p = resolve env.cwd (logName outputDir logFile name) then some [] else d p)
      else .raise .osError d := by
  by_cases hw : writable (resolve env.cwd (logName outputDir logFile name)) = true
  · simp only [Unpack.main, unpackFiles, unpackFile, M.bind_apply, openWb, hw, if_true]
    rfl
  · simp only [Unpack.main, unpackFiles, unpackFile, M.bind_apply, openWb, hw, if_false]
    rfl

example : (match Unpack.main toy unpackEnv 5 (fun _ => true) "out".toList "d".toList none ["a/b.warc".toList]
      (fun p => if p = ["b.warc".toList, ['a'], ['w']] then some unpackDemo else none) with
    | .raise .typeError d => decide (d ["b.warc.index.txt".toList, "out".toList, ['w']] = some [] ∧ d ["b.warc".toList, ['a'], ['w']] = some unpackDemo)
    | _ => false) = true := by
  decide +kernel

/-- **C69** A log file that is one of the archives, or any other existing file, is lost. -/
theorem C69_log_loss (c : Codec) (env : Env) (fuel : Nat) (writable : List Text → Bool) (outputDir defaultName log : Text) (hlog : log ≠ [])
    (name : Text) (names : List Text) (d : Disk) (hw : writable (resolve env.cwd log) = true) :
    ∃ d', Unpack.main c env fuel writable outputDir defaultName (some log) (name :: names) d = .raise .typeError d' ∧
      d' (resolve env.cwd log) = some [] := by
  refine ⟨_, by rw [C69_main, show logName outputDir (some log) name = log by simp [logName, hlog], if_pos hw], ?_⟩
  simp

example : ∃ d', Unpack.main toy unpackEnv 5 (fun _ => true) "out".toList "d".toList (some "x.warc".toList) ["x.warc".toList]
      (fun p => if p = ["x.warc".toList, ['w']] then some unpackDemo else none) = .raise .typeError d' ∧
    d' ["x.warc".toList, ['w']] = some [] :=
  C69_log_loss toy unpackEnv 5 (fun _ => true) "out".toList "d".toList "x.warc".toList (by decide) "x.warc".toList [] _ rfl

namespace Unpack

theorem basename_last {b : Text} (hb : '/' ∉ b) (pre : Text) : basename (pre ++ '/' :: b) = b := by
  have h : ∀ x ∈ b.reverse, (decide (x ≠ '/')) = true := by
    intro x hx
    rw [List.mem_reverse] at hx
    simp only [ne_eq, decide_eq_true_eq]
    rintro rfl
    exact hb hx
  rw [basename, List.reverse_append, List.reverse_cons, List.append_assoc, List.takeWhile_append_of_pos h]
  simp

theorem basename_own {b : Text} (hb : '/' ∉ b) : basename b = b := by
  have h : ∀ x ∈ b.reverse, (decide (x ≠ '/')) = true := by
    intro x hx
    rw [List.mem_reverse] at hx
    simp only [ne_eq, decide_eq_true_eq]
    rintro rfl
    exact hb hx
  have := List.takeWhile_append_of_pos (l₂ := []) h
  rw [List.append_nil] at this
  rw [basename, this]
  simp

end Unpack

/-- **C69** Without `-l`, the file that is emptied is in the output directory and is called like the archive (the last part of its path) with
`.index.txt` behind it, and no other file changes. -/
theorem C69_log_place (c : Codec) (env : Env) (fuel : Nat) (writable : List Text → Bool) (outputDir defaultName : Text)
    (name base : Text) (hbase : '/' ∉ base) (hname : name = base ∨ ∃ folder, name = folder ++ '/' :: base) (names : List Text) (d : Disk)
    (hw : writable ((base ++ ".index.txt".toList) :: resolve env.cwd outputDir) = true) :
    ∃ d', Unpack.main c env fuel writable outputDir defaultName none
        (name :: names) d = .raise .typeError d' ∧
      d' ((base ++ ".index.txt".toList) :: resolve env.cwd outputDir) = some [] ∧
      ∀ p, p ≠ (base ++ ".index.txt".toList) :: resolve env.cwd outputDir → d' p = d p := by
  have hbn : basename name = base := by
    rcases hname with rfl | ⟨f, rfl⟩
    · exact basename_own hbase
    · exact basename_last hbase f
  have hns : '/' ∉ base ++ ".index.txt".toList := by
    rw [List.mem_append]; rintro (h | h)
    · exact hbase h
    · exact absurd h (by decide)
  have hfile : FileName (base ++ ".index.txt".toList) := by
    have hlen : 10 ≤ (base ++ ".index.txt".toList).length := by
      rw [List.length_append]
      have : ".index.txt".toList.length = 10 := by decide
      omega
    refine ⟨?_, hns, ?_, ?_⟩ <;> (intro h; rw [h] at hlen; exact absurd hlen (by decide))
  have hplace : resolve env.cwd (logName outputDir none name) =
      (base ++ ".index.txt".toList) :: resolve env.cwd outputDir := by
    simp only [logName]; rw [hbn, resolve_join _ _ hns, walk_good hfile]
  refine ⟨_, by rw [C69_main, hplace, if_pos hw], by simp, ?_⟩
  intro p hp
  simp only [if_neg hp]

example : ∃ d', Unpack.main toy unpackEnv 5 (fun _ => true) "out/x/..".toList "d".toList none ["a/b.warc".toList]
      (fun p => if p = ["b.warc".toList, ['a'], ['w']] then some unpackDemo else none) = .raise .typeError d' ∧
    d' ["b.warc.index.txt".toList, "out".toList, ['w']] = some [] := by
  obtain ⟨d', h1, h2, -⟩ := C69_log_place toy unpackEnv 5 (fun _ => true) "out/x/..".toList "d".toList "a/b.warc".toList "b.warc".toList (by decide) (.inr ⟨['a'], rfl⟩) [] _ rfl
  exact ⟨d', h1, h2⟩

end Warc
