import Verif.Model.Stdin
/-
  C84: the tools cannot read standard input on Python 3.
-/
set_option linter.all false
namespace Warc
open Rx Stream

/-- what reading the first line of a text file leads to: TypeError, or UnicodeDecodeError when it cannot be decoded -/
def Spec.firstLineError : List (Option String) → Exc
  | none :: _ => .valueError
  | _ => .typeError

open Spec

theorem Stdin.readRecord_fails (skip : M Stdin.Console Unit) (parse : Option Nat → PyStr → M Stdin.Console Entry) (offsets : Bool)
    (t : Stdin.Console) (h : t.eoc = none) :
    ∃ t', Stdin.readRecord skip parse offsets t =
        .raise (if offsets = true ∧ t.seekable = false then .osError else firstLineError t.lines) t' ∧ t'.out = t.out := by
  obtain ⟨lines, seekable, eoc, out⟩ := t
  simp only at h
  subst h
  cases offsets <;> cases seekable <;> rcases lines with _ | ⟨_ | l, ls⟩ <;>
    exact ⟨_, rfl, rfl⟩

/-- **C84** Without file names `warc2warc`, `warcfilter`, `warcdump`, `warcextract` and `warcunpack_ia` read `sys.stdin`.  On
Python 3, whatever comes there, also nothing: they raise TypeError (UnicodeDecodeError when the first line cannot be decoded, and
warcunpack_ia io.UnsupportedOperation when it comes through a pipe) and write nothing.  This is so whatever the parser and the
body of the loops do, because they are not reached. -/
theorem C84_stdin (skip : M Stdin.Console Unit) (parse : Option Nat → PyStr → M Stdin.Console Entry)
    (copy : Rec → M Stdin.Console Unit) (dump extract unpack : Entry → M Stdin.Console Unit) (fuel : Nat)
    (lines : List (Option String)) (seekable : Bool) (out : Bytes) :
    let t : Stdin.Console := ⟨lines, seekable, none, out⟩
    (∃ t', Stdin.copyMain skip parse copy (fuel + 1) t = .raise (firstLineError lines) t' ∧ t'.out = out) ∧
    (∃ t', Stdin.dumpMain skip parse dump (fuel + 1) t = .raise (firstLineError lines) t' ∧ t'.out = out) ∧
    (∃ t', Stdin.extractMain skip parse extract (fuel + 1) t = .raise (firstLineError lines) t' ∧ t'.out = out) ∧
    (∃ t', Stdin.unpackMain skip parse unpack (fuel + 1) t =
      .raise (if seekable = false then .osError else firstLineError lines) t' ∧ t'.out = out) := by
  intro t
  obtain ⟨t1, h1, h1'⟩ := Stdin.readRecord_fails skip parse false t rfl
  obtain ⟨t2, h2, h2'⟩ := Stdin.readRecord_fails skip parse true t rfl
  simp only [Bool.false_eq_true, false_and, if_false, true_and] at h1 h2
  refine ⟨⟨t1, ?_, h1'⟩, ⟨t1, ?_, h1'⟩, ⟨t1, ?_, h1'⟩, ⟨t2, ?_, h2'⟩⟩
  · simp only [Stdin.copyMain, Stdin.forEach, M.bind_apply, h1]; rfl
  · simp only [Stdin.dumpMain, Stdin.forRecords, M.bind_apply]
    rw [if_neg (by simp)]; simp only [M.bind_apply, h1]; rfl
  · simp only [Stdin.extractMain, Stdin.forRecords, M.bind_apply]
    rw [if_neg (by simp)]; simp only [M.bind_apply, h1]; rfl
  · simp only [Stdin.unpackMain, Stdin.forRecords, M.bind_apply]
    rw [if_neg (by simp)]; simp only [M.bind_apply, h2]; rfl

/-- a record on standard input: `warc2warc < a.warc` -/
example : ∃ t', Stdin.copyMain (pure ()) (fun _ _ => pure ⟨none, none, []⟩) (fun _ => pure ()) 5
    ⟨[some "WARC/1.0\r\n", some "Content-Length: 0\r\n", some "\r\n"], true, none, []⟩ = .raise .typeError t' :=
  (C84_stdin (pure ()) (fun _ _ => pure ⟨none, none, []⟩) (fun _ => pure ()) (fun _ => pure ()) (fun _ => pure ()) (fun _ => pure ()) 4 _ _ _).1.imp
    fun _ h => h.1

/-- it is the text that is the problem: a file that returns bytes gets past the regular expression -/
example : Stdin.isBlank (.bytes (b! "\r\n")) ⟨[], true, none, []⟩ = .ok true ⟨[], true, none, []⟩ := by decide +kernel

end Warc
