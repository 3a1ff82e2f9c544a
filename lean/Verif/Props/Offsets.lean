import Verif.Proofs.Offsets
/-
  C86: asking for offsets changes nothing else; the two ways to iterate agree.
-/
set_option linter.all false
namespace Warc
open Rx Stream Spec

/-- what a program saw, without the offsets -/
def _root_.Warc.Spec.Seen.noOffset (x : Seen) : Seen := { x with entry := x.entry.noOffset }

/-- **C86** For every stream in any state (WARC, ARC or mixed parser, plain or compressed, any bytes) and whatever the program reads
from the contents on the way, `read_records(offsets=False)` gives the same records, the same errors and the same contents and ends
in the same way as `read_records(offsets=True)`; only the offsets are replaced by `None`. -/
theorem C86_scan (plan : Nat → List ReadOp) (n i : Nat) (s : Stream) :
    scan false plan n i s = ((scan true plan n i s).1.map Seen.noOffset, (scan true plan n i s).2) := by
  induction n generalizing i s with
  | zero => rfl
  | succ n ih =>
    simp only [scan, readRecord_offset s]
    cases readRecord true s with
    | hang => rfl
    | raise e t => rfl
    | ok e t =>
      obtain ⟨o, r, es⟩ := e
      cases r with
      | none => rfl
      | some r =>
        simp only [Res.mapVal, Entry.noOffset]
        cases runOps (plan i) t with
        | hang => rfl
        | raise e u => rfl
        | ok outs u => simp only [ih]; rfl

/-- **C86** the same for `read_records(limit, offsets)` -/
theorem C86_records (n : Nat) (limit : Option Nat) (s : Stream) :
    readRecords false n limit s = ((readRecords true n limit s).1.map Entry.noOffset, (readRecords true n limit s).2) := by
  induction n generalizing limit s with
  | zero => rfl
  | succ n ih =>
    simp only [readRecords, readRecord_offset s]
    by_cases hl : limit = some 0
    · simp only [hl, if_true]; rfl
    · simp only [hl, if_false]
      cases readRecord true s with
      | hang => rfl
      | raise e t => rfl
      | ok e t =>
        obtain ⟨o, r, es⟩ := e
        cases r with
        | none => rfl
        | some r =>
          simp only [Res.mapVal, Entry.noOffset, Option.isNone_some, Bool.false_eq_true, if_false, ih]
          rfl

/-- **C86** the same for a program that reads every content -/
theorem C86_collect (n : Nat) (s : Stream) :
    collect false n s = ⟨(collect true n s).records.map (fun g => { g with offset := none }),
      (collect true n s).last.map Entry.noOffset, (collect true n s).fin⟩ := by
  induction n generalizing s with
  | zero => rfl
  | succ n ih =>
    simp only [collect, readRecord_offset s]
    cases readRecord true s with
    | hang => rfl
    | raise e t => rfl
    | ok e t =>
      obtain ⟨o, r, es⟩ := e
      cases r with
      | none => rfl
      | some r =>
        simp only [Res.mapVal, Entry.noOffset]
        cases World.content ⟨t, r, []⟩ with
        | hang => rfl
        | raise e u => rfl
        | ok c w => simp only [ih]; rfl

/-- how `for record in stream` should end, given the entries and the end of `read_records` -/
def iterEnd (es : List Entry) (fin : End) : End :=
  match fin with
  | .done => if ∀ e ∈ es, e.rcd = none → e.errors = [] then .done else .raised (.generic "Errors while decoding")
  | f => f

/-- **C86** `for record in stream` gives exactly the records of `read_records()`, in the same order, and ends like it, except that
errors in the final entry (the one without a record) become an exception. -/
theorem C86_iterate (offs : Bool) (n : Nat) (s : Stream) :
    iterate n s = ((readRecords offs n none s).1.filterMap Entry.rcd,
      iterEnd (readRecords offs n none s).1 (readRecords offs n none s).2) := by
  have key : ∀ n s, iterate n s = ((readRecords true n none s).1.filterMap Entry.rcd,
      iterEnd (readRecords true n none s).1 (readRecords true n none s).2) := by
    intro n
    induction n with
    | zero => intro s; rfl
    | succ n ih =>
      intro s
      simp only [iterate, readRecords, readRecord_offset s, reduceCtorEq, if_false]
      cases readRecord true s with
      | hang => rfl
      | raise e t => rfl
      | ok e t =>
        obtain ⟨o, r, es⟩ := e
        cases r with
        | none =>
          simp only [Res.mapVal, Entry.noOffset, Option.isNone_none, if_true, iterEnd, List.mem_singleton, forall_eq, forall_const,
            List.filterMap_cons, List.filterMap_nil]
          by_cases he : es = [] <;> simp [he]
        | some r =>
          simp only [Res.mapVal, Entry.noOffset, Option.isNone_some, Bool.false_eq_true, if_false, Option.map_none, ih t,
            List.filterMap_cons]
          congr 1
          cases (readRecords true n none t).2 with
          | done => simp [iterEnd]
          | raised e => rfl
          | hangs => rfl
  cases offs with
  | true => exact key n s
  | false =>
    rw [C86_records, key]
    congr 1
    · rw [List.filterMap_map]; rfl
    · cases (readRecords true n none s).2 with
      | done => simp [iterEnd, Entry.noOffset]
      | raised e => rfl
      | hangs => rfl

/-- **C86** No offsets are made up: without `offsets=True` every reported offset is `None`. -/
theorem C86_none (n : Nat) (limit : Option Nat) (s : Stream) : ∀ e ∈ (readRecords false n limit s).1, e.offset = none := by
  rw [C86_records]
  intro e he
  obtain ⟨x, _, rfl⟩ := List.mem_map.1 he
  rfl

/-- two records -/
def offsetDemo : Stream := Stream.mk' .plain (File.openFile (archiveT demoRT)) .warc

/-- the demonstration archive: two records with offsets, and the same without -/
example : ((readRecords true 3 none offsetDemo).1.map Entry.offset, (readRecords false 3 none offsetDemo).1.map Entry.offset,
    ((iterate 3 offsetDemo).1.map Rec.version), (iterate 3 offsetDemo).2) =
    ([some 0, some 138, some 202], [none, none, none], [b! "WARC/1.0", b! " warc/0.18"], .done) := by decide +kernel

end Warc
