import Verif.Spec.Collect
/-
  The reading program used in the statements of C01 to C08 and others, `collect`, is the loop over
  `read_records` of the model.
-/
set_option linter.all false
namespace Warc
open Rx Stream Spec

/-- what the program keeps: the stream, the notes taken so far, the entry without record -/
structure Notes where
  strm : Stream
  records : List Got
  last : Option Entry

/-- run a stream operation -/
def Notes.lift {α : Type} (x : M Stream α) : M Notes α := fun n =>
  match x n.strm with
  | .ok a s => .ok a { n with strm := s }
  | .raise e s => .raise e { n with strm := s }
  | .hang => .hang

/-- the loop body: note offset, version, headers, errors and content of a record; keep an entry without record -/
def Notes.take (e : Entry) : M Notes Unit := fun n =>
  match e.rcd with
  | none => .ok () { n with last := some e }
  | some r =>
    match World.content ⟨n.strm, r, []⟩ with
    | .ok c w => .ok () { n with strm := w.strm, records := n.records ++ [⟨e.offset, r.version, r.headers, r.errors, c⟩] }
    | .raise x w => .raise x { n with strm := w.strm }
    | .hang => .hang

/-- **C01** (about the reading program) `collect` gives what the loop `for offset, record, errors in read_records(limit=None)`
of the library gives when its body notes the contents: the same records, final entry and outcome. -/
theorem C01_collect_is_the_loop (offs : Bool) (fuel : Nat) (s : Stream) (rs : List Got) :
    match collect offs fuel s with
    | ⟨gs, last, .done⟩ => ∃ s', Stream.forRecords Notes.lift offs Notes.take fuel none ⟨s, rs, none⟩ = .ok () ⟨s', rs ++ gs, last⟩
    | ⟨gs, _, .raised x⟩ => ∃ n, Stream.forRecords Notes.lift offs Notes.take fuel none ⟨s, rs, none⟩ = .raise x n ∧ n.records = rs ++ gs
    | ⟨_, _, .hangs⟩ => Stream.forRecords Notes.lift offs Notes.take fuel none ⟨s, rs, none⟩ = .hang := by
  induction fuel generalizing s rs with
  | zero => rfl
  | succ fuel ih =>
    rw [collect]
    simp only [Stream.forRecords, M.bind_apply, Notes.lift, reduceCtorEq, if_false]
    cases h1 : readRecord offs s with
    | hang => rfl
    | raise x s' => exact ⟨_, rfl, by simp⟩
    | ok e s' =>
      simp only [Notes.take]
      cases h2 : e.rcd with
      | none => exact ⟨s', by simp [M.pure_apply]⟩
      | some r =>
        simp only
        cases h3 : World.content ⟨s', r, []⟩ with
        | hang => rfl
        | raise x w => exact ⟨_, rfl, by simp⟩
        | ok c w =>
          simp only [Option.isNone_some, Bool.false_eq_true, if_false, Option.map_none]
          have h4 := ih w.strm (rs ++ [⟨e.offset, r.version, r.headers, r.errors, c⟩])
          generalize collect offs fuel w.strm = q at h4 ⊢
          obtain ⟨gs, last, fin⟩ := q
          cases fin with
          | done => simpa using h4
          | raised x => simpa using h4
          | hangs => simpa using h4

/-- **C20** (about the listing) `list(read_records(limit))` gives what the loop over `read_records` of the library gives when
its body only keeps the entries. -/
theorem C20_list_is_the_loop (offs : Bool) (fuel : Nat) (limit : Option Nat) (s : Stream) (es : List Entry) :
    let lift : {α : Type} → M Stream α → M (Stream × List Entry) α := fun x n =>
      match x n.1 with
      | .ok a s => .ok a (s, n.2)
      | .raise e s => .raise e (s, n.2)
      | .hang => .hang
    match Stream.readRecords offs fuel limit s with
    | (xs, .done) => ∃ s', Stream.forRecords lift offs (fun e => M.modify fun n => (n.1, n.2 ++ [e])) fuel limit (s, es) = .ok () (s', es ++ xs)
    | (xs, .raised x) => ∃ s', Stream.forRecords lift offs (fun e => M.modify fun n => (n.1, n.2 ++ [e])) fuel limit (s, es) = .raise x (s', es ++ xs)
    | (_, .hangs) => Stream.forRecords lift offs (fun e => M.modify fun n => (n.1, n.2 ++ [e])) fuel limit (s, es) = .hang := by
  intro lift
  induction fuel generalizing s es limit with
  | zero => rfl
  | succ fuel ih =>
    rw [Stream.readRecords]
    simp only [Stream.forRecords]
    by_cases hl : limit = some 0
    · rw [if_pos hl, if_pos hl]
      exact ⟨s, by simp⟩
    · rw [if_neg hl, if_neg hl]
      simp only [M.bind_apply, lift]
      cases h1 : readRecord offs s with
      | hang => rfl
      | raise x s' => exact ⟨s', by simp⟩
      | ok e s' =>
        simp only [M.modify_apply]
        cases h2 : e.rcd with
        | none => exact ⟨s', by simp [M.pure_apply]⟩
        | some r =>
          simp only [Option.isNone_some, Bool.false_eq_true, if_false]
          have h4 := ih (limit.map (· - 1)) s' (es ++ [e])
          generalize Stream.readRecords offs fuel (limit.map (· - 1)) s' = q at h4 ⊢
          obtain ⟨gs, fin⟩ := q
          cases fin with
          | done => simpa using h4
          | raised x => simpa using h4
          | hangs => simpa using h4

end Warc
