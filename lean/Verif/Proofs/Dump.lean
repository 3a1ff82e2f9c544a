import Verif.Proofs.AnyFile
import Verif.Spec.Dump
/-
  warcdump.
-/
set_option linter.all false
namespace Warc
open Rx Stream Spec

theorem escapeByte_eq (b : Byte) : escapeByte b = if PlainByte b then [b] else b! "\\x" ++ hexNumber b := by
  have key : ∀ n : Fin 256, escapeByte (UInt8.ofNat n.val) =
      if PlainByte (UInt8.ofNat n.val) then [UInt8.ofNat n.val] else b! "\\x" ++ hexNumber (UInt8.ofNat n.val) := by
    decide +kernel
  have h := key ⟨b.toNat, b.toNat_lt⟩
  simpa using h

theorem preview_eq (body : Bytes) : (body.take (min 1024 body.length)).flatMap escapeByte = preview body := by
  have h1 : body.take (min 1024 body.length) = body.take 1024 := by
    rcases Nat.le_total 1024 body.length with h | h
    · rw [Nat.min_eq_left h]
    · rw [Nat.min_eq_right h, List.take_length, List.take_of_length_le h]
  rw [h1, preview]
  congr 1
  funext b
  exact escapeByte_eq b

/-- a record right after it was parsed, whatever its version and headers -/
structure Bare (r : Rec) : Prop where
  cls : r.cls = .warc
  content : r.content = none
  cfile : r.cfile = .stream
  valid : r.cfileValid = true

theorem Sane.bare {r : Rec} (h : Sane r) : Bare r := ⟨h.cls, h.content, h.cfile, h.valid⟩

/-- reading the content does not depend on what was written so far -/
theorem content_out (s : Stream) (r : Rec) (out : Bytes) (hr : Bare r) :
    World.content ⟨s, r, out⟩ = match World.content ⟨s, r, []⟩ with
      | .ok c w => .ok c { w with out := out }
      | .raise e w => .raise e { w with out := out }
      | .hang => .hang := by
  simp only [World.content, hr.content, World.cfileRead, hr.cfile, World.onStream]
  cases Stream.read none s <;> rfl

theorem content_shape (s : Stream) (r : Rec) (hr : Bare r) (c : Option Bytes × Option Bytes) (w : World)
    (h : World.content ⟨s, r, []⟩ = .ok c w) : c.1 = firstValue (b! "Content-Type") r.headers ∧ ∃ b, c.2 = some b := by
  simp only [World.content, hr.content, World.cfileRead, hr.cfile, World.onStream] at h
  cases hq : Stream.read none s with
  | hang => simp [hq] at h
  | raise e t => simp [hq] at h
  | ok b t =>
    simp only [hq, Res.ok.injEq] at h
    rw [← h.1]
    refine ⟨?_, b, rfl⟩
    simp [Rec.getHeader, lookupHeader_eq, hr.cls, Cls.contentTypeName, WH.CONTENT_TYPE]

theorem content_world (s : Stream) (r : Rec) (hr : Bare r) (c : Option Bytes × Option Bytes) (w : World)
    (h : World.content ⟨s, r, []⟩ = .ok c w) : w.strm.parser = s.parser := by
  simp only [World.content, hr.content, World.cfileRead, hr.cfile, World.onStream] at h
  cases hq : Stream.read none s with
  | hang => simp [hq] at h
  | raise e t => simp [hq] at h
  | ok b t =>
    simp only [hq, Res.ok.injEq] at h
    rw [← h.2]
    simp only [World.clearCfile]
    simp only [Stream.read, M.bind_apply, M.get_apply, rawRead, onFile] at hq
    cases hz : File.read (limitOf s.eoc none) s.fh with
    | hang => simp [hz] at hq
    | raise e f => simp [hz] at hq
    | ok a f =>
      simp only [hz, consume, M.modify_apply, M.pure_apply, Res.ok.injEq] at hq
      rw [← hq.2]

theorem printHeaders_eq (hs : List Header) (s : Stream) (r : Rec) (out : Bytes) :
    World.printHeaders hs ⟨s, r, out⟩ =
      .ok () ⟨s, r, out ++ hs.flatMap fun h => b! "\t" ++ h.1 ++ b! ":" ++ h.2 ++ b! "\n"⟩ := by
  induction hs generalizing out with
  | nil => simp [World.printHeaders]
  | cons h hs ih =>
    simp only [World.printHeaders, M.bind_apply, World.print, World.write, M.modify_apply]
    rw [ih]
    simp

/-- one record -/
theorem dump_record (name : Bytes) (o : Option Nat) (s : Stream) (r : Rec) (out : Bytes) (hr : Bare r) (errs : List Err) :
    match World.content ⟨s, r, []⟩ with
    | .hang => WarcDump.entry name ⟨o, some r, errs⟩ ⟨s, out⟩ = .hang
    | .raise ex w => WarcDump.entry name ⟨o, some r, errs⟩ ⟨s, out⟩ =
        .raise ex ⟨w.strm, out ++ dumpHead name ⟨o, r.version, r.headers, r.errors, (none, none)⟩⟩
    | .ok c w =>
      match dumpBlock name ⟨o, r.version, r.headers, r.errors, c⟩ with
      | (text, none) => WarcDump.entry name ⟨o, some r, errs⟩ ⟨s, out⟩ = .ok () ⟨w.strm, out ++ text⟩
      | (text, some ex) => WarcDump.entry name ⟨o, some r, errs⟩ ⟨s, out⟩ = .raise ex ⟨w.strm, out ++ text⟩ := by
  have hoff : WarcIndex.offsetText o = (match o with | some n => decimal n | none => b! "None") := by cases o <;> rfl
  have hout : out ++ (b! "archive record at " ++ name ++ [58] ++ WarcIndex.offsetText o) ++ [10] ++ (b! "Headers:" ++ [10]) ++
      (r.headers.flatMap fun h => b! "\t" ++ h.1 ++ b! ":" ++ h.2 ++ b! "\n") =
      out ++ dumpHead name ⟨o, r.version, r.headers, r.errors, (none, none)⟩ := by
    rw [hoff]; cases o <;> simp [dumpHead]
  have hco := fun o => content_out s r o hr
  cases hc : World.content ⟨s, r, []⟩ with
  | hang =>
    simp only [hc] at hco
    simp only [WarcDump.entry, M.bind_apply, WarcDump.print, M.modify_apply, Tool.withRecord, World.dump, World.print, World.write,
      M.get_apply, printHeaders_eq, if_true, hco]
  | raise ex w =>
    simp only [hc] at hco
    simp only [WarcDump.entry, M.bind_apply, WarcDump.print, M.modify_apply, Tool.withRecord, World.dump, World.print, World.write,
      M.get_apply, printHeaders_eq, if_true, hco]
    rw [hout]
  | ok c w =>
    simp only [hc] at hco
    obtain ⟨h1, b, h2⟩ := content_shape s r hr c w hc
    obtain ⟨c1, c2⟩ := c
    simp only at h1 h2
    subst h2
    simp only [dumpBlock, ← h1]
    cases c1 with
    | none =>
      simp only [WarcDump.entry, M.bind_apply, WarcDump.print, M.modify_apply, Tool.withRecord, World.dump, World.print, World.write,
        M.get_apply, printHeaders_eq, if_true, hco, M.throw_apply]
      rw [hout]
      simp [dumpHead]
    | some t =>
      by_cases he : r.errors = []
      · simp only [WarcDump.entry, M.bind_apply, WarcDump.print, M.modify_apply, Tool.withRecord, World.dump, World.print, World.write,
          M.get_apply, printHeaders_eq, if_true, hco, M.throw_apply, he, M.pure_apply, preview_eq]
        rw [hout]
        simp [hr.cls, Cls.contentTypeName, Cls.contentLengthName, dumpContent, WH.CONTENT_TYPE, WH.CONTENT_LENGTH, dumpHead]
      · simp only [WarcDump.entry, M.bind_apply, WarcDump.print, M.modify_apply, Tool.withRecord, World.dump, World.print, World.write,
          M.get_apply, printHeaders_eq, if_true, hco, M.throw_apply, he, if_false, M.pure_apply, preview_eq]
        rw [hout]
        simp [hr.cls, Cls.contentTypeName, Cls.contentLengthName, dumpContent, WH.CONTENT_TYPE, WH.CONTENT_LENGTH, dumpHead]

theorem printErrors_eq (es : List Err) (s : Stream) (out : Bytes) :
    WarcDump.printErrors es ⟨s, out⟩ = .ok () ⟨s, out ++ es.flatMap fun e => b! "\t " ++ e.repr ++ b! "\n"⟩ := by
  induction es generalizing out with
  | nil => simp [WarcDump.printErrors]
  | cons e es ih =>
    simp only [WarcDump.printErrors, M.bind_apply, WarcDump.print, M.modify_apply]
    rw [ih]
    simp

theorem dump_tail (name : Bytes) (e : Entry) (s : Stream) (out : Bytes) (h : e.rcd = none) :
    WarcDump.entry name e ⟨s, out⟩ = .ok () ⟨s, out ++ tailNote name e⟩ := by
  by_cases he : e.errors = []
  · simp [WarcDump.entry, h, he, tailNote, WarcDump.print]
  · simp only [WarcDump.entry, h, he, tailNote, WarcDump.print, ne_eq, not_false_eq_true, if_true, if_false, M.bind_apply,
      M.modify_apply, printErrors_eq]
    simp

/-- the whole loop, whatever the stream holds -/
theorem dump_loop (name : Bytes) (fuel : Nat) (s : Stream) (out : Bytes) (hp : s.parser = .warc) :
    let q := collect true fuel s
    let loop := Stream.forRecords Tool.onStream true (WarcDump.entry name) fuel none ⟨s, out⟩
    match (dumpBlocks name q.records).2 with
    | some ex => ∃ t, loop = .raise ex t ∧ t.out = out ++ (dumpBlocks name q.records).1
    | none => match q.fin with
      | .done => ∃ l t, q.last = some l ∧ loop = .ok () t ∧ t.out = out ++ (dumpBlocks name q.records).1 ++ tailNote name l
      | .raised ex => ∃ t more, loop = .raise ex t ∧ t.out = out ++ (dumpBlocks name q.records).1 ++ more ∧
          (more = [] ∨ ∃ g, more = dumpHead name g)
      | .hangs => loop = .hang := by
  induction fuel generalizing s out with
  | zero => simp [collect, dumpBlocks, Stream.forRecords]
  | succ fuel ih =>
    simp only [collect, Stream.forRecords, reduceCtorEq, if_false, M.bind_apply, Tool.onStream]
    cases hq : readRecord true s with
    | hang => simp [dumpBlocks]
    | raise ex s1 =>
      simp only [dumpBlocks]
      exact ⟨_, [], rfl, by simp, Or.inl rfl⟩
    | ok e s1 =>
      obtain ⟨off, rcd, errs⟩ := e
      cases rcd with
      | none =>
        simp only [dumpBlocks, dump_tail name ⟨off, none, errs⟩ s1 out rfl, Option.isNone_none, if_true, M.pure_apply]
        exact ⟨_, _, rfl, rfl, by simp⟩
      | some r =>
        obtain ⟨hsane, heoc, herr, hpar, hki, hfa, hoffn⟩ := readRecord_sane true s s1 _ r hp hq rfl
        have hd := dump_record name off s1 r out hsane.bare errs
        cases hc : World.content ⟨s1, r, []⟩ with
        | hang =>
          simp only [hc] at hd
          simp [hd, hc, dumpBlocks]
        | raise ex w =>
          simp only [hc] at hd
          simp only [hd, hc, dumpBlocks]
          exact ⟨_, dumpHead name ⟨off, r.version, r.headers, r.errors, (none, none)⟩, rfl, by simp, Or.inr ⟨_, rfl⟩⟩
        | ok c w =>
          simp only [hc] at hd
          have hparw := content_world s1 r hsane.bare c w hc
          simp only [hc, dumpBlocks]
          cases hb : dumpBlock name ⟨off, r.version, r.headers, r.errors, c⟩ with
          | mk text ex =>
            cases ex with
            | some ex =>
              simp only [hb] at hd
              simp only [hd, hb]
              exact ⟨_, rfl, rfl⟩
            | none =>
              simp only [hb] at hd
              have := ih w.strm (out ++ text) (by rw [hparw, hpar])
              simp only [hd, hb, Option.isNone_some, Bool.false_eq_true, if_false, Option.map_none]
              simp only [List.append_assoc] at this ⊢
              exact this

end Warc
