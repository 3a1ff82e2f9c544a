import Verif.Proofs.Buffered
import Verif.Props.RoundTrip
import Verif.Props.WriteOut
import Verif.Props.Damage
/-
  C103: what is in the file when `write_to` returns, and what a crash of the writing program leaves.  C104: several programs write to one file.
-/
set_option linter.all false
namespace Warc
open Rx Stream Spec

theorem blocksOf_flatten (n : Nat) (hn : 0 < n) (b : Bytes) : (blocksOf n b).flatten = b := by
  induction h : b.length using Nat.strongRecOn generalizing b with
  | _ k ih =>
    rw [blocksOf]
    by_cases hb : n = 0 ∨ b = []
    · rw [dif_pos hb]
      rcases hb with hb | hb
      · omega
      · simp [hb]
    · rw [dif_neg hb]
      have hb' : 0 < b.length := List.length_pos_iff.2 (fun e => hb (Or.inr e))
      rw [List.flatten_cons, ih (b.drop n).length (by simp; omega) (b.drop n) rfl, List.take_append_drop]

/-- run the calls with this `write` method; `flush` does nothing -/
def runPut (put : World.Put) : List Call → M World Unit
  | [] => pure ()
  | .write b :: cs => do put b; runPut put cs
  | .flush :: cs => runPut put cs

theorem runPut_append (put : World.Put) (a b : List Call) (w : World) : runPut put (a ++ b) w = (do runPut put a; runPut put b : M World Unit) w := by
  induction a generalizing w with
  | nil => rfl
  | cons c a ih =>
    cases c with
    | write x =>
      simp only [List.cons_append, runPut, M.bind_apply]
      cases hp : put x w with
      | ok u w' => simp only [ih, M.bind_apply]
      | raise e w' => rfl
      | hang => rfl
    | flush => simp only [List.cons_append, runPut, ih, M.bind_apply]

theorem runPut_header (put : World.Put) (nl : Bytes) (h : Header) (w : World) : runPut put (headerCalls nl h) w = World.writeHeaderVia put nl h w := by
  simp only [headerCalls, runPut, World.writeHeaderVia, M.bind_apply]
  cases put h.1 w with
  | ok u w1 =>
    simp only
    cases put (b! ": ") w1 with
    | ok u w2 =>
      simp only
      cases put h.2 w2 with
      | ok u w3 =>
        simp only
        cases put nl w3 <;> rfl
      | raise e w3 => rfl
      | hang => rfl
    | raise e w2 => rfl
    | hang => rfl
  | raise e w1 => rfl
  | hang => rfl

theorem runPut_headers (put : World.Put) (nl : Bytes) (f : Bool) (hs : List Header) (w : World) :
    runPut put (headersCalls nl f hs) w = World.writeHeadersVia put nl f hs w := by
  induction hs generalizing w with
  | nil => rfl
  | cons h hs ih =>
    have e : headersCalls nl f (h :: hs) = (if f || !(h.1 == WH.CONTENT_TYPE || h.1 == WH.CONTENT_LENGTH) then headerCalls nl h else []) ++ headersCalls nl f hs := by
      simp [headersCalls]
    rw [e, runPut_append]
    by_cases hc : (f || !(h.1 == WH.CONTENT_TYPE || h.1 == WH.CONTENT_LENGTH)) = true
    · simp only [World.writeHeadersVia, if_pos hc, M.bind_apply]
      rw [runPut_header]
      cases World.writeHeaderVia put nl h w with
      | ok u w' => simp only [ih]
      | raise e w' => rfl
      | hang => rfl
    · simp only [World.writeHeadersVia, if_neg hc, M.bind_apply, runPut, M.pure_apply, ih]


theorem runPut_keeps (put : World.Put) (hput : ∀ b w w', put b w = .ok () w' → w'.rcd = w.rcd) (cs : List Call) (w w' : World)
    (h : runPut put cs w = .ok () w') : w'.rcd = w.rcd := by
  induction cs generalizing w with
  | nil =>
    simp only [runPut, M.pure_apply, Res.ok.injEq] at h
    obtain ⟨_, rfl⟩ := h
    rfl
  | cons c cs ih =>
    cases c with
    | flush => exact ih w h
    | write b =>
      simp only [runPut, M.bind_apply] at h
      cases hp : put b w with
      | ok u w1 => simp only [hp] at h; rw [ih w1 h, hput b w w1 hp]
      | raise e w1 => simp [hp] at h
      | hang => simp [hp] at h

/-- the part behind the supplied headers -/
theorem runPut_tuple (put : World.Put) (hput : ∀ b w w', put b w = .ok () w' → w'.rcd = w.rcd) (nl : Bytes) (ct buf : Option Bytes) (w : World)
    (hc : w.rcd.content = some (ct, buf)) : runPut put (supplyCalls nl (.tuple ct buf)) w = World.writeTupleVia put nl w := by
  have hcont : World.content w = .ok (ct, buf) w := by simp [World.content, hc]
  have htype : ∀ w, runPut put (typeCalls nl ct) w = World.writeTypeVia put nl ct w := by
    intro w
    cases ct with
    | none => rfl
    | some t =>
      by_cases ht : t = []
      · simp [typeCalls, World.writeTypeVia, ht, runPut]
      · simp only [typeCalls, World.writeTypeVia, if_neg ht, runPut_header]
  have hbuf : ∀ w, runPut put (if buf.getD [] = [] then [] else [Call.write (buf.getD [])]) w =
      (if buf.getD [] = [] then pure () else put (buf.getD []) : M World Unit) w := by
    intro w
    by_cases hb : buf.getD [] = []
    · rw [if_pos hb, if_pos hb]; rfl
    · rw [if_neg hb, if_neg hb]
      simp only [runPut, M.bind_apply]
      cases put (buf.getD []) w <;> rfl
  simp only [supplyCalls, World.writeTupleVia, M.bind_apply, hcont]
  simp only [runPut_append, M.bind_apply, htype, runPut_header]
  cases World.writeTypeVia put nl ct w with
  | raise e w1 => rfl
  | hang => rfl
  | ok u w1 =>
    simp only
    cases World.writeHeaderVia put nl (WH.CONTENT_LENGTH, decimal (buf.getD []).length) w1 with
    | raise e w2 => rfl
    | hang => rfl
    | ok u w2 =>
      simp only [runPut, M.bind_apply]
      cases put nl w2 with
      | raise e w3 => rfl
      | hang => rfl
      | ok u w3 => simp only [M.pure_apply, hbuf]

/-- **C103** (about the model) The list of calls is what the writer of the library does, whatever object it writes to: with every `write` method (that does not touch
the record) the writer goes exactly like these calls, one after the other, and raises where a call raises. -/
theorem C103_calls (put : World.Put) (hput : ∀ b w w', put b w = .ok () w' → w'.rcd = w.rcd) (w : World) (ct buf : Option Bytes)
    (hcls : w.rcd.cls = .warc) (hcf : w.rcd.cfile = .none) (hc : w.rcd.content = some (ct, buf)) (nl : Bytes) :
    World.writeToVia put nl w = runPut put (recordCalls nl w.rcd.version w.rcd.headers (.tuple ct buf)) w := by
  have hhas : World.hasCfile w.rcd = false := by simp [World.hasCfile, hcf]
  have hbody : World.writeBodyVia put nl w = runPut put (recordCalls nl w.rcd.version w.rcd.headers (.tuple ct buf)) w := by
    simp only [World.writeBodyVia, hcls, hhas, recordCalls, Supply.isFile, runPut_append, M.bind_apply, runPut]
    cases h1 : put w.rcd.version w with
    | raise e w1 => rfl
    | hang => rfl
    | ok u w1 =>
      simp only
      cases h2 : put nl w1 with
      | raise e w2 => rfl
      | hang => rfl
      | ok u w2 =>
        simp only [M.pure_apply, runPut_headers]
        cases h3 : World.writeHeadersVia put nl false w.rcd.headers w2 with
        | raise e w3 => rfl
        | hang => rfl
        | ok u w3 =>
          have hk : w3.rcd = w.rcd := by
            rw [← runPut_headers] at h3
            rw [runPut_keeps put hput _ _ _ h3, hput _ _ _ h2, hput _ _ _ h1]
          simp only [Bool.false_eq_true, if_false, M.bind_apply]
          rw [runPut_tuple put hput nl ct buf w3 (by rw [hk]; exact hc)]
          cases h4 : World.writeTupleVia put nl w3 with
          | raise e w4 => rfl
          | hang => rfl
          | ok u w4 =>
            simp only
            cases put nl w4 with
            | raise e w5 => rfl
            | hang => rfl
            | ok u w5 =>
              simp only
              cases put nl w5 <;> rfl
  simp only [World.writeToVia, hcf, hhas, Bool.false_and, Bool.false_eq_true, if_false, hbody]
  cases h : runPut put (recordCalls nl w.rcd.version w.rcd.headers (.tuple ct buf)) w with
  | raise e w' => rfl
  | hang => rfl
  | ok u w' =>
    have hk := runPut_keeps put hput _ _ _ h
    have hhas' : World.hasCfile w'.rcd = false := by rw [hk]; exact hhas
    simp only [hhas', Bool.false_eq_true, if_false]

/-- **C103** (about the model) The bytes in these calls are those that the writer gives, for a content tuple, a content file, and the content of a record that was read. -/
theorem C103_same_bytes (w : World) :
    (∀ ct buf, w.rcd.cls = .warc → w.rcd.cfile = .none → w.rcd.content = some (ct, buf) →
      ∃ w', World.writeTo CRLF w = .ok () w' ∧ w'.out = w.out ++ given (recordCalls CRLF w.rcd.version w.rcd.headers (.tuple ct buf))) ∧
    (∀ f : File, f.fault = none → w.rcd.cls = .warc → w.rcd.cfile = .file f → w.rcd.cfileValid = true →
      ∃ w', World.writeTo CRLF w = .ok () w' ∧ w'.out = w.out ++ given (recordCalls CRLF w.rcd.version w.rcd.headers (.file (blocksOf 8192 f.rest)))) ∧
    (∀ n : Nat, w.rcd.cls = .warc → w.rcd.cfile = .stream → w.rcd.cfileValid = true → w.strm.eoc = some (n : Int) → n ≤ w.strm.fh.rest.length →
      ∃ w', World.writeTo CRLF w = .ok () w' ∧
        w'.out = w.out ++ given (recordCalls CRLF w.rcd.version w.rcd.headers (.file (blocksOf 8192 (w.strm.fh.rest.take n))))) := by
  refine ⟨fun ct buf h1 h2 h3 => ⟨_, World.writeTo_tuple w ct buf h1 h2 h3, ?_⟩, fun f hf h1 h2 h3 => ⟨_, World.writeTo_file w f hf h1 h2 h3, ?_⟩,
    fun n h1 h2 h3 h4 h5 => ⟨_, World.writeTo_stream w n h1 h2 h3 h4 (Or.inl h5), ?_⟩⟩
  · rw [given_tuple]
  · rw [given_file, blocksOf_flatten 8192 (by omega)]
  · rw [given_file, blocksOf_flatten 8192 (by omega)]

/-- **C103** When `write_to` returns, everything is in the file: nothing of the record, nor of anything written before, is held back, whatever the size of the buffer and the record. -/
theorem C103_returned (size : Nat) (s : Sink) (version : Bytes) (hs : List Header) (x : Supply) :
    (Sink.run size (recordCalls CRLF version hs x) s).buf = [] ∧
    onDisk (Sink.run size (recordCalls CRLF version hs x) s) = onDisk s ++ s.buf ++ given (recordCalls CRLF version hs x) :=
  Sink.run_record size version hs x s

theorem allCalls_buf (size : Nat) (its : List Item) (s : Sink) (h : s.buf = []) : (Sink.run size (allCalls its) s).buf = [] := by
  induction its generalizing s with
  | nil => exact h
  | cons it its ih =>
    show (Sink.run size (it.calls ++ allCalls its) s).buf = []
    rw [Sink.run_append]
    exact ih _ (Sink.run_record size _ _ _ s).1

/-- **C103** The program is killed after any number of calls of `write` and `flush` (also in the middle of a record): the file contains all records for which `write_to` had returned,
and is a first part of what it would have become. -/
theorem C103_killed (size : Nat) (its : List Item) (p : List Call) (hp : p <+: allCalls its) (j : Nat) (hj : allCalls (its.take j) <+: p) :
    archive ((its.take j).map Item.R) <+: onDisk (Sink.run size p opened) ∧ onDisk (Sink.run size p opened) <+: archive (its.map Item.R) := by
  constructor
  · obtain ⟨t, rfl⟩ := hj
    rw [Sink.run_append]
    have h1 := Sink.run_all size (allCalls (its.take j)) opened
    have h2 := allCalls_buf size (its.take j) opened rfl
    have h3 : onDisk (Sink.run size (allCalls (its.take j)) opened) = archive ((its.take j).map Item.R) := by
      rw [Sink.all, h2, List.append_nil, allCalls_given] at h1
      exact h1
    obtain ⟨u, hu⟩ := Sink.run_raw size t (Sink.run size (allCalls (its.take j)) opened)
    rw [← h3]
    exact ⟨u.flatten, by simp [onDisk, ← hu]⟩
  · obtain ⟨t, ht⟩ := hp
    have h1 := Sink.run_all size p opened
    rw [← allCalls_given, ← ht, given_append]
    have h2 : onDisk (Sink.run size p opened) ++ (Sink.run size p opened).buf = given p := by
      simpa [Sink.all, opened, onDisk] using h1
    exact ⟨(Sink.run size p opened).buf ++ given t, by rw [← h2]; simp⟩

/-- **C103** and they are read back, unaltered and at their places -/
theorem C103_killed_read (size : Nat) (its : List Item) (hok : ∀ it ∈ its, it.Ok) (p : List Call) (hp : p <+: allCalls its) (i : Nat) (hi : i < its.length)
    (hj : allCalls (its.take (i + 1)) <+: p) (plan : Nat → List ReadOp) (fuel : Nat) (hfuel : i < fuel) :
    (scan true plan fuel 0 (Stream.mk' .plain (File.openFile (onDisk (Sink.run size p opened))) .warc)).1[i]? =
      some ⟨⟨some (archive ((its.take i).map Item.R)).length, some (parsed its[i].version its[i].R.headers), []⟩, results (plan i) its[i].body⟩ := by
  obtain ⟨h1, h2⟩ := C103_killed size its p hp (i + 1) hj
  have e : onDisk (Sink.run size p opened) = writeUntil (onDisk (Sink.run size p opened)).length its [] := by
    rw [writeUntil_take _ its [] (by simp), List.nil_append]
    exact List.prefix_iff_eq_take.1 h2
  rw [e]
  exact C77_crash _ its hok i hi h1.length_le plan fuel hfuel


/-! ### records that fit into the buffer -/

theorem prefix_cases {α : Type} {p a b : List α} (h : p <+: a ++ b) : (p <+: a ∧ p ≠ a) ∨ ∃ q, p = a ++ q ∧ q <+: b := by
  induction a generalizing p with
  | nil => exact Or.inr ⟨p, rfl, h⟩
  | cons x a ih =>
    cases p with
    | nil => exact Or.inl ⟨by simp, by simp⟩
    | cons y p =>
      rw [List.cons_append, List.cons_prefix_cons] at h
      obtain ⟨rfl, h⟩ := h
      rcases ih h with ⟨h1, h2⟩ | ⟨q, rfl, hq⟩
      · exact Or.inl ⟨by rw [List.cons_prefix_cons]; exact ⟨rfl, h1⟩, by simpa using h2⟩
      · exact Or.inr ⟨q, rfl, hq⟩

theorem calls_ne (it : Item) : it.calls ≠ [] := by simp [Item.calls, recordCalls]

/-- the calls of a program that was interrupted: `j` records are complete -/
theorem allCalls_cut (its : List Item) (p : List Call) (hp : p <+: allCalls its) :
    ∃ j q, j ≤ its.length ∧ p = allCalls (its.take j) ++ q ∧ (q = [] ∨ ∃ h : j < its.length, q <+: its[j].calls ∧ q ≠ its[j].calls) ∧ Returned its p j := by
  induction its generalizing p with
  | nil =>
    have : p = [] := by simpa [allCalls] using hp
    subst this
    exact ⟨0, [], by simp, rfl, Or.inl rfl, by simp, List.prefix_refl _, by simp⟩
  | cons it its ih =>
    rcases prefix_cases (a := it.calls) (b := allCalls its) hp with ⟨h1, h2⟩ | ⟨q, rfl, hq⟩
    · refine ⟨0, p, by simp, rfl, Or.inr ⟨by simp, h1, h2⟩, by simp, List.nil_prefix, ?_⟩
      intro i hi hpi
      cases i with
      | zero => omega
      | succ i =>
        exfalso
        have h3 : it.calls <+: p := List.IsPrefix.trans (by simp [allCalls]) hpi
        exact h2 (h1.eq_of_length (Nat.le_antisymm h1.length_le h3.length_le))
    · obtain ⟨j, q', hj, rfl, hc, hret1, hret2, hret3⟩ := ih q hq
      refine ⟨j + 1, q', by simp; omega, by simp [allCalls], ?_, by simp; omega, ?_, ?_⟩
      · rcases hc with hc | ⟨hlt, h1, h2⟩
        · exact Or.inl hc
        · exact Or.inr ⟨by simp; omega, by simpa using h1, by simpa using h2⟩
      · show it.calls ++ allCalls (its.take j) <+: _
        rw [List.prefix_append_right_inj]
        exact hret2
      · intro i hi hpi
        cases i with
        | zero => omega
        | succ i =>
          have h4 : it.calls ++ allCalls (its.take i) <+: it.calls ++ (allCalls (its.take j) ++ q') := hpi
          rw [List.prefix_append_right_inj] at h4
          have := hret3 i (by simp at hi; omega) h4
          omega

/-- the calls on the raw file of a program whose records fit into the buffer: one for each record for which `write_to` has returned -/
theorem small_raw (size : Nat) (its : List Item) (hs : ∀ it ∈ its, it.R.bytes.length ≤ size) (p : List Call) (hp : p <+: allCalls its) :
    ∃ j, Returned its p j ∧ (Sink.run size p opened).raw = (its.take j).map fun it => it.R.bytes := by
  obtain ⟨j, q, hj, rfl, hc, hret⟩ := allCalls_cut its p hp
  refine ⟨j, hret, ?_⟩
  have hfull : ∀ (l : List Item) (s : Sink), s.buf = [] → (∀ it ∈ l, it.R.bytes.length ≤ size) →
      Sink.run size (allCalls l) s = ⟨s.raw ++ l.map fun it => it.R.bytes, []⟩ := by
    intro l
    induction l with
    | nil =>
      intro s hb _
      show s = _
      obtain ⟨r, b⟩ := s
      simp only at hb
      simp [hb]
    | cons it l ih =>
      intro s hb hl
      show Sink.run size (it.calls ++ allCalls l) s = _
      have := (Sink.run_small size it.version it.headers (.tuple it.ctype (some it.body)) s hb (by
        have := hl it (by simp)
        rwa [← item_given] at this)).1
      rw [Sink.run_append]
      have e : Sink.run size it.calls s = ⟨s.raw ++ [it.R.bytes], []⟩ := by
        rw [← item_given]; exact this
      rw [e, ih _ rfl (fun x hx => hl x (by simp [hx]))]
      simp
  rw [Sink.run_append, hfull _ opened rfl (fun it h => hs it (List.mem_of_mem_take h))]
  rcases hc with rfl | ⟨hlt, h1, h2⟩
  · simp [Sink.run, opened]
  · have := (Sink.run_small size its[j].version its[j].headers (.tuple its[j].ctype (some its[j].body))
      ⟨opened.raw ++ (its.take j).map fun it => it.R.bytes, []⟩ rfl (by
        have := hs its[j] (by simp)
        rwa [← item_given] at this)).2 q h1 h2
    rw [this]
    simp [opened]

/-- **C103** If the records fit into the buffer (8192 bytes), then at every moment (after any number of calls, also in the middle of a record) the file is the archive of exactly
the records for which `write_to` has returned: whoever reads it meanwhile, or after the program was killed, finds complete records only. -/
theorem C103_never_partial (size : Nat) (its : List Item) (hok : ∀ it ∈ its, it.Ok) (hs : ∀ it ∈ its, it.R.bytes.length ≤ size) (p : List Call) (hp : p <+: allCalls its)
    (c : Codec) (cls : Option RecClass) (hcls : cls = none ∨ cls = some .warc) (gz : GzMode) (hgz : gz = .auto ∨ gz = .off) :
    ∃ j, Returned its p j ∧ onDisk (Sink.run size p opened) = archive ((its.take j).map Item.R) ∧
      ∃ s, openArchive c cls false gz none (onDisk (Sink.run size p opened)) = .ok s ∧ ∀ fuel, j < fuel →
        collect true fuel s = ⟨expectGot some 0 ((its.take j).map Item.R), some ⟨some (onDisk (Sink.run size p opened)).length, none, []⟩, .done⟩ := by
  obtain ⟨j, hret, hraw⟩ := small_raw size its hs p hp
  have hd : onDisk (Sink.run size p opened) = archive ((its.take j).map Item.R) := by
    simp [onDisk, hraw, archive, List.flatMap]
    rfl
  refine ⟨j, hret, hd, ?_⟩
  have hlen : (its.take j).length = j := by rw [List.length_take]; have := hret.1; omega
  rw [hd]
  have key := fun fuel hf => C01_round_trip c (its.take j) (fun it h => hok it (List.mem_of_mem_take h)) cls hcls gz hgz fuel hf
  obtain ⟨file, s, h1, h2, _⟩ := key (j + 1) (by omega)
  have hw : writeAll (its.take j) [] = some (archive ((its.take j).map Item.R)) := by simpa using writeAll_ok (its.take j) []
  rw [hw] at h1
  cases h1
  refine ⟨s, h2, fun fuel hf => ?_⟩
  obtain ⟨file', s', h3, h4, h5⟩ := key fuel (by omega)
  rw [hw] at h3
  cases h3
  rw [h2] at h4
  cases h4
  exact h5


/-! ### compressed records -/

theorem gz_fold (d : Deflater) (size : Nat) (cs : List Call) (st : d.State) (s : Sink) (pre : Bytes) (out : Bytes) (hs : s.all = pre ++ out) :
    (cs.foldl (d.call size) (st, s)).1 = (cs.foldl (fun q c => match c with
      | .write b => ((d.step q.1 b).1, q.2 ++ (d.step q.1 b).2)
      | .flush => ((d.sync q.1).1, q.2 ++ (d.sync q.1).2)) (st, out)).1 ∧
    (cs.foldl (d.call size) (st, s)).2.all = pre ++ (cs.foldl (fun q c => match c with
      | .write b => ((d.step q.1 b).1, q.2 ++ (d.step q.1 b).2)
      | .flush => ((d.sync q.1).1, q.2 ++ (d.sync q.1).2)) (st, out)).2 := by
  induction cs generalizing st s out with
  | nil => exact ⟨rfl, hs⟩
  | cons c cs ih =>
    cases c with
    | write b =>
      exact ih (d.step st b).1 (s.write size (d.step st b).2) (out ++ (d.step st b).2) (by rw [Sink.write_all, hs, List.append_assoc])
    | flush =>
      exact ih (d.sync st).1 (s.write size (d.sync st).2).flush (out ++ (d.sync st).2) (by rw [Sink.flush_all, Sink.write_all, hs, List.append_assoc])

/-- **C103 (defect)** With `gzip=True` this does not hold: when `write_to` returns, the last bytes of the gzip member (the end of the compressed data, the checksum and the size) are still held back,
because `flush` is called on the `GzipFile` before it is closed, and not on the file.  They come into the file with the next record, or when the file is closed. -/
theorem C103_gzip (d : Deflater) (size : Nat) (cs : List Call) (s : Sink) (h : (d.late cs).length < size) :
    onDisk (gzipRecord d size cs s) = onDisk s ++ s.buf ++ d.early cs ∧ (gzipRecord d size cs s).buf = d.late cs := by
  have h1 := gz_fold d size (cs ++ [Call.flush]) d.init (s.write size d.header) s.all d.header (Sink.write_all ..)
  have hb : ((cs ++ [Call.flush]).foldl (d.call size) (d.init, s.write size d.header)).2.buf = [] := by
    rw [List.foldl_append]
    exact Sink.flush_buf _
  generalize hq : (cs ++ [Call.flush]).foldl (d.call size) (d.init, s.write size d.header) = q at h1 hb
  have h2 : q.1 = (d.front (cs ++ [Call.flush])).1 := h1.1
  have h3 : q.2.all = s.all ++ d.early cs := h1.2
  have hfin : (d.fin q.1).flatten = d.late cs := by rw [h2]; rfl
  have e : gzipRecord d size cs s = Sink.run size ((d.fin q.1).map .write) q.2 := by
    unfold gzipRecord
    simp only [hq]
    generalize d.fin q.1 = fs
    generalize q.2 = t
    induction fs generalizing t with
    | nil => rfl
    | cons b fs ih => exact ih (t.write size b)
  rw [e, Sink.run_held size (d.fin q.1) q.2 (by rw [hb, hfin]; simp; omega) (by
    intro b hb'
    have : b.length ≤ (d.fin q.1).flatten.length := by
      obtain ⟨x, y, hxy⟩ := List.append_of_mem hb'
      rw [hxy]; simp; omega
    rw [hfin] at this
    omega)]
  refine ⟨?_, by rw [hb, hfin]; rfl⟩
  have : q.2.raw.flatten ++ q.2.buf = s.raw.flatten ++ s.buf ++ d.early cs := h3
  rw [hb, List.append_nil] at this
  exact this

/-- the file behind `for record in records: record.write_to(out, gzip=True)` -/
theorem gzip_all (d : Deflater) (size : Nat) (c : Codec) (its : List Item) (hlate : ∀ it ∈ its, (d.late it.calls).length < size)
    (henc : ∀ it ∈ its, c.enc it.R.bytes = d.early it.calls ++ d.late it.calls) (s : Sink) :
    (its.foldl (fun s it => gzipRecord d size it.calls s) s).all = s.all ++ (its.map fun it => it.R.bytes).flatMap c.enc := by
  induction its generalizing s with
  | nil => simp
  | cons it its ih =>
    rw [List.foldl_cons, ih (fun x hx => hlate x (by simp [hx])) (fun x hx => henc x (by simp [hx]))]
    obtain ⟨h1, h2⟩ := C103_gzip d size it.calls s (hlate it (by simp))
    have : (gzipRecord d size it.calls s).all = s.all ++ c.enc it.R.bytes := by
      unfold Sink.all
      unfold onDisk at h1
      rw [h1, h2, henc it (by simp)]
      simp
    rw [this]
    simp

/-- **C103 (defect)** A program has written any number of records with `gzip=True`, all calls of `write_to` have returned, and it is killed (or another program reads the file now): the last record is
damaged.  Reading the file gives the records before it, the last one possibly too, and always ends with an exception. -/
theorem C103_gzip_killed (d : Deflater) (size : Nat) (c : Codec) (hc : Codec.Laws c) (hx : Codec.Cut c) (its : List Item) (it : Item)
    (hok : ∀ x ∈ its ++ [it], x.Ok) (hlate : ∀ x ∈ its ++ [it], (d.late x.calls).length < size ∧ d.late x.calls ≠ [] ∧ 2 ≤ (d.early x.calls).length)
    (henc : ∀ x ∈ its ++ [it], c.enc x.R.bytes = d.early x.calls ++ d.late x.calls)
    (name : Bool) (gz : GzMode) (hgz : gz = .auto ∨ gz = .record) (offs : Bool) :
    let file := onDisk ((its ++ [it]).foldl (fun s it => gzipRecord d size it.calls s) opened)
    let rs := (its ++ [it]).map fun x => ((x.R, CRLF ++ CRLF) : RT)
    file = ((its.map fun x => x.R.bytes).flatMap c.enc) ++ d.early it.calls ∧
    ∃ s e, openArchive c (some .warc) name gz none file = .ok s ∧
      ((∀ rounds, s.fh.rest.length < rounds → collect offs rounds s = ⟨noted (rs.take its.length), none, .raised e⟩) ∨
       (∀ rounds, s.fh.rest.length < rounds → collect offs rounds s = ⟨noted rs, none, .raised e⟩)) := by
  intro file rs
  have hfile : file = ((its.map fun x => x.R.bytes).flatMap c.enc) ++ d.early it.calls := by
    show onDisk ((its ++ [it]).foldl (fun s it => gzipRecord d size it.calls s) opened) = _
    rw [List.foldl_append]
    show onDisk (gzipRecord d size it.calls (its.foldl (fun s it => gzipRecord d size it.calls s) opened)) = _
    rw [(C103_gzip d size it.calls _ (hlate it (by simp)).1).1]
    have := gzip_all d size c its (fun x hx => (hlate x (by simp [hx])).1) (fun x hx => henc x (by simp [hx])) opened
    unfold Sink.all at this
    unfold onDisk
    rw [this]
    simp [opened]
  refine ⟨hfile, ?_⟩
  have hT : OkT rs := by
    intro r hr
    obtain ⟨x, hx', rfl⟩ := List.mem_map.1 hr
    exact ⟨item_R_ok x (hok x hx'), terminator_crlf2⟩
  have hi : its.length < rs.length := by simp [rs]
  have hri : rs[its.length] = (it.R, CRLF ++ CRLF) := by simp [rs]
  have hrb : rs[its.length].1.core ++ rs[its.length].2 = it.R.bytes := by rw [hri]; simp [R.core, R.bytes, recordBytes]
  have henc' := henc it (by simp)
  obtain ⟨hl1, hl2, hl3⟩ := hlate it (by simp)
  have hl2' : 0 < (d.late it.calls).length := List.length_pos_iff.2 hl2
  have htk : (c.enc it.R.bytes).take (d.early it.calls).length = d.early it.calls := by rw [henc']; simp
  have hpr : perRecord (rs.take its.length) = its.map fun x => x.R.bytes := by
    simp [rs, perRecord, R.core, R.bytes, recordBytes]
  obtain ⟨s, e, h1, h2⟩ := C67_record_members c hc hx rs hT its.length hi (d.early it.calls).length (by omega)
    (by rw [hrb, henc']; simp; omega) (by rw [hrb, htk]; simp; omega) name gz hgz offs
  rw [hrb, htk, hpr, ← hfile] at h1
  refine ⟨s, e, h1, ?_⟩
  have hall : rs.take (its.length + 1) = rs := List.take_of_length_le (by simp [rs])
  rw [hall] at h2
  exact h2


/-! ### examples -/

/-- a compressor for the toy codec -/
def toyDeflater : Deflater where
  State := Unit
  init := ()
  header := [0x1f, 0x8b]
  step := fun _ b => ((), b.flatMap fun x => [1, x])
  sync := fun _ => ((), [])
  fin := fun _ => [[0]]

theorem toy_front (cs : List Call) (st : Unit) (out : Bytes) :
    (cs.foldl (fun (q : Unit × Bytes) c => match c with
      | .write b => (((toyDeflater.step q.1 b).1 : Unit), q.2 ++ (toyDeflater.step q.1 b).2)
      | .flush => ((toyDeflater.sync q.1).1, q.2 ++ (toyDeflater.sync q.1).2)) (st, out)).2 = out ++ (given cs).flatMap fun x => [1, x] := by
  induction cs generalizing out with
  | nil => simp [given]
  | cons c cs ih =>
    cases c with
    | write b => exact (ih (out ++ b.flatMap fun x => [1, x])).trans (by simp [given])
    | flush => exact (ih (out ++ [])).trans (by simp [given])

theorem toy_early (cs : List Call) : toyDeflater.early cs = [0x1f, 0x8b] ++ (given cs).flatMap fun x => [1, x] := by
  have := toy_front (cs ++ [Call.flush]) () [0x1f, 0x8b]
  have g : given [Call.flush] = [] := rfl
  rw [given_append, g, List.append_nil] at this
  exact this

theorem toy_late (cs : List Call) : toyDeflater.late cs = [0] := rfl

/-- two records that fit into the buffer, in the middle of the second -/
example := C103_never_partial 8192 [demo1, demo2] (by
    intro it h
    simp only [List.mem_cons, List.not_mem_nil, or_false] at h
    rcases h with rfl | rfl
    · exact demo1_ok
    · exact demo2_ok) (by
    intro it h
    simp only [List.mem_cons, List.not_mem_nil, or_false] at h
    rcases h with rfl | rfl <;> decide +kernel) ((allCalls [demo1, demo2]).take 20) (List.take_prefix _ _) toy none (Or.inl rfl) .auto (Or.inl rfl)

example := C103_gzip_killed toyDeflater 8192 toy toy_laws toy_cut [demo1] demo2 (by
    intro it h
    simp only [List.cons_append, List.nil_append, List.mem_cons, List.not_mem_nil, or_false] at h
    rcases h with rfl | rfl
    · exact demo1_ok
    · exact demo2_ok) (by
    intro x _
    refine ⟨by rw [toy_late]; decide, by rw [toy_late]; decide, by rw [toy_early]; simp⟩) (by
    intro x _
    rw [toy_early, toy_late, item_given]
    simp [toy, toyEnc]) true .auto (Or.inl rfl) true

end Warc
