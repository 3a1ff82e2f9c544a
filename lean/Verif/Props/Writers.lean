import Verif.Props.Buffered
import Verif.Props.Crash
/-
  C104: several programs write to one file.
-/
set_option linter.all false
namespace Warc
open Rx Stream Spec

theorem merge_map {α β : Type} (f : α → β) {ls : List (List β)} {zs : List β} (h : Merge ls zs) (ws : List (List α)) (hw : ls = ws.map (List.map f)) :
    ∃ order, Merge ws order ∧ zs = order.map f := by
  induction h generalizing ws with
  | done ls hn =>
    refine ⟨[], Merge.done ws (fun l hl => ?_), rfl⟩
    have := hn (l.map f) (by rw [hw]; exact List.mem_map_of_mem hl)
    simpa using this
  | step as bs x l zs _ ih =>
    obtain ⟨ws1, ws2, rfl, h1, h2⟩ := List.map_eq_append_iff.1 hw.symm
    obtain ⟨w, ws3, rfl, h3, h4⟩ := List.map_eq_cons_iff.1 h2
    obtain ⟨a, w', rfl, h5, h6⟩ := List.map_eq_cons_iff.1 h3
    obtain ⟨order, h7, h8⟩ := ih (ws1 ++ w' :: ws3) (by simp [h1, h4, h6])
    exact ⟨a :: order, Merge.step ws1 ws3 a w' order h7, by simp [h5, h8]⟩

theorem merge_mem {α : Type} {ls : List (List α)} {zs : List α} (h : Merge ls zs) (x : α) (hx : x ∈ zs) : ∃ l ∈ ls, x ∈ l := by
  induction h with
  | done ls hn => simp at hx
  | step as bs y l zs _ ih =>
    rcases List.mem_cons.1 hx with rfl | hx
    · exact ⟨x :: l, by simp, by simp⟩
    · obtain ⟨l', h1, h2⟩ := ih hx
      simp only [List.mem_append, List.mem_cons] at h1
      rcases h1 with h1 | rfl | h1
      · exact ⟨l', by simp [h1], h2⟩
      · exact ⟨y :: l', by simp, by simp [h2]⟩
      · exact ⟨l', by simp [h1], h2⟩

/-- reading an archive that consists of these records -/
theorem read_items (c : Codec) (its : List Item) (hok : ∀ it ∈ its, it.Ok) (cls : Option RecClass) (hcls : cls = none ∨ cls = some .warc)
    (gz : GzMode) (hgz : gz = .auto ∨ gz = .off) :
    ∃ s, openArchive c cls false gz none (archive (its.map Item.R)) = .ok s ∧ ∀ fuel, its.length < fuel →
      collect true fuel s = ⟨expectGot some 0 (its.map Item.R), some ⟨some (archive (its.map Item.R)).length, none, []⟩, .done⟩ := by
  have key := fun fuel hf => C01_round_trip c its hok cls hcls gz hgz fuel hf
  obtain ⟨file, s, h1, h2, _⟩ := key (its.length + 1) (by omega)
  have hw : writeAll its [] = some (archive (its.map Item.R)) := by simpa using writeAll_ok its []
  rw [hw] at h1
  cases h1
  refine ⟨s, h2, fun fuel hf => ?_⟩
  obtain ⟨file', s', h3, h4, h5⟩ := key fuel hf
  rw [hw] at h3
  cases h3
  rw [h2] at h4
  cases h4
  exact h5

/-- **C104** Any number of programs write records that fit into their buffers to the same file (each has opened it for appending).  At every moment, whatever calls each of them has made so far (it
may also have been killed) and in whatever order these reached the file: the file is the archive of exactly the records for which `write_to` has returned, each program's in its order, and is read as such. -/
theorem C104_small (size : Nat) (ws : List (List Item × List Call)) (hok : ∀ w ∈ ws, ∀ it ∈ w.1, it.Ok ∧ it.R.bytes.length ≤ size)
    (hp : ∀ w ∈ ws, w.2 <+: allCalls w.1) (chunks : List Bytes) (hm : Merge (ws.map fun w => (Sink.run size w.2 opened).raw) chunks)
    (c : Codec) (cls : Option RecClass) (hcls : cls = none ∨ cls = some .warc) (gz : GzMode) (hgz : gz = .auto ∨ gz = .off) :
    ∃ (n : List Item × List Call → Nat) (order : List Item), (∀ w ∈ ws, Returned w.1 w.2 (n w)) ∧ Merge (ws.map fun w => w.1.take (n w)) order ∧ chunks.flatten = archive (order.map Item.R) ∧
      ∃ s, openArchive c cls false gz none chunks.flatten = .ok s ∧ ∀ fuel, order.length < fuel →
        collect true fuel s = ⟨expectGot some 0 (order.map Item.R), some ⟨some chunks.flatten.length, none, []⟩, .done⟩ := by
  have hex : ∀ w : List Item × List Call, ∃ j, w ∈ ws → Returned w.1 w.2 j ∧ (Sink.run size w.2 opened).raw = (w.1.take j).map fun it => it.R.bytes := by
    intro w
    by_cases hw : w ∈ ws
    · obtain ⟨j, hj⟩ := small_raw size w.1 (fun it h => (hok w hw it h).2) w.2 (hp w hw)
      exact ⟨j, fun _ => hj⟩
    · exact ⟨0, fun h => absurd h hw⟩
  obtain ⟨n, hn⟩ := Classical.axiomOfChoice hex
  have hraw : (ws.map fun w => (Sink.run size w.2 opened).raw) = (ws.map fun w => w.1.take (n w)).map (List.map fun it => it.R.bytes) := by
    rw [List.map_map]
    exact List.map_congr_left fun w hw => (hn w hw).2
  obtain ⟨order, h1, h2⟩ := merge_map _ hm _ hraw
  have hoo : ∀ it ∈ order, it.Ok := by
    intro it hit
    obtain ⟨l, hl, hitl⟩ := merge_mem h1 it hit
    obtain ⟨w, hw, rfl⟩ := List.mem_map.1 hl
    exact (hok w hw it (List.mem_of_mem_take hitl)).1
  have hd : chunks.flatten = archive (order.map Item.R) := by
    rw [h2]; simp [archive, List.flatMap]; rfl
  refine ⟨n, order, fun w hw => (hn w hw).1, h1, hd, ?_⟩
  rw [hd]
  exact read_items c order hoo cls hcls gz hgz

/-- the calls of a record with a payload -/
theorem calls_head (it : Item) (hb : it.body ≠ []) :
    ∃ ws : List Bytes, it.calls = ws.map .write ++ [.write it.body, .write CRLF, .write CRLF, .flush] ∧ ws.flatten = headBytes it.version it.R.headers ∧
      ∀ b ∈ ws, b.length < ws.flatten.length := by
  have hg := item_given it
  obtain ⟨ws, hw, vs, hv⟩ := recordCalls_split CRLF it.version it.headers (.tuple it.ctype (some it.body))
  have e : it.calls = ([.write it.version, .write CRLF] ++ headersCalls CRLF false it.headers ++ (typeCalls CRLF it.ctype ++
      headerCalls CRLF (WH.CONTENT_LENGTH, decimal it.body.length)) ++ [.write CRLF]) ++ [.write it.body, .write CRLF, .write CRLF, .flush] := by
    simp [Item.calls, recordCalls, supplyCalls, Supply.isFile, hb]
  generalize hh : ([.write it.version, .write CRLF] ++ headersCalls CRLF false it.headers ++ (typeCalls CRLF it.ctype ++
      headerCalls CRLF (WH.CONTENT_LENGTH, decimal it.body.length)) : List Call) = hc at e
  have e2 : ws.map Call.write ++ [Call.flush] = hc ++ [.write CRLF] ++ [.write it.body, .write CRLF, .write CRLF, .flush] := by
    rw [← hw, ← e]; rfl
  have e3 : hc ++ [.write CRLF] ++ [.write it.body, .write CRLF, .write CRLF] = ws.map Call.write := by
    have := congrArg List.dropLast e2
    simpa [← List.append_assoc] using this.symm
  have e4 : hc ++ [.write CRLF] = (ws.take (hc.length + 1)).map Call.write := by
    rw [List.map_take, ← e3, ← List.length_singleton (a := Call.write CRLF), ← List.length_append, List.take_left]
  refine ⟨ws.take (hc.length + 1), by rw [e, e4], ?_, ?_⟩
  · rw [e, e4, given_append, given_writes] at hg
    have : (ws.take (hc.length + 1)).flatten ++ (it.body ++ (CRLF ++ CRLF)) = headBytes it.version it.R.headers ++ (it.body ++ (CRLF ++ CRLF)) := by
      simpa [given, R.bytes, recordBytes, Item.R] using hg
    exact List.append_cancel_right this
  · have e5 : (ws.take (hc.length + 1)).map Call.write = [.write it.version, .write CRLF] ++ (headersCalls CRLF false it.headers ++ (typeCalls CRLF it.ctype ++
        headerCalls CRLF (WH.CONTENT_LENGTH, decimal it.body.length))) ++ [.write CRLF] := by
      rw [← e4, ← hh]; simp
    obtain ⟨u1, u2, h1, h2, h3⟩ := List.map_eq_append_iff.1 e5
    obtain ⟨u3, u4, h4, h5, h6⟩ := List.map_eq_append_iff.1 h2
    have h7 : u2 = [CRLF] := by
      cases u2 with
      | nil => simp at h3
      | cons a u2 =>
        cases u2 with
        | nil => simpa using h3
        | cons _ _ => simp at h3
    have h8 : u3 = [it.version, CRLF] := by
      cases u3 with
      | nil => simp at h5
      | cons a u3 =>
        cases u3 with
        | nil => simp at h5
        | cons b u3 =>
          cases u3 with
          | nil => simpa using h5
          | cons _ _ => simp at h5
    rw [h1, h4, h7, h8]
    have hcr : CRLF.length = 2 := rfl
    intro b hb
    simp only [List.mem_append, List.mem_cons, List.not_mem_nil, or_false] at hb
    rcases hb with ((rfl | rfl) | hb) | rfl
    · simp [hcr]
    · simp [hcr]; omega
    · obtain ⟨x, y, rfl⟩ := List.append_of_mem hb
      simp [hcr]; omega
    · simp [hcr]; omega

/-- what a record with a payload that is longer than the buffer does to the file: three calls -/
theorem big_raw (size : Nat) (it : Item) (hb : size < it.body.length) (hh : (headBytes it.version it.R.headers).length ≤ size) :
    Sink.run size it.calls opened = ⟨[headBytes it.version it.R.headers, it.body, CRLF ++ CRLF], []⟩ := by
  have hne : it.body ≠ [] := by intro e; rw [e] at hb; simp at hb
  obtain ⟨ws, h1, h2, h3⟩ := calls_head it hne
  have hsz : 4 ≤ size := by
    have : 4 ≤ (headBytes it.version it.R.headers).length := by simp [headBytes]; omega
    omega
  have hne2 : headBytes it.version it.R.headers ≠ [] := by simp [headBytes]
  rw [h1, Sink.run_append, Sink.run_held size ws opened (by simp [opened, h2]; omega) (fun b hb' => by
    have := h3 b hb'; rw [h2] at this; omega)]
  have e : (opened.buf ++ ws.flatten) = headBytes it.version it.R.headers := by rw [h2]; rfl
  rw [e]
  have hw : Sink.write size it.body ⟨opened.raw, headBytes it.version it.R.headers⟩ = ⟨[headBytes it.version it.R.headers, it.body], []⟩ := by
    rw [Sink.write, if_neg (by omega), if_pos hb]
    simp [Sink.flush, hne2, opened]
  show Sink.flush (Sink.write size CRLF (Sink.write size CRLF (Sink.write size it.body ⟨opened.raw, headBytes it.version it.R.headers⟩))) = _
  rw [hw]
  have hcr : CRLF.length = 2 := rfl
  have hw2 : ∀ r : List Bytes, Sink.write size CRLF ⟨r, []⟩ = ⟨r, CRLF⟩ := by
    intro r
    rw [Sink.write, if_pos (by simp [hcr]; omega)]
    rfl
  have hw3 : ∀ r : List Bytes, Sink.write size CRLF ⟨r, CRLF⟩ = ⟨r, CRLF ++ CRLF⟩ := by
    intro r
    rw [Sink.write, if_pos (by simp [hcr]; omega)]
  rw [hw2, hw3]
  simp [Sink.flush]

theorem merge_one {α : Type} (as : List (List α)) (l : List α) (bs : List (List α)) (zs : List α) (h : Merge (as ++ [] :: bs) zs) : Merge (as ++ l :: bs) (l ++ zs) := by
  induction l with
  | nil => exact h
  | cons x l ih => exact Merge.step as bs x l _ ih

theorem merge_two {α : Type} (a : α) (l m : List α) : Merge [a :: l, m] (a :: (m ++ l)) := by
  refine Merge.step [] [m] a l _ ?_
  refine merge_one [l] m [] l ?_
  have := merge_one [] l [[]] [] (Merge.done _ (by simp))
  simpa using this

/-- **C104 (defect)** A payload longer than the buffer is not written with its headers: another program may write between them.  Then the record has the headers of the first program and, for its content, the
record of the second; reading it gives no error. -/
theorem C104_large (size : Nat) (a b : Item) (ha : a.Ok) (hb : b.Ok) (hbody : size < a.body.length) (hhead : (headBytes a.version a.R.headers).length ≤ size) :
    ∃ chunks, Merge [(Sink.run size a.calls opened).raw, (Sink.run size b.calls opened).raw] chunks ∧
      chunks.flatten = headBytes a.version a.R.headers ++ b.R.bytes ++ a.body ++ CRLF ++ CRLF ∧
      ∀ c : Codec, ∃ s g, openArchive c (some .warc) false .auto none chunks.flatten = .ok s ∧ (∀ fuel, (collect true (fuel + 1) s).records[0]? = some g) ∧
        g = ⟨some 0, a.version, a.R.headers, [], (firstValue (b! "Content-Type") a.R.headers, some ((b.R.bytes ++ a.body).take a.body.length))⟩ := by
  have hra := big_raw size a hbody hhead
  have hrb : ((Sink.run size b.calls opened).raw).flatten = b.R.bytes := by
    have := (C103_returned size opened b.version b.headers (.tuple b.ctype (some b.body))).2
    rw [show given (recordCalls CRLF b.version b.headers (.tuple b.ctype (some b.body))) = b.R.bytes from item_given b] at this
    exact this
  refine ⟨headBytes a.version a.R.headers :: ((Sink.run size b.calls opened).raw ++ [a.body, CRLF ++ CRLF]), by rw [hra]; exact merge_two _ _ _, by simp [hrb], ?_⟩
  intro c
  generalize hfile : (headBytes a.version a.R.headers :: ((Sink.run size b.calls opened).raw ++ [a.body, CRLF ++ CRLF])).flatten = file
  have hf : file = headBytes a.version a.R.headers ++ (b.R.bytes ++ a.body ++ (CRLF ++ CRLF)) := by rw [← hfile]; simp [hrb]
  have haR := item_R_ok a ha
  have hg : file.take 2 ≠ [0x1f, 0x8b] := by
    have h2 := versionOk_not_gzip (x := CRLF ++ a.R.headers.flatMap headerLine ++ CRLF ++ (b.R.bytes ++ a.body ++ (CRLF ++ CRLF))) haR.version
    rw [hf]
    simpa [headBytes, Item.R] using h2
  have hrest : (readerOn file).fh.rest = headBytes a.version a.R.headers ++ (b.R.bytes ++ a.body ++ (CRLF ++ CRLF)) := by
    rw [← hf]; simp [readerOn, File.openFile, File.rest]
  refine ⟨readerOn file, _, openArchive_plain c (some .warc) .warc .auto file (Or.inl rfl) (Or.inl rfl) hg, ?_, rfl⟩
  intro fuel
  have hread := readRecord_head true [] a.version a.R.headers (b.R.bytes ++ a.body ++ (CRLF ++ CRLF)) (readerOn file) (by simp [readerOn]) rfl ⟨by simp, Or.inl rfl⟩ haR.version
    haR.headers (Or.inl rfl) (by rw [hrest]; rfl)
  have hlen : declaredLength a.R.headers = (a.body.length : Int) := haR.length
  rw [hlen] at hread
  generalize ht : ({ (readerOn file).adv (([] : Bytes).length + (headBytes a.version a.R.headers).length) with eoc := some (a.body.length : Int) } : Stream) = t at hread
  have htr : t.fh.rest = b.R.bytes ++ a.body ++ (CRLF ++ CRLF) := by
    subst ht
    show ((readerOn file).adv (([] : Bytes).length + (headBytes a.version a.R.headers).length)).fh.rest = _
    simp [readerOn, adv, File.advance, File.openFile, File.rest, hf]
  obtain ⟨r1, hcont⟩ := content_fresh t (parsed a.version a.R.headers) a.body.length rfl rfl (by subst ht; rfl) (by rw [htr]; simp; omega)
  have htake : t.fh.rest.take a.body.length = (b.R.bytes ++ a.body).take a.body.length := by
    rw [htr, List.take_append_of_le_length (by simp)]
  have e0 : ((parsed a.version a.R.headers).cls.contentTypeName) = b! "Content-Type" := rfl
  have hpos : reported .plain true (([] : Bytes).length + 0) = some 0 := rfl
  simp only [collect, hread, hcont, htake, e0]
  rfl


theorem merge_ends {α : Type} (x y : List α) (a b : α) : Merge [x ++ [a], y ++ [b]] (x ++ (y ++ [a, b])) := by
  have h0 : Merge [[a], [b]] [a, b] := Merge.step [] [[b]] a [] [b] (Merge.step [[]] [] b [] [] (Merge.done _ (by simp)))
  have h1 : Merge [[a], y ++ [b]] (y ++ [a, b]) := by
    induction y with
    | nil => exact h0
    | cons z y ih => exact Merge.step [[a]] [] z (y ++ [b]) _ ih
  induction x with
  | nil => exact h1
  | cons z x ih => exact Merge.step [] [y ++ [b]] z (x ++ [a]) _ ih

/-- **C104 (defect)** With `gzip=True` not even small records are safe: two programs write one record each and close the file, and the members end up inside each other. -/
theorem C104_gzip (d : Deflater) (size : Nat) (a b : Item) (ha : (d.late a.calls).length < size ∧ d.late a.calls ≠ []) (hb : (d.late b.calls).length < size ∧ d.late b.calls ≠ []) :
    ∃ chunks, Merge [(gzipRecord d size a.calls opened).flush.raw, (gzipRecord d size b.calls opened).flush.raw] chunks ∧
      chunks.flatten = d.early a.calls ++ d.early b.calls ++ d.late a.calls ++ d.late b.calls := by
  have key : ∀ it : Item, (d.late it.calls).length < size ∧ d.late it.calls ≠ [] →
      ∃ x, (gzipRecord d size it.calls opened).flush.raw = x ++ [d.late it.calls] ∧ x.flatten = d.early it.calls := by
    intro it h
    obtain ⟨h1, h2⟩ := C103_gzip d size it.calls opened h.1
    refine ⟨(gzipRecord d size it.calls opened).raw, ?_, h1⟩
    rw [Sink.flush, h2, if_neg h.2]
  obtain ⟨x, hx1, hx2⟩ := key a ha
  obtain ⟨y, hy1, hy2⟩ := key b hb
  refine ⟨_, by rw [hx1, hy1]; exact merge_ends x y _ _, ?_⟩
  simp [hx2, hy2]

/-- with the toy codec such a file cannot be decompressed -/
example : ∃ chunks, Merge [(gzipRecord toyDeflater 8192 demo1.calls opened).flush.raw, (gzipRecord toyDeflater 8192 demo2.calls opened).flush.raw] chunks ∧
    (toy.dec chunks.flatten).2 ≠ none := by
  obtain ⟨chunks, h1, h2⟩ := C104_gzip toyDeflater 8192 demo1 demo2 (by rw [toy_late]; decide) (by rw [toy_late]; decide)
  refine ⟨chunks, h1, ?_⟩
  rw [h2, toy_early, toy_early, toy_late, toy_late, item_given, item_given]
  have e : [0x1f, 0x8b] ++ demo1.R.bytes.flatMap (fun x => [1, x]) ++ ([0x1f, 0x8b] ++ demo2.R.bytes.flatMap (fun x => [1, x])) ++ [0] ++ [0] =
      0x1f :: 0x8b :: (demo1.R.bytes.flatMap (fun x => [1, x]) ++ 0x1f :: (0x8b :: demo2.R.bytes.flatMap (fun x => [1, x]) ++ [0] ++ [0])) := by simp
  rw [e]
  show (toyDec false _).2 ≠ none
  have hb : ∀ (l rest : Bytes), (toyDec true (l.flatMap (fun x => [1, x]) ++ 0x1f :: rest)).2 ≠ none := by
    intro l rest
    induction l with
    | nil => simp [toyDec]
    | cons x l ih => simpa [toyDec] using ih
  simp only [toyDec]
  exact hb _ _

/-- two programs, one of which is in the middle of its second record -/
example : ∃ chunks, Merge ([([demo1, demo2], (allCalls [demo1, demo2]).take 20), ([demo2], allCalls [demo2])].map fun w => (Sink.run 8192 w.2 opened).raw) chunks :=
  ⟨_, merge_one [] _ _ _ (merge_one [[]] _ [] [] (Merge.done _ (by simp)))⟩

def largeItem : Item := ⟨b! "WARC/1.0", [(b! "WARC-Type", b! "resource")], some (b! "text/plain"), List.replicate 200 97⟩

theorem large_ok : largeItem.Ok := ⟨⟨[], b! "WARC/", b! "1.0", rfl, by decide, by decide, by decide, by decide⟩, by decide, by
  intro t ht; cases ht; decide⟩

example := C104_large 150 largeItem demo1 large_ok demo1_ok (by decide +kernel) (by decide +kernel)

end Warc
