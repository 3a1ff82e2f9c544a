import Verif.Proofs.Payload
import Verif.Spec.Toy
/-
  C04 - C08, C54, C57: reading contents, skipping, truncation, seeking.
-/
set_option linter.all false
namespace Warc
open Rx Stream Spec

/-! ### C04 -/

/-- **C04** After a record that announces a payload of `n` bytes was returned, WARC or ARC, by any stream after any use of
it, any sequence of calls on its content file returns what the same calls would return on a file holding just the payload:
consecutive pieces of the payload; once all `n` bytes were returned every further call returns
nothing.  (`payload` is what the file has of these bytes; the side condition excludes damaged
compressed data inside the payload.) -/
theorem C04_reads_stay_inside (c : Codec) (offs : Bool) (s s1 : Stream) (e : Entry) (r : Rec) (n : Nat)
    (hl : Live c s) (hread : readRecord offs s = .ok e s1) (hr : e.rcd = some r)
    (hn : payloadLength r = some (n : Int)) (hd : n ≤ s1.fh.rest.length ∨ s1.fh.fault = none)
    (ops : List ReadOp) :
    ∃ outs s2, runOps ops s1 = .ok outs s2 ∧
      outs = results ops (s1.fh.rest.take n) ∧
      outs.flatten ++ leftover ops (s1.fh.rest.take n) = s1.fh.rest.take n ∧
      s2.fh.pos = s1.fh.pos + outs.flatten.length ∧
      (outs.flatten.length = n → ∀ op, ∃ s3, ReadOp.run op s2 = .ok [] s3) := by
  have he := (live_announces hl offs s1 e r hread hr).1
  rw [hn] at he
  have hrun := runOps_ok ops s1 n he hd
  refine ⟨_, _, hrun, rfl, leftover_suffix _ _, rfl, ?_⟩
  intro hfull op
  have hlen := hfull
  generalize hm : (results ops (s1.fh.rest.take n)).flatten.length = m at *
  have hmle : m ≤ (s1.fh.rest.take n).length := by
    have := congrArg List.length (leftover_suffix ops (s1.fh.rest.take n))
    rw [List.length_append, hm] at this; omega
  rw [op_run op { s1.adv m with eoc := some ((n - m : Nat) : Int) } (n - m) rfl (by
    rcases hd with h | h
    · left; simp only [adv_fh, File.advance_rest, List.length_drop]; omega
    · right; exact h)]
  have h0 : n - m = 0 := by omega
  rw [h0]
  have : op.result (({ s1.adv m with eoc := some ((0 : Nat) : Int) } : Stream).fh.rest.take 0) = [] := by
    have := result_length_le op (({ s1.adv m with eoc := some ((0 : Nat) : Int) } : Stream).fh.rest.take 0)
    simpa using this
  rw [this]
  exact ⟨_, rfl⟩

theorem op_run_unlimited (op : ReadOp) (s : Stream) (he : s.eoc = none) (hf : s.fh.fault = none) :
    op.run s = .ok (op.result s.fh.rest) (s.adv (op.result s.fh.rest).length) := by
  have raw : ∀ k : Nat, rawRead (some (k : Int)) s = .ok (s.fh.rest.take k) (s.adv (s.fh.rest.take k).length) := by
    intro k
    simp only [rawRead, M.bind_apply, onFile, File.read, Int.natCast_nonneg, if_true, Int.toNat_natCast, File.deliver_nofault _ _ _ hf,
      consume, M.modify_apply, M.pure_apply, he, Option.map_none]
    simp [adv, he]
  cases op with
  | read n =>
    cases n with
    | none =>
      simp only [ReadOp.run, ReadOp.result, Option.map_none, Stream.read, M.bind_apply, M.get_apply, he, limitOf, rawRead, onFile, File.read,
        File.deliver_nofault _ _ _ hf, consume, M.modify_apply, M.pure_apply]
      simp [adv, he]
    | some k => simpa only [ReadOp.run, ReadOp.result, Option.map_some, Stream.read, M.bind_apply, M.get_apply, he, limitOf] using raw k
  | readline n =>
    cases n with
    | none =>
      rw [ReadOp.result, lineOf_eq]
      exact readline_ok s he (Or.inl hf)
    | some k =>
      simp only [ReadOp.run, ReadOp.result, lineOf_eq, Option.map_some, Stream.readline, M.bind_apply, M.get_apply, he, limitOf, onFile, File.readline,
        Int.natCast_nonneg, if_true, Int.toNat_natCast, File.deliver_nofault _ _ _ hf, consume, M.modify_apply, M.pure_apply, Option.map_none]
      simp [adv, he]
  | readinto k => simpa only [ReadOp.run, ReadOp.result, Stream.readinto, Stream.read, M.bind_apply, M.get_apply, he, limitOf] using raw k

/-- **C04** (what is missing) An ARC record without a readable length has no end: calls on its content file return pieces of the
rest of the file, and the next record is looked for wherever they stopped. -/
theorem C04_no_length (c : Codec) (offs : Bool) (s s1 : Stream) (e : Entry) (r : Rec)
    (hl : Live c s) (hread : readRecord offs s = .ok e s1) (hr : e.rcd = some r)
    (hn : payloadLength r = none) (hd : s1.fh.fault = none) (ops : List ReadOp) :
    ∃ s2, runOps ops s1 = .ok (results ops s1.fh.rest) s2 ∧ s2.fh.rest = leftover ops s1.fh.rest ∧ s2.eoc = none := by
  have he := (live_announces hl offs s1 e r hread hr).1
  rw [hn] at he
  clear hread hn hr
  induction ops generalizing s1 with
  | nil => exact ⟨s1, rfl, rfl, he⟩
  | cons op ops ih =>
    have h1 := op_run_unlimited op s1 he hd
    obtain ⟨s2, h2, h3, h4⟩ := ih (s1.adv (op.result s1.fh.rest).length) hd he
    have hr' : (s1.adv (op.result s1.fh.rest).length).fh.rest = s1.fh.rest.drop (op.result s1.fh.rest).length := by
      simp only [adv_fh, File.advance_rest]
    rw [hr'] at h2 h3
    refine ⟨s2, ?_, h3, h4⟩
    simp only [runOps, M.bind_apply, h1, h2, M.pure_apply, results]

/-- what single calls return, spelled out on the payload -/
theorem C04_single_calls (p : Bytes) (k : Nat) :
    ReadOp.result (.read none) p = p ∧ ReadOp.result (.read (some k)) p = p.take k ∧
    ReadOp.result (.readinto k) p = p.take k ∧
    (∃ more, p = ReadOp.result (.readline none) p ++ more ∧
      (10 ∈ p → ∃ u, 10 ∉ u ∧ ReadOp.result (.readline none) p = u ++ [10]) ∧ (10 ∉ p → more = [])) ∧
    ReadOp.result (.readline (some k)) p = (ReadOp.result (.readline none) p).take k := by
  refine ⟨rfl, rfl, rfl, ?_, rfl⟩
  simp only [ReadOp.result, lineOf_eq]
  refine ⟨p.drop (File.firstLine p).length, (File.firstLine_append_drop p).symm, ?_, ?_⟩
  · intro h
    rcases File.firstLine_cases p with ⟨u, more, hu, hx, hf⟩ | ⟨hx, hf⟩
    · exact ⟨u, hu, hf⟩
    · exact absurd h hx
  · intro h
    rw [File.firstLine_noLF p h]; simp

/-! ### C05 -/

/-- **C05** If the payload is completely present in the file, then after any calls on the content
file the next record is read exactly as if there had been none: same result (entry, exception or
non-termination) and same state of the stream. -/
theorem C05_next_record_independent (c : Codec) (offs offs' : Bool) (s s1 : Stream) (e : Entry) (r : Rec) (n : Nat)
    (hl : Live c s) (hread : readRecord offs s = .ok e s1) (hr : e.rcd = some r)
    (hn : payloadLength r = some (n : Int)) (hd : n ≤ s1.fh.rest.length)
    (ops : List ReadOp) :
    ∃ outs s2, runOps ops s1 = .ok outs s2 ∧ readRecord offs' s2 = readRecord offs' s1 := by
  have he := (live_announces hl offs s1 e r hread hr).1
  rw [hn] at he
  have hrun := runOps_ok ops s1 n he (Or.inl hd)
  exact ⟨_, _, hrun, readRecord_after_ops offs' ops s1 n he hd _ _ hrun⟩

/-- whole scans: two programs that consume the contents differently (`plan1`, `plan2`) see the same
entries, in a well formed archive -/
theorem C05_scans_agree (offs : Bool) (plan1 plan2 : Nat → List ReadOp) (fuel : Nat) (s : Stream)
    (T : Bytes) (rs : List RT) (hk : s.kind ≠ .gzipFile) (he : s.eoc = none)
    (hf : s.fh.fault = none) (hT : Terminator T) (hok : OkT rs) (hp : s.parser = .warc)
    (hr : s.fh.rest = T ++ archiveT rs) (hfuel : rs.length < fuel) :
    (scan offs plan1 fuel 0 s).1.map (·.entry) = (scan offs plan2 fuel 0 s).1.map (·.entry) ∧
    (scan offs plan1 fuel 0 s).2 = .done ∧ (scan offs plan2 fuel 0 s).2 = .done := by
  have h1 := scan_complete offs plan1 fuel 0 s T rs hk he hf hT hok (fun _ _ => Or.inl hp) hr hfuel
  have h2 := scan_complete offs plan2 fuel 0 s T rs hk he hf hT hok (fun _ _ => Or.inl hp) hr hfuel
  rw [h1, h2]
  refine ⟨?_, rfl, rfl⟩
  have key : ∀ (rs : List RT) (i pos : Nat),
      (expect (reported s.kind offs) plan1 i pos rs).map (·.entry) =
      (expect (reported s.kind offs) plan2 i pos rs).map (·.entry) := by
    intro rs
    induction rs with
    | nil => intro i pos; rfl
    | cons r rs ih => intro i pos; simp [expect, ih]
  simp [key]

/-! ### C06 -/

/-- **C06** Any CR/LF bytes in front of whatever comes next are skipped: for every kind of stream,
every parser and every continuation of the file, reading at the terminator gives the same result as
reading behind it. -/
theorem C06_terminators_skipped (offs : Bool) (T more : Bytes) (s : Stream) (he : s.eoc = none)
    (hT : Terminator T) (hr : s.fh.rest = T ++ more) :
    readRecord offs s = readRecord offs { s with fh := { s.fh with pos := s.fh.pos + T.length } } :=
  readRecord_terminator offs T more s he hT hr

/-- records separated by arbitrary terminators (none, CR LF, LF, any number of them) are all read
back, each with the offset of its own first byte, and each with exactly its payload -/
theorem C06_any_terminators (plan : Nat → List ReadOp) (fuel : Nat) (T : Bytes) (rs : List RT)
    (hT : Terminator T) (hok : OkT rs) (hfuel : rs.length < fuel) :
    scan true plan fuel 0 (Stream.mk' .plain (File.openFile (T ++ archiveT rs)) .warc) =
      (expect some plan 0 T.length rs ++ [⟨⟨some (T ++ archiveT rs).length, none, []⟩, []⟩], .done) := by
  have := scan_complete true plan fuel 0 (Stream.mk' .plain (File.openFile (T ++ archiveT rs)) .warc) T rs
    (by simp [mk']) rfl rfl hT hok (fun _ _ => Or.inl rfl) (by simp [mk', File.openFile, File.rest]) hfuel
  rw [this]
  have hrep : reported .plain true = some := by funext p; rfl
  simp [mk', File.openFile, hrep]

example : OkT [(demo1.R, []), (demo2.R, [10, 13, 10, 10]), (demo1.R, [13, 13, 10])] := by
  intro r hr
  simp only [List.mem_cons, List.not_mem_nil, or_false] at hr
  rcases hr with rfl | rfl | rfl
  · exact ⟨item_R_ok _ demo1_ok, by decide, by decide⟩
  · exact ⟨item_R_ok _ demo2_ok, by decide, by decide⟩
  · exact ⟨item_R_ok _ demo1_ok, by decide, by decide⟩

/-! ### C07 -/

theorem archiveT_append (a b : List RT) : archiveT (a ++ b) = archiveT a ++ archiveT b := by
  simp [archiveT]

theorem archiveT_split (rs : List RT) (i : Nat) (hi : i < rs.length) :
    archiveT rs = archiveT (rs.take i) ++ (rs[i].1.core ++ (rs[i].2 ++ archiveT (rs.drop (i + 1)))) := by
  have h1 : rs.take i ++ rs[i] :: rs.drop (i + 1) = rs := by
    rw [← List.drop_eq_getElem_cons hi, List.take_append_drop]
  have h2 : archiveT (rs[i] :: rs.drop (i + 1)) = rs[i].1.core ++ (rs[i].2 ++ archiveT (rs.drop (i + 1))) := by
    simp only [archiveT, List.flatMap_cons, List.append_assoc]
  rw [← h2, ← archiveT_append, h1]

/-- **C07** Cut an archive of well formed records at any byte position.  Whatever reads are made on
the way, every record whose head and payload lie before the cut is still seen, unaltered, with the
right offset and the right data, at its place in the sequence. -/
theorem C07_truncation_keeps_complete_records (plan : Nat → List ReadOp) (fuel : Nat)
    (rs : List RT) (hok : OkT rs) (cut i : Nat) (hi : i < rs.length)
    (hcut : (archiveT (rs.take i)).length + rs[i].1.core.length ≤ cut) (hfuel : i < fuel) :
    (scan true plan fuel 0 (Stream.mk' .plain (File.openFile ((archiveT rs).take cut)) .warc)).1[i]? =
      some ⟨⟨some (archiveT (rs.take i)).length,
              some (parsed rs[i].1.version rs[i].1.headers), []⟩,
            results (plan i) rs[i].1.body⟩ := by
  have hsplit : archiveT rs = archiveT (rs.take i) ++ (rs[i].1.core ++ (rs[i].2 ++ archiveT (rs.drop (i + 1)))) := by
    exact archiveT_split rs i hi
  have hok' : OkT (rs.take i ++ [(rs[i].1, [])]) := by
    intro r hr
    rcases List.mem_append.1 hr with h | h
    · exact hok r (List.mem_of_mem_take h)
    · simp only [List.mem_singleton] at h
      subst h
      exact ⟨(hok rs[i] (List.getElem_mem hi)).1, by simp, Or.inl rfl⟩
  have hA : archiveT (rs.take i ++ [(rs[i].1, [])]) = archiveT (rs.take i) ++ rs[i].1.core := by
    simp [archiveT]
  have hcutlen : (archiveT (rs.take i ++ [(rs[i].1, [])])).length ≤ cut := by rw [hA]; simpa using hcut
  obtain ⟨more, hmore⟩ : ∃ more, (archiveT rs).take cut = archiveT (rs.take i ++ [(rs[i].1, [])]) ++ more := by
    refine ⟨(rs[i].2 ++ archiveT (rs.drop (i + 1))).take
      (cut - (archiveT (rs.take i ++ [(rs[i].1, [])])).length), ?_⟩
    rw [hsplit, ← List.append_assoc, ← hA, List.take_append, List.take_of_length_le hcutlen]
  have hlen : (rs.take i ++ [(rs[i].1, ([] : Bytes))]).length = i + 1 := by
    simp; omega
  obtain ⟨fuel, rfl⟩ : ∃ k, fuel = (rs.take i ++ [(rs[i].1, ([] : Bytes))]).length + k :=
    ⟨fuel - (i + 1), by rw [hlen]; omega⟩
  rw [scan_archive true plan fuel 0 _ (rs.take i ++ [(rs[i].1, [])]) more (by simp [mk']) rfl hok'
    (fun _ _ => Or.inl rfl) (by simp [mk', File.openFile, File.rest, hmore])]
  have hrep : reported .plain true = some := by funext p; rfl
  have key : ∀ (rs : List RT) (j pos : Nat) (q : RT),
      (expect some plan j pos (rs ++ [q])).length = rs.length + 1 ∧
      (expect some plan j pos (rs ++ [q]))[rs.length]? =
      some ⟨⟨some (pos + (archiveT rs).length), some (parsed q.1.version q.1.headers), []⟩,
        results (plan (j + rs.length)) q.1.body⟩ := by
    intro rs
    induction rs with
    | nil => intro j pos q; simp [expect, archiveT]
    | cons r rs ih =>
      intro j pos q
      obtain ⟨h1, h2⟩ := ih (j + 1) (pos + (r.1.core ++ r.2).length) q
      refine ⟨by simp only [List.cons_append, expect, List.length_cons, h1], ?_⟩
      simp only [List.cons_append, expect, List.length_cons, List.getElem?_cons_succ]
      rw [h2]
      simp [archiveT, Nat.add_assoc, Nat.add_comm, Nat.add_left_comm]
  obtain ⟨h1, h2⟩ := key (rs.take i) 0 0 (rs[i].1, [])
  have htl : (rs.take i).length = i := by simp; omega
  rw [htl] at h1 h2
  simp only [mk', hrep, File.openFile]
  rw [List.getElem?_append_left (by omega), h2]
  simp

/-! ### C08 -/

/-- the outcomes of `k` successive attempts to read a record: `true` when it raised -/
def attempts (offs : Bool) : Nat → Stream → List Bool
  | 0, _ => []
  | k + 1, s =>
    match readRecord offs s with
    | .ok _ s' => false :: attempts offs k s'
    | .raise _ s' => true :: attempts offs k s'
    | .hang => [false]

theorem attempts_short (offs : Bool) (k : Nat) (s : Stream) (n : Nat) (he : s.eoc = some (n : Int))
    (h : s.fh.rest.length < n) : attempts offs k s = List.replicate k true := by
  induction k generalizing s n with
  | zero => rfl
  | succ k ih =>
    obtain ⟨exc, m, hr, hm⟩ := readRecord_short offs n s he h
    simp only [attempts, hr, List.replicate_succ, List.cons.injEq, true_and]
    refine ih _ m rfl ?_
    simp [adv]; omega

/-- **C08** If the file ends before the payload of the last returned record is complete, then
whatever was read of the payload before, the next attempt to read a record raises, and so does
every further attempt. -/
theorem C08_truncated_payload_detected (c : Codec) (offs offs' : Bool) (s s1 : Stream) (e : Entry) (r : Rec) (n : Nat)
    (hl : Live c s) (hread : readRecord offs s = .ok e s1) (hr : e.rcd = some r)
    (hn : payloadLength r = some (n : Int)) (hd : s1.fh.rest.length < n)
    (ops : List ReadOp) (hok : s1.fh.fault = none) :
    ∃ outs s2, runOps ops s1 = .ok outs s2 ∧ ∀ k, attempts offs' k s2 = List.replicate k true := by
  have he := (live_announces hl offs s1 e r hread hr).1
  rw [hn] at he
  have hrun := runOps_ok ops s1 n he (Or.inr hok)
  refine ⟨_, _, hrun, fun k => ?_⟩
  have hle : (results ops (s1.fh.rest.take n)).flatten.length ≤ s1.fh.rest.length := by
    have := congrArg List.length (leftover_suffix ops (s1.fh.rest.take n))
    simp only [List.length_append, List.length_take] at this
    omega
  apply attempts_short offs' k _ _ rfl
  simp only [adv_fh, File.advance_rest, List.length_drop]
  omega

/-- a cut file: if the cut falls into the payload of a record of a well formed archive, reading on
after that record raises (the earlier records are there by C07) -/
theorem C08_cut_in_payload (fuel : Nat) (rs : List RT) (hok : OkT rs) (cut i : Nat) (hi : i < rs.length)
    (hlo : (archiveT (rs.take i)).length + (headBytes rs[i].1.version rs[i].1.headers).length ≤ cut)
    (hhi : cut < (archiveT (rs.take i)).length + rs[i].1.core.length) (hfuel : i + 1 < fuel) :
    ∃ exc, (scan true (fun _ => []) fuel 0
        (Stream.mk' .plain (File.openFile ((archiveT rs).take cut)) .warc)).2 = .raised exc ∧
      (scan true (fun _ => []) fuel 0
        (Stream.mk' .plain (File.openFile ((archiveT rs).take cut)) .warc)).1.length = i + 1 := by
  have hsplit : archiveT rs = archiveT (rs.take i) ++ (rs[i].1.core ++ (rs[i].2 ++ archiveT (rs.drop (i + 1)))) := by
    exact archiveT_split rs i hi
  have hokr := (hok rs[i] (List.getElem_mem hi)).1
  generalize hA : archiveT (rs.take i) = A at *
  generalize hH : headBytes rs[i].1.version rs[i].1.headers = H at *
  have hcore : rs[i].1.core = H ++ rs[i].1.body := by rw [R.core, hH]
  have hcorelen : rs[i].1.core.length = H.length + rs[i].1.body.length := by rw [hcore]; simp
  have htake : (archiveT rs).take cut = A ++ (H ++ rs[i].1.body.take (cut - A.length - H.length)) := by
    rw [hsplit, hcore, List.take_append, List.take_of_length_le (by omega : A.length ≤ cut)]
    rw [List.append_assoc, List.take_append, List.take_of_length_le (by omega : H.length ≤ cut - A.length)]
    rw [List.take_append_of_le_length (by omega)]
  have htl : (rs.take i).length = i := by simp; omega
  obtain ⟨fuel, rfl⟩ : ∃ k, fuel = (rs.take i).length + (k + 2) := ⟨fuel - i - 2, by omega⟩
  rw [scan_archive true (fun _ => []) (fuel + 2) 0 _ (rs.take i) (H ++ rs[i].1.body.take (cut - A.length - H.length))
    (by simp [mk']) rfl (fun r hr => hok r (List.mem_of_mem_take hr)) (fun _ _ => Or.inl rfl)
    (by simp [mk', File.openFile, File.rest, htake, hA])]
  simp only
  generalize hs : (Stream.mk' .plain (File.openFile ((archiveT rs).take cut)) .warc).adv (archiveT (rs.take i)).length = s
  have hsr : s.fh.rest = [] ++ (H ++ rs[i].1.body.take (cut - A.length - H.length)) := by
    rw [← hs]; simp [mk', File.openFile, File.rest, htake, hA]
  have hse : s.eoc = none := by rw [← hs]; rfl
  have hhead := readRecord_head true [] rs[i].1.version rs[i].1.headers
    (rs[i].1.body.take (cut - A.length - H.length)) s
    (by rw [← hs]; simp [mk']) hse ⟨by simp, Or.inl rfl⟩ hokr.version hokr.headers
    (Or.inl (by rw [← hs]; rfl)) (by rw [hH]; exact hsr)
  rw [hokr.length, hH] at hhead
  have hex : ∀ t : Stream, t.eoc = some (rs[i].1.body.length : Int) → t.fh.rest.length < rs[i].1.body.length →
      ∃ exc, scan true (fun _ => []) (fuel + 1) (0 + (rs.take i).length + 1) t = ([], .raised exc) := by
    intro t h1 h2
    obtain ⟨exc, m, h3, _⟩ := readRecord_short true rs[i].1.body.length t h1 h2
    exact ⟨exc, by simp [scan, h3]⟩
  obtain ⟨exc, hexc⟩ := hex { s.adv (([] : Bytes).length + H.length) with eoc := some (rs[i].1.body.length : Int) } rfl (by
    simp only [adv_fh, File.advance_rest, hsr, List.nil_append, List.length_nil, Nat.zero_add, List.drop_left,
      List.length_take]
    omega)
  have hscan : scan true (fun _ => []) (fuel + 2) (0 + (rs.take i).length) s =
      ([⟨⟨reported s.kind true (s.fh.pos + ([] : Bytes).length), some (parsed rs[i].1.version rs[i].1.headers), []⟩, []⟩],
        .raised exc) := by
    rw [scan, hhead]
    simp only [runOps, M.pure_apply, hexc]
  rw [hscan]
  refine ⟨exc, rfl, ?_⟩
  have hexplen : ∀ (rs : List RT) (j pos : Nat) rep, (expect rep (fun _ => []) j pos rs).length = rs.length := by
    intro rs
    induction rs with
    | nil => intros; rfl
    | cons r rs ih => intros; simp [expect, ih]
  simp [hexplen, htl]

/-! ### the hypotheses of C04, C05, C08 can be met -/

/-- a stream over the first record of the demo archive, cut after `k` payload bytes -/
def demoStream (k : Nat) : Stream :=
  Stream.mk' .plain (File.openFile (headBytes demo1.R.version demo1.R.headers ++ demo1.R.body.take k)) .warc

theorem demo_live (k : Nat) : Live toy (demoStream k) :=
  .opened (cls := some .warc) (name := false) (gz := .off) (off := none)
    (contents := headBytes demo1.R.version demo1.R.headers ++ demo1.R.body.take k) rfl

theorem demo_read (k : Nat) : ∃ s1, readRecord true (demoStream k) =
    .ok ⟨some 0, some (parsed demo1.R.version demo1.R.headers), []⟩ s1 ∧
    s1.fh.rest = demo1.R.body.take k ∧ s1.fh.fault = none ∧ declaredLength demo1.R.headers = (31 : Nat) := by
  have hok := item_R_ok demo1 demo1_ok
  have h := readRecord_head true [] demo1.R.version demo1.R.headers (demo1.R.body.take k) (demoStream k)
    (by simp [demoStream, mk']) rfl ⟨by simp, Or.inl rfl⟩ hok.version hok.headers (Or.inl rfl)
    (by simp [demoStream, mk', File.openFile, File.rest])
  refine ⟨_, h, ?_, rfl, ?_⟩
  · simp [demoStream, mk', File.openFile, File.rest]
  · rw [hok.length]; rfl

example : ∃ outs s2, ∃ s1, readRecord true (demoStream 31) = .ok ⟨some 0, some (parsed demo1.R.version demo1.R.headers), []⟩ s1 ∧
    runOps [.readline none, .read (some 5), .readinto 100, .read none] s1 = .ok outs s2 ∧
    outs = results [.readline none, .read (some 5), .readinto 100, .read none] demo1.R.body := by
  obtain ⟨s1, h1, h2, h3, h4⟩ := demo_read 31
  obtain ⟨outs, s2, a, b, _⟩ := C04_reads_stay_inside toy true (demoStream 31) s1 _ _ 31 (demo_live _) h1 rfl (congrArg some h4) (Or.inr h3)
    [.readline none, .read (some 5), .readinto 100, .read none]
  refine ⟨outs, s2, s1, h1, a, ?_⟩
  rw [b, h2]; rfl

example : ∃ outs s1 s2, readRecord true (demoStream 31) = .ok ⟨some 0, some (parsed demo1.R.version demo1.R.headers), []⟩ s1 ∧
    runOps [.readline none] s1 = .ok outs s2 ∧ readRecord true s2 = readRecord true s1 := by
  obtain ⟨s1, h1, h2, h3, h4⟩ := demo_read 31
  obtain ⟨outs, s2, a, b⟩ := C05_next_record_independent toy true true (demoStream 31) s1 _ _ 31 (demo_live _) h1 rfl (congrArg some h4)
    (by rw [h2]; decide) [.readline none]
  exact ⟨outs, s1, s2, h1, a, b⟩

example : ∃ outs s1 s2, readRecord true (demoStream 20) = .ok ⟨some 0, some (parsed demo1.R.version demo1.R.headers), []⟩ s1 ∧
    runOps [.read (some 7)] s1 = .ok outs s2 ∧ ∀ k, attempts true k s2 = List.replicate k true := by
  obtain ⟨s1, h1, h2, h3, h4⟩ := demo_read 20
  obtain ⟨outs, s2, a, b⟩ := C08_truncated_payload_detected toy true true (demoStream 20) s1 _ _ 31 (demo_live _) h1 rfl (congrArg some h4)
    (by rw [h2]; decide) [.read (some 7)] h3
  exact ⟨outs, s1, s2, h1, a, b⟩

/-- an ARC file with two records, the length of the second being the text `len` -/
def Spec.arcText (len : Bytes) : Bytes :=
  b! "filedesc://a 0.0.0.0 20000101000001 text/plain 62\n1 0 x\nURL IP-address Archive-date Content-type Archive-length\n" ++
  b! "http://h/ 1.2.3.4 20000101000001 text/html " ++ len ++ b! "\nhello\nworld"

theorem demo_arc (len : Bytes) (o : Option Int)
    (h : (match readRecord true (Stream.mk' .plain (File.openFile (arcText len)) (.arc ArcSt.init)) with
      | .ok _ s => (match readRecord true s with
        | .ok e s1 => (match e.rcd with
          | some r => decide (payloadLength r = o) && s1.fh.fault.isNone && decide (s1.fh.rest = b! "hello\nworld")
          | none => false)
        | _ => false)
      | _ => false) = true) :
    ∃ s s1 e r, Live toy s ∧ readRecord true s = .ok e s1 ∧ e.rcd = some r ∧ payloadLength r = o ∧ s1.fh.fault = none ∧
      s1.fh.rest = b! "hello\nworld" := by
  cases h0 : readRecord true (Stream.mk' .plain (File.openFile (arcText len)) (.arc ArcSt.init)) with
  | hang => simp [h0] at h
  | raise e t => simp [h0] at h
  | ok e0 s =>
    simp only [h0] at h
    cases hx : readRecord true s with
    | hang => simp [hx] at h
    | raise e t => simp [hx] at h
    | ok e s1 =>
      simp only [hx] at h
      cases hr : e.rcd with
      | none => simp [hr] at h
      | some r =>
        simp only [hr, Bool.and_eq_true, decide_eq_true_eq, Option.isNone_iff_eq_none] at h
        exact ⟨_, s1, e, r, .record (.opened (cls := some .arc) (name := false) (gz := .off) (off := none) (contents := arcText len) rfl) h0,
          hx, hr, h.1.1, h.1.2, h.2⟩

/-- an ARC record of 6 bytes: C04, C05, C08 and C16 apply to it -/
example : ∃ s s1 e r, Live toy s ∧ readRecord true s = .ok e s1 ∧ e.rcd = some r ∧ payloadLength r = some ((6 : Nat) : Int) ∧ s1.fh.fault = none ∧
    s1.fh.rest = b! "hello\nworld" := demo_arc (b! "6") (some 6) (by decide +kernel)

/-- an ARC record without a length: `C04_no_length` applies to it -/
example : ∃ s s1 e r, Live toy s ∧ readRecord true s = .ok e s1 ∧ e.rcd = some r ∧ payloadLength r = none ∧ s1.fh.fault = none ∧
    s1.fh.rest = b! "hello\nworld" := demo_arc (b! "x") none (by decide +kernel)

/-- C07 and C08 for two records, the file being cut inside the second one -/
example (cut : Nat) (h1 : (demo1.R.bytes).length + (headBytes demo1.R.version demo1.R.headers).length ≤ cut)
    (h2 : cut < demo1.R.bytes.length + demo1.R.core.length) :
    OkT [(demo1.R, CRLF ++ CRLF), (demo1.R, CRLF ++ CRLF)] ∧
    (archiveT ([(demo1.R, CRLF ++ CRLF), (demo1.R, CRLF ++ CRLF)].take 0)).length + demo1.R.core.length ≤ cut ∧
    (archiveT ([(demo1.R, CRLF ++ CRLF), (demo1.R, CRLF ++ CRLF)].take 1)).length +
      (headBytes demo1.R.version demo1.R.headers).length ≤ cut ∧
    cut < (archiveT ([(demo1.R, CRLF ++ CRLF), (demo1.R, CRLF ++ CRLF)].take 1)).length + demo1.R.core.length := by
  have hl : demo1.R.bytes.length = demo1.R.core.length + 4 := by simp [R.bytes, recordBytes, R.core]; omega
  refine ⟨?_, ?_, ?_, ?_⟩
  · intro r hr
    simp only [List.mem_cons, List.not_mem_nil, or_false, or_self] at hr
    subst hr
    exact ⟨item_R_ok _ demo1_ok, terminator_crlf2⟩
  · simp [archiveT]; omega
  · simp [archiveT]; omega
  · simp [archiveT]; omega

end Warc
