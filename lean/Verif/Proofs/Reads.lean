import Verif.Proofs.RoundTrip
import Verif.Spec.Reads
/-
  `content_file` behaves like a file that contains exactly the payload.
-/
set_option linter.all false
namespace Warc
open Rx Stream Spec

theorem lineOf_eq (x : Bytes) : lineOf x = File.firstLine x := by
  induction x with
  | nil => rfl
  | cons c cs ih => simp only [lineOf, File.firstLine, ih, beq_iff_eq]

theorem firstLine_take (x : Bytes) (n : Nat) :
    File.firstLine (x.take n) = (File.firstLine x).take n := by
  induction x generalizing n with
  | nil => simp [File.firstLine]
  | cons c cs ih =>
    cases n with
    | zero => simp [File.firstLine]
    | succ n =>
      simp only [List.take_succ_cons, File.firstLine]
      split <;> simp [ih]

theorem firstLine_take_length {x : Bytes} {n : Nat} (h : (File.firstLine x).getLast? ≠ some 10)
    (hn : (File.firstLine x).length < n) : x.length < n := by
  rcases File.firstLine_cases x with ⟨u, more, hu, hx, hf⟩ | ⟨hx, hf⟩
  · rw [hf] at h; simp at h
  · rw [hf] at hn; exact hn

theorem result_length_le (op : ReadOp) (p : Bytes) : (op.result p).length ≤ p.length := by
  have h := File.firstLine_length_le p
  cases op with
  | read n => cases n <;> simp [ReadOp.result]; omega
  | readline n => cases n <;> simp [ReadOp.result, lineOf_eq] <;> omega
  | readinto n => simp [ReadOp.result]; omega

theorem result_prefix (op : ReadOp) (p : Bytes) : op.result p <+: p := by
  have h := File.firstLine_prefix p
  cases op with
  | read n =>
    cases n
    · simp [ReadOp.result]
    · exact List.take_prefix _ _
  | readline n =>
    cases n
    · simpa [ReadOp.result, lineOf_eq] using h
    · simp only [ReadOp.result, lineOf_eq]; exact (List.take_prefix _ _).trans h
  | readinto n => exact List.take_prefix _ _

/-- one call -/
theorem op_run (op : ReadOp) (s : Stream) (e : Nat) (he : s.eoc = some (e : Int))
    (h : e ≤ s.fh.rest.length ∨ s.fh.fault = none) :
    op.run s = .ok (op.result (s.fh.rest.take e))
      { s.adv (op.result (s.fh.rest.take e)).length with
        eoc := some ((e - (op.result (s.fh.rest.take e)).length : Nat) : Int) } := by
  have hle := result_length_le op (s.fh.rest.take e)
  rw [List.length_take] at hle
  -- raw reads of any size within the limit
  have raw : ∀ k, k ≤ e → rawRead (some (k : Int)) s = .ok ((s.fh.rest.take e).take k)
      { s.adv ((s.fh.rest.take e).take k).length with
        eoc := some ((e - ((s.fh.rest.take e).take k).length : Nat) : Int) } := by
    intro k hk
    have ht : (s.fh.rest.take e).take k = s.fh.rest.take k := by
      rw [List.take_take]; congr 1; omega
    rw [ht]
    by_cases hlen : k ≤ s.fh.rest.length
    · rw [rawRead_ok s k hlen]
      simp [he, Nat.min_eq_left hlen]
      omega
    · have hlt : s.fh.rest.length < k := by omega
      have hf : s.fh.fault = none := by
        rcases h with h | h
        · omega
        · exact h
      rw [rawRead_short s k hlt hf, List.take_of_length_le (by omega)]
      simp [he]; omega
  have rl : ∀ k, k ≤ e → ∀ lim, limitOf s.eoc lim = some (k : Int) →
      Stream.readline lim s = .ok ((File.firstLine (s.fh.rest.take e)).take k)
      { s.adv ((File.firstLine (s.fh.rest.take e)).take k).length with
        eoc := some ((e - ((File.firstLine (s.fh.rest.take e)).take k).length : Nat) : Int) } := by
    intro k hk lim hlim
    have ht : (File.firstLine (s.fh.rest.take e)).take k = (File.firstLine s.fh.rest).take k := by
      rw [firstLine_take, List.take_take]; congr 1; omega
    rw [ht]
    have hdel : File.readline (some (k : Int)) s.fh =
        .ok ((File.firstLine s.fh.rest).take k) (s.fh.advance ((File.firstLine s.fh.rest).take k).length) := by
      simp only [File.readline, Int.natCast_nonneg, if_true, Int.toNat_natCast]
      by_cases hsh : (File.firstLine s.fh.rest).getLast? ≠ some 10 ∧ (File.firstLine s.fh.rest).length < k
      · have := firstLine_take_length hsh.1 hsh.2
        have hf : s.fh.fault = none := by
          rcases h with h | h
          · omega
          · exact h
        exact File.deliver_nofault _ _ _ hf
      · rw [decide_eq_false hsh]; simp
    simp only [Stream.readline, M.bind_apply, M.get_apply, onFile, hlim, hdel, consume, M.modify_apply,
      M.pure_apply]
    simp [adv, he]
    have := File.firstLine_length_le s.fh.rest
    omega
  cases op with
  | read n =>
    cases n with
    | none =>
      have := raw e (Nat.le_refl _)
      simp only [List.take_take, Nat.min_self] at this
      simpa [ReadOp.run, Stream.read, limitOf, he, ReadOp.result] using this
    | some k =>
      have := raw (min k e) (by omega)
      have hmin : min (k : Int) (e : Int) = ((min k e : Nat) : Int) := by omega
      have ht : (s.fh.rest.take e).take (min k e) = (s.fh.rest.take e).take k := by
        simp only [List.take_take]; congr 1; omega
      rw [ht] at this
      simpa only [ReadOp.run, Stream.read, M.bind_apply, M.get_apply, limitOf, he, Option.map_some, hmin,
        ReadOp.result] using this
  | readline n =>
    cases n with
    | none =>
      have := rl e (Nat.le_refl _) none (by simp [limitOf, he])
      have ht : (File.firstLine (s.fh.rest.take e)).take e = File.firstLine (s.fh.rest.take e) := by
        apply List.take_of_length_le
        have := File.firstLine_length_le (s.fh.rest.take e)
        simp at this; omega
      rw [ht] at this
      simpa only [ReadOp.run, ReadOp.result, lineOf_eq, Option.map_none] using this
    | some k =>
      have hmin : min (k : Int) (e : Int) = ((min k e : Nat) : Int) := by omega
      have := rl (min k e) (by omega) (some (k : Int)) (by simp [limitOf, he]; omega)
      have ht : (File.firstLine (s.fh.rest.take e)).take (min k e) =
          (File.firstLine (s.fh.rest.take e)).take k := by
        rw [firstLine_take]; simp only [List.take_take]; congr 1; omega
      rw [ht] at this
      simpa only [ReadOp.run, ReadOp.result, lineOf_eq, Option.map_some] using this
  | readinto k =>
    have := raw (min k e) (by omega)
    have hmin : min (k : Int) (e : Int) = ((min k e : Nat) : Int) := by omega
    have ht : (s.fh.rest.take e).take (min k e) = (s.fh.rest.take e).take k := by
      simp only [List.take_take]; congr 1; omega
    rw [ht] at this
    simpa only [ReadOp.run, Stream.readinto, Stream.read, M.bind_apply, M.get_apply, limitOf, he, hmin,
      ReadOp.result] using this

theorem leftover_suffix (ops : List ReadOp) (p : Bytes) :
    (results ops p).flatten ++ leftover ops p = p := by
  induction ops generalizing p with
  | nil => simp [results, leftover]
  | cons op ops ih =>
    simp only [results, leftover, List.flatten_cons, List.append_assoc, ih]
    exact List.prefix_iff_eq_append.1 (result_prefix op p)

/-- any sequence of calls -/
theorem runOps_ok (ops : List ReadOp) (s : Stream) (e : Nat) (he : s.eoc = some (e : Int))
    (h : e ≤ s.fh.rest.length ∨ s.fh.fault = none) :
    runOps ops s = .ok (results ops (s.fh.rest.take e))
      { s.adv (results ops (s.fh.rest.take e)).flatten.length with
        eoc := some ((e - (results ops (s.fh.rest.take e)).flatten.length : Nat) : Int) } := by
  induction ops generalizing s e with
  | nil =>
    obtain ⟨fh, eoc, kind, parser⟩ := s
    simp at he; subst he
    simp [runOps, results]
  | cons op ops ih =>
    have hle := result_length_le op (s.fh.rest.take e)
    rw [List.length_take] at hle
    simp only [runOps, M.bind_apply, op_run op s e he h]
    have := ih { s.adv (op.result (s.fh.rest.take e)).length with
        eoc := some ((e - (op.result (s.fh.rest.take e)).length : Nat) : Int) }
        (e - (op.result (s.fh.rest.take e)).length) rfl (by
          rcases h with h | h
          · left; simp; omega
          · right; exact h)
    have hrest : (s.fh.rest.drop (op.result (s.fh.rest.take e)).length).take
        (e - (op.result (s.fh.rest.take e)).length) =
        (s.fh.rest.take e).drop (op.result (s.fh.rest.take e)).length := by
      rw [List.drop_take]
    simp only [adv, File.advance_rest, hrest] at this ⊢
    simp only [this, M.pure_apply, results]
    simp [Nat.add_assoc, Nat.sub_sub]

/-! ### the next record -/

theorem readRecord_skip (offs : Bool) (n : Nat) (s : Stream) (he : s.eoc = some (n : Int))
    (h : n ≤ s.fh.rest.length) :
    readRecord offs s = readRecord offs { s.adv n with eoc := none } := by
  simp only [readRecord, M.bind_apply, M.get_apply, he, skipToEoc_ok n s he h, M.modify_apply,
    M.pure_apply]

theorem readRecord_neg (offs : Bool) (e : Int) (s : Stream) (he : s.eoc = some e) (h : e ≤ 0) :
    readRecord offs s = readRecord offs { s with eoc := none } := by
  simp only [readRecord, M.bind_apply, M.get_apply, he, skipToEoc_neg e s he h, M.modify_apply,
    M.pure_apply]

theorem readRecord_short (offs : Bool) (n : Nat) (s : Stream) (he : s.eoc = some (n : Int))
    (h : s.fh.rest.length < n) :
    ∃ exc m, readRecord offs s = .raise exc { s.adv s.fh.rest.length with eoc := some ((m : Nat) : Int) } ∧
      0 < m := by
  obtain ⟨exc, m, h1, h2⟩ := skipToEoc_short n s he h
  refine ⟨exc, m, ?_, h2⟩
  simp only [readRecord, M.bind_apply, M.get_apply, he, h1]

/-- the state after some reads leads to the same next record -/
theorem readRecord_after_ops (offs : Bool) (ops : List ReadOp) (s : Stream) (n : Nat)
    (he : s.eoc = some (n : Int)) (h : n ≤ s.fh.rest.length) (outs : List Bytes) (s' : Stream)
    (hrun : runOps ops s = .ok outs s') : readRecord offs s' = readRecord offs s := by
  rw [runOps_ok ops s n he (Or.inl h)] at hrun
  simp only [Res.ok.injEq] at hrun
  obtain ⟨rfl, rfl⟩ := hrun
  have hle : (results ops (s.fh.rest.take n)).flatten.length ≤ n := by
    have := congrArg List.length (leftover_suffix ops (s.fh.rest.take n))
    simp only [List.length_append, List.length_take] at this
    omega
  rw [readRecord_skip offs n s he h]
  rw [readRecord_skip offs (n - (results ops (s.fh.rest.take n)).flatten.length) _ rfl (by
    simp only [adv_fh, File.advance_rest, List.length_drop]; omega)]
  congr 1
  simp only [adv, File.advance_advance, Nat.add_sub_cancel' hle]

end Warc
