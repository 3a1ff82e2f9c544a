import Verif.Proofs.WarcParse2
/-
  Skipping, the terminator loop and `_read_record`.
-/
set_option linter.all false
namespace Warc
open Rx Stream

namespace Stream

/-! ### raw reads -/

theorem fileRead_ok (f : File) (n : Nat) (h : n ≤ f.rest.length) :
    File.read (some (n : Int)) f = .ok (f.rest.take n) (f.advance n) := by
  have h1 : ¬ (f.rest.length < n) := by omega
  simp [File.read, h1, Nat.min_eq_left h]

theorem fileRead_short (f : File) (n : Nat) (h : f.rest.length < n) (hf : f.fault = none) :
    File.read (some (n : Int)) f = .ok f.rest (f.advance f.rest.length) := by
  have : f.rest.take n = f.rest := List.take_of_length_le (by omega)
  simp [File.read, this, File.deliver_nofault _ _ _ hf]

theorem fileRead_short_fault (f : File) (n : Nat) (h : f.rest.length < n) (e) (hf : f.fault = some e) :
    File.read (some (n : Int)) f = .raise e (f.advance f.rest.length) := by
  simp [File.read, h, File.deliver, hf]

theorem rawRead_ok (s : Stream) (n : Nat) (h : n ≤ s.fh.rest.length) :
    rawRead (some (n : Int)) s =
      .ok (s.fh.rest.take n) { s.adv n with eoc := s.eoc.map (· - (n : Int)) } := by
  simp only [rawRead, M.bind_apply, onFile, fileRead_ok _ _ h, consume, M.modify_apply, M.pure_apply]
  simp [adv, Nat.min_eq_left h]

theorem rawRead_short (s : Stream) (n : Nat) (h : s.fh.rest.length < n) (hf : s.fh.fault = none) :
    rawRead (some (n : Int)) s =
      .ok s.fh.rest { s.adv s.fh.rest.length with eoc := s.eoc.map (· - (s.fh.rest.length : Int)) } := by
  simp only [rawRead, M.bind_apply, onFile, fileRead_short _ _ h hf, consume, M.modify_apply, M.pure_apply]
  simp [adv]

theorem rawRead_short_fault (s : Stream) (n : Nat) (h : s.fh.rest.length < n) (e) (hf : s.fh.fault = some e) :
    rawRead (some (n : Int)) s = .raise e (s.adv s.fh.rest.length) := by
  simp only [rawRead, M.bind_apply, onFile, fileRead_short_fault _ _ h e hf]
  rfl

/-! ### skipping -/

theorem skipLoop_neg (s : Stream) (e : Int) (he : s.eoc = some e) (h : e ≤ 0) (fuel : Nat) :
    skipLoop (fuel + 1) s = .ok () s := by
  have : ¬ (0 < e) := by omega
  simp [skipLoop, he, this]

theorem skipLoop_ok (fuel : Nat) (n : Nat) (s : Stream) (he : s.eoc = some (n : Int))
    (h : n ≤ s.fh.rest.length) (hf : n < fuel) :
    skipLoop fuel s = .ok () { s.adv n with eoc := some 0 } := by
  induction fuel generalizing n s with
  | zero => omega
  | succ fuel ih =>
    by_cases h0 : n = 0
    · subst h0
      rw [skipLoop_neg s _ he (by simp)]
      obtain ⟨fh, eoc, kind, parser⟩ := s
      simp at he; subst he; rfl
    · simp only [skipLoop, M.bind_apply, M.get_apply, he]
      rw [if_pos (by omega)]
      have hmin : min CHUNK_SIZE (n : Int) = ((min 8192 n : Nat) : Int) := by
        show min (8192 : Int) n = _; omega
      have hle : min 8192 n ≤ s.fh.rest.length := by omega
      simp only [hmin, M.bind_apply, rawRead_ok s _ hle]
      rw [if_neg (by simp; omega)]
      rw [ih (n - min 8192 n)]
      · simp only [adv_adv, Res.ok.injEq, true_and]
        have : min 8192 n + (n - min 8192 n) = n := by omega
        simp [adv, this]
      · simp [he]; omega
      · simp; omega
      · omega

theorem skipLoop_short (fuel : Nat) (n : Nat) (s : Stream) (he : s.eoc = some (n : Int))
    (h : s.fh.rest.length < n) (hf : s.fh.rest.length < fuel) :
    ∃ exc m, skipLoop fuel s = .raise exc { s.adv s.fh.rest.length with eoc := some ((m : Nat) : Int) } ∧ 0 < m := by
  induction fuel generalizing n s with
  | zero => omega
  | succ fuel ih =>
    simp only [skipLoop, M.bind_apply, M.get_apply, he]
    rw [if_pos (by omega)]
    have hmin : min CHUNK_SIZE (n : Int) = ((min 8192 n : Nat) : Int) := by
      show min (8192 : Int) n = _; omega
    by_cases hle : min 8192 n ≤ s.fh.rest.length
    · simp only [hmin, M.bind_apply, rawRead_ok s _ hle]
      rw [if_neg (by simp; omega)]
      have := ih (n - min 8192 n) { s.adv (min 8192 n) with eoc := s.eoc.map (· - ((min 8192 n : Nat) : Int)) }
        (by simp [he]; omega) (by simp; omega) (by simp; omega)
      obtain ⟨exc, m, h1, h2⟩ := this
      refine ⟨exc, m, ?_, h2⟩
      rw [h1]
      simp only [Res.raise.injEq, true_and, adv, File.advance_advance, File.advance_rest, List.length_drop]
      congr 2
      omega
    · have hlt : s.fh.rest.length < min 8192 n := by omega
      cases hfault : s.fh.fault with
      | none =>
        simp only [hmin, M.bind_apply, rawRead_short s _ hlt hfault]
        rw [if_pos (by omega)]
        refine ⟨.generic "expected more bytes", n - s.fh.rest.length, ?_, by omega⟩
        have : (n : Int) - (s.fh.rest.length : Int) = ((n - s.fh.rest.length : Nat) : Int) := by omega
        simp only [M.throw_apply, he, Option.map_some, this]
      | some e =>
        simp only [hmin, M.bind_apply, rawRead_short_fault s _ hlt e hfault]
        exact ⟨e, n, by simp [adv, he], by omega⟩

theorem skipToEoc_ok (n : Nat) (s : Stream) (he : s.eoc = some (n : Int))
    (h : n ≤ s.fh.rest.length) : skipToEoc s = .ok () { s.adv n with eoc := some 0 } := by
  simp only [skipToEoc, M.bind_apply, M.get_apply, he]
  exact skipLoop_ok _ n s he h (by omega)

theorem skipToEoc_neg (e : Int) (s : Stream) (he : s.eoc = some e) (h : e ≤ 0) :
    skipToEoc s = .ok () s := by
  simp only [skipToEoc, M.bind_apply, M.get_apply, he]
  exact skipLoop_neg s e he h _

theorem skipToEoc_short (n : Nat) (s : Stream) (he : s.eoc = some (n : Int))
    (h : s.fh.rest.length < n) :
    ∃ exc m, skipToEoc s = .raise exc { s.adv s.fh.rest.length with eoc := some ((m : Nat) : Int) } ∧ 0 < m := by
  simp only [skipToEoc, M.bind_apply, M.get_apply, he]
  exact skipLoop_short _ n s he h (by omega)

/-! ### the terminator loop -/

/-- bytes that only consist of CR and LF -/
def isCRLF (c : Byte) : Bool := c == 13 || c == 10

/-- does the line consist of CR and LF only (and is not empty)? -/
def isTerm (line : Bytes) : Bool := !line.isEmpty && line.all isCRLF

theorem blankLineRx_isTerm (line : Bytes) : rxTest blankLineRx line = isTerm line := rxTest_blank line

theorem blankLoop_spec (offsets : Bool) (fuel : Nat) (T more : Bytes) (s : Stream)
    (hT : ∀ c ∈ T, isCRLF c = true) (hlast : T = [] ∨ T.getLast? = some 10)
    (hr : s.fh.rest = T ++ more) (hn : isTerm (File.firstLine more) = false)
    (hok : s.fh.fault = none ∨ 10 ∈ more) (hf : T.length < fuel) :
    blankLoop offsets fuel s =
      .ok (if offsets then some (s.fh.pos + T.length) else none, File.firstLine more)
        (s.adv (T.length + (File.firstLine more).length)) := by
  induction fuel generalizing T s with
  | zero => omega
  | succ fuel ih =>
    simp only [blankLoop, M.bind_apply, M.get_apply]
    by_cases hT0 : T = []
    · subst hT0
      rw [List.nil_append] at hr
      rw [onFile_readline_ok s (by simpa [LineOk, hr] using hok), hr]
      simp only [blankLineRx_isTerm, hn]
      cases offsets <;> simp [File.tell]
    · have h10 : (10 : UInt8) ∈ T := by
        rcases hlast with h | h
        · exact absurd h hT0
        · exact List.mem_of_getLast? h
      obtain ⟨u, T', hx, hu⟩ := List.eq_append_cons_of_mem h10
      rw [onFile_readline_line s u (T' ++ more) hu (by rw [hr, hx]; simp)]
      have hterm : isTerm (u ++ [10]) = true := by
        simp only [isTerm, List.all_append, List.all_cons, List.all_nil, Bool.and_true]
        have : u.all isCRLF = true := List.all_eq_true.2 (fun c hc => hT c (by rw [hx]; simp [hc]))
        simp [this, isCRLF]
      simp only [blankLineRx_isTerm, hterm, if_true]
      rw [ih T' (s.adv (u.length + 1))]
      · subst hx
        simp only [adv_fh, File.advance_pos, List.length_append, List.length_cons, adv_adv]
        cases offsets <;> simp [Nat.add_assoc, Nat.add_comm, Nat.add_left_comm]
      · intro c hc; exact hT c (by rw [hx]; simp [hc])
      · by_cases h' : T' = []
        · exact Or.inl h'
        · right
          rcases hlast with h | h
          · exact absurd h hT0
          · rw [hx] at h
            cases T' with
            | nil => exact absurd rfl h'
            | cons a b => simpa [List.getLast?_append, List.getLast?_cons_cons] using h
      · rw [adv_fh, File.advance_rest, hr, hx]; simp [List.drop_append]
      · simpa using hok
      · rw [hx] at hf; simp at hf; omega

theorem blankLoop_no_hang (offsets : Bool) (fuel : Nat) (s : Stream)
    (hf : s.fh.rest.length + 1 < fuel) : blankLoop offsets fuel s ≠ .hang := by
  induction fuel generalizing s with
  | zero => omega
  | succ fuel ih =>
    simp only [blankLoop, M.bind_apply, M.get_apply]
    cases hr : onFile (File.readline none) s with
    | hang =>
      simp only [onFile] at hr
      split at hr
      · simp at hr
      · simp at hr
      · rename_i h
        unfold File.readline File.deliver at h
        simp only at h
        split at h <;> simp at h
    | raise e s1 => simp
    | ok l s1 =>
      simp only
      split
      · rename_i hterm
        apply ih
        simp only [onFile] at hr
        split at hr
        · rename_i a f hfl
          simp only [Res.ok.injEq] at hr
          obtain ⟨rfl, rfl⟩ := hr
          rw [blankLineRx_isTerm] at hterm
          unfold File.readline File.deliver at hfl
          simp only at hfl
          split at hfl
          · simp at hfl
          · simp only [Res.ok.injEq] at hfl
            obtain ⟨rfl, rfl⟩ := hfl
            have hne : File.firstLine s.fh.rest ≠ [] := by
              intro e; simp [e, isTerm] at hterm
            have hle := File.firstLine_length_le s.fh.rest
            have : 0 < (File.firstLine s.fh.rest).length := List.length_pos_iff.2 hne
            simp
            omega
        · simp at hr
        · simp at hr
      · simp

/-- inversion of the terminator loop -/
theorem blankLoop_inv (offsets : Bool) (fuel : Nat) (s s' : Stream) (off : Option Nat) (line : Bytes)
    (h : blankLoop offsets fuel s = .ok (off, line) s') :
    ∃ T more, s.fh.rest = T ++ more ∧ (∀ c ∈ T, isCRLF c = true) ∧
      line = File.firstLine more ∧ isTerm line = false ∧
      s' = s.adv (T.length + line.length) ∧
      off = (if offsets then some (s.fh.pos + T.length) else none) := by
  induction fuel generalizing s with
  | zero => simp [blankLoop] at h
  | succ fuel ih =>
    simp only [blankLoop, M.bind_apply, M.get_apply] at h
    cases hr : onFile (File.readline none) s with
    | hang => simp [hr] at h
    | raise e s1 => simp [hr] at h
    | ok l s1 =>
      simp only [hr] at h
      have hshape : l = File.firstLine s.fh.rest ∧ s1 = s.adv l.length := by
        simp only [onFile] at hr
        split at hr
        · rename_i a f hfl
          simp only [Res.ok.injEq] at hr
          obtain ⟨rfl, rfl⟩ := hr
          unfold File.readline File.deliver at hfl
          simp only at hfl
          split at hfl
          · simp at hfl
          · simp only [Res.ok.injEq] at hfl
            obtain ⟨rfl, rfl⟩ := hfl
            exact ⟨rfl, rfl⟩
        · simp at hr
        · simp at hr
      obtain ⟨hl, hs1⟩ := hshape
      rw [blankLineRx_isTerm] at h
      by_cases ht : isTerm l = true
      · rw [if_pos ht] at h
        obtain ⟨T, more, h1, h2, h3, h4, h5, h6⟩ := ih s1 h
        refine ⟨l ++ T, more, ?_, ?_, h3, h4, ?_, ?_⟩
        · have := File.firstLine_append_drop s.fh.rest
          rw [← hl] at this
          rw [← this, List.append_assoc, ← h1, hs1]; simp
        · intro c hc
          rcases List.mem_append.1 hc with hc | hc
          · simp only [isTerm, Bool.and_eq_true, List.all_eq_true] at ht
            exact ht.2 c hc
          · exact h2 c hc
        · rw [h5, hs1]; simp [Nat.add_assoc]
        · rw [h6, hs1]; cases offsets <;> simp [Nat.add_assoc]
      · rw [if_neg ht] at h
        simp only [M.pure_apply, Res.ok.injEq, Prod.mk.injEq] at h
        obtain ⟨⟨rfl, rfl⟩, rfl⟩ := h
        exact ⟨[], s.fh.rest, by simp, by simp, hl, by simpa using ht, by simp [hs1], by
          cases offsets <;> simp [File.tell]⟩

end Stream
end Warc
