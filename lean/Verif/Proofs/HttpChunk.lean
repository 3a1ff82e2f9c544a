import Verif.Proofs.Http
/-
  The chunk reader: evaluation of its stages and equations that hide the fuel.
-/
set_option linter.all false
namespace Warc.Http

/-- the message with the given chunk reader -/
def setR (cr : ChunkSt) (m : Msg) : Msg := { m with reader := some (.chunk cr) }

@[simp] theorem setChunk_apply (cr : ChunkSt) (m : Msg) : setChunk cr m = .ok () (setR cr m) := rfl
@[simp] theorem setR_setR (a b : ChunkSt) (m : Msg) : setR a (setR b m) = setR a m := rfl
@[simp] theorem setR_mode (cr : ChunkSt) (m : Msg) : (setR cr m).mode = m.mode := rfl
@[simp] theorem setR_header (cr : ChunkSt) (m : Msg) : (setR cr m).header = m.header := rfl
@[simp] theorem setR_buffer (cr : ChunkSt) (m : Msg) : (setR cr m).buffer = m.buffer := rfl
@[simp] theorem setR_offset (cr : ChunkSt) (m : Msg) : (setR cr m).offset = m.offset := rfl
@[simp] theorem setR_pend (cr : ChunkSt) (m : Msg) : pend (setR cr m) = pend m := rfl
@[simp] theorem setR_chunks (cr : ChunkSt) (m : Msg) : (setR cr m).bodyChunks = m.bodyChunks := rfl
@[simp] theorem setR_reader (cr : ChunkSt) (m : Msg) : (setR cr m).reader = some (.chunk cr) := rfl
theorem setR_ext (cr : ChunkSt) (m : Msg) (t) : ext (setR cr m) t = setR cr (ext m t) := rfl
theorem setR_took (cr : ChunkSt) (m : Msg) (t) : took (setR cr m) t = setR cr (took m t) := rfl
theorem LineInv.setR {m : Msg} (h : LineInv m) (cr) : LineInv (setR cr m) := h.congr rfl rfl

/-- the size announced by a chunk line -/
def chunkSize (line : Bytes) : Option Int :=
  pyInt 16 (match splitOnce 59 line with
    | some (a, _) => a
    | none => line)

/-- the message after a chunk line -/
def addChunk (m : Msg) (n : Int) : Msg := { m with bodyChunks := m.bodyChunks ++ [(m.buffer.length, n)] }

@[simp] theorem addChunk_mode (m n) : (addChunk m n).mode = m.mode := rfl
@[simp] theorem addChunk_header (m n) : (addChunk m n).header = m.header := rfl
@[simp] theorem addChunk_buffer (m n) : (addChunk m n).buffer = m.buffer := rfl
@[simp] theorem addChunk_offset (m n) : (addChunk m n).offset = m.offset := rfl
theorem LineInv.addChunk {m : Msg} (h : LineInv m) (n) : LineInv (addChunk m n) := h.congr rfl rfl

/-- the reader after a chunk line -/
def afterSize (n : Int) : ChunkSt := { mode := if n = 0 then .trailer else .chunk, start := false, remaining := n }

theorem chunkStart_none {cr : ChunkSt} {m : Msg} (hi : LineInv m) {t : Bytes} (h : 10 ∉ t) :
    chunkStart cr t m = .ok ({ cr with start := false }, []) (ext m t) := by
  simp [chunkStart, feedLine_none hi h]

/-- the buffer as it was -/
def undo (m : Msg) (u : Bytes) : Msg := { took m u with buffer := m.buffer, offset := m.buffer.length }

theorem chunkStart_line {cr : ChunkSt} {m : Msg} (hi : LineInv m) {u : Bytes} (rest : Bytes) (h : 10 ∉ u) :
    chunkStart cr (u ++ 10 :: rest) m =
      match chunkSize (pend m ++ u ++ [10]) with
      | some n => .ok (afterSize n, rest) (addChunk (took m (u ++ [10])) n)
      | none => if cr.start then .raise .brokenChunks (undo m (u ++ [10])) else .raise .valueError (took m (u ++ [10])) := by
  simp only [chunkStart, M.bind_apply, M.get_apply, feedLine_some hi rest h, chunkSize]
  cases hs : splitOnce 59 (pend m ++ u ++ [10]) with
  | none =>
    simp only
    cases hp : pyInt 16 (pend m ++ u ++ [10]) with
    | none =>
      cases cr.start <;> simp [undo, took]
    | some n => simp [addChunk, afterSize]
  | some ab =>
    obtain ⟨a, b⟩ := ab
    simp only
    cases hp : pyInt 16 a with
    | none =>
      cases cr.start <;> simp [undo, took]
    | some n => simp [addChunk, afterSize]

theorem feedLength_part {m : Msg} {t : Bytes} {n : Int} (h : (t.length : Int) < n) :
    feedLength t n m = .ok (n - t.length, []) (took m t) := by
  have hs : sliceTo t n = t := by
    unfold sliceTo; rw [if_pos (by omega), List.take_of_length_le (by omega)]
  simp [feedLength, hs, took]

theorem feedLength_full {m : Msg} (t1 t2 : Bytes) :
    feedLength (t1 ++ t2) t1.length m = .ok (0, t2) (took m t1) := by
  have hs : sliceTo (t1 ++ t2) t1.length = t1 := by
    unfold sliceTo; rw [if_pos (by omega)]; simp
  simp [feedLength, hs, took]

theorem chunkData_neg {cr : ChunkSt} {m : Msg} {t : Bytes} (h : cr.remaining < 0) : chunkData cr t m = .ok (cr, t) m := by
  have : cr.remaining ≠ 0 := by omega
  simp [chunkData, show ¬ 0 < cr.remaining by omega, this]

theorem chunkData_part {cr : ChunkSt} {m : Msg} {t : Bytes} (h : (t.length : Int) < cr.remaining) :
    chunkData cr t m = .ok ({ cr with remaining := cr.remaining - t.length }, []) (took m t) := by
  have h0 : 0 < cr.remaining := by omega
  have h1 : cr.remaining - (t.length : Int) ≠ 0 := by omega
  simp [chunkData, h0, feedLength_part h, h1]

theorem chunkData_eoc_none {cr : ChunkSt} {m : Msg} (hi : LineInv m) {t : Bytes} (h0 : cr.remaining = 0) (h : 10 ∉ t) :
    chunkData cr t m = .ok (cr, []) (ext m t) := by
  obtain ⟨a, b, c⟩ := cr
  simp at h0; subst h0
  simp [chunkData, feedLine_none hi h]

theorem chunkData_eoc_line {cr : ChunkSt} {m : Msg} (hi : LineInv m) {u : Bytes} (rest : Bytes) (h0 : cr.remaining = 0) (h : 10 ∉ u) :
    chunkData cr (u ++ 10 :: rest) m = .ok ({ cr with mode := .start }, rest) (took m (u ++ [10])) := by
  obtain ⟨a, b, c⟩ := cr
  simp at h0; subst h0
  simp only [chunkData, M.bind_apply, feedLine_some hi rest h, M.pure_apply, show ¬ ((0 : Int) < 0) by omega, if_false, if_true]
  cases hl : pend m ++ u ++ [10] with
  | nil => simp at hl
  | cons x xs => rfl

theorem chunkData_full {cr : ChunkSt} {m : Msg} (t1 t2 : Bytes) (h : cr.remaining = t1.length) (h0 : 0 < t1.length) :
    chunkData cr (t1 ++ t2) m = chunkData { cr with remaining := 0 } t2 (took m t1) := by
  have hp : 0 < cr.remaining := by omega
  simp only [chunkData, M.bind_apply, hp, if_true, h, show (0 : Int) < t1.length by omega, feedLength_full t1 t2,
    show ¬ ((0 : Int) < 0) by omega, if_false, M.pure_apply]

theorem chunkTrailer_none {cr : ChunkSt} {m : Msg} (hi : LineInv m) {t : Bytes} (h : 10 ∉ t) :
    chunkTrailer cr t m = .ok (cr, []) (ext m t) := by
  simp [chunkTrailer, feedLine_none hi h]

theorem chunkTrailer_line {cr : ChunkSt} {m : Msg} (hi : LineInv m) {u : Bytes} (rest : Bytes) (h : 10 ∉ u) :
    chunkTrailer cr (u ++ 10 :: rest) m =
      match onHeader (addTrailerLine (pend m ++ u ++ [10])) (took m (u ++ [10])) with
      | .ok _ m' => .ok ({ cr with mode := if isNewline (pend m ++ u ++ [10]) then .end_ else cr.mode }, rest) m'
      | .raise e m' => .raise e m'
      | .hang => .hang := by
  simp only [chunkTrailer, M.bind_apply, feedLine_some hi rest h]
  cases onHeader (addTrailerLine (pend m ++ u ++ [10])) (took m (u ++ [10])) <;> rfl

/-! ### the loop -/

theorem chunkFeed_nil (f : Nat) (cr : ChunkSt) (m : Msg) : chunkFeed (f + 1) cr [] m = .ok [] m := by
  simp [chunkFeed]

theorem chunkFeed_start (f : Nat) (cr : ChunkSt) (t : Bytes) (m : Msg) (ht : t ≠ []) (hm : cr.mode = .start) :
    chunkFeed (f + 2) cr t m =
      match chunkStart cr t m with
      | .ok (cr1, t1) m1 =>
        if t1 = [] then .ok [] (if cr1.mode = .end_ then { setR cr1 m1 with mode := .end_ } else setR cr1 m1)
        else if cr1.mode = .start then chunkFeed (f + 1) cr1 t1 (setR cr1 m1)
        else chunkFeed (f + 2) cr1 t1 (setR cr1 m1)
      | .raise e m1 => .raise e m1
      | .hang => .hang := by
  rw [chunkFeed, if_neg ht]
  simp only [M.bind_apply, hm, decide_true, chunkStage, if_true]
  cases hs : chunkStart cr t m with
  | hang => rfl
  | raise e m1 => rfl
  | ok p m1 =>
    obtain ⟨cr1, t1⟩ := p
    simp only [setChunk_apply, M.pure_apply]
    by_cases ht1 : t1 = []
    · subst ht1
      simp only [ne_eq, not_true_eq_false, decide_false, Bool.false_and, Bool.false_eq_true, if_false, M.pure_apply, if_true]
      split
      · simp
      · simp [chunkFeed_nil]
    · rw [if_neg ht1]
      by_cases h1 : cr1.mode = .start
      · rw [if_pos h1]
        simp [h1, M.pure_apply]
      · rw [if_neg h1]
        conv => rhs; rw [chunkFeed, if_neg ht1]
        simp only [M.bind_apply, h1, decide_false, chunkStage, Bool.false_eq_true, if_false, M.pure_apply]

theorem chunkFeed_chunk (f : Nat) (cr : ChunkSt) (t : Bytes) (m : Msg) (ht : t ≠ []) (hm : cr.mode = .chunk)
    {cr1 : ChunkSt} {t1 : Bytes} {m1 : Msg} (hs : chunkData cr t m = .ok (cr1, t1) m1) (h1 : cr1.mode = .start ∨ cr1.mode = .chunk) :
    chunkFeed (f + 1) cr t m = chunkFeed f cr1 t1 (setR cr1 m1) := by
  rw [chunkFeed, if_neg ht]
  simp only [M.bind_apply, hm, chunkStage, reduceCtorEq, decide_false, Bool.false_eq_true, if_false, M.pure_apply, decide_true,
    Bool.and_true, ht, ne_eq, not_false_eq_true, if_true, hs, setChunk_apply]
  rcases h1 with h1 | h1 <;> simp [h1]

theorem chunkFeed_trailer (f : Nat) (cr : ChunkSt) (t : Bytes) (m : Msg) (ht : t ≠ []) (hm : cr.mode = .trailer) :
    chunkFeed (f + 1) cr t m =
      match chunkTrailer cr t m with
      | .ok (cr1, t1) m1 =>
        if cr1.mode = .end_ then .ok t1 { setR cr1 m1 with mode := .end_ }
        else chunkFeed f cr1 t1 (setR cr1 m1)
      | .raise e m1 => .raise e m1
      | .hang => .hang := by
  rw [chunkFeed, if_neg ht]
  simp only [M.bind_apply, hm, chunkStage, reduceCtorEq, decide_false, Bool.false_eq_true, if_false, M.pure_apply, decide_true,
    Bool.and_true, ht, ne_eq, not_false_eq_true, if_true, Bool.and_false]
  cases hs : chunkTrailer cr t m with
  | hang => rfl
  | raise e m1 => rfl
  | ok p m1 =>
    obtain ⟨cr1, t1⟩ := p
    simp only [setChunk_apply, M.pure_apply]
    split <;> rfl

theorem chunkFeed_neg (f : Nat) (cr : ChunkSt) (t : Bytes) (m : Msg) (ht : t ≠ []) (hm : cr.mode = .chunk) (hn : cr.remaining < 0) :
    chunkFeed f cr t m = .hang := by
  induction f generalizing m with
  | zero => rfl
  | succ f ih =>
    rw [chunkFeed_chunk f cr t m ht hm (chunkData_neg hn) (Or.inr hm)]
    exact ih _

/-- the chunk size line sets the mode -/
theorem afterSize_mode (n : Int) : (afterSize n).mode ≠ .start ∧ (afterSize n).mode ≠ .end_ := by
  unfold afterSize
  split <;> simp

theorem afterSize_mode' (n : Int) : (afterSize n).mode = .chunk ∨ (afterSize n).mode = .trailer := by
  unfold afterSize
  split <;> simp

theorem length_split (t : Bytes) (n : Int) (h0 : 0 < n) (h : n ≤ t.length) :
    ∃ t1 t2, t = t1 ++ t2 ∧ n = t1.length ∧ 0 < t1.length :=
  ⟨t.take n.toNat, t.drop n.toNat, by simp, by simp; omega, by simp; omega⟩

/-- What `feed_chunk` does: it hangs in a loop on a negative size, uses all text, or reaches the next chunk line. -/
theorem chunkData_cases (cr : ChunkSt) (t : Bytes) (m : Msg) (ht : t ≠ []) (hi : LineInv m) (hm : cr.mode = .chunk) :
    cr.remaining < 0 ∨
    (∃ cr1 m1, chunkData cr t m = .ok (cr1, []) m1 ∧ cr1.mode = .chunk ∧ LineInv m1) ∨
    (∃ cr1 t1 m1, chunkData cr t m = .ok (cr1, t1) m1 ∧ cr1.mode = .start ∧ LineInv m1 ∧ t1.length < t.length) := by
  have eoc : ∀ (cr : ChunkSt) (t : Bytes) (m : Msg), LineInv m → cr.mode = .chunk → cr.remaining = 0 →
    (∃ cr1 m1, chunkData cr t m = .ok (cr1, []) m1 ∧ cr1.mode = .chunk ∧ LineInv m1) ∨
    (∃ cr1 t1 m1, chunkData cr t m = .ok (cr1, t1) m1 ∧ cr1.mode = .start ∧ LineInv m1 ∧ t1.length < t.length) := by
    intro cr t m hi hm h0
    rcases line_cases t with h | ⟨u, rest, h, rfl⟩
    · exact Or.inl ⟨_, _, chunkData_eoc_none hi h0 h, hm, hi.ext h⟩
    · exact Or.inr ⟨_, _, _, chunkData_eoc_line hi rest h0 h, rfl, .took _ _, by simp; omega⟩
  rcases Int.lt_trichotomy cr.remaining 0 with h | h | h
  · exact Or.inl h
  · exact Or.inr (eoc cr t m hi hm h)
  · by_cases hl : (t.length : Int) < cr.remaining
    · exact Or.inr (Or.inl ⟨_, _, chunkData_part hl, hm, .took _ _⟩)
    · obtain ⟨t1, t2, rfl, h1, h2⟩ := length_split t cr.remaining h (by omega)
      rw [chunkData_full t1 t2 h1 h2]
      rcases eoc { cr with remaining := 0 } t2 (took m t1) (.took _ _) hm rfl with ⟨a, b, c⟩ | ⟨a, b, c, d, e, f, g⟩
      · exact Or.inr (Or.inl ⟨a, b, c⟩)
      · exact Or.inr (Or.inr ⟨a, b, c, d, e, f, by simp; omega⟩)

/-- enough fuel is enough -/
theorem chunkFeed_fuel (f g : Nat) (cr : ChunkSt) (t : Bytes) (m : Msg) (hi : LineInv m) (he : cr.mode ≠ .end_)
    (hf : t.length + 2 ≤ f) (hg : t.length + 2 ≤ g) : chunkFeed f cr t m = chunkFeed g cr t m := by
  match hn : t.length with
  | n =>
  induction n using Nat.strongRecOn generalizing f g cr t m with
  | _ n ih =>
    obtain ⟨f, rfl⟩ : ∃ k, f = k + 2 := ⟨f - 2, by omega⟩
    obtain ⟨g, rfl⟩ : ∃ k, g = k + 2 := ⟨g - 2, by omega⟩
    by_cases ht : t = []
    · subst ht; rw [chunkFeed_nil, chunkFeed_nil]
    have hpos : 0 < t.length := List.length_pos_iff.2 ht
    -- the equal treatment of everything that is not the start of a chunk
    have hmain : ∀ (cr : ChunkSt) (t : Bytes) (m : Msg) f g, LineInv m → cr.mode = .chunk ∨ cr.mode = .trailer → t ≠ [] → t.length ≤ n →
        t.length + 2 ≤ f + 2 → t.length + 2 ≤ g + 2 → chunkFeed (f + 2) cr t m = chunkFeed (g + 2) cr t m := by
      intro cr t m f g hi hm ht hle hf hg
      have hpos : 0 < t.length := List.length_pos_iff.2 ht
      rcases hm with hm | hm
      · rcases chunkData_cases cr t m ht hi hm with h | ⟨cr1, m1, h1, h2, h3⟩ | ⟨cr1, t1, m1, h1, h2, h3, h4⟩
        · rw [chunkFeed_neg _ _ _ _ ht hm h, chunkFeed_neg _ _ _ _ ht hm h]
        · rw [chunkFeed_chunk _ _ _ _ ht hm h1 (Or.inr h2), chunkFeed_chunk _ _ _ _ ht hm h1 (Or.inr h2), chunkFeed_nil, chunkFeed_nil]
        · rw [chunkFeed_chunk _ _ _ _ ht hm h1 (Or.inl h2), chunkFeed_chunk _ _ _ _ ht hm h1 (Or.inl h2)]
          exact ih t1.length (by omega) _ _ _ _ _ (h3.setR _) (by rw [h2]; simp) (by omega) (by omega) rfl
      · rw [chunkFeed_trailer _ _ _ _ ht hm, chunkFeed_trailer _ _ _ _ ht hm]
        rcases line_cases t with h | ⟨u, rest, h, rfl⟩
        · rw [chunkTrailer_none hi h]
          simp only [hm, reduceCtorEq, if_false, chunkFeed_nil]
        · rw [chunkTrailer_line hi rest h]
          cases hh : onHeader (addTrailerLine (pend m ++ u ++ [10])) (took m (u ++ [10])) with
          | hang => rfl
          | raise e m' => rfl
          | ok x m' =>
            simp only
            simp at hle hf hg
            by_cases hnl : isNewline (pend m ++ u ++ [10]) = true
            · simp only [hnl, if_true]
            · simp only [hnl, Bool.false_eq_true, if_false, hm, reduceCtorEq]
              exact ih rest.length (by omega) _ _ _ rest _ ((onHeader_inv hh (.took _ _)).setR _) (by simp) (by omega) (by omega) rfl
    cases hm : cr.mode with
    | end_ => exact absurd hm he
    | chunk => exact hmain cr t m f g hi (Or.inl hm) ht (by omega) hf hg
    | trailer => exact hmain cr t m f g hi (Or.inr hm) ht (by omega) hf hg
    | start =>
      rw [chunkFeed_start _ _ _ _ ht hm, chunkFeed_start _ _ _ _ ht hm]
      rcases line_cases t with h | ⟨u, rest, h, rfl⟩
      · rw [chunkStart_none hi h]
        simp
      · rw [chunkStart_line hi rest h]
        cases hs : chunkSize (pend m ++ u ++ [10]) with
        | none => cases cr.start <;> simp
        | some k =>
          simp only [(afterSize_mode k).1, if_false]
          by_cases hr : rest = []
          · simp [hr]
          · rw [if_neg hr, if_neg hr]
            have hl : rest.length ≤ (u ++ 10 :: rest).length := by simp; omega
            exact hmain _ _ _ _ _ (((LineInv.took _ _).addChunk _).setR _) (afterSize_mode' k) hr (by omega) (by omega) (by omega)

/-! ### the loop without fuel -/

/-- `ChunkReader.feed` with enough fuel -/
def CF (cr : ChunkSt) (t : Bytes) (m : Msg) : Res Msg Bytes := chunkFeed (t.length + 2) cr t m

theorem CF_eq (f : Nat) (cr : ChunkSt) (t : Bytes) (m : Msg) (hi : LineInv m) (he : cr.mode ≠ .end_) (hf : t.length + 2 ≤ f) :
    chunkFeed f cr t m = CF cr t m := chunkFeed_fuel _ _ _ _ _ hi he hf (Nat.le_refl _)

theorem CF_nil (cr : ChunkSt) (m : Msg) : CF cr [] m = .ok [] m := chunkFeed_nil _ _ _

theorem CF_start_none {cr : ChunkSt} {m : Msg} (hi : LineInv m) (hm : cr.mode = .start) {t : Bytes} (ht : t ≠ []) (h : 10 ∉ t) :
    CF cr t m = .ok [] (setR { cr with start := false } (ext m t)) := by
  obtain ⟨a, b, c⟩ := cr
  simp at hm; subst hm
  rw [CF, chunkFeed_start _ _ _ _ ht rfl, chunkStart_none hi h]
  simp

theorem CF_start_line {cr : ChunkSt} {m : Msg} (hi : LineInv m) (hm : cr.mode = .start) {u : Bytes} (rest : Bytes) (h : 10 ∉ u) :
    CF cr (u ++ 10 :: rest) m =
      match chunkSize (pend m ++ u ++ [10]) with
      | some n => CF (afterSize n) rest (setR (afterSize n) (addChunk (took m (u ++ [10])) n))
      | none => if cr.start then .raise .brokenChunks (undo m (u ++ [10])) else .raise .valueError (took m (u ++ [10])) := by
  rw [CF, chunkFeed_start _ _ _ _ (by simp) hm, chunkStart_line hi rest h]
  cases hs : chunkSize (pend m ++ u ++ [10]) with
  | none => cases cr.start <;> simp
  | some k =>
    simp only [(afterSize_mode k).1, (afterSize_mode k).2, if_false]
    by_cases hr : rest = []
    · simp [hr, CF_nil]
    · rw [if_neg hr]
      exact CF_eq _ _ _ _ (((LineInv.took _ _).addChunk _).setR _) (afterSize_mode k).2 (by simp; omega)

theorem CF_neg {cr : ChunkSt} {m : Msg} (hm : cr.mode = .chunk) {t : Bytes} (ht : t ≠ []) (hn : cr.remaining < 0) :
    CF cr t m = .hang := chunkFeed_neg _ _ _ _ ht hm hn

theorem CF_part {cr : ChunkSt} {m : Msg} (hm : cr.mode = .chunk) {t : Bytes} (ht : t ≠ []) (hl : (t.length : Int) < cr.remaining) :
    CF cr t m = .ok [] (setR { cr with remaining := cr.remaining - t.length } (took m t)) := by
  rw [CF, chunkFeed_chunk _ _ _ _ ht hm (chunkData_part hl) (Or.inr hm), chunkFeed_nil]

theorem CF_eoc_none {cr : ChunkSt} {m : Msg} (hi : LineInv m) (hm : cr.mode = .chunk) (h0 : cr.remaining = 0) {t : Bytes} (ht : t ≠ []) (h : 10 ∉ t) :
    CF cr t m = .ok [] (setR cr (ext m t)) := by
  rw [CF, chunkFeed_chunk _ _ _ _ ht hm (chunkData_eoc_none hi h0 h) (Or.inr hm), chunkFeed_nil]

theorem CF_eoc_line {cr : ChunkSt} {m : Msg} (hi : LineInv m) (hm : cr.mode = .chunk) (h0 : cr.remaining = 0) {u : Bytes} (rest : Bytes) (h : 10 ∉ u) :
    CF cr (u ++ 10 :: rest) m = CF { cr with mode := .start } rest (setR { cr with mode := .start } (took m (u ++ [10]))) := by
  rw [CF, chunkFeed_chunk _ _ _ _ (by simp) hm (chunkData_eoc_line hi rest h0 h) (Or.inl rfl)]
  exact CF_eq _ _ _ _ ((LineInv.took _ _).setR _) (by simp) (by simp <;> omega)

/-- the end of the data of a chunk -/
theorem CF_full {cr : ChunkSt} {m : Msg} (hm : cr.mode = .chunk) (t1 t2 : Bytes) (h : cr.remaining = t1.length) (h0 : 0 < t1.length) :
    CF cr (t1 ++ t2) m = CF { cr with remaining := 0 } t2 (setR { cr with remaining := 0 } (took m t1)) := by
  have ht : t1 ++ t2 ≠ [] := by intro e; simp at e; simp [e.1] at h0
  obtain ⟨a, b, c⟩ := cr
  simp only at hm h; subst hm
  have hd := @chunkData_full ⟨.chunk, b, c⟩ m t1 t2 h h0
  rcases line_cases t2 with h2 | ⟨u, rest, h2, rfl⟩
  · rw [chunkData_eoc_none (.took _ _) rfl h2] at hd
    rw [CF, chunkFeed_chunk _ _ _ _ ht rfl hd (Or.inr rfl), chunkFeed_nil]
    by_cases h3 : t2 = []
    · subst h3; rw [CF_nil, ext_nil]
    · rw [CF_eoc_none (cr := ⟨.chunk, b, 0⟩) ((LineInv.took _ _).setR _) rfl rfl h3 h2]
      rfl
  · rw [chunkData_eoc_line (.took _ _) rest rfl h2] at hd
    rw [CF, chunkFeed_chunk _ _ _ _ ht rfl hd (Or.inl rfl), CF_eq _ _ _ _ ((LineInv.took _ _).setR _) (by simp) (by simp <;> omega),
      CF_eoc_line (cr := ⟨.chunk, b, 0⟩) ((LineInv.took _ _).setR _) rfl rfl rest h2]
    rfl

theorem CF_trailer_none {cr : ChunkSt} {m : Msg} (hi : LineInv m) (hm : cr.mode = .trailer) {t : Bytes} (ht : t ≠ []) (h : 10 ∉ t) :
    CF cr t m = .ok [] (setR cr (ext m t)) := by
  rw [CF, chunkFeed_trailer _ _ _ _ ht hm, chunkTrailer_none hi h]
  simp [hm, chunkFeed_nil]

theorem CF_trailer_line {cr : ChunkSt} {m : Msg} (hi : LineInv m) (hm : cr.mode = .trailer) {u : Bytes} (rest : Bytes) (h : 10 ∉ u) :
    CF cr (u ++ 10 :: rest) m =
      match onHeader (addTrailerLine (pend m ++ u ++ [10])) (took m (u ++ [10])) with
      | .ok _ m' =>
        if isNewline (pend m ++ u ++ [10]) then .ok rest { setR { cr with mode := .end_ } m' with mode := .end_ }
        else CF cr rest (setR cr m')
      | .raise e m' => .raise e m'
      | .hang => .hang := by
  rw [CF, chunkFeed_trailer _ _ _ _ (by simp) hm, chunkTrailer_line hi rest h]
  cases hh : onHeader (addTrailerLine (pend m ++ u ++ [10])) (took m (u ++ [10])) with
  | hang => rfl
  | raise e m' => rfl
  | ok x m' =>
    simp only
    by_cases hnl : isNewline (pend m ++ u ++ [10]) = true
    · simp only [hnl, if_true]
    · obtain ⟨a, b, c⟩ := cr
      simp at hm; subst hm
      simp only [hnl, Bool.false_eq_true, if_false, reduceCtorEq]
      exact CF_eq _ _ _ _ ((onHeader_inv hh (.took _ _)).setR _) (by simp) (by simp <;> omega)

end Warc.Http
