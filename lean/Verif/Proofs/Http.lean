import Verif.Model.HttpMessage
/-
  Basic facts about the HTTP parser: lines, the invariant between calls of feed, unfolding equations
  that hide the fuel.
-/
set_option linter.all false
namespace Warc.Http

/-! ### lines -/

theorem splitLine_none {x : Bytes} (h : 10 ∉ x) : splitLine x = none := by
  induction x with
  | nil => rfl
  | cons c x ih =>
    have hc : c ≠ 10 := by rintro rfl; simp at h
    simp [splitLine, hc, ih (fun hx => h (by simp [hx]))]

theorem splitLine_some (u rest : Bytes) (h : 10 ∉ u) : splitLine (u ++ 10 :: rest) = some (u ++ [10], rest) := by
  induction u with
  | nil => simp [splitLine]
  | cons c x ih =>
    have hc : c ≠ 10 := by rintro rfl; simp at h
    simp [splitLine, hc, ih (fun hx => h (by simp [hx]))]

/-- a text has no newline, or a first one -/
theorem line_cases (x : Bytes) : 10 ∉ x ∨ ∃ u rest, 10 ∉ u ∧ x = u ++ 10 :: rest := by
  induction x with
  | nil => exact Or.inl (by simp)
  | cons c x ih =>
    by_cases hc : c = 10
    · subst hc; exact Or.inr ⟨[], x, by simp, rfl⟩
    · rcases ih with h | ⟨u, rest, h, rfl⟩
      · left; simp; exact ⟨fun e => hc e.symm, h⟩
      · right; exact ⟨c :: u, rest, by simp; exact ⟨fun e => hc e.symm, h⟩, rfl⟩

/-- text put into the buffer without being used yet -/
def ext (m : Msg) (t : Bytes) : Msg := { m with buffer := m.buffer ++ t }

/-- text put into the buffer and used -/
def took (m : Msg) (t : Bytes) : Msg := { m with buffer := m.buffer ++ t, offset := (m.buffer ++ t).length }

/-- the unused part of the buffer -/
def pend (m : Msg) : Bytes := m.buffer.drop m.offset

@[simp] theorem ext_nil (m : Msg) : ext m [] = m := by simp [ext]
theorem ext_ext (m : Msg) (a b : Bytes) : ext (ext m a) b = ext m (a ++ b) := by simp [ext]
@[simp] theorem took_ext (m : Msg) (a b : Bytes) : took (ext m a) b = took m (a ++ b) := by simp [took, ext]
@[simp] theorem took_took (m : Msg) (a b : Bytes) : took (took m a) b = took m (a ++ b) := by simp [took]
@[simp] theorem ext_mode (m : Msg) (t) : (ext m t).mode = m.mode := rfl
@[simp] theorem ext_reader (m : Msg) (t) : (ext m t).reader = m.reader := rfl
@[simp] theorem ext_header (m : Msg) (t) : (ext m t).header = m.header := rfl
@[simp] theorem ext_chunks (m : Msg) (t) : (ext m t).bodyChunks = m.bodyChunks := rfl
@[simp] theorem took_mode (m : Msg) (t) : (took m t).mode = m.mode := rfl
@[simp] theorem took_reader (m : Msg) (t) : (took m t).reader = m.reader := rfl
@[simp] theorem took_header (m : Msg) (t) : (took m t).header = m.header := rfl
@[simp] theorem took_chunks (m : Msg) (t) : (took m t).bodyChunks = m.bodyChunks := rfl

/-- what holds between calls -/
structure LineInv (m : Msg) : Prop where
  off : m.offset ≤ m.buffer.length
  pend : 10 ∉ pend m

theorem LineInv.ext {m : Msg} (h : LineInv m) {t : Bytes} (ht : 10 ∉ t) : LineInv (ext m t) where
  off := by have := h.off; simp [Http.ext]; omega
  pend := by
    have := h.pend
    simp only [Http.pend, Http.ext, List.drop_append_of_le_length h.off] at *
    simp [this, ht]

theorem LineInv.took (m : Msg) (t : Bytes) : LineInv (took m t) where
  off := by simp [Http.took]
  pend := by simp [Http.pend, Http.took]

theorem LineInv.congr {m m' : Msg} (h : LineInv m) (hb : m'.buffer = m.buffer) (ho : m'.offset = m.offset) : LineInv m' where
  off := by rw [hb, ho]; exact h.off
  pend := by rw [Http.pend, hb, ho]; exact h.pend

theorem pend_ext {m : Msg} (h : LineInv m) (t : Bytes) : pend (ext m t) = pend m ++ t := by
  simp [pend, ext, List.drop_append_of_le_length h.off]

theorem feedLine_none {m : Msg} (h : LineInv m) {t : Bytes} (ht : 10 ∉ t) : feedLine t m = .ok (none, []) (ext m t) := by
  have hn : splitLine ((m.buffer ++ t).drop m.offset) = none := by
    apply splitLine_none
    have := (h.ext ht).pend
    exact this
  simp only [feedLine, hn]
  rfl

theorem feedLine_some {m : Msg} (h : LineInv m) {u : Bytes} (rest : Bytes) (hu : 10 ∉ u) :
    feedLine (u ++ 10 :: rest) m = .ok (some (pend m ++ u ++ [10]), rest) (took m (u ++ [10])) := by
  have hs : splitLine ((m.buffer ++ (u ++ 10 :: rest)).drop m.offset) = some (pend m ++ u ++ [10], rest) := by
    rw [List.drop_append_of_le_length h.off, ← List.append_assoc, splitLine_some]
    · rfl
    · have := h.pend
      simp only [pend] at this
      simp [this, hu]
  have hb : (m.buffer ++ (u ++ 10 :: rest)).take m.offset ++ (pend m ++ u ++ [10]) = m.buffer ++ (u ++ [10]) := by
    rw [List.take_append_of_le_length h.off, pend, ← List.append_assoc, ← List.append_assoc, List.take_append_drop]
    simp
  simp only [feedLine, hs, hb]
  rfl

/-- putting text first into the buffer makes no difference for lines -/
theorem feedLine_append (m : Msg) (a b : Bytes) : feedLine (a ++ b) m = feedLine b (ext m a) := by
  simp only [feedLine, ext, List.append_assoc]

/-! ### headers -/

/-- what happens with a complete header line -/
def headerStep (line : Bytes) (m : Msg) : Res Msg Unit := onHeader (addHeaderLine line) m

theorem onHeader_keeps {α : Type} (x : M Hdr α) (m : Msg) :
    match onHeader x m with
    | .ok _ m' => m' = { m with header := m'.header }
    | .raise _ m' => m' = { m with header := m'.header }
    | .hang => True := by
  unfold onHeader
  split <;> rename_i h <;> split at h <;> simp_all
  · rw [← h.2]
  · rw [← h.2]

theorem onHeader_ok {α : Type} {x : M Hdr α} {m m' : Msg} {a : α} (h : onHeader x m = .ok a m') :
    m' = { m with header := m'.header } := by
  have := onHeader_keeps x m
  rw [h] at this; exact this

theorem onHeader_inv {α : Type} {x : M Hdr α} {m m' : Msg} {a : α} (h : onHeader x m = .ok a m') (hi : LineInv m) :
    LineInv m' := by
  rw [onHeader_ok h]; exact hi.congr rfl rfl

/-- enough fuel is enough -/
theorem feedHeaders_fuel (f g : Nat) (t : Bytes) (m : Msg) (hi : LineInv m) (hf : t.length + 1 < f) (hg : t.length + 1 < g) :
    feedHeaders f t m = feedHeaders g t m := by
  induction f generalizing g t m with
  | zero => omega
  | succ f ih =>
    obtain ⟨g, rfl⟩ : ∃ k, g = k + 1 := ⟨g - 1, by omega⟩
    unfold feedHeaders
    by_cases ht : t = []
    · simp [ht]
    · have hpos : 0 < t.length := List.length_pos_iff.2 ht
      rw [if_neg ht, if_neg ht]
      rcases line_cases t with h | ⟨u, rest, h, rfl⟩
      · simp only [M.bind_apply, feedLine_none hi h]
        apply ih _ _ _ (hi.ext h) <;> simp <;> omega
      · simp only [M.bind_apply, feedLine_some hi rest h]
        cases hh : onHeader (addHeaderLine (pend m ++ u ++ [10])) (took m (u ++ [10])) with
        | hang => rfl
        | raise e m' => rfl
        | ok x m' =>
          simp only
          split
          · rfl
          · apply ih _ _ _ (onHeader_inv hh (.took _ _)) <;> simp at hf hg <;> omega

/-- `feed_headers` with enough fuel -/
def FH (t : Bytes) (m : Msg) : Res Msg Bytes := feedHeaders (feedFuel m t) t m

theorem FH_eq (f : Nat) (t : Bytes) (m : Msg) (hi : LineInv m) (hf : t.length + 1 < f) : feedHeaders f t m = FH t m := by
  apply feedHeaders_fuel _ _ _ _ hi hf
  simp [feedFuel]; omega

theorem FH_nil (m : Msg) : FH [] m = .ok [] m := by
  simp [FH, feedFuel, feedHeaders]

theorem FH_none {m : Msg} (hi : LineInv m) {t : Bytes} (h : 10 ∉ t) : FH t m = .ok [] (ext m t) := by
  by_cases ht : t = []
  · subst ht; simp [FH_nil]
  · have hpos : 0 < t.length := List.length_pos_iff.2 ht
    obtain ⟨k, hk⟩ : ∃ k, feedFuel m t = k + 2 := ⟨m.buffer.length + t.length, rfl⟩
    simp only [FH, hk]
    rw [feedHeaders, if_neg ht]
    simp only [M.bind_apply, feedLine_none hi h]
    simp [feedHeaders]

theorem FH_line {m : Msg} (hi : LineInv m) {u : Bytes} (rest : Bytes) (h : 10 ∉ u) :
    FH (u ++ 10 :: rest) m =
      match onHeader (addHeaderLine (pend m ++ u ++ [10])) (took m (u ++ [10])) with
      | .ok _ m' => if isNewline (pend m ++ u ++ [10]) then .ok rest { m' with mode := .body } else FH rest m'
      | .raise e m' => .raise e m'
      | .hang => .hang := by
  have ht : u ++ 10 :: rest ≠ [] := by simp
  obtain ⟨k, hk⟩ : ∃ k, feedFuel m (u ++ 10 :: rest) = k + 1 := ⟨_, rfl⟩
  simp only [FH, hk]
  rw [feedHeaders, if_neg ht]
  simp only [M.bind_apply, feedLine_some hi rest h]
  cases hh : onHeader (addHeaderLine (pend m ++ u ++ [10])) (took m (u ++ [10])) with
  | hang => rfl
  | raise e m' => rfl
  | ok x m' =>
    simp only
    split
    · simp
    · apply FH_eq _ _ _ (onHeader_inv hh (.took _ _))
      simp [feedFuel] at hk; omega

/-- composition of feeding calls: the unused text adds up -/
def andThen (r : Res Msg Bytes) (k : Msg → Res Msg Bytes) : Res Msg Bytes :=
  match r with
  | .ok l m =>
    match k m with
    | .ok l2 m2 => .ok (l ++ l2) m2
    | .raise e m2 => .raise e m2
    | .hang => .hang
  | .raise e m => .raise e m
  | .hang => .hang

/-- text that comes after the end of the headers is left alone -/
def thenRest (b : Bytes) (m : Msg) : Res Msg Bytes := if m.mode = .headers then FH b m else .ok b m

theorem onHeader_mode {α : Type} {x : M Hdr α} {m m' : Msg} {a : α} (h : onHeader x m = .ok a m') : m'.mode = m.mode := by
  rw [onHeader_ok h]

/-- feeding headers in two parts -/
theorem FH_split (a b : Bytes) (m : Msg) (hi : LineInv m) (hm : m.mode = .headers) :
    FH (a ++ b) m = andThen (FH a m) (thenRest b) := by
  match ha : a.length with
  | n =>
  induction n using Nat.strongRecOn generalizing a m with
  | _ n ih =>
    rcases line_cases a with h | ⟨u, rest, h, rfl⟩
    · rw [FH_none hi h]
      simp only [andThen, thenRest, ext_mode, hm, if_true]
      rcases line_cases b with hb | ⟨v, rest, hb, rfl⟩
      · rw [FH_none hi (by simp [h, hb]), FH_none (hi.ext h) hb, ext_ext]; simp
      · rw [← List.append_assoc, FH_line hi rest (by simp [h, hb]), FH_line (hi.ext h) rest hb]
        simp only [took_ext, pend_ext hi, ← List.append_assoc]
        cases hh : onHeader (addHeaderLine (pend m ++ a ++ v ++ [10])) (took m (a ++ v ++ [10])) with
        | hang => rfl
        | raise e m' => rfl
        | ok x m' =>
          simp only
          split
          · simp
          · cases FH rest m' <;> simp
    · rw [List.append_assoc, List.cons_append, FH_line hi (rest ++ b) h, FH_line hi rest h]
      cases hh : onHeader (addHeaderLine (pend m ++ u ++ [10])) (took m (u ++ [10])) with
      | hang => rfl
      | raise e m' => rfl
      | ok x m' =>
        simp only
        split
        · simp [andThen, thenRest]
        · exact ih rest.length (by rw [← ha]; simp; omega) rest m' (onHeader_inv hh (.took _ _))
            (by rw [onHeader_mode hh]; exact hm) rfl

end Warc.Http
