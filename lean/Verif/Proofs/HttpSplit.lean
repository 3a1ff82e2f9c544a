import Verif.Proofs.HttpChunk
/-
  Feeding in two parts is the same as feeding at once.
-/
set_option linter.all false
namespace Warc.Http

/-- the chunk reader goes on with more text, unless the message has ended -/
def BC (t : Bytes) (m : Msg) : Res Msg Bytes :=
  if m.mode = .body then
    match m.reader with
    | some (.chunk cr) => CF cr t m
    | _ => .ok t m
  else .ok t m

theorem BC_setR {t : Bytes} {cr : ChunkSt} {m : Msg} (h : m.mode = .body) : BC t (setR cr m) = CF cr t (setR cr m) := by
  simp [BC, h]

@[simp] theorem andThen_ok_nil (m : Msg) (k : Msg → Res Msg Bytes) : andThen (.ok [] m) k = k m := by
  simp only [andThen]
  cases k m <;> simp

theorem CF_split (a b : Bytes) (cr : ChunkSt) (m : Msg) (hi : LineInv m) (hm : m.mode = .body) (hr : m.reader = some (.chunk cr))
    (he : cr.mode ≠ .end_) (hb : ∀ m', CF cr (a ++ b) m ≠ .raise .brokenChunks m') :
    CF cr (a ++ b) m = andThen (CF cr a m) (BC b) := by
  match hn : a.length with
  | n =>
  induction n using Nat.strongRecOn generalizing a cr m with
  | _ n ih =>
    have hself : setR cr m = m := by cases m; simp at hr; subst hr; rfl
    by_cases ha : a = []
    · subst ha; rw [CF_nil, andThen_ok_nil, BC, if_pos hm, hr]; rfl
    have hapos : 0 < a.length := List.length_pos_iff.2 ha
    by_cases hbn : b = []
    · subst hbn
      have hk : ∀ m', BC [] m' = .ok [] m' := by
        intro m'
        unfold BC
        split
        · split
          · exact CF_nil _ _
          · rfl
        · rfl
      simp only [List.append_nil, andThen, hk]
      cases CF cr a m <;> rfl
    cases hc : cr.mode with
    | end_ => exact absurd hc he
    | start =>
      rcases line_cases a with h | ⟨u, rest, h, rfl⟩
      · rw [CF_start_none hi hc ha h, andThen_ok_nil, BC_setR (by exact hm)]
        have hi2 : LineInv (setR { cr with start := false } (ext m a)) := (hi.ext h).setR _
        rcases line_cases b with h2 | ⟨v, rest, h2, rfl⟩
        · rw [CF_start_none hi hc (by simp [ha]) (by simp [h, h2]), CF_start_none hi2 (by exact hc) hbn h2]
          simp [setR, ext]
        · rw [← List.append_assoc, CF_start_line hi hc rest (by simp [h, h2])] at hb ⊢
          rw [CF_start_line hi2 (by exact hc) rest h2]
          simp only [setR_pend, pend_ext hi, ← List.append_assoc]
          cases hs : chunkSize (pend m ++ a ++ v ++ [10]) with
          | some k => simp [setR, took, ext, addChunk]
          | none =>
            simp only [← List.append_assoc, hs] at hb ⊢
            cases hst : cr.start with
            | true => simp [hst] at hb
            | false =>
              obtain ⟨x, y, z⟩ := cr
              simp at hst; subst hst
              simp only [Bool.false_eq_true, if_false]
              have : took (setR ⟨x, false, z⟩ (ext m a)) (v ++ [10]) = took (setR ⟨x, false, z⟩ m) (a ++ v ++ [10]) := by
                simp [setR, took, ext]
              rw [this, hself]
      · rw [List.append_assoc, List.cons_append, CF_start_line hi hc (rest ++ b) h] at hb ⊢
        rw [CF_start_line hi hc rest h]
        cases hs : chunkSize (pend m ++ u ++ [10]) with
        | none => cases cr.start <;> simp [andThen]
        | some k =>
          simp only [hs] at hb ⊢
          exact ih rest.length (by rw [← hn]; simp; omega) rest _ _ (((LineInv.took _ _).addChunk _).setR _) (by exact hm) rfl
            (afterSize_mode k).2 hb rfl
    | chunk =>
      -- the end of the chunk
      have eoc : ∀ (a : Bytes) (cr : ChunkSt) (m : Msg), LineInv m → m.mode = .body → m.reader = some (.chunk cr) → cr.mode = .chunk → cr.remaining = 0 →
          a.length ≤ n → (∀ m', CF cr (a ++ b) m ≠ .raise .brokenChunks m') → CF cr (a ++ b) m = andThen (CF cr a m) (BC b) := by
        intro a cr m hi hm hr hc h0 hl hb
        have hself : setR cr m = m := by cases m; simp at hr; subst hr; rfl
        by_cases ha : a = []
        · subst ha; rw [CF_nil, andThen_ok_nil, BC, if_pos hm, hr]; rfl
        rcases line_cases a with h | ⟨u, rest, h, rfl⟩
        · rw [CF_eoc_none hi hc h0 ha h, andThen_ok_nil, BC_setR (by exact hm)]
          have hi2 : LineInv (setR cr (ext m a)) := (hi.ext h).setR _
          rcases line_cases b with h2 | ⟨v, rest, h2, rfl⟩
          · rw [CF_eoc_none hi hc h0 (by simp [ha]) (by simp [h, h2]), CF_eoc_none hi2 hc h0 hbn h2]
            simp [setR, ext]
          · rw [← List.append_assoc, CF_eoc_line hi hc h0 rest (by simp [h, h2]), CF_eoc_line hi2 hc h0 rest h2]
            simp [setR, took, ext]
        · rw [List.append_assoc, List.cons_append, CF_eoc_line hi hc h0 (rest ++ b) h] at hb ⊢
          rw [CF_eoc_line hi hc h0 rest h]
          exact ih rest.length (by simp at hl; omega) rest _ _ ((LineInv.took _ _).setR _) (by exact hm) rfl (by simp) hb rfl
      rcases Int.lt_trichotomy cr.remaining 0 with h | h | h
      · rw [CF_neg hc ha h, CF_neg hc (by simp [ha]) h]; rfl
      · exact eoc a cr m hi hm hr hc h (by omega) hb
      · by_cases hl : (a.length : Int) < cr.remaining
        · rw [CF_part hc ha hl, andThen_ok_nil, BC_setR (by exact hm)]
          by_cases hl2 : ((a ++ b).length : Int) < cr.remaining
          · rw [CF_part hc (by simp [ha]) hl2, CF_part (by exact hc) hbn (by simp at hl2 ⊢; omega)]
            simp [setR, took]; omega
          · obtain ⟨t1, t2, ht, h1, h2⟩ := length_split (a ++ b) cr.remaining h (by omega)
            obtain ⟨b1, rfl⟩ : ∃ b1, t1 = a ++ b1 := by
              have := List.prefix_append t1 t2
              rw [← ht] at this
              exact (List.prefix_of_prefix_length_le (List.prefix_append a b) this (by omega)).imp fun _ h => h.symm
            have hb2 : b = b1 ++ t2 := by simpa using ht
            subst hb2
            rw [← List.append_assoc, CF_full hc (a ++ b1) t2 h1 h2, CF_full (by exact hc) b1 t2 (by simp at h1 ⊢; omega) (by simp at h1; omega)]
            simp [setR, took]
        · obtain ⟨t1, t2, rfl, h1, h2⟩ := length_split a cr.remaining h (by omega)
          rw [List.append_assoc, CF_full hc t1 _ h1 h2] at hb ⊢
          rw [CF_full hc t1 _ h1 h2]
          exact eoc t2 { cr with remaining := 0 } _ ((LineInv.took _ _).setR _) (by exact hm) rfl hc rfl (by simp at hn; omega) hb
    | trailer =>
      rcases line_cases a with h | ⟨u, rest, h, rfl⟩
      · rw [CF_trailer_none hi hc ha h, andThen_ok_nil, BC_setR (by exact hm)]
        have hi2 : LineInv (setR cr (ext m a)) := (hi.ext h).setR _
        rcases line_cases b with h2 | ⟨v, rest, h2, rfl⟩
        · rw [CF_trailer_none hi hc (by simp [ha]) (by simp [h, h2]), CF_trailer_none hi2 hc hbn h2]
          simp [setR, ext]
        · rw [← List.append_assoc, CF_trailer_line hi hc rest (by simp [h, h2]), CF_trailer_line hi2 hc rest h2]
          have : took (setR cr (ext m a)) (v ++ [10]) = took m (a ++ v ++ [10]) := by
            conv => rhs; rw [← hself]
            simp [setR, took, ext]
          rw [this]
          simp only [setR_pend, pend_ext hi, ← List.append_assoc]
      · rw [List.append_assoc, List.cons_append, CF_trailer_line hi hc (rest ++ b) h] at hb ⊢
        rw [CF_trailer_line hi hc rest h]
        cases hh : onHeader (addTrailerLine (pend m ++ u ++ [10])) (took m (u ++ [10])) with
        | hang => rfl
        | raise e m' => rfl
        | ok x m' =>
          simp only [hh] at hb ⊢
          by_cases hnl : isNewline (pend m ++ u ++ [10]) = true
          · simp only [hnl, if_true, andThen]
            simp [BC]
          · simp only [hnl, Bool.false_eq_true, if_false] at hb ⊢
            exact ih rest.length (by rw [← hn]; simp; omega) rest _ _ ((onHeader_inv hh (.took _ _)).setR _)
              (by rw [setR_mode, onHeader_mode hh]; exact hm) rfl (by rw [hc]; simp) hb rfl

end Warc.Http
