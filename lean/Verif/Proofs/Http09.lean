import Verif.Spec.Http09
import Verif.Proofs.HttpDemo
/-
  Lemmas for C63.
-/
set_option linter.all false
namespace Warc
open Rx Stream Spec Http

theorem feedAll09 (m : Http09) (ts : List Bytes) : m.feedAll ts = ⟨m.buffer ++ ts.flatten, m.ended⟩ := by
  induction ts generalizing m with
  | nil => simp [Http09.feedAll]
  | cons t ts ih =>
    have : m.feedAll (t :: ts) = (m.feed t).2.feedAll ts := rfl
    rw [this, ih]
    simp [Http09.feed]


theorem splitOnce_spec {sep : Byte} {s a b : Bytes} (h : splitOnce sep s = some (a, b)) : s = a ++ sep :: b ∧ sep ∉ a := by
  induction s generalizing a b with
  | nil => simp [splitOnce] at h
  | cons x s ih =>
    simp only [splitOnce] at h
    by_cases hx : x = sep
    · simp [hx] at h
      obtain ⟨rfl, rfl⟩ := h
      exact ⟨by simp [hx], by simp⟩
    · simp [hx] at h
      cases hs : splitOnce sep s with
      | none => rw [hs] at h; simp at h
      | some p =>
        obtain ⟨a', b'⟩ := p
        rw [hs] at h
        simp at h
        obtain ⟨rfl, rfl⟩ := h
        obtain ⟨h1, h2⟩ := ih hs
        exact ⟨by simp [h1], by simp [h2]; exact fun e => hx e.symm⟩

theorem mem_split_first {x : Byte} {s : Bytes} (h : x ∈ s) : ∃ a b, s = a ++ x :: b ∧ x ∉ a := by
  induction s with
  | nil => simp at h
  | cons y s ih =>
    by_cases hy : y = x
    · exact ⟨[], s, by simp [hy], by simp⟩
    · have : x ∈ s := by
        rcases List.mem_cons.1 h with e | e
        · exact absurd e.symm hy
        · exact e
      obtain ⟨a, b, h1, h2⟩ := ih this
      exact ⟨y :: a, b, by simp [h1], by simp [h2]; exact fun e => hy e.symm⟩

theorem rstrip_mem {x : Byte} {s : Bytes} (h : x ∈ rstrip s) : x ∈ s := by
  unfold rstrip rstripP at h
  have := (List.dropWhile_suffix (p := isWs) (l := s.reverse)).mem (List.mem_reverse.1 h)
  exact List.mem_reverse.1 this

theorem rstrip_line (u : Bytes) : rstrip (u ++ [10]) = rstrip u := rstrip_ws u [10] (by decide)

/-- what `set_start_line` of a response does -/
theorem setStatusLine_bad {u : Bytes} {h : Hdr} (hbad : ¬ StatusLine u) (hu : 10 ∉ u) :
    ∃ h', setStatusLine (u ++ [10]) h = .raise .valueError h' := by
  simp only [setStatusLine, rstrip_line]
  have key : ∀ v code more, rstrip u = v ++ 32 :: (code ++ more) → 32 ∉ v → 32 ∉ code → (more = [] ∨ ∃ p, more = 32 :: p) → pyInt 10 code = none := by
    intro v code more h1 h2 h3 h4
    cases hn : pyInt 10 code with
    | none => rfl
    | some n => exact absurd ⟨v, code, more, n, h1, h2, h3, h4, hn⟩ hbad
  cases h1 : splitOnce 32 (rstrip u) with
  | none => simp only [splitMax, h1]; exact ⟨_, rfl⟩
  | some p =>
    obtain ⟨v, r⟩ := p
    obtain ⟨e1, n1⟩ := splitOnce_spec h1
    cases h2 : splitOnce 32 r with
    | none =>
      have hr : 32 ∉ r := by
        intro hm
        obtain ⟨x, y, rfl, hx⟩ := mem_split_first hm
        rw [splitOnce_append x y hx] at h2
        cases h2
      have := key v r [] (by simpa using e1) n1 hr (Or.inl rfl)
      simp only [splitMax, h1, h2, M.bind_apply, M.modify_apply, this]
      exact ⟨_, rfl⟩
    | some q =>
      obtain ⟨code, ph⟩ := q
      obtain ⟨e2, n2⟩ := splitOnce_spec h2
      have := key v code (32 :: ph) (by rw [e1, e2]) n1 n2 (Or.inr ⟨_, rfl⟩)
      simp only [splitMax, h1, h2, M.bind_apply, M.modify_apply, this]
      exact ⟨_, rfl⟩

theorem feedResponse_bad (c : Codec) {rm : PyStr} {ig : List PyStr} {u : Bytes} (rest : Bytes) {h : Hdr} (hu : 10 ∉ u) (hne : u ≠ [] ∧ u ≠ [13])
    (hh : setStatusLine (u ++ [10]) (Hdr.response rm ig) = .raise .valueError h) :
    ∃ m, feedResponse c (u ++ 10 :: rest) (Msg.response rm ig) = .raise .valueError m ∧ m.asHttp09.getBody = u ++ [10] := by
  have hfr : Fresh (.response rm) ig (Msg.response rm ig) := Fresh.message (.response rm) ig
  rw [feedResponse_eq, feed_start_line c rest hfr.flush.inv rfl hu]
  have hp : pend (Msg.response rm ig) = [] := rfl
  have hnl : isNewline (u ++ [10]) = false := by
    cases u with
    | nil => exact absurd rfl hne.1
    | cons a u =>
      cases u with
      | nil =>
        have : a ≠ 13 := fun e => hne.2 (by rw [e])
        simp [isNewline, this]
      | cons b u => simp [isNewline]
  rw [hp, List.nil_append, hnl]
  simp only [Bool.false_eq_true, if_false]
  have : onHeader (setStartLine (u ++ [10])) (took (Msg.response rm ig) (u ++ [10])) =
      .raise .valueError { took (Msg.response rm ig) (u ++ [10]) with header := h } := by
    have : setStartLine (u ++ [10]) (Hdr.response rm ig) = .raise .valueError h := hh
    simp only [onHeader, took_header]
    rw [show (Msg.response rm ig).header = Hdr.response rm ig from rfl, this]
  rw [this]
  exact ⟨_, rfl, rfl⟩

theorem feedResponse_status (c : Codec) {rm : PyStr} {ig : List PyStr} {u : Bytes} (hu : 10 ∉ u) (hok : StatusLine u) :
    ∃ m, feedResponse c (u ++ [10]) (Msg.response rm ig) = .ok [] m ∧ m.getMessage = u ++ [10] := by
  obtain ⟨v, code, more, n, h1, h2, h3, h4, h5⟩ := hok
  have hfr : Fresh (.response rm) ig (Msg.response rm ig) := Fresh.message (.response rm) ig
  have hset : ∃ h, setStatusLine (u ++ [10]) (Hdr.response rm ig) = .ok () h := by
    simp only [setStatusLine, rstrip_line, h1]
    rcases h4 with rfl | ⟨ph, rfl⟩
    · rw [List.append_nil, splitMax_two 0 v code h2 h3]
      simp only [M.bind_apply, M.modify_apply, h5]
      exact ⟨_, rfl⟩
    · rw [splitMax_three v code ph h2 h3]
      simp only [M.bind_apply, M.modify_apply, h5]
      exact ⟨_, rfl⟩
  obtain ⟨h, hh⟩ := hset
  have hnl : isNewline (u ++ [10]) = false := by
    cases hx : isNewline (u ++ [10]) with
    | false => rfl
    | true =>
      exfalso
      have : u = [] ∨ u = [13] := by
        unfold isNewline at hx
        simp only [Bool.or_eq_true, beq_iff_eq] at hx
        rcases hx with hx | hx
        · right; exact List.append_cancel_right (as := u) (bs := [10]) (cs := [13]) hx
        · left; exact List.append_cancel_right (as := u) (bs := [10]) (cs := []) hx
      rcases this with rfl | rfl
      · simp [rstrip, rstripP] at h1
      · have : rstrip [13] = [] := by decide
        rw [this] at h1; simp at h1
  rw [feedResponse_eq, feed_start_line c [] hfr.flush.inv rfl hu]
  have hp : pend (Msg.response rm ig) = [] := rfl
  rw [hp, List.nil_append, hnl]
  simp only [Bool.false_eq_true, if_false]
  have : onHeader (setStartLine (u ++ [10])) (took (Msg.response rm ig) (u ++ [10])) =
      .ok () { took (Msg.response rm ig) (u ++ [10]) with header := h } := by
    have : setStartLine (u ++ [10]) (Hdr.response rm ig) = .ok () h := hh
    simp only [onHeader, took_header]
    rw [show (Msg.response rm ig).header = Hdr.response rm ig from rfl, this]
  rw [this]
  simp only [feed_nil]
  exact ⟨_, rfl, rfl⟩

theorem notStatus_noSpace {u : Bytes} (h : 32 ∉ u) : ¬ StatusLine u := by
  rintro ⟨v, code, more, n, h1, -⟩
  apply h
  have : 32 ∈ rstrip u := by rw [h1]; simp
  exact rstrip_mem this

end Warc
