import Verif.Proofs.Rx
/-
  Lemmas about file handles and streams.
-/
set_option linter.all false
namespace Warc

/-! ### files -/
namespace File

@[simp] theorem advance_data (f : File) (n) : (f.advance n).data = f.data := rfl
@[simp] theorem advance_pos (f : File) (n) : (f.advance n).pos = f.pos + n := rfl
@[simp] theorem advance_fault (f : File) (n) : (f.advance n).fault = f.fault := rfl
@[simp] theorem advance_strict (f : File) (n) : (f.advance n).strictNeg = f.strictNeg := rfl
@[simp] theorem advance_rest (f : File) (n) : (f.advance n).rest = f.rest.drop n := by
  simp [rest, advance]
@[simp] theorem advance_zero (f : File) : f.advance 0 = f := rfl
@[simp] theorem advance_advance (f : File) (a b) : (f.advance a).advance b = f.advance (a + b) := by
  simp [advance, Nat.add_assoc]
@[simp] theorem advance_tell (f : File) (n) : (f.advance n).tell = f.tell + n := rfl

@[simp] theorem deliver_false (out : Bytes) (f : File) :
    deliver out false f = .ok out (f.advance out.length) := by
  simp [deliver]

theorem deliver_nofault (out : Bytes) (b : Bool) (f : File) (h : f.fault = none) :
    deliver out b f = .ok out (f.advance out.length) := by
  cases b <;> simp [deliver, h]

theorem firstLine_append (u more : Bytes) (h : 10 ∉ u) :
    firstLine (u ++ 10 :: more) = u ++ [10] := by
  induction u with
  | nil => simp [firstLine]
  | cons c cs ih =>
    simp only [List.mem_cons, not_or] at h
    have : (c == 10) = false := by simp; exact fun e => h.1 e.symm
    simp [firstLine, this, ih h.2]

theorem firstLine_noLF (u : Bytes) (h : 10 ∉ u) : firstLine u = u := by
  induction u with
  | nil => simp [firstLine]
  | cons c cs ih =>
    simp only [List.mem_cons, not_or] at h
    have : (c == 10) = false := by simp; exact fun e => h.1 e.symm
    simp [firstLine, this, ih h.2]

theorem firstLine_prefix (x : Bytes) : firstLine x <+: x := by
  induction x with
  | nil => simp [firstLine]
  | cons c cs ih =>
    rw [firstLine]; split
    · exact ⟨cs, by simp⟩
    · obtain ⟨t, ht⟩ := ih
      exact ⟨t, by simp [ht]⟩

theorem firstLine_length_le (x : Bytes) : (firstLine x).length ≤ x.length :=
  (firstLine_prefix x).length_le

theorem firstLine_eq_nil {x : Bytes} : firstLine x = [] ↔ x = [] := by
  cases x with
  | nil => simp [firstLine]
  | cons c cs => simp only [firstLine]; split <;> simp

theorem firstLine_append_drop (x : Bytes) : firstLine x ++ x.drop (firstLine x).length = x :=
  List.prefix_iff_eq_append.1 (firstLine_prefix x)

/-- every line is a newline-free text, followed by a newline unless the file ends -/
theorem firstLine_cases (x : Bytes) :
    (∃ u more, 10 ∉ u ∧ x = u ++ 10 :: more ∧ firstLine x = u ++ [10]) ∨
    (10 ∉ x ∧ firstLine x = x) := by
  by_cases h : (10 : UInt8) ∈ x
  · obtain ⟨u, more, hx, hu⟩ := List.eq_append_cons_of_mem h
    exact Or.inl ⟨u, more, hu, hx, by rw [hx, firstLine_append _ _ hu]⟩
  · exact Or.inr ⟨h, firstLine_noLF _ h⟩

end File

/-! ### streams -/
namespace Stream

/-- move a stream forward -/
def adv (s : Stream) (n : Nat) : Stream := { s with fh := s.fh.advance n }

@[simp] theorem adv_fh (s : Stream) (n) : (s.adv n).fh = s.fh.advance n := rfl
@[simp] theorem adv_eoc (s : Stream) (n) : (s.adv n).eoc = s.eoc := rfl
@[simp] theorem adv_kind (s : Stream) (n) : (s.adv n).kind = s.kind := rfl
@[simp] theorem adv_parser (s : Stream) (n) : (s.adv n).parser = s.parser := rfl
@[simp] theorem adv_zero (s : Stream) : s.adv 0 = s := rfl
@[simp] theorem adv_adv (s : Stream) (a b) : (s.adv a).adv b = s.adv (a + b) := by
  simp [adv]

/-- the next line can be delivered without running into damaged data -/
def LineOk (s : Stream) : Prop := s.fh.fault = none ∨ 10 ∈ s.fh.rest

theorem fileReadline_ok (f : File) (h : f.fault = none ∨ 10 ∈ f.rest) :
    File.readline none f = .ok (File.firstLine f.rest) (f.advance (File.firstLine f.rest).length) := by
  simp only [File.readline]
  rcases h with h | h
  · exact File.deliver_nofault _ _ _ h
  · obtain ⟨u, more, hx, hu⟩ := List.eq_append_cons_of_mem h
    rw [hx, File.firstLine_append _ _ hu]
    simp [File.deliver]

theorem readline_ok (s : Stream) (he : s.eoc = none) (h : s.LineOk) :
    Stream.readline none s =
      .ok (File.firstLine s.fh.rest) (s.adv (File.firstLine s.fh.rest).length) := by
  simp only [Stream.readline, M.bind_apply, M.get_apply, onFile, he, limitOf, fileReadline_ok _ h,
    consume, M.modify_apply, M.pure_apply, Option.map_none]
  simp [adv, he]

/-- reading a line whose text is known -/
theorem readline_line (s : Stream) (he : s.eoc = none) (u more : Bytes) (hu : 10 ∉ u)
    (hr : s.fh.rest = u ++ 10 :: more) :
    Stream.readline none s = .ok (u ++ [10]) (s.adv (u.length + 1)) := by
  rw [readline_ok s he (Or.inr (by rw [hr]; simp)), hr, File.firstLine_append _ _ hu]
  simp

theorem onFile_readline_line (s : Stream) (u more : Bytes) (hu : 10 ∉ u)
    (hr : s.fh.rest = u ++ 10 :: more) :
    onFile (File.readline none) s = .ok (u ++ [10]) (s.adv (u.length + 1)) := by
  simp only [onFile]
  rw [fileReadline_ok _ (Or.inr (by rw [hr]; simp)), hr, File.firstLine_append _ _ hu]
  simp [adv]

theorem onFile_readline_ok (s : Stream) (h : s.LineOk) :
    onFile (File.readline none) s =
      .ok (File.firstLine s.fh.rest) (s.adv (File.firstLine s.fh.rest).length) := by
  simp only [onFile]
  rw [fileReadline_ok _ h]
  rfl

end Stream
end Warc
