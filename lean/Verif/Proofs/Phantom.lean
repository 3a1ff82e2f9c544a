import Verif.Proofs.Tools
/-
  A file that ends inside the head of a record, between two header lines.
-/
set_option linter.all false
namespace Warc
open Rx Stream Spec

theorem phantom_block (hs : List Header) (hok : ∀ h ∈ hs, HeaderOk h) : Block (hs.map itemOf) [] := by
  induction hs with
  | nil => exact .nil (Or.inl rfl)
  | cons h hs ih =>
    refine .cons (itemOf_ok h (hok h (by simp))) ?_ (ih fun h hh => hok h (by simp [hh]))
    cases hs with
    | nil => rfl
    | cons h2 hs =>
      obtain ⟨c, cs, h1, hc⟩ := headerLine_head h2 (hok h2 (by simp))
      show fspec (headerLine h2) = none
      rw [h1]; exact fspec_head hc

theorem phantom_blockLines (hs : List Header) :
    blockHead (hs.map itemOf) [] :: blockTail (hs.map itemOf) [] = hs.map headerLine ++ [[]] := by
  induction hs with
  | nil => rfl
  | cons h hs ih =>
    show headerLine h :: ([] ++ blockHead (hs.map itemOf) [] :: blockTail (hs.map itemOf) []) = _
    rw [ih]; simp

/-- the line read at the end of a healthy file -/
theorem readline_at_end (s : Stream) (he : s.eoc = none) (hf : s.fh.fault = none) (hr : s.fh.rest = []) :
    Stream.readline none s = .ok [] s := by
  have h : File.readline none s.fh = .ok [] s.fh := by
    obtain ⟨⟨d, p, n, f⟩, eoc, kind, parser⟩ := s
    simp at hf hr; subst hf
    simp [File.readline, hr, File.advance, File.deliver, File.firstLine]
  obtain ⟨fh, eoc, kind, parser⟩ := s
  simp at he hf hr h
  subst he
  simp [Stream.readline, M.bind_apply, M.get_apply, onFile, limitOf, h, consume]

/-- a record head that is cut after a header line: the parser returns a record without error -/
theorem readRecord_phantom (offs : Bool) (T v : Bytes) (hs : List Header) (s : Stream)
    (hk : s.kind ≠ .gzipFile) (he : s.eoc = none) (hf : s.fh.fault = none) (hT : Terminator T) (hv : VersionOk v)
    (hs_ok : ∀ h ∈ hs, HeaderOk h) (hm : WarcMode s (v ++ CRLF))
    (hr : s.fh.rest = T ++ (v ++ CRLF ++ hs.flatMap headerLine)) :
    ∃ s', readRecord offs s =
      .ok ⟨reported s.kind offs (s.fh.pos + T.length), some (parsed v hs), []⟩ s' ∧
      s'.eoc = some (declaredLength hs) ∧ s'.fh.rest = [] ∧ s'.fh.fault = none ∧ s'.kind = s.kind := by
  have hvl : v ++ CRLF = (v ++ [13]) ++ [10] := by simp
  have h13 : 10 ∉ v ++ [13] := by simp [versionOk_noLF hv]
  have hfirst : File.firstLine (v ++ CRLF ++ hs.flatMap headerLine) = v ++ CRLF := by
    have : v ++ CRLF ++ hs.flatMap headerLine = (v ++ [13]) ++ 10 :: (hs.flatMap headerLine) := by
      simp
    rw [this, File.firstLine_append _ _ h13, hvl]
  have hT' : ∀ c ∈ T, isCRLF c = true := fun c hc => by
    rcases hT.1 c hc with h | h <;> simp [h, isCRLF]
  have hbl : ∀ o, blankLoop o (s.fh.rest.length + 2) s =
      .ok (if o then some (s.fh.pos + T.length) else none, v ++ CRLF)
        (s.adv (T.length + (v ++ CRLF).length)) := by
    intro o
    have := blankLoop_spec o (s.fh.rest.length + 2) T (v ++ CRLF ++ hs.flatMap headerLine) s hT' hT.2 hr
      (by rw [hfirst]; exact versionOk_not_term hv) (Or.inr (by simp)) (by
        rw [hr]; simp; omega)
    rw [hfirst] at this
    exact this
  obtain ⟨n, hn, hvs⟩ := vspec_versionOk hv
  have hrest : (s.adv (T.length + (v ++ CRLF).length)).fh.rest = (hs.map headerLine).flatten ++ [] := by
    rw [adv_fh, File.advance_rest, hr, ← List.append_assoc, ← List.append_assoc,
      List.append_assoc T v CRLF, show T.length + (v ++ CRLF).length = (T ++ (v ++ CRLF)).length by simp, List.drop_left]
    simp [List.flatMap]
  have hl1 := Lines.of_bytes (hs.map headerLine) (s.adv (T.length + (v ++ CRLF).length)) (by simpa using he) []
    (by
      intro l hl
      simp only [List.mem_map] at hl
      obtain ⟨h, hh, rfl⟩ := hl
      exact headerLine_line h (hs_ok h hh)) hrest
  generalize hsend : (s.adv (T.length + (v ++ CRLF).length)).adv (hs.map headerLine).flatten.length = send at hl1
  have hse : send.eoc = none := by rw [← hsend]; exact he
  have hsf : send.fh.fault = none := by rw [← hsend]; exact hf
  have hsk : send.kind = s.kind := by rw [← hsend]; rfl
  have hsr : send.fh.rest = [] := by
    rw [← hsend, adv_fh, File.advance_rest, hrest, List.append_nil, List.drop_length]
  have hlines : Lines (s.adv (T.length + (v ++ CRLF).length)) (hs.map headerLine ++ [[]]) send :=
    hl1.append (.cons (readline_at_end send hse hsf hsr) (.nil _))
  have hparse : ∀ o, WarcParser.parse o (v ++ CRLF) (s.adv (T.length + (v ++ CRLF).length)) =
      .ok (some (parsed v hs), [], o) { send with eoc := some (declaredLength hs) } := by
    intro o
    have := parse_forward o [] (v ++ CRLF) ([], v, n, CRLF) (by simp [Skipped]) hvs hn (by simp)
      (hs.map itemOf) [] (phantom_block hs hs_ok) _ _ (v ++ CRLF)
      (blockHead (hs.map itemOf) [] :: blockTail (hs.map itemOf) []) rfl
      (by rw [phantom_blockLines]; exact hlines)
    rw [this]
    simp only [foldl_itemOf hs _ hs_ok, hinit, versionErrs]
    simp only [List.nil_append, junkErrs_nil, lenSum_nil, List.length_nil, Nat.add_zero]
    cases o <;> rfl
  have hm' : WarcMode (s.adv (T.length + (v ++ CRLF).length)) (v ++ CRLF) := hm
  have hset : { s with eoc := none } = s := by
    obtain ⟨fh, eoc, kind, parser⟩ := s; simp at he; subst he; rfl
  refine ⟨{ send with eoc := some (declaredLength hs) }, ?_, rfl, hsr, hsf, hsk⟩
  simp only [readRecord, M.bind_apply, M.get_apply, he, M.pure_apply, M.modify_apply, hset]
  cases hkind : s.kind with
  | plain =>
    simp only [M.bind_apply, hbl, parseWith_warc _ _ _ hm', hparse]
    simp [reported]
  | gzipRecord =>
    simp only [M.bind_apply, hbl, parseWith_warc _ _ _ hm', hparse]
    simp [reported]
  | gzipFile => exact absurd hkind hk

end Warc
