import Verif.Proofs.ReadRecord
import Verif.Spec.Warc
/-
  Reading back what was written.
-/
set_option linter.all false
namespace Warc
open Rx Stream Spec

/-! ### lines as written -/

theorem hspec_colon (k x : Bytes) (p) (hk : 58 ∉ k) (hk10 : 10 ∉ k) (h : afterColon x = some p) :
    hspec (k ++ 58 :: x) = some (k, p.1, p.2) := by
  induction k with
  | nil => simp [hspec, h]
  | cons c cs ih =>
    simp only [List.mem_cons, not_or] at hk hk10
    have h1 : c ≠ 58 := fun e => hk.1 e.symm
    have h2 : c ≠ 10 := fun e => hk10.1 e.symm
    simp [hspec, h1, h2, ih hk.2 hk10.2]

theorem hspec_line (h : Header) (hok : HeaderOk h) :
    hspec (headerLine h) = some (h.1, h.2, CRLF) := by
  have : headerLine h = h.1 ++ 58 :: (32 :: (h.2 ++ CRLF)) := by simp [headerLine]
  rw [this]
  apply hspec_colon _ _ (h.2, CRLF) hok.noColon hok.nameNoLF
  simp [afterColon, isWs, chomp_crlf _ hok.valueNoLF]

theorem headerLine_head (h : Header) (hok : HeaderOk h) :
    ∃ c cs, headerLine h = c :: cs ∧ isWs c = false := by
  obtain ⟨k, v⟩ := h
  cases k with
  | nil => exact ⟨58, 32 :: (v ++ CRLF), by simp [headerLine], by decide⟩
  | cons c cs =>
    exact ⟨c, cs ++ 58 :: 32 :: (v ++ CRLF), by simp [headerLine],
      strip_self_head (s := c :: cs) hok.nameStrip rfl⟩

/-- header as an item of a block -/
def itemOf (h : Header) : HItem := ⟨headerLine h, h.1, h.2, CRLF, []⟩

theorem isBlank_of_not_ws {c : Byte} {cs : Bytes} (h : isWs c = false) : isBlank (c :: cs) = false := by
  have h1 : c ≠ 13 := by intro e; subst e; simp [isWs] at h
  have h2 : c ≠ 10 := by intro e; subst e; simp [isWs] at h
  simp [isBlank, h1, h2]

theorem itemOf_ok (h : Header) (hok : HeaderOk h) : (itemOf h).Ok := by
  obtain ⟨c, cs, h1, h2⟩ := headerLine_head h hok
  refine ⟨hspec_line h hok, ?_, ?_, by simp [itemOf]⟩
  · simp [itemOf, h1]
  · simp only [itemOf, h1]; exact isBlank_of_not_ws h2

theorem block_of_headers (hs : List Header) (hok : ∀ h ∈ hs, HeaderOk h) :
    Block (hs.map itemOf) CRLF := by
  induction hs with
  | nil => exact .nil (Or.inr (by decide))
  | cons h hs ih =>
    refine .cons (itemOf_ok h (hok h (by simp))) ?_ (ih fun h hh => hok h (by simp [hh]))
    cases hs with
    | nil => exact fspec_crlf
    | cons h2 hs =>
      obtain ⟨c, cs, h1, hc⟩ := headerLine_head h2 (hok h2 (by simp))
      show fspec (headerLine h2) = none
      rw [h1]; exact fspec_head hc

theorem blockLines_of_headers (hs : List Header) :
    blockHead (hs.map itemOf) CRLF :: blockTail (hs.map itemOf) CRLF = hs.map headerLine ++ [CRLF] := by
  induction hs with
  | nil => rfl
  | cons h hs ih =>
    show headerLine h :: ([] ++ blockHead (hs.map itemOf) CRLF :: blockTail (hs.map itemOf) CRLF) = _
    rw [ih]; simp

theorem rxTest_name (s name : Bytes) (hn : 10 ∉ name) :
    rxTest (seqs [bos, strI s, dollar]) name = true ↔ lower name = lower s := by
  rw [rxTest_literal]
  constructor
  · rintro (h | ⟨p, rfl, _⟩)
    · exact h
    · simp at hn
  · exact Or.inl

theorem rxTest_type (name : Bytes) (hn : 10 ∉ name) :
    rxTest typeRx name = decide (lower name = b! "content-type") := by
  rw [Bool.eq_iff_iff, decide_eq_true_eq]
  exact rxTest_name WH.CONTENT_TYPE name hn

theorem rxTest_length (name : Bytes) (hn : 10 ∉ name) :
    rxTest lengthRx name = decide (lower name = b! "content-length") := by
  rw [Bool.eq_iff_iff, decide_eq_true_eq]
  exact rxTest_name WH.CONTENT_LENGTH name hn

/-- the effect of a good header on the declared length -/
def stepLength (acc : Int) (h : Header) : Int :=
  if lower h.1 = b! "content-length" then (pyInt 10 h.2).getD acc else acc

theorem addHeader_ok (st : WarcParser.HState) (h : Header) (hok : HeaderOk h) :
    WarcParser.addHeader st h.1 h.2 =
      ⟨st.headers ++ [h], st.errors, stepLength st.contentLength h⟩ := by
  unfold WarcParser.addHeader stepLength
  rw [rxTest_type _ hok.nameNoLF, rxTest_length _ hok.nameNoLF]
  by_cases h1 : lower h.1 = b! "content-type"
  · have h2 : lower h.1 ≠ b! "content-length" := by rw [h1]; decide
    simp [h1, hok.typeOk h1]
  · by_cases h2 : lower h.1 = b! "content-length"
    · obtain ⟨n, hn⟩ := Option.isSome_iff_exists.1 (hok.lengthOk h2)
      simp [h2, hn]
    · simp [h1, h2]

theorem apply_itemOf (st : WarcParser.HState) (h : Header) (hok : HeaderOk h) :
    HItem.apply st (itemOf h) = ⟨st.headers ++ [h], st.errors, stepLength st.contentLength h⟩ := by
  have hh : (itemOf h).header = h := by
    simp [HItem.header, itemOf, join, hok.nameStrip, hok.valueStrip]
  have he : (itemOf h).errs = [] := by simp [HItem.errs, itemOf]
  rw [HItem.apply, hh, he, addHeader_ok _ _ hok]
  simp

theorem foldl_itemOf (hs : List Header) (st : WarcParser.HState) (hok : ∀ h ∈ hs, HeaderOk h) :
    (hs.map itemOf).foldl HItem.apply st =
      ⟨st.headers ++ hs, st.errors, hs.foldl stepLength st.contentLength⟩ := by
  induction hs generalizing st with
  | nil => simp
  | cons h hs ih =>
    rw [List.map_cons, List.foldl_cons, apply_itemOf _ _ (hok h (by simp)),
      ih _ (fun h hh => hok h (by simp [hh]))]
    simp

/-! ### version lines -/

theorem dropWhile_append_of_all {p : Byte → Bool} {w x : Bytes} (hw : ∀ c ∈ w, p c = true) :
    (w ++ x).dropWhile p = x.dropWhile p := by
  induction w with
  | nil => rfl
  | cons c cs ih =>
    simp [hw c (by simp), ih (fun d hd => hw d (by simp [hd]))]

theorem lower_warc_head {t : Bytes} (h : lower t = b! "warc/") : ∃ c cs, t = c :: cs ∧ isWs c = false := by
  cases t with
  | nil => simp [lower] at h
  | cons c cs =>
    refine ⟨c, cs, rfl, ?_⟩
    simp only [lower, List.map_cons, List.cons.injEq] at h
    cases hw : isWs c with
    | false => rfl
    | true =>
      have h1 := h.1
      rcases isWs_cases hw with e | e | e | e | e | e <;> subst e <;> simp [lowerByte] at h1

theorem lower_warc_noLF {t : Bytes} (h : lower t = b! "warc/") : 10 ∉ t := by
  intro hm
  have : lowerByte 10 ∈ lower t := List.mem_map.2 ⟨10, hm, rfl⟩
  rw [h] at this
  revert this; decide

/-- any version stamp, possibly with an unknown number, in front of CRLF -/
theorem vspec_stamp (w t n : Bytes) (hw : ∀ c ∈ w, isWs c = true) (ht : lower t = b! "warc/")
    (hn : 10 ∉ n) (nl : Bytes) (hnl : chomp (n ++ nl) = some (n, nl)) :
    vspec (w ++ t ++ n ++ nl) = some ([], w ++ t ++ n, n, nl) := by
  obtain ⟨c, cs, rfl, hc⟩ := lower_warc_head ht
  have h1 : (w ++ (c :: cs) ++ n ++ nl).dropWhile isWs = (c :: cs) ++ (n ++ nl) := by
    rw [List.append_assoc, List.append_assoc, dropWhile_append_of_all hw]
    simp [hc]
  have hva : versionAt (w ++ (c :: cs) ++ n ++ nl) = some (w ++ (c :: cs) ++ n, n, nl) := by
    unfold versionAt
    rw [h1, stripI_of_lower _ _ _ (by rw [ht]; decide)]
    simp only [Option.bind_some, hnl, Option.map_some, Option.some.injEq, Prod.mk.injEq, and_true]
    rw [List.length_append, Nat.add_sub_cancel, List.take_left]
  cases hx : w ++ (c :: cs) ++ n ++ nl with
  | nil => simp at hx
  | cons a b =>
    rw [vspec, ← hx, hva]

theorem versionOk_noLF {v : Bytes} (h : VersionOk v) : 10 ∉ v := by
  obtain ⟨w, t, n, rfl, hw, hw10, ht, hn⟩ := h
  have h1 := lower_warc_noLF ht
  have h2 : 10 ∉ n := by
    simp only [List.mem_cons, List.not_mem_nil, or_false] at hn
    rcases hn with rfl | rfl | rfl <;> decide
  simp [hw10, h1, h2]

theorem vspec_versionOk {v : Bytes} (h : VersionOk v) :
    ∃ n ∈ knownVersions, vspec (v ++ CRLF) = some ([], v, n, CRLF) := by
  obtain ⟨w, t, n, rfl, hw, hw10, ht, hn⟩ := h
  have h2 : 10 ∉ n := by
    simp only [List.mem_cons, List.not_mem_nil, or_false] at hn
    rcases hn with rfl | rfl | rfl <;> decide
  exact ⟨n, hn, vspec_stamp w t n hw ht h2 CRLF (chomp_crlf _ h2)⟩

theorem versionOk_not_term {v : Bytes} (h : VersionOk v) : isTerm (v ++ CRLF) = false := by
  obtain ⟨w, t, n, rfl, hw, hw10, ht, hn⟩ := h
  obtain ⟨c, cs, rfl, hc⟩ := lower_warc_head ht
  have : isCRLF c = false := by
    cases hh : isCRLF c with
    | false => rfl
    | true =>
      simp only [isCRLF, Bool.or_eq_true, beq_iff_eq] at hh
      rcases hh with e | e <;> subst e <;> simp [isWs] at hc
  simp [isTerm, this]

/-! ### one record -/

/-- the parser attached to the stream treats a line as the start of a WARC record -/
def WarcMode (s : Stream) (line : Bytes) : Prop :=
  s.parser = .warc ∨ (∃ st, s.parser = .mixed st) ∧ startsWith line (b! "WARC") = true

theorem parseWith_warc (s : Stream) (off : Option Nat) (line : Bytes) (h : WarcMode s line) :
    Stream.parseWith off line s = WarcParser.parse off line s := by
  rcases h with h | ⟨⟨st, h⟩, h2⟩
  · simp [Stream.parseWith, h]
  · have hne : line ≠ [] := by intro e; subst e; simp [startsWith] at h2
    simp only [Stream.parseWith, M.bind_apply, M.get_apply, h, MixedParser.parse, hne, h2, if_true,
      if_false]

/-- the offset reported for a record at position `pos` -/
def reported (k : Kind) (offsets : Bool) (pos : Nat) : Option Nat :=
  match k with
  | .plain => if offsets then some pos else none
  | _ => none

theorem headLines (v : Bytes) (hs : List Header) :
    (v ++ CRLF) ++ (hs.map headerLine ++ [CRLF]).flatten = headBytes v hs := by
  simp [headBytes, List.flatMap]

theorem headerLine_line (h : Header) (hok : HeaderOk h) : ∃ u, headerLine h = u ++ [10] ∧ 10 ∉ u := by
  refine ⟨h.1 ++ b! ": " ++ h.2 ++ [13], by simp [headerLine], ?_⟩
  simp [hok.nameNoLF, hok.valueNoLF]

/-- reading a record head at the current position, after any terminator -/
theorem readRecord_head (offs : Bool) (T v : Bytes) (hs : List Header) (more : Bytes) (s : Stream)
    (hk : s.kind ≠ .gzipFile) (he : s.eoc = none) (hT : Terminator T) (hv : VersionOk v)
    (hs_ok : ∀ h ∈ hs, HeaderOk h) (hm : WarcMode s (v ++ CRLF))
    (hr : s.fh.rest = T ++ (headBytes v hs ++ more)) :
    readRecord offs s =
      .ok ⟨reported s.kind offs (s.fh.pos + T.length), some (parsed v hs), []⟩
        { s.adv (T.length + (headBytes v hs).length) with eoc := some (declaredLength hs) } := by
  have hvl : v ++ CRLF = (v ++ [13]) ++ [10] := by simp
  have h13 : 10 ∉ v ++ [13] := by simp [versionOk_noLF hv]
  have hfirst : File.firstLine (headBytes v hs ++ more) = v ++ CRLF := by
    have : headBytes v hs ++ more = (v ++ [13]) ++ 10 :: ((hs.map headerLine ++ [CRLF]).flatten ++ more) := by
      rw [← headLines]; simp
    rw [this, File.firstLine_append _ _ h13, hvl]
  have hT' : ∀ c ∈ T, isCRLF c = true := fun c hc => by
    rcases hT.1 c hc with h | h <;> simp [h, isCRLF]
  have hbl : ∀ o, blankLoop o (s.fh.rest.length + 2) s =
      .ok (if o then some (s.fh.pos + T.length) else none, v ++ CRLF)
        (s.adv (T.length + (v ++ CRLF).length)) := by
    intro o
    have := blankLoop_spec o (s.fh.rest.length + 2) T (headBytes v hs ++ more) s hT' hT.2 hr
      (by rw [hfirst]; exact versionOk_not_term hv) (Or.inr (by simp [headBytes])) (by
        rw [hr]; simp; omega)
    rw [hfirst] at this
    exact this
  obtain ⟨n, hn, hvs⟩ := vspec_versionOk hv
  have hlines : Lines (s.adv (T.length + (v ++ CRLF).length)) (hs.map headerLine ++ [CRLF])
      ((s.adv (T.length + (v ++ CRLF).length)).adv (hs.map headerLine ++ [CRLF]).flatten.length) := by
    apply Lines.of_bytes _ _ (by simpa using he) more
    · intro l hl
      simp only [List.mem_append, List.mem_map, List.mem_singleton] at hl
      rcases hl with ⟨h, hh, rfl⟩ | rfl
      · exact headerLine_line h (hs_ok h hh)
      · exact ⟨[13], rfl, by decide⟩
    · rw [adv_fh, File.advance_rest, hr, ← headLines]
      rw [← List.append_assoc, ← List.append_assoc, List.append_assoc (T ++ (v ++ CRLF))]
      rw [show T.length + (v ++ CRLF).length = (T ++ (v ++ CRLF)).length by simp, List.drop_left]
  have hparse : ∀ o, WarcParser.parse o (v ++ CRLF) (s.adv (T.length + (v ++ CRLF).length)) =
      .ok (some (parsed v hs), [], o)
        { s.adv (T.length + (headBytes v hs).length) with eoc := some (declaredLength hs) } := by
    intro o
    have := parse_forward o [] (v ++ CRLF) ([], v, n, CRLF) (by simp [Skipped]) hvs hn (by simp)
      (hs.map itemOf) CRLF (block_of_headers hs hs_ok) _ _ (v ++ CRLF)
      (blockHead (hs.map itemOf) CRLF :: blockTail (hs.map itemOf) CRLF) rfl
      (by rw [blockLines_of_headers]; exact hlines)
    rw [this]
    have hlen : (v ++ CRLF).length + (hs.map headerLine ++ [CRLF]).flatten.length = (headBytes v hs).length := by
      rw [← headLines]; simp; omega
    simp only [foldl_itemOf hs _ hs_ok, hinit, versionErrs, adv_adv, Nat.add_assoc, hlen]
    simp only [List.nil_append, junkErrs_nil, lenSum_nil, List.length_nil, Nat.add_zero]
    cases o <;> rfl
  have hm' : WarcMode (s.adv (T.length + (v ++ CRLF).length)) (v ++ CRLF) := hm
  have hset : { s with eoc := none } = s := by
    obtain ⟨fh, eoc, kind, parser⟩ := s; simp at he; subst he; rfl
  simp only [readRecord, M.bind_apply, M.get_apply, he, M.pure_apply, M.modify_apply, hset]
  cases hkind : s.kind with
  | plain =>
    simp only [M.bind_apply, hbl, parseWith_warc _ _ _ hm', hparse]
    simp [reported]
  | gzipRecord =>
    simp only [M.bind_apply, hbl, parseWith_warc _ _ _ hm', hparse]
    simp [reported]
  | gzipFile => exact absurd hkind hk

end Warc
