import Verif.Proofs.Reads
import Verif.Spec.Write
/-
  What the writer produces.
-/
set_option linter.all false
namespace Warc
open Rx Stream Spec

namespace World

@[simp] theorem write_apply (b : Bytes) (w : World) : write b w = .ok () { w with out := w.out ++ b } := rfl

theorem writeHeader_apply (h : Header) (w : World) :
    writeHeader CRLF h w = .ok () { w with out := w.out ++ headerLine h } := by
  simp [writeHeader, headerLine]

theorem writeHeaders_file (hs : List Header) (w : World) :
    writeHeaders CRLF true hs w = .ok () { w with out := w.out ++ hs.flatMap headerLine } := by
  induction hs generalizing w with
  | nil => simp [writeHeaders]
  | cons h hs ih =>
    simp only [writeHeaders, Bool.true_or, if_true, M.bind_apply, writeHeader_apply]
    rw [ih]; simp

theorem writeHeaders_tuple (hs : List Header) (w : World) :
    writeHeaders CRLF false hs w = .ok () { w with out := w.out ++
      (hs.filter (fun h => h.1 != b! "Content-Type" && h.1 != b! "Content-Length")).flatMap headerLine } := by
  induction hs generalizing w with
  | nil => simp [writeHeaders]
  | cons h hs ih =>
    have hneg : (!(h.1 == WH.CONTENT_TYPE || h.1 == WH.CONTENT_LENGTH)) =
        (h.1 != b! "Content-Type" && h.1 != b! "Content-Length") := by
      simp only [WH.CONTENT_TYPE, WH.CONTENT_LENGTH, Bool.not_or, bne]
    simp only [writeHeaders, Bool.false_or, hneg, List.filter_cons]
    split
    · simp only [M.bind_apply, writeHeader_apply]
      rw [ih]; simp
    · rw [← ih]

theorem content_some (w : World) (c) (h : w.rcd.content = some c) : content w = .ok c w := by
  simp [content, h]

/-- writing a record with a content tuple -/
theorem writeTo_tuple (w : World) (ct : Option Bytes) (buf : Option Bytes)
    (hcls : w.rcd.cls = .warc) (hcf : w.rcd.cfile = .none) (hc : w.rcd.content = some (ct, buf)) :
    writeTo CRLF w = .ok () { w with out := (w.out ++
      recordBytes w.rcd.version (writtenHeaders w.rcd.headers ct (buf.getD [])) (buf.getD [])) } := by
  have hhas : hasCfile w.rcd = false := by simp [hasCfile, hcf]
  have hbody : writeBody CRLF w = .ok () { w with out := (w.out ++
      recordBytes w.rcd.version (writtenHeaders w.rcd.headers ct (buf.getD [])) (buf.getD [])) } := by
    simp only [writeBody, hcls, hhas, M.bind_apply, write_apply, writeHeaders_tuple]
    simp only [Bool.false_eq_true, if_false, M.bind_apply]
    rw [content_some _ _ (by exact hc)]
    have h1 : WH.CONTENT_LENGTH = b! "Content-Length" := rfl
    have h2 : WH.CONTENT_TYPE = b! "Content-Type" := rfl
    cases ct with
    | none =>
      by_cases hb : buf.getD [] = []
      · simp [writeHeader_apply, hb, recordBytes, headBytes, writtenHeaders, h1, h2]
      · simp [writeHeader_apply, hb, recordBytes, headBytes, writtenHeaders, h1, h2]
    | some t =>
      by_cases ht : t = []
      · by_cases hb : buf.getD [] = []
        · simp [writeHeader_apply, hb, ht, recordBytes, headBytes, writtenHeaders, h1, h2]
        · simp [writeHeader_apply, hb, ht, recordBytes, headBytes, writtenHeaders, h1, h2]
      · by_cases hb : buf.getD [] = []
        · simp [writeHeader_apply, hb, ht, recordBytes, headBytes, writtenHeaders, h1, h2]
        · simp [writeHeader_apply, hb, ht, recordBytes, headBytes, writtenHeaders, h1, h2]
  simp only [writeTo, hcf, hhas, Bool.false_and, Bool.false_eq_true, if_false, hbody]

/-- the copy loop on a separate file -/
theorem copyLoop_file (fuel : Nat) (f : File) (hf : f.fault = none) (w : World)
    (hcf : w.rcd.cfile = .file f) (hfuel : f.rest.length + 1 < fuel) :
    copyLoop fuel w = .ok () { w with
      out := w.out ++ f.rest
      rcd := { w.rcd with cfile := .file (f.advance f.rest.length) } } := by
  induction fuel generalizing f w with
  | zero => omega
  | succ fuel ih =>
    simp only [copyLoop, M.bind_apply, cfileRead, hcf]
    have h8 : (8192 : Int) = ((8192 : Nat) : Int) := rfl
    by_cases hle : 8192 ≤ f.rest.length
    · rw [h8, fileRead_ok f 8192 hle]
      have hne : f.rest.take 8192 ≠ [] := by
        intro e
        have := congrArg List.length e
        simp at this
        rw [this] at hle; simp at hle
      simp only [if_neg hne, M.bind_apply, write_apply]
      rw [ih (f.advance 8192) (by simpa using hf) _ rfl (by simp; omega)]
      have : 8192 + (f.rest.length - 8192) = f.rest.length := by omega
      simp [this]
    · rw [h8, fileRead_short f 8192 (by omega) hf]
      by_cases hne : f.rest = []
      · simp [hne]
      · simp only [if_neg hne, M.bind_apply, write_apply]
        rw [ih (f.advance f.rest.length) (by simpa using hf) _ rfl (by
          have : 0 < f.rest.length := List.length_pos_iff.2 hne
          simp; omega)]
        simp

/-- writing a record with a content file -/
theorem writeTo_file (w : World) (f : File) (hf : f.fault = none) (hcls : w.rcd.cls = .warc)
    (hcf : w.rcd.cfile = .file f) (hv : w.rcd.cfileValid = true) :
    writeTo CRLF w = .ok () { w with
      out := w.out ++ recordBytes w.rcd.version w.rcd.headers f.rest
      rcd := { w.rcd with cfile := .file (f.advance f.rest.length), cfileValid := false } } := by
  have hhas : hasCfile w.rcd = true := by simp [hasCfile, hcf]
  have hbody : writeBody CRLF w = .ok () { w with
      out := w.out ++ recordBytes w.rcd.version w.rcd.headers f.rest
      rcd := { w.rcd with cfile := .file (f.advance f.rest.length) } } := by
    have hrem : cfileRemaining w = f.rest.length := by simp [cfileRemaining, hcf]
    simp only [writeBody, hcls, hhas, M.bind_apply, write_apply, writeHeaders_file, if_true, hrem]
    rw [copyLoop_file _ f hf _ (by exact hcf) (by omega)]
    simp [recordBytes, headBytes, hcls]
  simp only [writeTo, hcf, hhas, hv, Bool.not_true, Bool.and_false, Bool.false_eq_true, if_false, hbody]
  simp [hasCfile]

/-- the copy loop on the stream a record was read from -/
theorem copyLoop_stream (fuel n : Nat) (w : World) (hcf : w.rcd.cfile = .stream)
    (he : w.strm.eoc = some (n : Int)) (hok : n ≤ w.strm.fh.rest.length ∨ w.strm.fh.fault = none)
    (hfuel : w.strm.fh.rest.length + 1 < fuel) :
    copyLoop fuel w = .ok () { w with
      out := w.out ++ w.strm.fh.rest.take n
      strm := { w.strm.adv (w.strm.fh.rest.take n).length with
        eoc := some ((n - (w.strm.fh.rest.take n).length : Nat) : Int) } } := by
  induction fuel generalizing n w with
  | zero => omega
  | succ fuel ih =>
    simp only [copyLoop, M.bind_apply, cfileRead, hcf, onStream]
    have hop := op_run (.read (some 8192)) w.strm n he hok
    simp only [ReadOp.run, ReadOp.result, Option.map_some] at hop
    have h8 : (8192 : Int) = ((8192 : Nat) : Int) := rfl
    rw [h8, hop]
    simp only
    have hlen : ((w.strm.fh.rest.take n).take 8192).length = min 8192 (min n w.strm.fh.rest.length) := by
      simp
    by_cases hne : (w.strm.fh.rest.take n).take 8192 = []
    · have : w.strm.fh.rest.take n = [] := by
        cases hx : w.strm.fh.rest.take n with
        | nil => rfl
        | cons a b => rw [hx] at hne; simp at hne
      obtain ⟨⟨fh, eoc, kind, parser⟩, rcd, out⟩ := w
      simp at he; subst he
      simp at this
      rcases this with h | h
      · subst h; simp
      · simp only at *
        simp [h]
    · simp only [if_neg hne, M.bind_apply, write_apply]
      have hpos : 0 < ((w.strm.fh.rest.take n).take 8192).length := List.length_pos_iff.2 hne
      have hkle : ((w.strm.fh.rest.take n).take 8192).length ≤ n := by rw [hlen]; omega
      have hkle2 : ((w.strm.fh.rest.take n).take 8192).length ≤ w.strm.fh.rest.length := by rw [hlen]; omega
      have hsplit : (w.strm.fh.rest.take n).take 8192 ++
          (w.strm.fh.rest.drop ((w.strm.fh.rest.take n).take 8192).length).take
            (n - ((w.strm.fh.rest.take n).take 8192).length) = w.strm.fh.rest.take n := by
        rw [← List.drop_take]
        exact List.prefix_iff_eq_append.1 (List.take_prefix 8192 (w.strm.fh.rest.take n))
      have hl2 := congrArg List.length hsplit
      rw [List.length_append] at hl2
      rw [ih (n - ((w.strm.fh.rest.take n).take 8192).length) _ (by exact hcf) rfl (by
        rcases hok with h | h
        · left; simp only [adv_fh, File.advance_rest, List.length_drop]; omega
        · right; exact h) (by
        simp only [adv_fh, File.advance_rest, List.length_drop]; omega)]
      simp only [adv_fh, File.advance_rest, List.append_assoc, hsplit, Res.ok.injEq, true_and, adv,
        File.advance_advance, hl2]
      congr 3
      omega

/-- copying a record that was just read from the stream -/
theorem writeTo_stream (w : World) (n : Nat) (hcls : w.rcd.cls = .warc) (hcf : w.rcd.cfile = .stream)
    (hv : w.rcd.cfileValid = true) (he : w.strm.eoc = some (n : Int))
    (hok : n ≤ w.strm.fh.rest.length ∨ w.strm.fh.fault = none) :
    writeTo CRLF w = .ok () { w with
      out := w.out ++ recordBytes w.rcd.version w.rcd.headers (w.strm.fh.rest.take n)
      strm := { w.strm.adv (w.strm.fh.rest.take n).length with
        eoc := some ((n - (w.strm.fh.rest.take n).length : Nat) : Int) }
      rcd := { w.rcd with cfileValid := false } } := by
  have hhas : hasCfile w.rcd = true := by simp [hasCfile, hcf]
  have hbody : writeBody CRLF w = .ok () { w with
      out := w.out ++ recordBytes w.rcd.version w.rcd.headers (w.strm.fh.rest.take n)
      strm := { w.strm.adv (w.strm.fh.rest.take n).length with
        eoc := some ((n - (w.strm.fh.rest.take n).length : Nat) : Int) } } := by
    have hrem : cfileRemaining w = w.strm.fh.rest.length := by simp [cfileRemaining, hcf]
    simp only [writeBody, hcls, hhas, M.bind_apply, write_apply, writeHeaders_file, if_true, hrem]
    rw [copyLoop_stream _ n _ (by exact hcf) (by exact he) (by exact hok) (by simp)]
    simp [recordBytes, headBytes, hcls]
  simp only [writeTo, hcf, hhas, hv, Bool.not_true, Bool.and_false, Bool.false_eq_true, if_false, hbody]
  simp

end World

/-! ### written headers are well formed -/

theorem headerOk_contentLength (n : Nat) : HeaderOk (b! "Content-Length", decimal n) := by
  refine ⟨by simp only; decide, by simp only; decide, by simp only; decide, decimal_noLF n, strip_decimal n, ?_, ?_⟩
  · intro h; exact absurd h (by simp only; decide)
  intro _
  simp [pyInt_decimal]

theorem headerOk_contentType (t : Bytes) (h10 : 10 ∉ t) (hs : strip t = t) (hne : t ≠ []) :
    HeaderOk (b! "Content-Type", t) := by
  refine ⟨by simp only; decide, by simp only; decide, by simp only; decide, h10, hs, fun _ => hne, ?_⟩
  intro h; exact absurd h (by simp only; decide)

theorem writtenHeaders_ok (it : Item) (h : it.Ok) : ∀ x ∈ it.R.headers, HeaderOk x := by
  intro x hx
  simp only [Item.R, writtenHeaders, List.mem_append, List.mem_filter, List.mem_singleton] at hx
  rcases hx with (⟨hx, _⟩ | hx) | rfl
  · exact h.headers x hx
  · cases ht : it.ctype with
    | none => simp [ht] at hx
    | some t =>
      simp only [ht] at hx
      split at hx
      · simp at hx
      · rename_i hne
        simp only [List.mem_singleton] at hx
        subst hx
        obtain ⟨h1, h2⟩ := h.ctype t ht
        exact headerOk_contentType t h1 h2 hne
  · exact headerOk_contentLength _

theorem declaredLength_snoc (hs : List Header) (h : Header) :
    declaredLength (hs ++ [h]) =
      if lower h.1 = b! "content-length" then (pyInt 10 h.2).getD (declaredLength hs) else declaredLength hs := by
  simp [declaredLength, List.foldl_append]

theorem item_R_ok (it : Item) (h : it.Ok) : it.R.Ok := by
  refine ⟨h.version, writtenHeaders_ok it h, ?_⟩
  show declaredLength (writtenHeaders it.headers it.ctype it.body) = _
  unfold writtenHeaders
  rw [declaredLength_snoc, if_pos (by simp only; decide), pyInt_decimal]
  rfl

theorem writeAll_ok (its : List Item) (out : Bytes) :
    writeAll its out = some (out ++ archive (its.map Item.R)) := by
  induction its generalizing out with
  | nil => simp [writeAll, archive]
  | cons it its ih =>
    simp only [writeAll]
    rw [World.writeTo_tuple _ it.ctype (some it.body) rfl rfl rfl]
    simp only
    rw [ih]
    simp [archive, R.bytes, Item.R, Item.record, Rec.mkWarc]

end Warc
