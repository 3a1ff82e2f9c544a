import Verif.Proofs.Write
import Verif.Proofs.Crash
import Verif.Proofs.ReadAll
import Verif.Proofs.HttpHead
import Verif.Spec.Newline
set_option linter.all false
/-
  Records written with another line end.
-/
namespace Warc
open Rx Stream Spec

namespace World

theorem writeHeader_with (nl : Bytes) (h : Header) (w : World) :
    writeHeader nl h w = .ok () { w with out := w.out ++ (h.1 ++ b! ": " ++ h.2 ++ nl) } := by
  simp [writeHeader]

theorem writeHeaders_file_with (nl : Bytes) (hs : List Header) (w : World) :
    writeHeaders nl true hs w = .ok () { w with out := w.out ++ hs.flatMap (fun h => h.1 ++ b! ": " ++ h.2 ++ nl) } := by
  induction hs generalizing w with
  | nil => simp [writeHeaders]
  | cons h hs ih =>
    simp only [writeHeaders, Bool.true_or, if_true, M.bind_apply, writeHeader_with]
    rw [ih]; simp

theorem writeHeaders_tuple_with (nl : Bytes) (hs : List Header) (w : World) :
    writeHeaders nl false hs w = .ok () { w with out := w.out ++
      (hs.filter (fun h => h.1 != b! "Content-Type" && h.1 != b! "Content-Length")).flatMap (fun h => h.1 ++ b! ": " ++ h.2 ++ nl) } := by
  induction hs generalizing w with
  | nil => simp [writeHeaders]
  | cons h hs ih =>
    have hneg : (!(h.1 == WH.CONTENT_TYPE || h.1 == WH.CONTENT_LENGTH)) =
        (h.1 != b! "Content-Type" && h.1 != b! "Content-Length") := by
      simp only [WH.CONTENT_TYPE, WH.CONTENT_LENGTH, Bool.not_or, bne]
    simp only [writeHeaders, Bool.false_or, hneg, List.filter_cons]
    split
    · simp only [M.bind_apply, writeHeader_with]
      rw [ih]; simp
    · rw [← ih]

theorem writeTo_tuple_with (nl : Bytes) (w : World) (ct : Option Bytes) (buf : Option Bytes)
    (hcls : w.rcd.cls = .warc) (hcf : w.rcd.cfile = .none) (hc : w.rcd.content = some (ct, buf)) :
    writeTo nl w = .ok () { w with out := (w.out ++
      recordWith nl w.rcd.version (writtenHeaders w.rcd.headers ct (buf.getD [])) (buf.getD [])) } := by
  have hhas : hasCfile w.rcd = false := by simp [hasCfile, hcf]
  have hbody : writeBody nl w = .ok () { w with out := (w.out ++
      recordWith nl w.rcd.version (writtenHeaders w.rcd.headers ct (buf.getD [])) (buf.getD [])) } := by
    simp only [writeBody, hcls, hhas, M.bind_apply, write_apply, writeHeaders_tuple_with]
    simp only [Bool.false_eq_true, if_false, M.bind_apply]
    rw [content_some _ _ (by exact hc)]
    have h1 : WH.CONTENT_LENGTH = b! "Content-Length" := rfl
    have h2 : WH.CONTENT_TYPE = b! "Content-Type" := rfl
    cases ct with
    | none =>
      by_cases hb : buf.getD [] = []
      · simp [writeHeader_with, hb, recordWith, writtenHeaders, h1, h2]
      · simp [writeHeader_with, hb, recordWith, writtenHeaders, h1, h2]
    | some t =>
      by_cases ht : t = []
      · by_cases hb : buf.getD [] = []
        · simp [writeHeader_with, hb, ht, recordWith, writtenHeaders, h1, h2]
        · simp [writeHeader_with, hb, ht, recordWith, writtenHeaders, h1, h2]
      · by_cases hb : buf.getD [] = []
        · simp [writeHeader_with, hb, ht, recordWith, writtenHeaders, h1, h2]
        · simp [writeHeader_with, hb, ht, recordWith, writtenHeaders, h1, h2]
  simp only [writeTo, hcf, hhas, Bool.false_and, Bool.false_eq_true, if_false, hbody]

theorem writeTo_file_with (nl : Bytes) (w : World) (f : File) (hf : f.fault = none) (hcls : w.rcd.cls = .warc)
    (hcf : w.rcd.cfile = .file f) (hv : w.rcd.cfileValid = true) :
    writeTo nl w = .ok () { w with
      out := w.out ++ recordWith nl w.rcd.version w.rcd.headers f.rest
      rcd := { w.rcd with cfile := .file (f.advance f.rest.length), cfileValid := false } } := by
  have hhas : hasCfile w.rcd = true := by simp [hasCfile, hcf]
  have hbody : writeBody nl w = .ok () { w with
      out := w.out ++ recordWith nl w.rcd.version w.rcd.headers f.rest
      rcd := { w.rcd with cfile := .file (f.advance f.rest.length) } } := by
    have hrem : cfileRemaining w = f.rest.length := by simp [cfileRemaining, hcf]
    simp only [writeBody, hcls, hhas, M.bind_apply, write_apply, writeHeaders_file_with, if_true, hrem]
    rw [copyLoop_file _ f hf _ (by exact hcf) (by omega)]
    simp [recordWith, hcls]
  simp only [writeTo, hcf, hhas, hv, Bool.not_true, Bool.and_false, Bool.false_eq_true, if_false, hbody]
  simp [hasCfile]

theorem writeTo_stream_with (nl : Bytes) (w : World) (n : Nat) (hcls : w.rcd.cls = .warc) (hcf : w.rcd.cfile = .stream)
    (hv : w.rcd.cfileValid = true) (he : w.strm.eoc = some (n : Int))
    (hok : n ≤ w.strm.fh.rest.length ∨ w.strm.fh.fault = none) :
    writeTo nl w = .ok () { w with
      out := w.out ++ recordWith nl w.rcd.version w.rcd.headers (w.strm.fh.rest.take n)
      strm := { w.strm.adv (w.strm.fh.rest.take n).length with
        eoc := some ((n - (w.strm.fh.rest.take n).length : Nat) : Int) }
      rcd := { w.rcd with cfileValid := false } } := by
  have hhas : hasCfile w.rcd = true := by simp [hasCfile, hcf]
  have hbody : writeBody nl w = .ok () { w with
      out := w.out ++ recordWith nl w.rcd.version w.rcd.headers (w.strm.fh.rest.take n)
      strm := { w.strm.adv (w.strm.fh.rest.take n).length with
        eoc := some ((n - (w.strm.fh.rest.take n).length : Nat) : Int) } } := by
    have hrem : cfileRemaining w = w.strm.fh.rest.length := by simp [cfileRemaining, hcf]
    simp only [writeBody, hcls, hhas, M.bind_apply, write_apply, writeHeaders_file_with, if_true, hrem]
    rw [copyLoop_stream _ n _ (by exact hcf) (by exact he) (by exact hok) (by simp)]
    simp [recordWith, hcls]
  simp only [writeTo, hcf, hhas, hv, Bool.not_true, Bool.and_false, Bool.false_eq_true, if_false, hbody]
  simp

end World

theorem writeAllWith_ok (nl : Bytes) (its : List Item) (out : Bytes) :
    writeAllWith nl its out = some (out ++ archiveWith nl (its.map Item.R)) := by
  induction its generalizing out with
  | nil => simp [writeAllWith, archiveWith]
  | cons it its ih =>
    simp only [writeAllWith]
    rw [World.writeTo_tuple_with nl _ it.ctype (some it.body) rfl rfl rfl]
    simp only
    rw [ih]
    simp [archiveWith, Item.R, Item.record, Rec.mkWarc]

theorem writeAllGzWith_ok (c : Codec) (nl : Bytes) (its : List Item) (out : Bytes) :
    writeAllGzWith c nl its out = some (out ++ (its.map fun it => recordWith nl it.R.version it.R.headers it.R.body).flatMap c.enc) := by
  induction its generalizing out with
  | nil => simp [writeAllGzWith]
  | cons it its ih =>
    simp only [writeAllGzWith, World.writeToGz]
    rw [World.writeTo_tuple_with nl _ it.ctype (some it.body) rfl rfl rfl]
    simp only
    rw [ih]
    simp [Item.R, Item.record, Rec.mkWarc]

/-! ### reading LF lines -/

/-- a header line that ends in LF -/
def lfLine (h : Header) : Bytes := (h.1 ++ b! ": " ++ h.2) ++ [10]

theorem lineEnd_lf {u : Bytes} (h : u.getLast? ≠ some 13) : lineEnd (u ++ [10]) = [10] := by
  have : endsCRLF (u ++ [10]) = false := by
    cases he : endsCRLF (u ++ [10]) with
    | false => rfl
    | true =>
      obtain ⟨x, hx⟩ := (endsCRLF_iff _).1 he
      have : u ++ [10] = (x ++ [13]) ++ [10] := by rw [hx]; simp [CRLF]
      have := (List.append_inj' this rfl).1
      rw [this] at h; simp at h
  simp [lineEnd, this]

theorem dropNewline_lf {u : Bytes} (h : u.getLast? ≠ some 13) : dropNewline (u ++ [10]) = u := by
  unfold dropNewline
  rw [if_neg]
  · simp
  rintro ⟨h2, h3⟩
  have he : endsCRLF (u ++ [10]) = true := by simp only [endsCRLF, h2, h3, decide_true, Bool.true_and, beq_self_eq_true]
  obtain ⟨x, hx⟩ := (endsCRLF_iff _).1 he
  have : u ++ [10] = (x ++ [13]) ++ [10] := by rw [hx]; simp [CRLF]
  have := (List.append_inj' this rfl).1
  rw [this] at h; simp at h

theorem lf_value_last {v : Bytes} (h : strip v = v) (a : Bytes) : (a ++ 32 :: v).getLast? ≠ some 13 := by
  intro e
  rw [List.getLast?_append] at e
  cases v with
  | nil => simp at e
  | cons c cs =>
    have e2 : (c :: cs).getLast? = some 13 := by
      rw [List.getLast?_cons_cons] at e
      cases hl : (c :: cs).getLast? with
      | none => simp at hl
      | some x => rw [hl] at e; simpa using e
    exact absurd (strip_self_last h e2) (by decide)

theorem lfLine_head {h : Header} (hk : HeaderOk h) : ∃ c cs, lfLine h = c :: cs ∧ isWs c = false := by
  cases hn : h.1 with
  | nil => exact ⟨58, 32 :: h.2 ++ [10], by simp [lfLine, hn], by decide⟩
  | cons c cs => exact ⟨c, cs ++ b! ": " ++ h.2 ++ [10], by simp [lfLine, hn], strip_self_head hk.nameStrip hn⟩

theorem lfLine_notCont {h : Header} (hk : HeaderOk h) : contLine (lfLine h) = false := by
  obtain ⟨c, cs, h1, h2⟩ := lfLine_head hk
  rw [h1]; simp [contLine, h2]

theorem lfLine_notBlank {h : Header} (hk : HeaderOk h) : blankLine (lfLine h) = false := by
  obtain ⟨c, cs, h1, h2⟩ := lfLine_head hk
  rw [h1]
  have h13 : c ≠ 13 := by rintro rfl; exact absurd h2 (by decide)
  have h10 : c ≠ 10 := by rintro rfl; exact absurd h2 (by decide)
  simp [blankLine, h13, h10]

theorem lfLine_field (h : Header) : fieldLine (lfLine h) = true := by
  have : (lfLine h).getLast? = some 10 := by rw [lfLine, last_append_ne _ _ (by simp)]; rfl
  simp only [fieldLine, complete, this]
  simp [lfLine]

theorem lf_block (hs : List Header) (hok : ∀ h ∈ hs, HeaderOk h) (after : Bool) (rest : List Bytes) :
    blockLines after (hs.map lfLine ++ [10] :: rest) = hs.map lfLine ∧ Spec.stuck after (hs.map lfLine ++ [10] :: rest) = false := by
  induction hs generalizing after with
  | nil => cases after <;> simp [blockLines, Spec.stuck, show contLine [10] = false by decide, show blankLine [10] = true by decide]
  | cons h hs ih =>
    obtain ⟨ih1, ih2⟩ := ih (fun x hx => hok x (by simp [hx])) true
    have hc := lfLine_notCont (hok h (by simp))
    have hb := lfLine_notBlank (hok h (by simp))
    have hf := lfLine_field h
    constructor
    · simp only [List.map_cons, List.cons_append, blockLines, hc, hb, Bool.and_false, Bool.false_eq_true, if_false, ih1]
    · simp only [List.map_cons, List.cons_append, Spec.stuck, hc, hb, hf, Bool.and_false, Bool.false_eq_true, if_false, if_true, ih2]

theorem lf_cut (hs : List Header) (hok : ∀ h ∈ hs, HeaderOk h) : cutFields (hs.map lfLine) = ([], hs.map fun h => (lfLine h, [])) := by
  induction hs with
  | nil => rfl
  | cons h hs ih =>
    rw [List.map_cons, cutFields, if_neg (by simp [lfLine_notCont (hok h (by simp))]), ih fun x hx => hok x (by simp [hx])]
    rfl

theorem lf_fields (hs : List Header) (hok : ∀ h ∈ hs, HeaderOk h) : fields (hs.map lfLine) = hs.map fun h => (lfLine h, []) := by
  cases hs with
  | nil => rfl
  | cons h hs =>
    rw [List.map_cons, fields, lf_cut hs fun x hx => hok x (by simp [hx])]
    rfl

theorem lf_header {h : Header} (hk : HeaderOk h) : fieldHeader (lfLine h, []) = h ∧ fieldErrors (lfLine h, []) = [.badNlHeader [10]] := by
  have e : lfLine h = h.1 ++ 58 :: (32 :: h.2 ++ [10]) := by simp [lfLine]
  have e1 : (lfLine h).takeWhile (· != 58) = h.1 := by
    rw [e, List.takeWhile_append_of_pos (fun c hc => by simpa using fun (e : c = 58) => hk.noColon (e ▸ hc))]; simp
  have e2 : (lfLine h).dropWhile (· != 58) = 58 :: (32 :: h.2 ++ [10]) := by
    rw [e, List.dropWhile_append_of_pos (fun c hc => by simpa using fun (e : c = 58) => hk.noColon (e ▸ hc))]; simp
  have hh : fieldHeader (lfLine h, []) = h := by
    have : strip (32 :: h.2 ++ [10]) = h.2 := by
      rw [Http.strip_ws_right _ [10] (by decide), strip_ws_cons (by decide), hk.valueStrip]
    simp only [fieldHeader, e1, e2, List.drop_succ_cons, List.drop_zero, this, hk.nameStrip, List.map_nil]
    rfl
  refine ⟨hh, ?_⟩
  have hend : fieldEnd (lfLine h) = [10] := by
    unfold fieldEnd
    rw [e2]
    split
    · rfl
    · have := lineEnd_lf (lf_value_last hk.valueStrip (h.1 ++ [58]))
      have e3 : lfLine h = (h.1 ++ [58] ++ 32 :: h.2) ++ [10] := by simp [lfLine]
      rw [e3]; exact this
  have hv : ValueOk h := ⟨hk.typeOk, hk.lengthOk⟩
  simp only [fieldErrors, hend, hh, List.flatMap_nil, List.append_nil, hv, if_true]
  rw [if_neg (by decide)]

theorem lf_version {v : Bytes} (h : VersionOk v) :
    versionNumber (v ++ [10]) ∈ [some (b! "1.0"), some (b! "0.17"), some (b! "0.18")] ∧ versionPrefix (v ++ [10]) = [] ∧
    versionText (v ++ [10]) = v ∧ lineEnd (v ++ [10]) = [10] := by
  obtain ⟨w, t, n, rfl, hw, hw10, ht, hn⟩ := h
  have ht5 : t.length = 5 := by
    have := congrArg List.length ht; simpa [lower] using this
  have hlast : (w ++ t ++ n).getLast? ≠ some 13 := by
    have : ∀ x ∈ [b! "1.0", b! "0.17", b! "0.18"], x ≠ [] ∧ x.getLast? ≠ some 13 := by decide
    obtain ⟨h1, h2⟩ := this n hn
    rw [last_append_ne _ _ h1]; exact h2
  have hnlast : n.getLast? ≠ some 13 := by
    have : ∀ x ∈ [b! "1.0", b! "0.17", b! "0.18"], x.getLast? ≠ some 13 := by decide
    exact this n hn
  have hx : lower ((t ++ n ++ [10]).take 5) = b! "warc/" := by
    rw [List.append_assoc, List.take_append_of_le_length (by omega), List.take_of_length_le (by omega), ht]
  have hbefore : beforeTag (w ++ t ++ n ++ [10]) = w := by
    have := beforeTag_ws w (t ++ n ++ [10]) hw hx
    simpa using this
  have hp : versionPrefix (w ++ t ++ n ++ [10]) = [] := by
    unfold versionPrefix; rw [hbefore]; exact (rstrip_nil_iff w).2 hw
  have hafter : afterTag (w ++ t ++ n ++ [10]) = some (n ++ [10]) := by
    have key : ∀ u : Bytes, (∀ c ∈ u, isWs c = true) → afterTag (u ++ (t ++ n ++ [10])) = some (n ++ [10]) := by
      intro u hu
      induction u with
      | nil =>
        cases t with
        | nil => simp at ht5
        | cons c cs =>
          simp only [List.nil_append, List.cons_append, afterTag]
          have hx' : lower ((c :: (cs ++ (n ++ [10]))).take 5) = b! "warc/" := by simpa using hx
          simp only [List.append_assoc]
          rw [if_pos hx']
          have : (c :: (cs ++ (n ++ [10]))) = (c :: cs) ++ (n ++ [10]) := by simp
          rw [this, List.drop_append_of_le_length (by omega), List.drop_of_length_le (by omega)]
          rfl
      | cons c u ih =>
        simp only [List.cons_append, afterTag]
        rw [if_neg, ih fun x hx => hu x (by simp [hx])]
        intro e
        have hc := hu c (by simp)
        simp only [List.take_succ_cons, lower, List.map_cons, List.cons.injEq] at e
        have h1 := e.1
        have : ∀ i : Fin 256, isWs (UInt8.ofNat i.val) = true → lowerByte (UInt8.ofNat i.val) ≠ 119 := by decide +kernel
        have h2 := this ⟨c.toNat, c.toNat_lt⟩
        simp only [UInt8.ofNat_toNat] at h2
        exact h2 hc h1
    have := key w hw
    simpa using this
  refine ⟨?_, hp, ?_, lineEnd_lf hlast⟩
  · have hc : complete (w ++ t ++ n ++ [10]) = true := by simp [complete, List.getLast?_append]
    rw [versionNumber, if_pos hc, hafter, Option.map_some, dropNewline_lf hnlast]
    have : ∀ x ∈ [b! "1.0", b! "0.17", b! "0.18"], some x ∈ [some (b! "1.0"), some (b! "0.17"), some (b! "0.18")] := by decide
    exact this n hn
  · rw [versionText, hp, dropNewline_lf hlast]; rfl

theorem lf_lines (hs : List Header) (hok : ∀ h ∈ hs, HeaderOk h) (x : Bytes) :
    Spec.lines (hs.flatMap (fun h : Header => h.1 ++ b! ": " ++ h.2 ++ [10]) ++ x) = hs.map lfLine ++ Spec.lines x := by
  induction hs with
  | nil => rfl
  | cons h hs ih =>
    have hk := hok h (by simp)
    have : 10 ∉ h.1 ++ b! ": " ++ h.2 := by
      simp only [List.mem_append, not_or]
      exact ⟨⟨hk.nameNoLF, by decide⟩, hk.valueNoLF⟩
    have hl := lines_app (h.1 ++ b! ": " ++ h.2) (hs.flatMap (fun h : Header => h.1 ++ b! ": " ++ h.2 ++ [10]) ++ x) this
    rw [ih fun x hx => hok x (by simp [hx])] at hl
    rw [List.map_cons, List.cons_append, lfLine, ← hl]
    simp

theorem lf_sum (hs : List Header) : ((hs.map lfLine).map List.length).sum = (hs.flatMap (fun h : Header => h.1 ++ b! ": " ++ h.2 ++ [10])).length := by
  induction hs with
  | nil => rfl
  | cons h hs ih =>
    simp only [List.map_cons, List.sum_cons, ih, List.flatMap_cons, List.length_append, lfLine]

/-- what an LF record means -/
theorem next_lf (k : Nat) (v : Bytes) (hs : List Header) (x : Bytes) (hv : VersionOk v) (hok : ∀ h ∈ hs, HeaderOk h) :
    next (List.replicate k (10 : Byte) ++ (v ++ [10] ++ hs.flatMap (fun h : Header => h.1 ++ b! ": " ++ h.2 ++ [10]) ++ [10] ++ x)) =
      .record k v hs (.badNlVersion [10] :: hs.map fun _ => .badNlHeader [10])
        (k + (v ++ [10] ++ hs.flatMap (fun h : Header => h.1 ++ b! ": " ++ h.2 ++ [10]) ++ [10]).length) := by
  obtain ⟨h1, h2, h3, h4⟩ := lf_version hv
  have hrep : ∀ k (y : Bytes), Spec.lines (List.replicate k 10 ++ y) = List.replicate k [10] ++ Spec.lines y := by
    intro k y
    induction k with
    | zero => rfl
    | succ k ih => simp [List.replicate_succ, Spec.lines, ih]
  have hl : Spec.lines (v ++ [10] ++ hs.flatMap (fun h : Header => h.1 ++ b! ": " ++ h.2 ++ [10]) ++ [10] ++ x) =
      (v ++ [10]) :: (hs.map lfLine ++ [10] :: Spec.lines x) := by
    have := lines_app v (hs.flatMap (fun h : Header => h.1 ++ b! ": " ++ h.2 ++ [10]) ++ ([10] ++ x)) (versionOk_noLF hv)
    rw [lf_lines hs hok] at this
    have e : v ++ [10] ++ hs.flatMap (fun h : Header => h.1 ++ b! ": " ++ h.2 ++ [10]) ++ [10] ++ x =
      v ++ 10 :: (hs.flatMap (fun h : Header => h.1 ++ b! ": " ++ h.2 ++ [10]) ++ ([10] ++ x)) := by simp
    rw [e, this]; simp [Spec.lines]
  have hnt : ((v ++ [10]).all fun c => c == 13 || c == 10) = false := by
    obtain ⟨w, t, n, rfl, hw, hw10, ht, hn⟩ := hv
    have : ∀ y ∈ [b! "1.0", b! "0.17", b! "0.18"], 48 ∈ y := by decide
    have := this n hn
    rw [List.all_eq_false]
    exact ⟨48, by simp [this], by decide⟩
  have hdrop : dropTerminators (Spec.lines (List.replicate k 10 ++ (v ++ [10] ++ hs.flatMap (fun h : Header => h.1 ++ b! ": " ++ h.2 ++ [10]) ++ [10] ++ x))) =
      (v ++ [10]) :: (hs.map lfLine ++ [10] :: Spec.lines x) := by
    rw [hrep, hl, dropTerminators, List.dropWhile_append_of_pos (by
      intro l hl; rw [List.eq_of_mem_replicate hl]; decide)]
    rw [List.dropWhile_cons_of_neg (by rw [hnt]; simp)]
  have hsome : (versionNumber (v ++ [10])).isSome = true := by
    simp only [List.mem_cons, List.not_mem_nil, or_false] at h1
    rcases h1 with h | h | h <;> rw [h] <;> rfl
  obtain ⟨hb, hst⟩ := lf_block hs hok false (Spec.lines x)
  have hlook : look 0 ((v ++ [10]) :: (hs.map lfLine ++ [10] :: Spec.lines x)) = .found [] (v ++ [10]) (hs.map lfLine ++ [10] :: Spec.lines x) := by
    rw [look, if_pos hsome]
  rw [next, hdrop, hlook]
  simp only [h1, if_true, hst, Bool.false_eq_true, if_false, hb, h2, h3]
  have hhs : (fields (hs.map lfLine)).map fieldHeader = hs := by
    rw [lf_fields hs hok, List.map_map]
    have : ∀ l : List Header, (∀ h ∈ l, HeaderOk h) → l.map (fieldHeader ∘ fun h => (lfLine h, [])) = l := by
      intro l hl
      induction l with
      | nil => rfl
      | cons a l ih => rw [List.map_cons, ih fun h hh => hl h (by simp [hh])]; exact congrArg (· :: l) (lf_header (hl a (by simp))).1
    exact this hs hok
  have hes : (fields (hs.map lfLine)).flatMap fieldErrors = hs.map fun _ => .badNlHeader [10] := by
    rw [lf_fields hs hok, List.flatMap_map, List.map_eq_flatMap]
    have : ∀ l : List Header, (∀ h ∈ l, HeaderOk h) →
        (l.flatMap fun h => fieldErrors (lfLine h, [])) = l.flatMap fun _ => [.badNlHeader [10]] := by
      intro l hl
      induction l with
      | nil => rfl
      | cons h l ih => rw [List.flatMap_cons, List.flatMap_cons, (lf_header (hl h (by simp))).2, ih fun x hx => hl x (by simp [hx])]
    exact this hs hok
  have hfl : versionFlaws (v ++ [10]) = [.badNlVersion [10]] := by
    rw [versionFlaws, h4, h2, if_neg (by decide)]; simp
  have hsz : blockSize (hs.map lfLine ++ [10] :: Spec.lines x) = (hs.flatMap (fun h : Header => h.1 ++ b! ": " ++ h.2 ++ [10])).length + 1 := by
    rw [blockSize, hb, List.take_append, List.take_of_length_le (by simp)]
    rw [List.map_append, List.sum_append, lf_sum hs]
    simp
  have hsz2 : Spec.sizeOf ((v ++ [10]) :: (hs.map lfLine ++ [10] :: Spec.lines x)) =
      (v ++ [10] ++ hs.flatMap (fun h : Header => h.1 ++ b! ": " ++ h.2 ++ [10]) ++ [10] ++ x).length := by
    rw [← hl, sizeOf_lines]
  have hig : ignored [] = [] := rfl
  have hs0 : Spec.sizeOf [] = 0 := rfl
  rw [hhs, hes, hfl, hsz, hsz2, hig, hs0]
  have hlen : (List.replicate k (10 : Byte) ++ (v ++ [10] ++ hs.flatMap (fun h : Header => h.1 ++ b! ": " ++ h.2 ++ [10]) ++ [10] ++ x)).length -
      (v ++ [10] ++ hs.flatMap (fun h : Header => h.1 ++ b! ": " ++ h.2 ++ [10]) ++ [10] ++ x).length = k := by
    rw [List.length_append, List.length_replicate]; omega
  rw [hlen]
  simp only [List.nil_append, List.cons_append, List.length_append, List.length_nil, List.length_singleton, Nat.add_zero]
  congr 1
  omega

end Warc
