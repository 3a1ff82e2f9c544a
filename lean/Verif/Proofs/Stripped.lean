import Verif.Proofs.Newline
import Verif.Spec.Stripped
set_option linter.all false
/-
  Records whose header values have white space around them.
-/
namespace Warc
open Rx Stream Spec

theorem lineEnd_crlf (u : Bytes) : lineEnd (u ++ CRLF) = CRLF := by
  have : endsCRLF (u ++ CRLF) = true := (endsCRLF_iff _).2 ⟨u, rfl⟩
  simp [lineEnd, this]

theorem dropNewline_crlf (u : Bytes) : dropNewline (u ++ CRLF) = u := by
  have he : endsCRLF (u ++ CRLF) = true := (endsCRLF_iff _).2 ⟨u, rfl⟩
  simp only [endsCRLF, Bool.and_eq_true, decide_eq_true_eq, beq_iff_eq] at he
  unfold dropNewline
  rw [if_pos he]
  simp [CRLF]

/-- the header without the white space around its value -/
def tidyH (h : Header) : Header := (h.1, strip h.2)

theorem looseLine_head {h : Header} (hk : HeaderOk (tidyH h)) : ∃ c cs, headerLine h = c :: cs ∧ isWs c = false := by
  cases hn : h.1 with
  | nil => exact ⟨58, 32 :: h.2 ++ CRLF, by simp [headerLine, hn], by decide⟩
  | cons c cs => exact ⟨c, cs ++ b! ": " ++ h.2 ++ CRLF, by simp [headerLine, hn], strip_self_head hk.nameStrip hn⟩

theorem loose_notCont {h : Header} (hk : HeaderOk (tidyH h)) : contLine (headerLine h) = false := by
  obtain ⟨c, cs, h1, h2⟩ := looseLine_head hk
  rw [h1]; simp [contLine, h2]

theorem loose_notBlank {h : Header} (hk : HeaderOk (tidyH h)) : blankLine (headerLine h) = false := by
  obtain ⟨c, cs, h1, h2⟩ := looseLine_head hk
  rw [h1]
  have h13 : c ≠ 13 := by rintro rfl; exact absurd h2 (by decide)
  have h10 : c ≠ 10 := by rintro rfl; exact absurd h2 (by decide)
  simp [blankLine, h13, h10]

theorem loose_field (h : Header) : fieldLine (headerLine h) = true := by
  have : (headerLine h).getLast? = some 10 := by rw [headerLine, last_append_ne _ _ (by simp [CRLF])]; rfl
  simp only [fieldLine, complete, this]
  simp [headerLine]

theorem loose_block (hs : List Header) (hok : ∀ h ∈ hs, HeaderOk (tidyH h)) (after : Bool) (rest : List Bytes) :
    blockLines after (hs.map headerLine ++ CRLF :: rest) = hs.map headerLine ∧ Spec.stuck after (hs.map headerLine ++ CRLF :: rest) = false := by
  induction hs generalizing after with
  | nil => cases after <;> simp [blockLines, Spec.stuck, show contLine CRLF = false by decide, show blankLine CRLF = true by decide]
  | cons h hs ih =>
    obtain ⟨ih1, ih2⟩ := ih (fun x hx => hok x (by simp [hx])) true
    have hc := loose_notCont (hok h (by simp))
    have hb := loose_notBlank (hok h (by simp))
    have hf := loose_field h
    constructor
    · simp only [List.map_cons, List.cons_append, blockLines, hc, hb, Bool.and_false, Bool.false_eq_true, if_false, ih1]
    · simp only [List.map_cons, List.cons_append, Spec.stuck, hc, hb, hf, Bool.and_false, Bool.false_eq_true, if_false, if_true, ih2]

theorem loose_cut (hs : List Header) (hok : ∀ h ∈ hs, HeaderOk (tidyH h)) : cutFields (hs.map headerLine) = ([], hs.map fun h => (headerLine h, [])) := by
  induction hs with
  | nil => rfl
  | cons h hs ih =>
    rw [List.map_cons, cutFields, if_neg (by simp [loose_notCont (hok h (by simp))]), ih fun x hx => hok x (by simp [hx])]
    rfl

theorem loose_fields (hs : List Header) (hok : ∀ h ∈ hs, HeaderOk (tidyH h)) : fields (hs.map headerLine) = hs.map fun h => (headerLine h, []) := by
  cases hs with
  | nil => rfl
  | cons h hs =>
    rw [List.map_cons, fields, loose_cut hs fun x hx => hok x (by simp [hx])]
    rfl

theorem loose_header {h : Header} (hk : HeaderOk (tidyH h)) : fieldHeader (headerLine h, []) = tidyH h ∧ fieldErrors (headerLine h, []) = [] := by
  have hc : 58 ∉ h.1 := hk.noColon
  have e : headerLine h = h.1 ++ 58 :: (32 :: h.2 ++ CRLF) := by simp [headerLine]
  have e1 : (headerLine h).takeWhile (· != 58) = h.1 := by
    rw [e, List.takeWhile_append_of_pos (fun c hc' => by simpa using fun (e : c = 58) => hc (e ▸ hc'))]; simp
  have e2 : (headerLine h).dropWhile (· != 58) = 58 :: (32 :: h.2 ++ CRLF) := by
    rw [e, List.dropWhile_append_of_pos (fun c hc' => by simpa using fun (e : c = 58) => hc (e ▸ hc'))]; simp
  have hn : strip h.1 = h.1 := hk.nameStrip
  have hh : fieldHeader (headerLine h, []) = tidyH h := by
    have : strip (32 :: h.2 ++ CRLF) = strip h.2 := by
      rw [Http.strip_ws_right _ CRLF (by decide), strip_ws_cons (by decide)]
    simp only [fieldHeader, e1, e2, List.drop_succ_cons, List.drop_zero, this, hn, List.map_nil]
    rfl
  refine ⟨hh, ?_⟩
  have hend : fieldEnd (headerLine h) = CRLF := by
    unfold fieldEnd
    rw [e2, if_neg (by simp [CRLF])]
    exact lineEnd_crlf _
  have hv : ValueOk (tidyH h) := ⟨hk.typeOk, hk.lengthOk⟩
  simp only [fieldErrors, hend, hh, List.flatMap_nil, List.append_nil, hv, if_true]

theorem crlf_version {v : Bytes} (h : VersionOk v) :
    versionNumber (v ++ CRLF) ∈ [some (b! "1.0"), some (b! "0.17"), some (b! "0.18")] ∧ versionPrefix (v ++ CRLF) = [] ∧
    versionText (v ++ CRLF) = v ∧ lineEnd (v ++ CRLF) = CRLF := by
  obtain ⟨w, t, n, rfl, hw, hw10, ht, hn⟩ := h
  have ht5 : t.length = 5 := by
    have := congrArg List.length ht; simpa [lower] using this
  have hx : lower ((t ++ n ++ CRLF).take 5) = b! "warc/" := by
    rw [List.append_assoc, List.take_append_of_le_length (by omega), List.take_of_length_le (by omega), ht]
  have hbefore : beforeTag (w ++ t ++ n ++ CRLF) = w := by
    have := beforeTag_ws w (t ++ n ++ CRLF) hw hx
    simpa using this
  have hp : versionPrefix (w ++ t ++ n ++ CRLF) = [] := by
    unfold versionPrefix; rw [hbefore]; exact (rstrip_nil_iff w).2 hw
  have hafter : afterTag (w ++ t ++ n ++ CRLF) = some (n ++ CRLF) := by
    have key : ∀ u : Bytes, (∀ c ∈ u, isWs c = true) → afterTag (u ++ (t ++ n ++ CRLF)) = some (n ++ CRLF) := by
      intro u hu
      induction u with
      | nil =>
        cases t with
        | nil => simp at ht5
        | cons c cs =>
          simp only [List.nil_append, List.cons_append, afterTag]
          have hx' : lower ((c :: (cs ++ (n ++ CRLF))).take 5) = b! "warc/" := by simpa using hx
          simp only [List.append_assoc]
          rw [if_pos hx']
          have : (c :: (cs ++ (n ++ CRLF))) = (c :: cs) ++ (n ++ CRLF) := by simp
          rw [this, List.drop_append_of_le_length (by omega), List.drop_of_length_le (by omega)]
          rfl
      | cons c u ih =>
        simp only [List.cons_append, afterTag]
        rw [if_neg, ih fun x hx => hu x (by simp [hx])]
        intro e
        have hc := hu c (by simp)
        simp only [List.take_succ_cons, lower, List.map_cons, List.cons.injEq] at e
        have h1 := e.1
        have : ∀ i : Fin 256, isWs (UInt8.ofNat i.val) = true → lowerByte (UInt8.ofNat i.val) ≠ 119 := by decide +kernel
        have h2 := this ⟨c.toNat, c.toNat_lt⟩
        simp only [UInt8.ofNat_toNat] at h2
        exact h2 hc h1
    have := key w hw
    simpa using this
  refine ⟨?_, hp, ?_, lineEnd_crlf _⟩
  · have hc : complete (w ++ t ++ n ++ CRLF) = true := by simp [complete, CRLF, List.getLast?_append]
    rw [versionNumber, if_pos hc, hafter, Option.map_some, dropNewline_crlf]
    have : ∀ x ∈ [b! "1.0", b! "0.17", b! "0.18"], some x ∈ [some (b! "1.0"), some (b! "0.17"), some (b! "0.18")] := by decide
    exact this n hn
  · rw [versionText, hp, dropNewline_crlf]; rfl

theorem loose_lines (hs : List Header) (hok : ∀ h ∈ hs, HeaderOk (tidyH h)) (hlf : ∀ h ∈ hs, 10 ∉ h.2) (x : Bytes) :
    Spec.lines (hs.flatMap headerLine ++ x) = hs.map headerLine ++ Spec.lines x := by
  induction hs with
  | nil => rfl
  | cons h hs ih =>
    have hk := hok h (by simp)
    have hn : 10 ∉ h.1 := hk.nameNoLF
    have : 10 ∉ h.1 ++ b! ": " ++ h.2 ++ [13] := by
      simp only [List.mem_append, not_or]
      exact ⟨⟨⟨hn, by decide⟩, hlf h (by simp)⟩, by decide⟩
    have hl := lines_app (h.1 ++ b! ": " ++ h.2 ++ [13]) (hs.flatMap headerLine ++ x) this
    rw [ih (fun x hx => hok x (by simp [hx])) fun x hx => hlf x (by simp [hx])] at hl
    have e : headerLine h = h.1 ++ b! ": " ++ h.2 ++ [13] ++ [10] := by simp [headerLine, CRLF]
    rw [List.map_cons, List.cons_append, e, ← hl]
    simp [headerLine, CRLF]

theorem loose_sum (hs : List Header) : ((hs.map headerLine).map List.length).sum = (hs.flatMap headerLine).length := by
  induction hs with
  | nil => rfl
  | cons h hs ih =>
    simp only [List.map_cons, List.sum_cons, ih, List.flatMap_cons, List.length_append]

/-- line ends between two records -/
def ends (k : Nat) : Bytes := (List.replicate k CRLF).flatten

theorem lines_ends (k : Nat) (y : Bytes) : Spec.lines (ends k ++ y) = List.replicate k CRLF ++ Spec.lines y := by
  induction k with
  | zero => rfl
  | succ k ih =>
    have := lines_app [13] (ends k ++ y) (by decide)
    rw [ih] at this
    simpa [ends, List.replicate_succ, CRLF] using this

/-- what such a record means -/
theorem next_loose (k : Nat) (v : Bytes) (hs : List Header) (x : Bytes) (hv : VersionOk v) (hok : ∀ h ∈ hs, HeaderOk (tidyH h)) (hlf : ∀ h ∈ hs, 10 ∉ h.2) :
    next (ends k ++ (headBytes v hs ++ x)) =
      .record (ends k).length v (hs.map tidyH) [] ((ends k).length + (headBytes v hs).length) := by
  obtain ⟨h1, h2, h3, h4⟩ := crlf_version hv
  have hl : Spec.lines (headBytes v hs ++ x) = (v ++ CRLF) :: (hs.map headerLine ++ CRLF :: Spec.lines x) := by
    have h10 : 10 ∉ v ++ [13] := by
      simp only [List.mem_append, not_or]; exact ⟨versionOk_noLF hv, by decide⟩
    have := lines_app (v ++ [13]) (hs.flatMap headerLine ++ (CRLF ++ x)) h10
    rw [loose_lines hs hok hlf] at this
    have e : headBytes v hs ++ x = v ++ [13] ++ 10 :: (hs.flatMap headerLine ++ (CRLF ++ x)) := by simp [headBytes, CRLF]
    have e2 : Spec.lines (CRLF ++ x) = CRLF :: Spec.lines x := by
      have := lines_app [13] x (by decide)
      simpa [CRLF] using this
    rw [e, this, e2]; simp [CRLF]
  have hnt : ((v ++ CRLF).all fun c => c == 13 || c == 10) = false := by
    obtain ⟨w, t, n, rfl, hw, hw10, ht, hn⟩ := hv
    have : ∀ y ∈ [b! "1.0", b! "0.17", b! "0.18"], 48 ∈ y := by decide
    have := this n hn
    rw [List.all_eq_false]
    exact ⟨48, by simp [this], by decide⟩
  have hdrop : dropTerminators (Spec.lines (ends k ++ (headBytes v hs ++ x))) =
      (v ++ CRLF) :: (hs.map headerLine ++ CRLF :: Spec.lines x) := by
    rw [lines_ends, hl, dropTerminators, List.dropWhile_append_of_pos (by
      intro l hl; rw [List.eq_of_mem_replicate hl]; decide)]
    rw [List.dropWhile_cons_of_neg (by rw [hnt]; simp)]
  have hsome : (versionNumber (v ++ CRLF)).isSome = true := by
    simp only [List.mem_cons, List.not_mem_nil, or_false] at h1
    rcases h1 with h | h | h <;> rw [h] <;> rfl
  obtain ⟨hb, hst⟩ := loose_block hs hok false (Spec.lines x)
  have hlook : look 0 ((v ++ CRLF) :: (hs.map headerLine ++ CRLF :: Spec.lines x)) = .found [] (v ++ CRLF) (hs.map headerLine ++ CRLF :: Spec.lines x) := by
    rw [look, if_pos hsome]
  rw [next, hdrop, hlook]
  simp only [h1, if_true, hst, Bool.false_eq_true, if_false, hb, h2, h3]
  have hhs : (fields (hs.map headerLine)).map fieldHeader = hs.map tidyH := by
    rw [loose_fields hs hok, List.map_map]
    exact List.map_congr_left fun h hh => (loose_header (hok h hh)).1
  have hes : (fields (hs.map headerLine)).flatMap fieldErrors = [] := by
    rw [loose_fields hs hok, List.flatMap_map]
    exact List.flatMap_eq_nil_iff.2 fun h hh => (loose_header (hok h hh)).2
  have hfl : versionFlaws (v ++ CRLF) = [] := by
    rw [versionFlaws, h4, h2]; simp
  have hsz : blockSize (hs.map headerLine ++ CRLF :: Spec.lines x) = (hs.flatMap headerLine).length + 2 := by
    rw [blockSize, hb, List.take_append, List.take_of_length_le (by simp)]
    rw [List.map_append, List.sum_append, loose_sum hs]
    simp [CRLF]
  have hsz2 : Spec.sizeOf ((v ++ CRLF) :: (hs.map headerLine ++ CRLF :: Spec.lines x)) = (headBytes v hs ++ x).length := by
    rw [← hl, sizeOf_lines]
  have hig : ignored [] = [] := rfl
  have hs0 : Spec.sizeOf [] = 0 := rfl
  rw [hhs, hes, hfl, hsz, hsz2, hig, hs0]
  have hlen : (ends k ++ (headBytes v hs ++ x)).length - (headBytes v hs ++ x).length = (ends k).length := by
    rw [List.length_append]; omega
  have hhead : (headBytes v hs).length = (v ++ CRLF).length + ((hs.flatMap headerLine).length + 2) := by
    simp [headBytes, CRLF]; omega
  rw [hlen, hhead]
  simp only [List.nil_append, List.length_nil, Nat.add_zero, Nat.add_assoc]

/-! ### a whole archive -/

theorem next_ends (k : Nat) : next (ends k) = .none [] (ends k).length := by
  have hl : Spec.lines (ends k) = List.replicate k CRLF := by simpa [Spec.lines] using lines_ends k []
  have hd : dropTerminators (List.replicate k CRLF) = [] := by
    unfold dropTerminators
    induction k with
    | zero => rfl
    | succ k ih =>
      rw [List.replicate_succ, List.dropWhile_cons_of_pos (by decide)]
      clear ih hl
      have : ∀ n, List.dropWhile (fun l : Bytes => l.all fun c => c == 13 || c == 10) (List.replicate n CRLF) = [] := by
        intro n
        induction n with
        | zero => rfl
        | succ n ih => rw [List.replicate_succ, List.dropWhile_cons_of_pos (by decide)]; exact ih
      exact this k
  rw [next, hl, hd]
  simp [look, ignored]

theorem tidied_headers (r : R) : r.tidied.headers = r.headers.map tidyH := rfl

theorem loose_headers {r : R} (h : r.Loose) : ∀ x ∈ r.headers, HeaderOk (tidyH x) := fun x hx => h.tidied.headers _ (List.mem_map_of_mem hx)

theorem meaning_loose (report : Nat → Option Nat) (rs : List R) (hok : ∀ r ∈ rs, r.Loose) (rounds pos k : Nat) (hr : rs.length < rounds) :
    meaning report rounds pos (ends k ++ archive rs) =
      ⟨expectTidied report (pos + (ends k).length) rs, some ⟨report (pos + (ends k).length + (archive rs).length), none, []⟩, .done⟩ := by
  induction rs generalizing rounds pos k with
  | nil =>
    cases rounds with
    | zero => simp at hr
    | succ rounds => simp [meaning, archive, next_ends, expectTidied]
  | cons r rs ih =>
    cases rounds with
    | zero => simp at hr
    | succ rounds =>
      have hk := hok r (by simp)
      have hn := next_loose k r.version r.headers (r.body ++ (ends 2 ++ archive rs)) hk.tidied.version (loose_headers hk) hk.noLF
      have hdata : ends k ++ archive (r :: rs) = ends k ++ (headBytes r.version r.headers ++ (r.body ++ (ends 2 ++ archive rs))) := by
        simp [archive, R.bytes, recordBytes, ends, List.replicate]
      rw [hdata, meaning, hn]
      have hlen : r.bytes.length = (headBytes r.version r.headers).length + r.body.length + 4 := by
        simp [R.bytes, recordBytes, CRLF]; omega
      have harch : (archive (r :: rs)).length = (headBytes r.version r.headers).length + r.body.length + 4 + (archive rs).length := by
        rw [archive, List.flatMap_cons, List.length_append, hlen]; rfl
      generalize headBytes r.version r.headers = H at hlen harch ⊢
      have hd : (ends k ++ (H ++ (r.body ++ (ends 2 ++ archive rs)))).drop ((ends k).length + H.length) = r.body ++ (ends 2 ++ archive rs) := by
        rw [← List.append_assoc, List.drop_left' (by simp)]
      have hdl : declaredLength (r.headers.map tidyH) = r.body.length := hk.tidied.length
      simp only [hd, hdl, Int.toNat_natCast]
      rw [if_neg (by omega), if_neg (by omega), if_neg (by simp), List.take_left' rfl, List.drop_left' rfl,
        ih (fun r hr => hok r (by simp [hr])) rounds _ 2 (by simp at hr; omega)]
      have h4 : (ends 2).length = 4 := by decide
      simp only [Collected.behind, expectTidied, hlen, harch, h4, tidied_headers, List.cons_append, List.nil_append]
      have e1 : pos + ((ends k).length + H.length) + r.body.length + 4 = pos + (ends k).length + (H.length + r.body.length + 4) := by omega
      have e2 : pos + (ends k).length + (H.length + r.body.length + 4) + (archive rs).length =
        pos + (ends k).length + (H.length + r.body.length + 4 + (archive rs).length) := by omega
      rw [e1, e2]

theorem classify_loose (rs : List R) (hok : ∀ r ∈ rs, r.Loose) : Detect.classify (File.firstLine (archive rs)) = some .warc := by
  cases rs with
  | nil => exact classify_nil
  | cons r rs =>
    have hk := (hok r (by simp)).tidied.version
    have hk : VersionOk r.version := hk
    have e : archive (r :: rs) = r.version ++ [13] ++ 10 :: (r.headers.flatMap headerLine ++ CRLF ++ r.body ++ CRLF ++ CRLF ++ archive rs) := by
      simp [archive, R.bytes, recordBytes, headBytes, CRLF]
    have h10 : 10 ∉ r.version ++ [13] := by
      simp only [List.mem_append, not_or]; exact ⟨versionOk_noLF hk, by decide⟩
    rw [e, File.firstLine_append _ _ h10]
    have hll : LineLike (r.version ++ [13] ++ [10]) := by rw [LineLike, List.dropLast_concat]; exact h10
    obtain ⟨h1, _⟩ := crlf_version hk
    have e3 : r.version ++ CRLF = r.version ++ [13] ++ [10] := by simp [CRLF]
    rw [e3] at h1
    cases hv : vspec (r.version ++ [13] ++ [10]) with
    | none =>
      have := (vspec_none_iff hll).1 hv
      simp only [List.mem_cons, List.not_mem_nil, or_false] at h1
      rcases h1 with h | h | h <;> rw [h] at this <;> simp at this
    | some p => exact classify_version _ _ hv

theorem loose_not_gzip (rs : List R) (hok : ∀ r ∈ rs, r.Loose) : (archive rs).take 2 ≠ [0x1f, 0x8b] := by
  cases rs with
  | nil => simp [archive]
  | cons r rs =>
    have hk : VersionOk r.version := (hok r (by simp)).tidied.version
    have e : archive (r :: rs) = r.version ++ (CRLF ++ r.headers.flatMap headerLine ++ CRLF ++ r.body ++ CRLF ++ CRLF ++ archive rs) := by
      simp [archive, R.bytes, recordBytes, headBytes]
    rw [e]; exact versionOk_not_gzip hk

end Warc
