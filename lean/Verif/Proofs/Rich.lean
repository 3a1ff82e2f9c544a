import Verif.Proofs.Clean
/-
  Reading a record with folded headers after junk lines; giving up after too many junk lines.
-/
set_option linter.all false
namespace Warc
open Rx Stream Spec

/-- reading a record is parsing at the first line that is not a terminator -/
theorem readRecord_of_parse (offs : Bool) (T more l : Bytes) (d : Nat) (r : Option Rec) (es : List Err) (s s' : Stream)
    (hk : s.kind ≠ .gzipFile) (he : s.eoc = none) (hT : Terminator T) (hr : s.fh.rest = T ++ more)
    (hl : File.firstLine more = l) (hn : isTerm l = false) (hok : s.fh.fault = none ∨ 10 ∈ more)
    (hm : WarcMode s l)
    (hparse : ∀ o, WarcParser.parse o l (s.adv (T.length + l.length)) = .ok (r, es, o.map (· + d)) s') :
    readRecord offs s = .ok ⟨reported s.kind offs (s.fh.pos + T.length + d), r, es⟩ s' := by
  have hT' : ∀ c ∈ T, isCRLF c = true := fun c hc => by
    rcases hT.1 c hc with h | h <;> simp [h, isCRLF]
  have hbl : ∀ o, blankLoop o (s.fh.rest.length + 2) s =
      .ok (if o then some (s.fh.pos + T.length) else none, l) (s.adv (T.length + l.length)) := by
    intro o
    have := blankLoop_spec o (s.fh.rest.length + 2) T more s hT' hT.2 hr
      (by rw [hl]; exact hn) hok (by rw [hr]; simp; omega)
    rw [hl] at this
    exact this
  have hm' : WarcMode (s.adv (T.length + l.length)) l := hm
  have hset : { s with eoc := none } = s := by
    obtain ⟨fh, eoc, kind, parser⟩ := s; simp at he; subst he; rfl
  simp only [readRecord, M.bind_apply, M.get_apply, he, M.pure_apply, M.modify_apply, hset]
  cases hkind : s.kind with
  | plain =>
    simp only [M.bind_apply, hbl, parseWith_warc _ _ _ hm', hparse]
    cases offs <;> simp [reported]
  | gzipRecord =>
    simp only [M.bind_apply, hbl, parseWith_warc _ _ _ hm', hparse]
    simp [reported]
  | gzipFile => exact absurd hkind hk

/-! ### folded headers -/

def contOf (c : Bytes × Bytes) : Bytes × Bytes × Bytes := (c.1 ++ c.2 ++ CRLF, c.2, CRLF)

def itemOfField (f : Field) : HItem :=
  ⟨f.name ++ b! ": " ++ f.value ++ CRLF, f.name, f.value, CRLF, f.conts.map contOf⟩

theorem field_head (f : Field) (hok : f.Ok) :
    ∃ c cs, f.name ++ b! ": " ++ f.value ++ CRLF = c :: cs ∧ isWs c = false := by
  obtain ⟨k, v, ct⟩ := f
  cases k with
  | nil => exact ⟨58, 32 :: (v ++ CRLF), by simp, by decide⟩
  | cons c cs =>
    exact ⟨c, cs ++ 58 :: 32 :: (v ++ CRLF), by simp, strip_self_head (s := c :: cs) hok.nameStrip rfl⟩

theorem cont_fspec (c : Bytes × Bytes) (h : c.1 ≠ [] ∧ (∀ b ∈ c.1, isWs b = true) ∧ 10 ∉ c.1 ∧
    c.2 ≠ [] ∧ strip c.2 = c.2 ∧ 10 ∉ c.2) : fspec (contOf c).1 = some (contOf c).2 := by
  obtain ⟨h1, h2, h3, h4, h5, h6⟩ := h
  obtain ⟨w, p⟩ := c
  cases p with
  | nil => exact absurd rfl h4
  | cons d ds => exact fspec_body w (d :: ds) h1 h2 d ds rfl (strip_self_head h5 rfl) h6

theorem itemOfField_ok (f : Field) (hok : f.Ok) : (itemOfField f).Ok := by
  obtain ⟨c, cs, h1, h2⟩ := field_head f hok
  refine ⟨?_, ?_, ?_, ?_⟩
  · have : (itemOfField f).line = f.name ++ 58 :: (32 :: (f.value ++ CRLF)) := by simp [itemOfField]
    rw [this]
    exact hspec_colon _ _ (f.value, CRLF) hok.noColon hok.nameNoLF (by simp [afterColon, isWs, chomp_crlf _ hok.valueNoLF])
  · show f.name ++ b! ": " ++ f.value ++ CRLF ≠ []
    rw [h1]; simp
  · show isBlank (f.name ++ b! ": " ++ f.value ++ CRLF) = false
    rw [h1]; exact isBlank_of_not_ws h2
  · intro x hx
    simp only [itemOfField, List.mem_map] at hx
    obtain ⟨y, hy, rfl⟩ := hx
    exact cont_fspec y (hok.conts y hy)

theorem block_of_fields (fs : List Field) (hok : ∀ f ∈ fs, f.Ok) : Block (fs.map itemOfField) CRLF := by
  induction fs with
  | nil => exact .nil (Or.inr (by decide))
  | cons f fs ih =>
    refine .cons (itemOfField_ok f (hok f (by simp))) ?_ (ih fun f hf => hok f (by simp [hf]))
    cases fs with
    | nil => exact fspec_crlf
    | cons f2 fs =>
      obtain ⟨c, cs, h1, hc⟩ := field_head f2 (hok f2 (by simp))
      show fspec (f2.name ++ b! ": " ++ f2.value ++ CRLF) = none
      rw [h1]; exact fspec_head hc

/-- the lines of a field -/
def fieldLines (f : Field) : List Bytes :=
  (f.name ++ b! ": " ++ f.value ++ CRLF) :: f.conts.map fun c => c.1 ++ c.2 ++ CRLF

theorem blockLines_of_fields (fs : List Field) :
    blockHead (fs.map itemOfField) CRLF :: blockTail (fs.map itemOfField) CRLF = fs.flatMap fieldLines ++ [CRLF] := by
  induction fs with
  | nil => rfl
  | cons f fs ih =>
    show (f.name ++ b! ": " ++ f.value ++ CRLF) :: ((itemOfField f).contLines ++
      blockHead (fs.map itemOfField) CRLF :: blockTail (fs.map itemOfField) CRLF) = _
    rw [ih]
    simp [fieldLines, HItem.contLines, itemOfField, contOf, Function.comp_def]

theorem fieldLines_flatten (f : Field) : (fieldLines f).flatten = f.bytes := by
  simp [fieldLines, Field.bytes, List.flatMap_def]

theorem fields_flatten (fs : List Field) : (fs.flatMap fieldLines ++ [CRLF]).flatten = fs.flatMap Field.bytes ++ CRLF := by
  induction fs with
  | nil => simp
  | cons f fs ih =>
    rw [List.flatMap_cons, List.append_assoc, List.flatten_append, ih, fieldLines_flatten]
    simp

theorem fieldLines_line (f : Field) (hok : f.Ok) : ∀ l ∈ fieldLines f, ∃ u, l = u ++ [10] ∧ 10 ∉ u := by
  intro l hl
  simp only [fieldLines, List.mem_cons, List.mem_map] at hl
  rcases hl with rfl | ⟨c, hc, rfl⟩
  · exact ⟨f.name ++ b! ": " ++ f.value ++ [13], by simp, by simp [hok.nameNoLF, hok.valueNoLF]⟩
  · obtain ⟨h1, h2, h3, h4, h5, h6⟩ := hok.conts c hc
    exact ⟨c.1 ++ c.2 ++ [13], by simp, by simp [h3, h6]⟩

theorem header_of_field (f : Field) (hok : f.Ok) : (itemOfField f).header = f.header := by
  simp only [HItem.header, itemOfField, Field.header, hok.nameStrip, hok.valueStrip, List.map_map]
  congr 3
  apply List.map_congr_left
  intro c hc
  exact (hok.conts c hc).2.2.2.2.1

theorem errs_of_field (f : Field) : (itemOfField f).errs = [] := by
  simp only [HItem.errs, itemOfField]
  have : (f.conts.map contOf).flatMap HItem.contErr = [] := by
    rw [List.flatMap_eq_nil_iff]
    intro x hx
    obtain ⟨y, hy, rfl⟩ := List.mem_map.1 hx
    simp [HItem.contErr, contOf]
  simp [this]

theorem foldl_fields (fs : List Field) (st : WarcParser.HState) (hok : ∀ f ∈ fs, f.Ok)
    (hv : ∀ f ∈ fs, ValueOk f.header) :
    (fs.map itemOfField).foldl HItem.apply st =
      ⟨st.headers ++ fs.map Field.header, st.errors, (fs.map Field.header).foldl stepLength st.contentLength⟩ := by
  induction fs generalizing st with
  | nil => simp
  | cons f fs ih =>
    rw [List.map_cons, List.foldl_cons, ih _ (fun f hf => hok f (by simp [hf])) (fun f hf => hv f (by simp [hf]))]
    have hone : HItem.apply st (itemOfField f) =
        ⟨st.headers ++ [f.header], st.errors, stepLength st.contentLength f.header⟩ := by
      rw [HItem.apply, header_of_field f (hok f (by simp)), errs_of_field, List.append_nil]
      have hn : 10 ∉ f.header.1 := (hok f (by simp)).nameNoLF
      have h1 := addHeader_headers { st with errors := st.errors } f.header.1 f.header.2
      have h2 := addHeader_length { st with errors := st.errors } f.header.1 f.header.2 hn
      have hvf := hv f (by simp)
      unfold WarcParser.addHeader stepLength
      rw [rxTest_type _ hn, rxTest_length _ hn]
      by_cases h1 : lower f.header.1 = b! "content-type"
      · have h2 : lower f.header.1 ≠ b! "content-length" := by rw [h1]; decide
        simp [h1, hvf.1 h1]
      · by_cases h2 : lower f.header.1 = b! "content-length"
        · obtain ⟨n, hn⟩ := Option.isSome_iff_exists.1 (hvf.2 h2)
          simp [h2, hn]
        · simp [h1, h2]
    rw [hone]
    simp

/-! ### junk lines -/

theorem junk_skipped {l : Bytes} (h : JunkLine l) : l ≠ [] ∧ vspec l = none := by
  obtain ⟨u, rfl, hu⟩ := h.line
  refine ⟨by simp, ?_⟩
  have hll : LineLike (u ++ [10]) := by simp [LineLike, hu]
  rw [vspec_none_iff hll, versionNumber, h.noTag]
  split <;> rfl

theorem junk_errs (js : List Bytes) (h : ∀ j ∈ js, JunkLine j) : junkErrs js = js.map Err.ignoredLine := by
  unfold junkErrs
  rw [List.filter_eq_self.2]
  intro l hl
  have : isBlank l = false := (h l hl).notBlank
  simp [this]

theorem junk_not_term {l : Bytes} (h : JunkLine l) : isTerm l = false := by
  obtain ⟨u, rfl, hu⟩ := h.line
  have hb := h.notBlank
  cases u with
  | nil => exact absurd hb (by decide)
  | cons c cs =>
    simp only [blankLine, List.cons_append, List.head?_cons, Bool.or_eq_false_iff, beq_eq_false_iff_ne, ne_eq,
      Option.some.injEq] at hb
    have h10 : c ≠ 10 := by intro e; subst e; simp at hu
    simp [isTerm, isCRLF, hb.1, h10]

/-- a record with folded headers after up to five junk lines -/
theorem readRecord_rich (offs : Bool) (T : Bytes) (js : List Bytes) (v : Bytes) (fs : List Field) (more : Bytes) (s : Stream)
    (hk : s.kind ≠ .gzipFile) (he : s.eoc = none) (hp : s.parser = .warc) (hT : Terminator T)
    (hjs : ∀ j ∈ js, JunkLine j) (hj5 : js.length ≤ 5) (hv : VersionOk v)
    (hfs : ∀ f ∈ fs, f.Ok) (hval : ∀ f ∈ fs, ValueOk f.header)
    (hr : s.fh.rest = T ++ (js.flatten ++ (richHead v fs ++ more))) :
    readRecord offs s =
      .ok ⟨reported s.kind offs (s.fh.pos + T.length + js.flatten.length),
           some { parsed v (fs.map Field.header) with errors := js.map Err.ignoredLine }, []⟩
        { s.adv (T.length + js.flatten.length + (richHead v fs).length) with
          eoc := some (declaredLength (fs.map Field.header)) } := by
  obtain ⟨n, hn, hvs⟩ := vspec_versionOk hv
  -- all lines of the head
  have hlines : ∃ l ls, js ++ (v ++ CRLF) :: (fs.flatMap fieldLines ++ [CRLF]) = l :: ls := by
    cases js with
    | nil => exact ⟨_, _, rfl⟩
    | cons j js => exact ⟨_, _, rfl⟩
  obtain ⟨l, ls, hls⟩ := hlines
  have hline : ∀ x ∈ l :: ls, ∃ u, x = u ++ [10] ∧ 10 ∉ u := by
    rw [← hls]
    intro x hx
    simp only [List.mem_append, List.mem_cons, List.mem_flatMap, List.not_mem_nil, or_false] at hx
    rcases hx with hx | rfl | ⟨f, hf, hx⟩ | rfl
    · exact (hjs x hx).line
    · exact ⟨v ++ [13], by simp, by simp [versionOk_noLF hv]⟩
    · exact fieldLines_line f (hfs f hf) x hx
    · exact ⟨[13], rfl, by decide⟩
  have hflat : (l :: ls).flatten = js.flatten ++ richHead v fs := by
    rw [← hls, List.flatten_append, List.flatten_cons, fields_flatten]
    simp [richHead]
  obtain ⟨u, hu, hu10⟩ := hline l (by simp)
  have hrest : s.fh.rest = T ++ (l ++ (ls.flatten ++ more)) := by
    rw [hr, ← List.append_assoc js.flatten, ← hflat]; simp
  have hfirst : File.firstLine (l ++ (ls.flatten ++ more)) = l := by
    rw [hu, List.append_assoc]
    exact File.firstLine_append u _ hu10
  have hlin : Lines (s.adv (T.length + l.length)) ls ((s.adv (T.length + l.length)).adv ls.flatten.length) := by
    apply Lines.of_bytes _ _ (by simpa using he) more
    · intro x hx; exact hline x (by simp [hx])
    · rw [adv_fh, File.advance_rest, hrest]
      rw [← List.append_assoc, show T.length + l.length = (T ++ l).length by simp, List.drop_left]
  have hterm : isTerm l = false := by
    cases js with
    | nil => simp at hls; rw [← hls.1]; exact versionOk_not_term hv
    | cons j js => simp at hls; rw [← hls.1]; exact junk_not_term (hjs j (by simp))
  have hskip : Skipped js := fun x hx => junk_skipped (hjs x hx)
  have := readRecord_of_parse offs T (l ++ (ls.flatten ++ more)) l js.flatten.length
    (some { parsed v (fs.map Field.header) with errors := js.map Err.ignoredLine }) [] s
    { s.adv (T.length + js.flatten.length + (richHead v fs).length) with
          eoc := some (declaredLength (fs.map Field.header)) } hk he hT hrest hfirst hterm
    (Or.inr (by rw [hu]; simp)) (Or.inl hp) (by
      intro o
      have := parse_forward o js (v ++ CRLF) ([], v, n, CRLF) hskip hvs hn
        (by rw [junk_errs js hjs]; simpa [badLines] using hj5)
        (fs.map itemOfField) CRLF (block_of_fields fs hfs) _ _ l ls
        (by rw [blockLines_of_fields]; exact hls) hlin
      rw [this]
      have hlen : l.length + ls.flatten.length = js.flatten.length + (richHead v fs).length := by
        have := congrArg List.length hflat
        simpa using this
      simp only [foldl_fields fs _ hfs hval, hinit, versionErrs, adv_adv, Nat.add_assoc, hlen, junk_errs js hjs]
      simp only [List.nil_append, List.length_nil, Nat.add_zero, lenSum]
      simp [warcRec, parsed, declaredLength_eq])
  exact this

/-- giving up after six junk lines -/
theorem readRecord_giveUp_mode (offs : Bool) (T : Bytes) (js : List Bytes) (more : Bytes) (s : Stream)
    (hk : s.kind ≠ .gzipFile) (he : s.eoc = none) (hp : ∀ l ∈ js.head?, WarcMode s l) (hT : Terminator T)
    (hjs : ∀ j ∈ js, JunkLine j) (hj6 : js.length = 6) (hr : s.fh.rest = T ++ (js.flatten ++ more)) :
    readRecord offs s =
      .ok ⟨reported s.kind offs (s.fh.pos + T.length + js.flatten.length), none, js.map Err.ignoredLine ++ [.tooMany]⟩
        (s.adv (T.length + js.flatten.length)) := by
  obtain ⟨l, ls, rfl⟩ : ∃ l ls, js = l :: ls := by
    cases js with
    | nil => simp at hj6
    | cons a b => exact ⟨a, b, rfl⟩
  obtain ⟨u, hu, hu10⟩ := (hjs l (by simp)).line
  have hrest : s.fh.rest = T ++ (l ++ (ls.flatten ++ more)) := by rw [hr]; simp
  have hfirst : File.firstLine (l ++ (ls.flatten ++ more)) = l := by
    rw [hu, List.append_assoc]
    exact File.firstLine_append u _ hu10
  have hlin : Lines (s.adv (T.length + l.length)) ls ((s.adv (T.length + l.length)).adv ls.flatten.length) := by
    apply Lines.of_bytes _ _ (by simpa using he) more
    · intro x hx; exact (hjs x (by simp [hx])).line
    · rw [adv_fh, File.advance_rest, hrest]
      rw [← List.append_assoc, show T.length + l.length = (T ++ l).length by simp, List.drop_left]
  have hsplit : ∃ pre j, l :: ls = pre ++ [j] := by
    rcases List.eq_nil_or_concat (l :: ls) with h | ⟨pre, j, h⟩
    · cases h
    · exact ⟨pre, j, by simpa using h⟩
  obtain ⟨pre, j, hpj⟩ := hsplit
  have hpre5 : pre.length = 5 := by
    have := congrArg List.length hpj
    rw [hj6] at this; simp at this; omega
  have hjs' : ∀ x ∈ pre ++ [j], JunkLine x := by rw [← hpj]; exact hjs
  have hskip : Skipped (pre ++ [j]) := fun x hx => junk_skipped (hjs' x hx)
  have := readRecord_of_parse offs T (l ++ (ls.flatten ++ more)) l (l :: ls).flatten.length
    none ((l :: ls).map Err.ignoredLine ++ [.tooMany]) s
    (s.adv (T.length + (l :: ls).flatten.length)) hk he hT hrest hfirst (junk_not_term (hjs l (by simp)))
    (Or.inr (by rw [hu]; simp)) (hp l (by simp)) (by
      intro o
      have hvl := versionLoop_giveUp pre j hskip _ _ [] o (by
        rw [junk_errs pre (fun x hx => hjs' x (by simp [hx]))]; simp [badLines, hpre5])
        (hjs' j (by simp)).notBlank l ls hpj.symm hlin
        ((s.adv (T.length + l.length)).fh.rest.length + 2) (by
          have := hlin.rest_length (fun x hx => (junk_skipped (hjs x (by simp [hx]))).1)
          have h2 : ls.length = 5 := by simpa using hj6
          omega)
      unfold WarcParser.parse
      simp only [M.bind_apply, M.get_apply, hvl]
      rw [← hpj, junk_errs _ hjs]
      simp only [List.nil_append, M.pure_apply, adv_adv, lenSum, Nat.add_assoc]
      simp)
  exact this

theorem readRecord_giveUp (offs : Bool) (T : Bytes) (js : List Bytes) (more : Bytes) (s : Stream)
    (hk : s.kind ≠ .gzipFile) (he : s.eoc = none) (hp : s.parser = .warc) (hT : Terminator T)
    (hjs : ∀ j ∈ js, JunkLine j) (hj6 : js.length = 6) (hr : s.fh.rest = T ++ (js.flatten ++ more)) :
    readRecord offs s =
      .ok ⟨reported s.kind offs (s.fh.pos + T.length + js.flatten.length), none, js.map Err.ignoredLine ++ [.tooMany]⟩
        (s.adv (T.length + js.flatten.length)) :=
  readRecord_giveUp_mode offs T js more s hk he (fun _ _ => Or.inl hp) hT hjs hj6 hr

end Warc
