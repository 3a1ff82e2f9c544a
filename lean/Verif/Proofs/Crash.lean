import Verif.Spec.Crash
import Verif.Props.Foreign
import Verif.Checks.Library
/-
  Reading a record that begins with what is left of another one.
-/
set_option linter.all false
namespace Warc
open Rx Stream Spec

/-- a version line and a header block, in terms of lines -/
theorem readRecord_items (offs : Bool) (vl : Bytes) (p) (items : List HItem) (more : Bytes) (s : Stream)
    (hk : s.kind ≠ .gzipFile) (he : s.eoc = none) (hp : s.parser = .warc)
    (hv : vspec vl = some p) (hknown : p.2.2.1 ∈ knownVersions) (hb : Block items CRLF)
    (hvl : ∃ u, vl = u ++ [10] ∧ 10 ∉ u) (hterm : isTerm vl = false)
    (hline : ∀ l ∈ blockHead items CRLF :: blockTail items CRLF, ∃ u, l = u ++ [10] ∧ 10 ∉ u)
    (hr : s.fh.rest = vl ++ ((blockHead items CRLF :: blockTail items CRLF).flatten ++ more)) :
    readRecord offs s =
      (let st := items.foldl HItem.apply (hinit (versionErrs p))
       .ok ⟨reported s.kind offs (s.fh.pos + p.1.length), some (warcRec p.2.1 st), []⟩
        { s.adv (vl.length + (blockHead items CRLF :: blockTail items CRLF).flatten.length) with eoc := some st.contentLength }) := by
  obtain ⟨u, hu, hu10⟩ := hvl
  have hfirst : File.firstLine (vl ++ ((blockHead items CRLF :: blockTail items CRLF).flatten ++ more)) = vl := by
    rw [hu, List.append_assoc]
    exact File.firstLine_append u _ hu10
  have hlin : Lines (s.adv (0 + vl.length)) (blockHead items CRLF :: blockTail items CRLF)
      ((s.adv (0 + vl.length)).adv (blockHead items CRLF :: blockTail items CRLF).flatten.length) := by
    apply Lines.of_bytes _ _ (by simpa using he) more hline
    rw [adv_fh, File.advance_rest, hr, Nat.zero_add, List.drop_left]
  have := readRecord_of_parse offs [] (vl ++ ((blockHead items CRLF :: blockTail items CRLF).flatten ++ more)) vl p.1.length
    (some (warcRec p.2.1 (items.foldl HItem.apply (hinit (versionErrs p))))) [] s
    { s.adv (vl.length + (blockHead items CRLF :: blockTail items CRLF).flatten.length) with
        eoc := some (items.foldl HItem.apply (hinit (versionErrs p))).contentLength } hk he ⟨by simp, Or.inl rfl⟩ (by simpa using hr) hfirst hterm
    (Or.inr (by rw [hu]; simp)) (Or.inl hp) (by
      intro o
      have := parse_forward o [] vl p (by simp [Skipped]) hv hknown (by simp) items CRLF hb _ _ vl
        (blockHead items CRLF :: blockTail items CRLF) rfl hlin
      simp only [List.length_nil]
      rw [this]
      simp only [adv_adv, Nat.zero_add, List.nil_append, junkErrs_nil, lenSum_nil, Nat.add_zero])
  simpa using this

theorem lines_app (u x : Bytes) (h : 10 ∉ u) : Spec.lines (u ++ 10 :: x) = (u ++ [10]) :: Spec.lines x := by
  induction u with
  | nil => simp [Spec.lines]
  | cons c u ih =>
    simp only [List.mem_cons, not_or] at h
    have hc : c ≠ 10 := fun e => h.1 e.symm
    simp only [List.cons_append, Spec.lines, if_neg hc, ih h.2]

theorem lines_headers (hs : List Header) (x : Bytes) (h : ∀ k ∈ hs, HeaderOk k) :
    Spec.lines (hs.flatMap headerLine ++ x) = hs.map headerLine ++ Spec.lines x := by
  induction hs with
  | nil => rfl
  | cons k hs ih =>
    obtain ⟨u, h1, h2⟩ := headerLine_line k (h k (by simp))
    have e : (k :: hs).flatMap headerLine ++ x = u ++ 10 :: (hs.flatMap headerLine ++ x) := by
      simp [h1]
    rw [e, lines_app _ _ h2, ih (fun k hk => h k (by simp [hk])), ← h1]
    rfl

theorem fieldLine_header (h : Header) : fieldLine (headerLine h) = true := by
  have h1 : complete (headerLine h) = true := by
    have : headerLine h = (h.1 ++ b! ": " ++ h.2 ++ [13]) ++ [10] := by simp [headerLine]
    rw [this, complete, List.getLast?_concat]; rfl
  have h2 : (headerLine h).contains 58 = true := by simp [headerLine]
  rw [fieldLine, h1, h2]; rfl

theorem plain_line {c : Byte} {cs : Bytes} (h : isWs c = false) : contLine (c :: cs) = false ∧ blankLine (c :: cs) = false := by
  refine ⟨by simp [contLine, h], ?_⟩
  have h13 : c ≠ 13 := by intro e; subst e; simp [isWs] at h
  have h10 : c ≠ 10 := by intro e; subst e; simp [isWs] at h
  simp [blankLine, h13, h10]

/-- a line without a colon that begins with a visible character stops the header parser for good -/
theorem stuck_headers (after : Bool) (hs : List Header) (c : Byte) (cs : Bytes) (ls : List Bytes) (h : ∀ k ∈ hs, HeaderOk k)
    (hc : isWs c = false) (h58 : 58 ∉ c :: cs) : stuck after (hs.map headerLine ++ (c :: cs) :: ls) = true := by
  induction hs generalizing after with
  | nil =>
    have hp := plain_line (cs := cs) hc
    have hf : fieldLine (c :: cs) = false := by
      have : (c :: cs).contains 58 = false := by
        rw [Bool.eq_false_iff]; intro hh; exact h58 (by simpa using hh)
      simp only [fieldLine, this, Bool.false_and]
    simp only [List.map_nil, List.nil_append, stuck, hp.1, hp.2, hf, Bool.and_false]
    rfl
  | cons k hs ih =>
    obtain ⟨d, ds, h1, h2⟩ := headerLine_head k (h k (by simp))
    have hp := plain_line (cs := ds) h2
    have hf := fieldLine_header k
    simp only [List.map_cons, List.cons_append]
    rw [h1] at hf ⊢
    simp only [stuck, hp.1, hp.2, hf, Bool.and_false]
    simpa using ih true (fun k hk => h k (by simp [hk]))

theorem v1_ok : VersionOk v1 := ⟨[], b! "WARC/", b! "1.0", rfl, by decide, by decide, by decide, by decide⟩

theorem readRecord_stuck (offs : Bool) (s : Stream) (hp : s.parser = .warc) (hk : s.kind ≠ .gzipFile)
    (he : s.eoc = none) (hfa : s.fh.fault = none) (hs : List Header) (c : Byte) (cs more : Bytes) (h : ∀ k ∈ hs, HeaderOk k)
    (hc : isWs c = false) (h58 : 58 ∉ c :: cs) (h10 : 10 ∉ c :: cs) (hr : s.fh.rest = begun hs ++ (c :: cs ++ 10 :: more)) :
    readRecord offs s = .hang := by
  have hl : Spec.lines s.fh.rest = (v1 ++ CRLF) :: (hs.map headerLine ++ (c :: cs ++ [10]) :: Spec.lines more) := by
    have e : s.fh.rest = (v1 ++ [13]) ++ 10 :: (hs.flatMap headerLine ++ (c :: cs ++ 10 :: more)) := by
      rw [hr]; simp [begun]
    rw [e, lines_app _ _ (by decide), lines_headers _ _ h, lines_app _ _ h10]
    simp
  have hq := readRecord_lines offs s hp hk he hfa
  have hfound : findVersion 0 (dropTerminators (Spec.lines s.fh.rest)) =
      .version (b! "1.0") (hs.map headerLine ++ (c :: cs ++ [10]) :: Spec.lines more) := by
    rw [hl, dropTerminators, List.dropWhile_cons, if_neg (by decide)]
    have : versionNumber (v1 ++ CRLF) = some (b! "1.0") := by decide
    simp only [findVersion, this]
  rw [hfound] at hq
  simp only at hq
  have hst := stuck_headers false hs c (cs ++ [10]) (Spec.lines more) h hc (by
    intro hm; apply h58
    simp only [List.mem_cons, List.mem_append, List.not_mem_nil, or_false] at hm ⊢
    rcases hm with hm | hm | hm
    · exact Or.inl hm
    · exact Or.inr hm
    · exact absurd hm (by decide))
  rw [if_pos (by decide), if_pos (by simpa using hst)] at hq
  exact hq

/-- an unknown version number -/
theorem readRecord_badNumber (offs : Bool) (s : Stream) (hp : s.parser = .warc) (hk : s.kind ≠ .gzipFile)
    (he : s.eoc = none) (hfa : s.fh.fault = none) (u n more : Bytes) (h10 : 10 ∉ u) (hterm : ((u ++ [10]).all fun c => c == 13 || c == 10) = false)
    (hn : versionNumber (u ++ [10]) = some n) (hbad : n ∉ knownVersions) (hr : s.fh.rest = u ++ 10 :: more) :
    ∃ s', readRecord offs s = .raise .typeError s' := by
  have hq := readRecord_lines offs s hp hk he hfa
  have hfound : findVersion 0 (dropTerminators (Spec.lines s.fh.rest)) = .version n (Spec.lines more) := by
    rw [hr, lines_app _ _ h10, dropTerminators, List.dropWhile_cons, if_neg (by rw [hterm]; simp)]
    simp only [findVersion, hn]
  rw [hfound] at hq
  simp only at hq
  rw [if_neg hbad] at hq
  exact hq

/-- a header whose value was interrupted by the next version line -/
def itemMixed (h : Header) (q : Bytes) : HItem :=
  ⟨h.1 ++ 58 :: (q ++ v1 ++ CRLF), h.1, ((afterColon (q ++ v1 ++ CRLF)).getD ([], [])).1, CRLF, []⟩

theorem afterColon_mixed (q : Bytes) (h : 10 ∉ q) :
    ∃ v, afterColon (q ++ v1 ++ CRLF) = some (v, CRLF) ∧ strip v = strip (q ++ v1) := by
  have hv : 10 ∉ v1 := by decide
  cases q with
  | nil => exact ⟨v1, by decide, by decide⟩
  | cons c q =>
    simp only [List.mem_cons, not_or] at h
    have h1 : chomp (q ++ v1 ++ CRLF) = some (q ++ v1, CRLF) := chomp_crlf _ (by simp [h.2, hv])
    have h2 : chomp ((c :: (q ++ v1)) ++ CRLF) = some (c :: (q ++ v1), CRLF) := chomp_crlf _ (by simp [h.1, h.2, hv])
    by_cases hc : isWs c = true
    · refine ⟨q ++ v1, ?_, ?_⟩
      · simp only [List.cons_append, afterColon, hc, if_true, h1]
      · rw [List.cons_append, strip_ws_cons hc]
    · refine ⟨c :: (q ++ v1), ?_, rfl⟩
      simp only [List.cons_append, afterColon, if_neg hc]
      exact h2

theorem intBody_slash (t : Bytes) (h : 47 ∈ t) : intBody 10 t = none := by
  have key : ∀ (t : Bytes) (n : Nat) (b : Bool), 47 ∈ t → digitsAux 10 t n b = none := by
    intro t
    induction t with
    | nil => intro n b h; simp at h
    | cons c t ih =>
      intro n b h
      by_cases hc : c = 47
      · subst hc
        have : digitVal 47 = none := by decide
        simp [digitsAux, this]
      · have ht : 47 ∈ t := by
          rcases List.mem_cons.1 h with h | h
          · exact absurd h.symm hc
          · exact h
        simp only [digitsAux]
        split
        · split
          · exact ih _ _ ht
          · rfl
        · cases hd : digitVal c with
          | none => rfl
          | some d =>
            simp only
            split
            · exact ih _ _ ht
            · rfl
  unfold intBody
  split
  · rw [if_neg (by simp)]
    exact key _ _ _ h
  · exact key _ _ _ h

theorem pyInt_slash (v : Bytes) (h : 47 ∈ strip v) : pyInt 10 v = none := by
  unfold pyInt
  cases hs : strip v with
  | nil => rw [hs] at h; simp at h
  | cons c t =>
    rw [hs] at h
    by_cases h45 : c = 45
    · subst h45
      simp only [intBody_slash t (by simpa using h)]
      rfl
    · by_cases h43 : c = 43
      · subst h43
        simp only [intBody_slash t (by simpa using h)]
        rfl
      · split
        · rename_i e; simp at e; exact absurd e.1 h45
        · rename_i e; simp at e; exact absurd e.1 h43
        · simp only [intBody_slash _ h]
          rfl

theorem mem_strip_of {s : Bytes} {c : Byte} (h : c ∈ s) (hc : isWs c = false) : c ∈ strip s := by
  obtain ⟨a, b, h1, h2, h3⟩ := Library.strip_split s
  rw [h1] at h
  simp only [List.mem_append] at h
  rcases h with (h | h) | h
  · rw [h2 c h] at hc; cases hc
  · exact h
  · rw [h3 c h] at hc; cases hc

/-- a value that is no number and not empty -/
theorem addHeader_text (st : WarcParser.HState) (name v : Bytes) (hn : 10 ∉ name) (hv : 47 ∈ strip v) :
    WarcParser.addHeader st name v = ⟨st.headers ++ [(name, v)], st.errors ++ lengthError name v, st.contentLength⟩ := by
  have hne : v ≠ [] := by intro e; subst e; simp [strip_nil] at hv
  unfold WarcParser.addHeader lengthError
  rw [rxTest_type _ hn, rxTest_length _ hn]
  by_cases h1 : lower name = b! "content-type"
  · have h2 : lower name ≠ b! "content-length" := by rw [h1]; decide
    simp [h1, hne]
  · by_cases h2 : lower name = b! "content-length"
    · simp [h2, pyInt_slash v hv]
    · simp [h1, h2]

theorem itemMixed_ok (h : Header) (hok : HeaderOk h) (q : Bytes) (hq : 10 ∉ q) : (itemMixed h q).Ok := by
  obtain ⟨v, h1, h2⟩ := afterColon_mixed q hq
  obtain ⟨c, cs, h3, h4⟩ : ∃ c cs, (itemMixed h q).line = c :: cs ∧ isWs c = false := by
    obtain ⟨k, v⟩ := h
    cases k with
    | nil => exact ⟨58, q ++ v1 ++ CRLF, rfl, by decide⟩
    | cons c cs => exact ⟨c, cs ++ 58 :: (q ++ v1 ++ CRLF), rfl, strip_self_head (s := c :: cs) hok.nameStrip rfl⟩
  refine ⟨?_, by rw [h3]; simp, by rw [h3]; exact isBlank_of_not_ws h4, by simp [itemMixed]⟩
  simp only [itemMixed, h1, Option.getD_some]
  exact hspec_colon _ _ (v, CRLF) hok.noColon hok.nameNoLF h1

theorem mixed_slash (q : Bytes) : 47 ∈ strip (strip (q ++ v1)) := by
  rw [strip_strip]
  exact mem_strip_of (by simp [v1]) (by decide)

theorem apply_mixed (st : WarcParser.HState) (h : Header) (hok : HeaderOk h) (q : Bytes) (hq : 10 ∉ q) :
    HItem.apply st (itemMixed h q) =
      ⟨st.headers ++ [(h.1, strip (q ++ v1))], st.errors ++ lengthError h.1 (strip (q ++ v1)), st.contentLength⟩ := by
  obtain ⟨v, h1, h2⟩ := afterColon_mixed q hq
  have hh : (itemMixed h q).header = (h.1, strip (q ++ v1)) := by
    simp only [HItem.header, itemMixed, h1, Option.getD_some, List.map_nil, join, hok.nameStrip, h2]
  have he : (itemMixed h q).errs = [] := by simp [HItem.errs, itemMixed]
  rw [HItem.apply, hh, he, addHeader_text _ _ _ hok.nameNoLF (mixed_slash q)]
  simp

/-- a header followed by the continuation line CR `WARC/1.0` CR LF -/
def itemBlank (h : Header) : HItem := ⟨headerLine h, h.1, h.2, CRLF, [(13 :: v1 ++ CRLF, v1, CRLF)]⟩

theorem itemBlank_ok (h : Header) (hok : HeaderOk h) : (itemBlank h).Ok := by
  obtain ⟨h1, h2, h3, _⟩ := itemOf_ok h hok
  refine ⟨h1, h2, h3, ?_⟩
  intro c hc
  simp only [itemBlank, List.mem_singleton] at hc
  subst hc
  decide

theorem apply_blank (st : WarcParser.HState) (h : Header) (hok : HeaderOk h) :
    HItem.apply st (itemBlank h) =
      ⟨st.headers ++ [(h.1, h.2 ++ 32 :: v1)], st.errors ++ lengthError h.1 (h.2 ++ 32 :: v1), st.contentLength⟩ := by
  have hh : (itemBlank h).header = (h.1, h.2 ++ 32 :: v1) := by
    have : strip v1 = v1 := by decide
    simp [HItem.header, itemBlank, join, hok.nameStrip, hok.valueStrip, this]
  have he : (itemBlank h).errs = [] := by simp [HItem.errs, itemBlank, HItem.contErr]
  rw [HItem.apply, hh, he, addHeader_text _ _ _ hok.nameNoLF (mem_strip_of (by simp [v1]) (by decide))]
  simp

/-- one odd header among good ones -/
theorem block_around (hs : List Header) (it : HItem) (hs' : List Header) (h1 : ∀ h ∈ hs, HeaderOk h) (h2 : it.Ok) (h3 : fspec it.line = none)
    (h4 : ∀ h ∈ hs', HeaderOk h) : Block (hs.map itemOf ++ it :: hs'.map itemOf) CRLF := by
  have tail : Block (it :: hs'.map itemOf) CRLF := by
    refine .cons h2 ?_ (block_of_headers hs' h4)
    cases hs' with
    | nil => exact fspec_crlf
    | cons h hs' =>
      obtain ⟨c, cs, h5, hc⟩ := headerLine_head h (h4 h (by simp))
      show fspec (headerLine h) = none
      rw [h5]; exact fspec_head hc
  induction hs with
  | nil => exact tail
  | cons h hs ih =>
    refine .cons (itemOf_ok h (h1 h (by simp))) ?_ (ih fun h hh => h1 h (by simp [hh]))
    cases hs with
    | nil => exact h3
    | cons k hs =>
      obtain ⟨c, cs, h5, hc⟩ := headerLine_head k (h1 k (by simp))
      show fspec (headerLine k) = none
      rw [h5]; exact fspec_head hc

theorem blockLines_around (hs : List Header) (it : HItem) (hs' : List Header) :
    blockHead (hs.map itemOf ++ it :: hs'.map itemOf) CRLF :: blockTail (hs.map itemOf ++ it :: hs'.map itemOf) CRLF =
      hs.map headerLine ++ (it.line :: it.contLines) ++ (hs'.map headerLine ++ [CRLF]) := by
  induction hs with
  | nil =>
    show it.line :: (it.contLines ++ blockHead (hs'.map itemOf) CRLF :: blockTail (hs'.map itemOf) CRLF) = _
    rw [blockLines_of_headers]; simp
  | cons h hs ih =>
    show headerLine h :: ([] ++ blockHead (hs.map itemOf ++ it :: hs'.map itemOf) CRLF :: blockTail (hs.map itemOf ++ it :: hs'.map itemOf) CRLF) = _
    rw [ih]; simp

end Warc
