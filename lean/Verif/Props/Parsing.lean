import Verif.Proofs.Rich
import Verif.Props.Reading
/-
  C09 - C13: the WARC parser on arbitrary bytes.
-/
set_option linter.all false
namespace Warc
open Rx Stream Spec

/-! ### C09, C10: termination and version numbers -/

/-- **C09/C10** Every attempt to read a WARC record from any file contents ends in exactly one of
these ways: there is no version line (within the tolerated bad lines) and an entry without record is
returned; the version number is unknown and `TypeError` is raised; the header block has a line that
is neither blank nor a header field nor a continuation and the call never returns; otherwise a
record is returned. -/
theorem C09_outcome (offs : Bool) (s : Stream) (hp : s.parser = .warc) (hk : s.kind ≠ .gzipFile)
    (he : s.eoc = none) (hfa : s.fh.fault = none) :
    (match findVersion 0 (dropTerminators (lines s.fh.rest)) with
     | .nothing => ∃ e s', readRecord offs s = .ok e s' ∧ e.rcd = none
     | .tooManyBadLines => ∃ e s', readRecord offs s = .ok e s' ∧ e.rcd = none
     | .version n ls =>
       if n ∈ [b! "1.0", b! "0.17", b! "0.18"] then
         if stuck false ls then readRecord offs s = .hang
         else ∃ e r s', readRecord offs s = .ok e s' ∧ e.rcd = some r
       else ∃ s', readRecord offs s = .raise .typeError s') :=
  readRecord_lines offs s hp hk he hfa

/-- the five cases all occur -/
example : (findVersion 0 (dropTerminators (lines (b! "\r\n\njunk\n"))) = .nothing) ∧
    (findVersion 0 (lines (b! "a\nb\nc\nd\ne\nf\nWARC/1.0\r\n")) = .tooManyBadLines) ∧
    (findVersion 0 (lines (b! "x\nWARC/1.1\r\nA: b\r\n")) = .version (b! "1.1") [b! "A: b\r\n"]) ∧
    stuck false (lines (b! "A: b\r\n c\r\nno colon\r\n\r\n")) = true ∧
    stuck false (lines (b! "A: b\r\nB: cut he")) = true ∧
    stuck false (lines (b! "A: b\r\n c\r\n\r\npayload")) = false := by decide +kernel

/-- `hang` is not an artefact of the bound that the model puts on the loop: on a stuck header block
the header loop does not come to an end within any number of rounds. -/
theorem C09_hang_is_real (rounds : Nat) (line : Bytes) (st : WarcParser.HState) (s : Stream)
    (he : s.eoc = none) (hfa : s.fh.fault = none) (hl : line = lineOf (line ++ s.fh.rest))
    (hst : stuck false (lines (line ++ s.fh.rest)) = true) :
    WarcParser.headerLoop rounds line st s = .hang :=
  (headerLoop_lines rounds line st s ⟨he, hfa, by rw [← lineOf_eq]; exact hl⟩).1 hst

example (rounds : Nat) : WarcParser.headerLoop rounds (b! "no colon\r\n") ⟨[], [], 0⟩
    (Stream.mk' .plain (File.ofBytes (b! "\r\n")) .warc) = .hang :=
  C09_hang_is_real rounds _ _ _ rfl rfl (by decide) (by decide +kernel)

/-- and on any other header block it ends within as many rounds as there are lines -/
theorem C09_loop_ends (rounds : Nat) (line : Bytes) (st : WarcParser.HState) (s : Stream)
    (he : s.eoc = none) (hfa : s.fh.fault = none) (hl : line = lineOf (line ++ s.fh.rest))
    (hst : stuck false (lines (line ++ s.fh.rest)) = false)
    (hr : (lines (line ++ s.fh.rest)).length < rounds) :
    ∃ st' s', WarcParser.headerLoop rounds line st s = .ok st' s' :=
  (headerLoop_lines rounds line st s ⟨he, hfa, by rw [← lineOf_eq]; exact hl⟩).2 hst hr

/-- reading a record uses up at least one byte -/
theorem readRecord_progress (offs : Bool) (s s' : Stream) (e : Entry) (r : Rec) (hp : s.parser = .warc)
    (h : readRecord offs s = .ok e s') (hr : e.rcd = some r) :
    s'.fh.rest.length < s.fh.rest.length ∧ s'.parser = .warc ∧ s'.fh.data = s.fh.data ∧
      s'.fh.fault = s.fh.fault ∧ s'.kind = s.kind := by
  obtain ⟨s0, off, line, s1, off', h1, h2, h3, h4, h5, h6, _, _, hb, hparse, _⟩ := readRecord_inv offs s s' e h
  obtain ⟨T, more, hT1, _, hT3, _, hs1, _⟩ := blankLoop_inv _ _ _ _ _ _ hb
  have hpar : s1.parser = .warc := by rw [hs1]; simp [h3, hp]
  rw [parseWith_warc _ _ _ (Or.inl hpar), hr] at hparse
  obtain ⟨pre, vl, p, items, fin, ls, s2, hsk, hv, _, _, hbk, hcat, hlines, hst, _, _⟩ :=
    parse_record_inv _ _ _ _ _ _ _ hparse
  have he1 : s1.eoc = none := by rw [hs1]; exact h1
  obtain ⟨hsh, hpre⟩ := hlines.shape he1
  have hline : line ≠ [] := by
    intro e
    cases pre with
    | nil =>
      simp only [List.nil_append, List.cons.injEq] at hcat
      rw [← hcat.1] at e
      subst e
      simp [vspec] at hv
    | cons a b =>
      simp only [List.cons_append, List.cons.injEq] at hcat
      exact (hsk a (by simp)).1 (by rw [hcat.1, e])
  have hs' : s' = { s2 with eoc := some (items.foldl HItem.apply (hinit (junkErrs pre ++ versionErrs p))).contentLength } := hst.2
  rw [hs', hsh]
  simp only [adv_fh, File.advance_rest, List.length_drop, adv_parser, File.advance_data, File.advance_fault, adv_kind]
  rw [hs1]
  simp only [adv_fh, File.advance_rest, List.length_drop, adv_parser, File.advance_data, File.advance_fault, adv_kind]
  refine ⟨?_, by rw [h3, hp], h4, h6, h2⟩
  have hlen : 0 < line.length := List.length_pos_iff.2 hline
  have h0 : s0.fh.rest.length ≤ s.fh.rest.length := by
    simp only [File.rest, List.length_drop, h4]; omega
  have : line.length ≤ more.length := by rw [hT3]; exact File.firstLine_length_le more
  have : s0.fh.rest.length = T.length + more.length := by rw [hT1]; simp
  omega

/-- **C09** (whole scans) With as many rounds as the file has bytes, `read_records` comes to an end,
unless reading one of the records never returns; the result does not depend on the number of rounds. -/
theorem C09_scan_terminates (offs : Bool) (rounds : Nat) (limit : Option Nat) (s : Stream) (hp : s.parser = .warc)
    (hr : s.fh.rest.length < rounds) :
    ((readRecords offs rounds limit s).2 = .hangs →
      ∃ s', s'.parser = .warc ∧ s'.fh.data = s.fh.data ∧ s'.fh.fault = s.fh.fault ∧ s'.kind = s.kind ∧
        readRecord offs s' = .hang) ∧
    (∀ rounds', rounds ≤ rounds' → readRecords offs rounds' limit s = readRecords offs rounds limit s) := by
  induction rounds generalizing limit s with
  | zero => omega
  | succ rounds ih =>
    refine ⟨?_, ?_⟩
    · simp only [readRecords]
      split
      · simp
      · cases hq : readRecord offs s with
        | hang => intro _; exact ⟨s, hp, rfl, rfl, rfl, hq⟩
        | raise e s1 => simp
        | ok e s1 =>
          simp only
          cases hrec : e.rcd with
          | none => simp
          | some r =>
            obtain ⟨h1, h2, h3, h4, h5⟩ := readRecord_progress offs s s1 e r hp hq hrec
            simp only [Option.isNone_some, Bool.false_eq_true, if_false]
            intro hh
            obtain ⟨s', a, b, c, d, f⟩ := (ih _ s1 h2 (by omega)).1 hh
            exact ⟨s', a, by rw [b, h3], by rw [c, h4], by rw [d, h5], f⟩
    · intro rounds' hle
      obtain ⟨k, rfl⟩ : ∃ k, rounds' = k + 1 := ⟨rounds' - 1, by omega⟩
      simp only [readRecords]
      split
      · rfl
      · cases hq : readRecord offs s with
        | hang => rfl
        | raise e s1 => rfl
        | ok e s1 =>
          simp only
          cases hrec : e.rcd with
          | none => simp
          | some r =>
            obtain ⟨h1, h2, _⟩ := readRecord_progress offs s s1 e r hp hq hrec
            simp only [Option.isNone_some, Bool.false_eq_true, if_false]
            rw [(ih _ s1 h2 (by omega)).2 k (by omega)]

/-- skipping the unread payload of the previous record never hangs, so the call hangs only in front
of a stuck header block -/
theorem readRecord_hang_stuck (offs : Bool) (s : Stream) (hp : s.parser = .warc) (hk : s.kind ≠ .gzipFile)
    (hfa : s.fh.fault = none) (h : readRecord offs s = .hang) :
    ∃ pos n ls, s.fh.pos ≤ pos ∧ findVersion 0 (dropTerminators (lines (s.fh.data.drop pos))) = .version n ls ∧
      n ∈ [b! "1.0", b! "0.17", b! "0.18"] ∧ stuck false ls = true := by
  have key : ∀ t : Stream, t.parser = .warc → t.kind ≠ .gzipFile → t.fh.fault = none → t.eoc = none →
      readRecord offs t = .hang → ∃ n ls, findVersion 0 (dropTerminators (lines t.fh.rest)) = .version n ls ∧
      n ∈ [b! "1.0", b! "0.17", b! "0.18"] ∧ stuck false ls = true := by
    intro t h1 h2 h3 h4 h5
    have := C09_outcome offs t h1 h2 h4 h3
    rw [h5] at this
    split at this
    · obtain ⟨_, _, h, _⟩ := this; cases h
    · obtain ⟨_, _, h, _⟩ := this; cases h
    · rename_i n ls hf
      split at this
      · rename_i hn
        split at this
        · rename_i hs; exact ⟨n, ls, hf, hn, hs⟩
        · obtain ⟨_, _, _, h, _⟩ := this; cases h
      · obtain ⟨_, h⟩ := this; cases h
  cases hE : s.eoc with
  | none =>
    obtain ⟨n, ls, h1, h2, h3⟩ := key s hp hk hfa hE h
    exact ⟨s.fh.pos, n, ls, Nat.le_refl _, h1, h2, h3⟩
  | some e =>
    by_cases hneg : e ≤ 0
    · rw [readRecord_neg offs e s hE hneg] at h
      obtain ⟨n, ls, h1, h2, h3⟩ := key { s with eoc := none } hp hk hfa rfl h
      exact ⟨s.fh.pos, n, ls, Nat.le_refl _, h1, h2, h3⟩
    · obtain ⟨m, rfl⟩ : ∃ m : Nat, e = (m : Int) := ⟨e.toNat, by omega⟩
      by_cases hm : m ≤ s.fh.rest.length
      · rw [readRecord_skip offs m s hE hm] at h
        obtain ⟨n, ls, h1, h2, h3⟩ := key { s.adv m with eoc := none } hp hk hfa rfl h
        exact ⟨s.fh.pos + m, n, ls, by omega, h1, h2, h3⟩
      · obtain ⟨exc, q, h1, _⟩ := readRecord_short offs m s hE (by omega)
        rw [h1] at h; cases h

/-- **C09** A scan of a file that contains no stuck header block (at any position) always comes to an
end. -/
theorem C09_terminates (offs : Bool) (limit : Option Nat) (s : Stream) (hp : s.parser = .warc)
    (hk : s.kind ≠ .gzipFile) (hfa : s.fh.fault = none)
    (hgood : ∀ pos n ls, findVersion 0 (dropTerminators (lines (s.fh.data.drop pos))) = .version n ls →
      stuck false ls = false) :
    (readRecords offs (s.fh.rest.length + 1) limit s).2 ≠ .hangs := by
  intro hh
  obtain ⟨s', h1, h2, h3, h4, h5⟩ := (C09_scan_terminates offs _ limit s hp (by omega)).1 hh
  obtain ⟨pos, n, ls, _, hf, _, hs⟩ := readRecord_hang_stuck offs s' h1 (by rw [h4]; exact hk) (by rw [h3]; exact hfa) h5
  rw [h2] at hf
  rw [hgood pos n ls hf] at hs
  cases hs

/-- **C10 (defect)** A version line with an unknown version number does not give a record with an
error entry: the call raises `TypeError`, whatever the number and whatever follows. -/
theorem C10_unknown_version_raises (offs : Bool) (T w t n more : Bytes) (s : Stream) (hp : s.parser = .warc)
    (hk : s.kind ≠ .gzipFile) (he : s.eoc = none) (hfa : s.fh.fault = none) (hT : Terminator T)
    (hw : ∀ c ∈ w, c = 32) (ht : lower t = b! "warc/") (hn : 10 ∉ n)
    (hunknown : n ∉ [b! "1.0", b! "0.17", b! "0.18"])
    (hr : s.fh.rest = T ++ (w ++ t ++ n ++ CRLF ++ more)) :
    ∃ s', readRecord offs s = .raise .typeError s' := by
  rw [readRecord_terminator offs T _ s he hT hr]
  have hmain := C09_outcome offs { s with fh := { s.fh with pos := s.fh.pos + T.length } } hp hk he hfa
  have hrest : ({ s.fh with pos := s.fh.pos + T.length } : File).rest = (w ++ t ++ n ++ [13]) ++ 10 :: more := by
    have : ({ s.fh with pos := s.fh.pos + T.length } : File).rest = s.fh.rest.drop T.length := by
      simp [File.rest]
    rw [this, hr, List.drop_left]; simp
  have hw10 : 10 ∉ w := by intro h; have := hw 10 h; exact absurd this (by decide)
  have h10 : 10 ∉ w ++ t ++ n ++ [13] := by simp [hw10, hn, lower_warc_noLF ht]
  have hfl : File.firstLine ((w ++ t ++ n ++ [13]) ++ 10 :: more) = w ++ t ++ n ++ CRLF := by
    rw [File.firstLine_append _ _ h10]; simp
  have hlines : lines ((w ++ t ++ n ++ [13]) ++ 10 :: more) = (w ++ t ++ n ++ CRLF) :: lines more := by
    rw [lines_first (by simp), hfl]
    congr 2
    rw [show (w ++ t ++ n ++ [13]) ++ 10 :: more = (w ++ t ++ n ++ CRLF) ++ more by simp, List.drop_left]
  have hvs := vspec_stamp w t n (fun c hc => by rw [hw c hc]; decide) ht hn CRLF (chomp_crlf _ hn)
  have hll : LineLike (w ++ t ++ n ++ CRLF) := by rw [← hfl]; exact firstLine_lineLike _
  have hvn : versionNumber (w ++ t ++ n ++ CRLF) = some n := by
    rw [← vspec_number hll, hvs]; rfl
  have hdrop : dropTerminators ((w ++ t ++ n ++ CRLF) :: lines more) = (w ++ t ++ n ++ CRLF) :: lines more := by
    rw [dropTerminators, List.dropWhile_cons, if_neg]
    obtain ⟨c, cs, rfl, hc⟩ := lower_warc_head ht
    intro hall
    rw [List.all_eq_true] at hall
    have := hall c (by simp)
    simp only [Bool.or_eq_true, beq_iff_eq] at this
    rcases this with e | e <;> subst e <;> simp [isWs] at hc
  simp only at hmain
  rw [hrest, hlines, hdrop, findVersion, hvn] at hmain
  simp only at hmain
  rw [if_neg hunknown] at hmain
  exact hmain

example : ∃ s', readRecord true (Stream.mk' .plain (File.openFile (b! "WARC/1.1\r\nWARC-Type: resource\r\n\r\n")) .warc) =
    .raise .typeError s' :=
  C10_unknown_version_raises true [] [] (b! "WARC/") (b! "1.1") (b! "WARC-Type: resource\r\n\r\n") _ rfl (by decide) rfl rfl
    ⟨by simp, Or.inl rfl⟩ (by simp) (by decide) (by decide) (by decide) (by decide)

/-! ### C11: junk -/

/-- **C11** Up to five junk lines in front of a record are skipped; each is recorded, in order, in
the errors of that record, whose headers, position and payload are not affected. -/
theorem C11_junk_skipped (offs : Bool) (T : Bytes) (junk : List Bytes) (v : Bytes) (fs : List Field) (more : Bytes)
    (s : Stream) (hk : s.kind ≠ .gzipFile) (he : s.eoc = none) (hp : s.parser = .warc) (hT : Terminator T)
    (hjs : ∀ j ∈ junk, JunkLine j) (hj5 : junk.length ≤ 5) (hv : VersionOk v)
    (hfs : ∀ f ∈ fs, f.Ok) (hval : ∀ f ∈ fs, ValueOk f.header)
    (hr : s.fh.rest = T ++ (junk.flatten ++ (richHead v fs ++ more))) :
    ∃ s', readRecord offs s =
      .ok ⟨reported s.kind offs (s.fh.pos + T.length + junk.flatten.length),
           some { parsed v (fs.map Field.header) with errors := junk.map Err.ignoredLine }, []⟩ s' ∧
      s'.fh.rest = more ∧ s'.eoc = some (declaredLength (fs.map Field.header)) := by
  refine ⟨_, readRecord_rich offs T junk v fs more s hk he hp hT hjs hj5 hv hfs hval hr, ?_, rfl⟩
  simp only [adv_fh, File.advance_rest, hr]
  rw [show T ++ (junk.flatten ++ (richHead v fs ++ more)) = (T ++ junk.flatten ++ richHead v fs) ++ more by simp,
    show T.length + junk.flatten.length + (richHead v fs).length = (T ++ junk.flatten ++ richHead v fs).length by simp; omega,
    List.drop_left]

/-- with six junk lines the parser gives up: no record, and the six lines as errors -/
theorem C11_gives_up (offs : Bool) (T : Bytes) (junk : List Bytes) (more : Bytes) (s : Stream)
    (hk : s.kind ≠ .gzipFile) (he : s.eoc = none) (hp : s.parser = .warc) (hT : Terminator T)
    (hjs : ∀ j ∈ junk, JunkLine j) (hj6 : 6 ≤ junk.length) (hr : s.fh.rest = T ++ (junk.flatten ++ more)) :
    ∃ s', readRecord offs s =
      .ok ⟨reported s.kind offs (s.fh.pos + T.length + (junk.take 6).flatten.length), none,
           (junk.take 6).map Err.ignoredLine ++ [.tooMany]⟩ s' := by
  refine ⟨_, readRecord_giveUp offs T (junk.take 6) ((junk.drop 6).flatten ++ more) s hk he hp hT
    (fun j hj => hjs j (List.mem_of_mem_take hj)) (by simp; omega) ?_⟩
  rw [hr, ← List.append_assoc ((junk.take 6).flatten), ← List.flatten_append, List.take_append_drop]

theorem junk_demo : ∀ j ∈ [b! "HTTP/1.1 200 OK\r\n", b! "x\n"], JunkLine j := by
  intro j hj
  simp only [List.mem_cons, List.not_mem_nil, or_false] at hj
  rcases hj with rfl | rfl
  · exact ⟨⟨b! "HTTP/1.1 200 OK\r", rfl, by decide⟩, by decide, by decide⟩
  · exact ⟨⟨b! "x", rfl, by decide⟩, by decide, by decide⟩

/-- a folded field -/
def demoField : Field := ⟨b! "WARC-Note", b! "one", [(b! " ", b! "two"), (b! "\t  ", b! "three: four")]⟩

theorem demoField_ok : demoField.Ok where
  noColon := by decide
  nameNoLF := by decide
  nameStrip := by decide
  valueNoLF := by decide
  valueStrip := by decide
  conts := by
    intro c hc
    simp only [demoField, List.mem_cons, List.not_mem_nil, or_false] at hc
    rcases hc with rfl | rfl <;> decide

example : ∃ s', readRecord true (Stream.mk' .plain (File.openFile (b! "\r\nHTTP/1.1 200 OK\r\nx\nWARC/0.18\r\nWARC-Note: one\r\n two\r\n\t  three: four\r\n\r\nbody")) .warc) =
    .ok ⟨some 21, some { parsed (b! "WARC/0.18") [(b! "WARC-Note", b! "one two three: four")] with
      errors := [.ignoredLine (b! "HTTP/1.1 200 OK\r\n"), .ignoredLine (b! "x\n")] }, []⟩ s' ∧ s'.fh.rest = b! "body" := by
  obtain ⟨s', h1, h2, _⟩ := C11_junk_skipped true (b! "\r\n") [b! "HTTP/1.1 200 OK\r\n", b! "x\n"] (b! "WARC/0.18")
    [demoField] (b! "body")
    (Stream.mk' .plain (File.openFile (b! "\r\nHTTP/1.1 200 OK\r\nx\nWARC/0.18\r\nWARC-Note: one\r\n two\r\n\t  three: four\r\n\r\nbody")) .warc)
    (by decide) rfl rfl ⟨by decide, Or.inr (by decide)⟩ junk_demo (by decide) ⟨[], b! "WARC/", b! "0.18", by decide⟩
    (by intro f hf; simp at hf; subst hf; exact demoField_ok) (by intro f hf; simp at hf; subst hf; decide) (by decide)
  exact ⟨s', h1, h2⟩

/-! ### C12: errors -/

/-- **C12** A record that is returned has an empty errors list exactly when: no junk line came before
it, its version line has nothing but white space before `WARC/` and ends in CR LF, every header line
ends in CR LF with at least one byte between the first colon and the line end, every continuation
line ends in CR LF and has a visible character, every Content-Type is non-empty and every
Content-Length is an integer. -/
theorem C12_errors_exact (offs : Bool) (s s' : Stream) (e : Entry) (r : Rec) (hp : s.parser = .warc)
    (he : s.eoc = none) (hfa : s.fh.fault = none)
    (hread : readRecord offs s = .ok e s') (hr : e.rcd = some r) :
    ∃ vl block, (dropTerminators (lines s.fh.rest)).dropWhile (fun l => (versionNumber l).isNone) = vl :: block ∧
      (r.errors = [] ↔ junkLines (dropTerminators (lines s.fh.rest)) = [] ∧ versionClean vl = true ∧
        cleanBlock false block = true ∧ ∀ h ∈ r.headers, ValueOk h) := by
  obtain ⟨s0, off, line, s1, off', h1, h2, h3, h4, h5, h6, h7, _, hb, hparse, _⟩ := readRecord_inv offs s s' e hread
  have hs0 := h7 he
  subst hs0
  obtain ⟨off2, l2, s2, hb2, hcur, hkind, hpar, hls⟩ := blankLoop_lines (offs && s0.kind == .plain) (s0.fh.rest.length + 2) s0 he hfa
    (by have := lines_length s0.fh.rest; omega)
  rw [hb2] at hb
  simp only [Res.ok.injEq, Prod.mk.injEq] at hb
  obtain ⟨⟨rfl, rfl⟩, rfl⟩ := hb
  rw [parseWith_warc _ _ _ (Or.inl (by rw [hpar, hp])), hr] at hparse
  rw [← hls]
  exact parse_clean _ _ _ _ _ _ _ hcur hparse

/-- a clean record and the flaws that are reported -/
example : cleanBlock false (lines (b! "A: b\r\n c\r\nB: \r\n\r\n")) = true ∧
    cleanBlock false (lines (b! "A: b\n\r\n")) = false ∧
    cleanBlock false (lines (b! "A:\r\n\r\n")) = false ∧
    cleanBlock false (lines (b! "A: b\r\n  \r\n\r\n")) = false ∧
    versionClean (b! "WARC/1.0\r\n") = true ∧ versionClean (b! "xWARC/1.0\r\n") = false ∧
    versionClean (b! "WARC/1.0\n") = false := by decide +kernel

theorem cleanBlock_empty (b : List Bytes) (name : Bytes) (hn : 58 ∉ name) (hc : contLine (name ++ 58 :: CRLF) = false) :
    ∀ (a : List Bytes) (after : Bool), (∀ l ∈ a, blankLine l = false) → cleanBlock after (a ++ (name ++ 58 :: CRLF) :: b) = false := by
  have hne : blankLine (name ++ 58 :: CRLF) = false := by
    cases name with
    | nil => decide
    | cons c cs =>
      have h13 : c ≠ 13 := by
        rintro rfl
        have hcomp : complete (13 :: cs ++ 58 :: CRLF) = true := by
          simp [complete, CRLF, List.getLast?_append, List.getLast?_cons]
        simp [contLine, CRLF, isWs] at hc
        simp [CRLF] at hcomp
        rw [hc] at hcomp; cases hcomp
      simp [blankLine, h13]
  intro a
  induction a with
  | nil =>
    intro after _
    rw [List.nil_append, cleanBlock, hc, Bool.and_false, if_neg (by simp), hne, if_neg (by simp)]
    have : (name ++ 58 :: CRLF).dropWhile (· != 58) = 58 :: CRLF := by
      clear hne hc
      induction name with
      | nil => rfl
      | cons c cs ih =>
        simp only [List.mem_cons, not_or] at hn
        rw [List.cons_append, List.dropWhile_cons, if_pos (by simpa using Ne.symm hn.1)]
        exact ih hn.2
    simp [fieldClean, this]
  | cons l ls ih =>
    intro after h
    have ih' := ih true (fun x hx => h x (by simp [hx]))
    rw [List.cons_append, cleanBlock, ih', Bool.and_false, Bool.and_false, h l (by simp), if_neg (c := false = true) (by simp)]
    split <;> rfl

/-- **C12 (defect)** a header field with an empty value and no blank after the colon counts as a flaw, although the line ends in CR LF: whatever
stands in the other lines, a record with such a field never has an empty errors list. -/
theorem C12_empty_value_flagged (offs : Bool) (s s' : Stream) (e : Entry) (r : Rec) (hp : s.parser = .warc)
    (he : s.eoc = none) (hfa : s.fh.fault = none) (hread : readRecord offs s = .ok e s') (hr : e.rcd = some r)
    (vl name : Bytes) (above below : List Bytes)
    (hl : (dropTerminators (lines s.fh.rest)).dropWhile (fun l => (versionNumber l).isNone) = vl :: (above ++ (name ++ 58 :: CRLF) :: below))
    (ha : ∀ l ∈ above, blankLine l = false) (hn : 58 ∉ name) (hc : contLine (name ++ 58 :: CRLF) = false) :
    r.errors ≠ [] := by
  intro h0
  obtain ⟨vl', block, h1, h2⟩ := C12_errors_exact offs s s' e r hp he hfa hread hr
  rw [hl] at h1
  obtain ⟨rfl, rfl⟩ := List.cons.inj h1
  have := (h2.1 h0).2.2.1
  rw [cleanBlock_empty below name hn hc above false ha] at this
  cases this

/-- what is reported for it: an incorrect newline, the value taken for the carriage return being lost -/
example : ∃ s', readRecord true (Stream.mk' .plain (File.openFile
      (b! "WARC/1.0\r\nX-Empty:\r\n\r\n")) .warc) =
    .ok ⟨some 0, some { parsed (b! "WARC/1.0") [(b! "X-Empty", [])] with errors := [.badNlHeader [10]] }, []⟩ s' := by
  have : (match readRecord true (Stream.mk' .plain (File.openFile (b! "WARC/1.0\r\nX-Empty:\r\n\r\n")) .warc) with
     | .ok e _ => decide (e = ⟨some 0, some { parsed (b! "WARC/1.0") [(b! "X-Empty", [])] with errors := [.badNlHeader [10]] }, []⟩)
     | _ => false) = true := by decide +kernel
  split at this
  · rename_i e s1 hq
    rw [hq]
    exact ⟨s1, by rw [of_decide_eq_true this]⟩
  · cases this

example : ∃ above name below, (dropTerminators (lines (b! "WARC/1.0\r\nA: b\r\nX-Empty:\r\n\r\n"))).dropWhile (fun l => (versionNumber l).isNone) =
      b! "WARC/1.0\r\n" :: (above ++ (name ++ 58 :: CRLF) :: below) ∧
    (∀ l ∈ above, blankLine l = false) ∧ 58 ∉ name ∧ contLine (name ++ 58 :: CRLF) = false :=
  ⟨[b! "A: b\r\n"], b! "X-Empty", [CRLF], by decide +kernel, by decide +kernel, by decide, by decide⟩

/-! ### C13: folded headers -/

/-- **C13** Header fields continued on indented lines come out as one header each, whose value is
made of the pieces joined by single blanks; no errors are reported. -/
theorem C13_folded_headers (offs : Bool) (T v : Bytes) (fs : List Field) (more : Bytes) (s : Stream)
    (hk : s.kind ≠ .gzipFile) (he : s.eoc = none) (hp : s.parser = .warc) (hT : Terminator T)
    (hv : VersionOk v) (hfs : ∀ f ∈ fs, f.Ok) (hval : ∀ f ∈ fs, ValueOk f.header)
    (hr : s.fh.rest = T ++ (richHead v fs ++ more)) :
    ∃ s', readRecord offs s =
      .ok ⟨reported s.kind offs (s.fh.pos + T.length), some (parsed v (fs.map Field.header)), []⟩ s' ∧
      s'.fh.rest = more ∧ s'.eoc = some (declaredLength (fs.map Field.header)) := by
  obtain ⟨s', h1, h2, h3⟩ := C11_junk_skipped offs T [] v fs more s hk he hp hT (by simp) (by simp) hv hfs hval
    (by simpa using hr)
  exact ⟨s', by simpa [parsed] using h1, h2, h3⟩

example : ∃ s', readRecord true (Stream.mk' .plain (File.openFile (b! "WARC/1.0\r\nWARC-Note: one\r\n two\r\n\t  three: four\r\n\r\nbody")) .warc) =
    .ok ⟨some 0, some (parsed (b! "WARC/1.0") [(b! "WARC-Note", b! "one two three: four")]), []⟩ s' := by
  obtain ⟨s', h1, h2, _⟩ := C13_folded_headers true [] (b! "WARC/1.0") [demoField] (b! "body")
    (Stream.mk' .plain (File.openFile (b! "WARC/1.0\r\nWARC-Note: one\r\n two\r\n\t  three: four\r\n\r\nbody")) .warc)
    (by decide) rfl rfl ⟨by simp, Or.inl rfl⟩ ⟨[], b! "WARC/", b! "1.0", by decide⟩
    (by intro f hf; simp at hf; subst hf; exact demoField_ok) (by intro f hf; simp at hf; subst hf; decide) (by decide)
  exact ⟨s', h1⟩

end Warc
