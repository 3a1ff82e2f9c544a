import Verif.Props.Grammar
import Verif.Props.Valid
import Verif.Proofs.Scan
import Verif.Spec.ValidReport
set_option linter.all false
/-
  C105: what warcvalid reports.
-/
namespace Warc
open Rx Stream Spec

/-! ### the report and the exit code -/

theorem tellEntries_check (fuel : Nat) (s : Stream) :
    (match WarcValid.tellEntries fuel s with
     | .hang => WarcValid.checkEntries fuel s = .hang
     | .raise e t => WarcValid.checkEntries fuel s = .raise e t
     | .ok none t => WarcValid.checkEntries fuel s = .ok .clean t
     | .ok (some _) t => WarcValid.checkEntries fuel s = .ok .broken t) := by
  induction fuel generalizing s with
  | zero => rfl
  | succ fuel ih =>
    simp only [WarcValid.tellEntries, WarcValid.checkEntries, M.bind_apply]
    cases hq : readRecord true s with
    | hang => rfl
    | raise e t => rfl
    | ok e t =>
      simp only
      by_cases he : e.errors ≠ []
      · rw [if_pos he, if_pos he]
        cases ho : e.offset with
        | none => rfl
        | some o => rfl
      · rw [if_neg he, if_neg he]
        cases hr : e.rcd with
        | none => rfl
        | some r =>
          simp only
          by_cases hre : r.errors ≠ []
          · rw [if_pos hre, if_pos hre]
            cases ho : e.offset with
            | none => rfl
            | some o => rfl
          · rw [if_neg hre, if_neg hre]
            exact ih t

theorem tell_run (c : Codec) (fs : FS) (correct : Bool) (names : List Bytes) :
    (WarcValid.tell c fs correct names).map (·.2) = WarcValid.run c fs correct names := by
  induction names generalizing correct with
  | nil => rfl
  | cons name names ih =>
    rw [WarcValid.tell, WarcValid.run, WarcValid.checkFile]
    cases ho : openName c fs .warc none name with
    | error e => rfl
    | ok s =>
      simp only
      have h := tellEntries_check (s.fh.rest.length + 2) s
      cases hq : WarcValid.tellEntries (s.fh.rest.length + 2) s with
      | hang => rw [hq] at h; simp only at h; rw [h]; rfl
      | raise e t => rw [hq] at h; simp only at h; rw [h]; rfl
      | ok p t =>
        cases p with
        | none => rw [hq] at h; simp only at h; rw [h]; exact ih correct
        | some p =>
          rw [hq] at h; simp only at h; rw [h]
          simp only
          rw [← ih false, Option.map_map]
          rfl

theorem tell_false (c : Codec) (fs : FS) (names : List Bytes) (q : List WarcValid.Msg × Int) (h : WarcValid.tell c fs false names = some q) : q.2 = -1 := by
  induction names generalizing q with
  | nil => simp only [WarcValid.tell] at h; cases h; rfl
  | cons name names ih =>
    rw [WarcValid.tell] at h
    cases ho : openName c fs .warc none name with
    | error e => rw [ho] at h; simp only at h; cases h; rfl
    | ok s =>
      rw [ho] at h
      simp only at h
      cases hq : WarcValid.tellEntries (s.fh.rest.length + 2) s with
      | hang => rw [hq] at h; cases h
      | raise e t => rw [hq] at h; simp only at h; cases h; rfl
      | ok p t =>
        rw [hq] at h
        cases p with
        | none => exact ih q h
        | some p =>
          simp only [Option.map_eq_some_iff] at h
          obtain ⟨a, ha, rfl⟩ := h
          exact ih a ha

/-- **C105** The exit code is that of C43; it is 0 exactly when nothing is printed, and -1 otherwise. -/
theorem C105_exit (c : Codec) (fs : FS) (names : List Bytes) :
    (WarcValid.report c fs names).map (·.2) = WarcValid.main c fs names ∧
    ∀ msgs code, WarcValid.report c fs names = some (msgs, code) → (code = 0 ↔ msgs = []) ∧ (code = 0 ∨ code = -1) := by
  refine ⟨tell_run c fs true names, ?_⟩
  unfold WarcValid.report
  induction names with
  | nil => intro msgs code h; simp only [WarcValid.tell] at h; cases h; simp
  | cons name names ih =>
    intro msgs code h
    rw [WarcValid.tell] at h
    cases ho : openName c fs .warc none name with
    | error e => rw [ho] at h; simp only at h; cases h; simp
    | ok s =>
      rw [ho] at h
      simp only at h
      cases hq : WarcValid.tellEntries (s.fh.rest.length + 2) s with
      | hang => rw [hq] at h; cases h
      | raise e t => rw [hq] at h; simp only at h; cases h; simp
      | ok p t =>
        rw [hq] at h
        cases p with
        | none => exact ih msgs code h
        | some p =>
          simp only [Option.map_eq_some_iff] at h
          obtain ⟨a, ha, hb⟩ := h
          have := tell_false c fs names a ha
          cases hb
          simp [this]

/-! ### one file -/

/-- what is known when the loop over a file has ended -/
def reportOf (r : Res Stream (Option (Nat × List Err))) : Finding :=
  match r with
  | .hang => .endless
  | .raise _ _ => .raises
  | .ok none _ => .fine
  | .ok (some p) _ => .flawed p.1 p.2

theorem tellEntries_eoc (rounds : Nat) (s : Stream) (e : Int) (he : e ≤ 0) :
    WarcValid.tellEntries rounds { s with eoc := some e } = WarcValid.tellEntries rounds { s with eoc := none } := by
  cases rounds with
  | zero => rfl
  | succ n => simp only [WarcValid.tellEntries, M.bind_apply]; rw [readRecord_neg true e { s with eoc := some e } rfl he]

theorem tellEntries_skip (rounds : Nat) (s : Stream) (n : Nat) (hn : n ≤ s.fh.rest.length) :
    WarcValid.tellEntries rounds { s with eoc := some (n : Int) } = WarcValid.tellEntries rounds { s.adv n with eoc := none } := by
  cases rounds with
  | zero => rfl
  | succ r => simp only [WarcValid.tellEntries, M.bind_apply]; rw [readRecord_skip true n { s with eoc := some (n : Int) } rfl hn]; rfl

theorem tell_exact (rounds : Nat) (s : Stream) (hp : s.parser = .warc) (hk : s.kind ≠ .gzipFile) (he : s.eoc = none)
    (hf : s.fh.fault = none) (hr : s.fh.rest.length + 1 < rounds) :
    reportOf (WarcValid.tellEntries rounds s) =
      if s.kind = .plain then firstFlaw rounds s.fh.pos s.fh.rest else (firstFlaw rounds s.fh.pos s.fh.rest).compressed := by
  induction rounds generalizing s with
  | zero => omega
  | succ rounds ih =>
    have hkk : s.kind = .plain ∨ s.kind = .gzipRecord := by cases h : s.kind <;> simp_all
    have hx := readRecord_exact true s hp hk he hf
    simp only [WarcValid.tellEntries, M.bind_apply, firstFlaw]
    cases hn : next s.fh.rest with
    | stuck => rw [hn] at hx; simp only at hx ⊢; rw [hx]; simp [reportOf, Finding.compressed]
    | unknown => rw [hn] at hx; simp only at hx ⊢; obtain ⟨s', hx⟩ := hx; rw [hx]; simp [reportOf, Finding.compressed]
    | none es size =>
      rw [hn] at hx; simp only at hx ⊢; rw [hx]
      simp only
      by_cases hes : es = []
      · subst hes; simp [reportOf, Finding.compressed]
      · rcases hkk with hkd | hkd
        · simp [hes, hkd, reported, reportOf]
        · simp [hes, hkd, reported, reportOf, Finding.compressed]
    | record start v hs es size =>
      rw [hn] at hx; simp only at hx ⊢; rw [hx]
      simp only
      obtain ⟨hsz1, hsz2⟩ := next_size hn
      by_cases hes : es = []
      · subst hes
        simp only [ne_eq, not_true_eq_false, if_false]
        have hrest : (s.adv size).fh.rest = s.fh.rest.drop size := by simp
        by_cases hsh : (s.fh.rest.drop size).length < (declaredLength hs).toNat
        · rw [if_pos hsh]
          obtain ⟨n, hnn⟩ : ∃ n : Nat, declaredLength hs = (n : Int) := ⟨(declaredLength hs).toNat, by omega⟩
          cases rounds with
          | zero => omega
          | succ m =>
            obtain ⟨exc, q, hx1, _⟩ := readRecord_short true n { s.adv size with eoc := some (declaredLength hs) } (by rw [hnn]) (by
              show (s.adv size).fh.rest.length < n
              rw [hrest]; rw [hnn] at hsh; simpa using hsh)
            simp only [WarcValid.tellEntries, M.bind_apply]
            rw [hx1]
            simp [reportOf, Finding.compressed]
        · rw [if_neg hsh]
          have hgo : WarcValid.tellEntries rounds { s.adv size with eoc := some (declaredLength hs) } =
              WarcValid.tellEntries rounds { s.adv (size + (declaredLength hs).toNat) with eoc := none } := by
            by_cases hneg : declaredLength hs ≤ 0
            · rw [tellEntries_eoc rounds (s.adv size) _ hneg, show (declaredLength hs).toNat = 0 by omega]; rfl
            · obtain ⟨n, hnn⟩ : ∃ n : Nat, declaredLength hs = (n : Int) := ⟨(declaredLength hs).toNat, by omega⟩
              rw [hnn, tellEntries_skip rounds (s.adv size) n (by rw [hrest]; rw [hnn] at hsh; simpa using hsh), adv_adv]
              rfl
          rw [hgo]
          generalize ht : ({ s.adv (size + (declaredLength hs).toNat) with eoc := none } : Stream) = t
          have ht1 : t.fh.rest = (s.fh.rest.drop size).drop (declaredLength hs).toNat := by subst ht; simp
          have ht2 : t.fh.pos = s.fh.pos + size + (declaredLength hs).toNat := by subst ht; simp [Stream.adv, File.advance]; omega
          have ht3 : t.kind = s.kind := by subst ht; rfl
          rw [ih t (by subst ht; exact hp) (by subst ht; exact hk) (by subst ht; rfl) (by subst ht; exact hf)
            (by rw [ht1]; simp; omega), ht1, ht2, ht3]
      · have hes' : es ≠ [] := hes
        rw [if_pos hes', if_pos hes']
        rcases hkk with hkd | hkd
        · simp [hes, hkd, reported, reportOf]
        · simp [hes, hkd, reported, reportOf, Finding.compressed]

/-- what the bytes of a file, however it is stored, have to say: not there; uncompressed; compressed, by its name or by its first two bytes, and decompressing without an
error -/
inductive Findable (c : Codec) (fs : FS) (name : Bytes) : Finding → Prop where
  | missing (h : fs name = none) : Findable c fs name .raises
  | plain (data : Bytes) (h : fs name = some data) (hn : ¬ b! ".gz" <:+ name) (hg : data.take 2 ≠ [0x1f, 0x8b]) :
      Findable c fs name (firstFlaw (data.length + 2) 0 data)
  | compressed (stored data : Bytes) (h : fs name = some stored) (hn : b! ".gz" <:+ name ∨ ∃ t, stored = 0x1f :: 0x8b :: t)
      (hd : c.dec stored = (data, none)) : Findable c fs name (firstFlaw (data.length + 2) 0 data).compressed

theorem found_tell (c : Codec) (fs : FS) (name : Bytes) (f : Finding) (h : Findable c fs name f) :
    (match openName c fs .warc none name with
     | .error _ => f = .raises
     | .ok s => reportOf (WarcValid.tellEntries (s.fh.rest.length + 2) s) = f) := by
  cases h with
  | missing h => simp [openName, h]
  | plain data h hn hg =>
    rw [openName_plain c fs name data h hn hg]
    have hrest : (File.openFile data).rest = data := by simp [File.openFile, File.rest]
    have := tell_exact (data.length + 2) ⟨File.openFile data, none, .plain, .warc⟩ rfl (by simp) rfl rfl (by simp only [hrest]; omega)
    simp only [hrest, if_true] at this ⊢
    exact this
  | compressed stored data h hn hd =>
    have hrest : (File.openFile stored).rest = stored := by simp [File.openFile, File.rest]
    have hg : gzipFileOf c (File.openFile stored) = { data := data, pos := 0, strictNeg := true, fault := none } := by
      simp [gzipFileOf, hrest, hd]
    have ho : openName c fs .warc none name = .ok ⟨{ data := data, pos := 0, strictNeg := true, fault := none }, none, .gzipRecord, .warc⟩ := by
      simp only [openName, h]
      cases hng : nameGz name with
      | true => rw [openArchive_named c .warc, hg]; rfl
      | false =>
        rcases hn with hn | ⟨t, ht⟩
        · rw [nameGz, (endsWith_iff _ _).2 hn] at hng; cases hng
        · rw [openArchive_gzip c (some .warc) .warc false .auto _ (Or.inl rfl) (Or.inl rfl) (by rw [ht]; rfl) (Or.inl (by rw [hd])), hg]; rfl
    rw [ho]
    have hr2 : ({ data := data, pos := 0, strictNeg := true, fault := none } : File).rest = data := by simp [File.rest]
    have := tell_exact (data.length + 2) ⟨{ data := data, pos := 0, strictNeg := true, fault := none }, none, .gzipRecord, .warc⟩ rfl (by simp) rfl rfl
      (by simp only [hr2]; omega)
    simp only [hr2] at this ⊢
    rw [this]; simp

/-- **C105** What `warcvalid` prints about any files, and its exit code, is determined by the first flaw of each: a flawed uncompressed file is reported with its name, the
offset and the flaws of that entry, and the next file is looked at; an exception is reported without either, and ends the run. (Defect: a flaw in a compressed file is such
an exception.) -/
theorem C105_messages (c : Codec) (fs : FS) (files : List (Bytes × Finding)) (h : ∀ p ∈ files, Findable c fs p.1 p.2) :
    WarcValid.report c fs (files.map (·.1)) = messages files := by
  have key : ∀ correct, WarcValid.tell c fs correct (files.map (·.1)) = (messages files).map fun q => (q.1, if correct then q.2 else -1) := by
    induction files with
    | nil => intro correct; cases correct <;> rfl
    | cons p files ih =>
      intro correct
      obtain ⟨name, f⟩ := p
      have ih := ih fun p hp => h p (by simp [hp])
      have hf := found_tell c fs name f (h (name, f) (by simp))
      rw [List.map_cons, WarcValid.tell]
      cases ho : openName c fs .warc none name with
      | error e =>
        rw [ho] at hf; simp only at hf; subst hf
        simp [messages]
      | ok s =>
        rw [ho] at hf
        simp only at hf ⊢
        cases hq : WarcValid.tellEntries (s.fh.rest.length + 2) s with
        | hang => rw [hq] at hf; simp only [reportOf] at hf; subst hf; simp [messages]
        | raise e t => rw [hq] at hf; simp only [reportOf] at hf; subst hf; simp [messages]
        | ok r t =>
          rw [hq] at hf
          cases r with
          | none => simp only [reportOf] at hf; subst hf; simp only [messages]; exact ih correct
          | some p =>
            simp only [reportOf] at hf; subst hf
            simp only [messages, ih false, Option.map_map]
            cases messages files with
            | none => rfl
            | some q => simp
  have := key true
  unfold WarcValid.report
  rw [this]
  cases messages files <;> simp

/-! ### an archive with a flaw behind some good records -/

theorem firstFlaw_rounds (m n pos : Nat) (data : Bytes) (hm : data.length < m) (hn : data.length < n) : firstFlaw m pos data = firstFlaw n pos data := by
  induction m generalizing n pos data with
  | zero => omega
  | succ m ih =>
    cases n with
    | zero => omega
    | succ n =>
      rw [firstFlaw, firstFlaw]
      cases hq : next data with
      | stuck => rfl
      | unknown => rfl
      | none a b => rfl
      | record a b d e f =>
        simp only
        obtain ⟨h1, h2⟩ := next_size hq
        rw [ih n _ _ (by simp; omega) (by simp; omega)]

theorem next_head (T v : Bytes) (hs : List Header) (more : Bytes) (hT : Terminator T) (hv : VersionOk v) (hh : ∀ h ∈ hs, HeaderOk h) :
    next (T ++ (headBytes v hs ++ more)) = .record T.length v hs [] (T.length + (headBytes v hs).length) := by
  have hrest : (readerOn (T ++ (headBytes v hs ++ more))).fh.rest = T ++ (headBytes v hs ++ more) := by simp [readerOn, File.openFile, File.rest]
  have h1 := readRecord_head true T v hs more (readerOn (T ++ (headBytes v hs ++ more))) (by simp [readerOn]) rfl hT hv hh (Or.inl rfl) hrest
  have h2 := readRecord_exact true (readerOn (T ++ (headBytes v hs ++ more))) rfl (by simp [readerOn]) rfl rfl
  rw [hrest] at h2
  generalize hb : T ++ (headBytes v hs ++ more) = b at *
  cases hn : next b with
  | stuck => rw [hn] at h2; simp only at h2; rw [h1] at h2; cases h2
  | unknown => rw [hn] at h2; simp only at h2; obtain ⟨s', h2⟩ := h2; rw [h1] at h2; cases h2
  | none es size => rw [hn] at h2; simp only at h2; rw [h1] at h2; simp at h2
  | record a b' d e f =>
    rw [hn] at h2; simp only at h2; rw [h1] at h2
    simp only [Res.ok.injEq, Entry.mk.injEq, Option.some.injEq, Rec.mk.injEq, parsed, readerOn, reported, Stream.mk.injEq, if_true, and_true] at h2
    simp [adv_fh, File.advance, File.openFile] at h2
    obtain ⟨⟨h21, h22, h23, h24⟩, h25, h26⟩ := h2
    rw [Next.record.injEq]
    exact ⟨by omega, h22.symm, h23.symm, h24, by omega⟩

theorem terminator_lines (T more : Bytes) (hT : Terminator T) (hne : T ≠ []) :
    ∃ l ls, Spec.lines (T ++ more) = l :: ls ∧ (l.all fun c => c == 13 || c == 10) = true ∧ dropTerminators ls = dropTerminators (Spec.lines more) := by
  induction T with
  | nil => exact absurd rfl hne
  | cons c T ih =>
    have hT' : T ≠ [] → Terminator T := by
      intro hn
      refine ⟨fun x hx => hT.1 x (by simp [hx]), Or.inr ?_⟩
      rcases hT.2 with h | h
      · simp at h
      · cases T with
        | nil => exact absurd rfl hn
        | cons d T => simpa [List.getLast?_cons_cons] using h
    rcases hT.1 c (by simp) with rfl | rfl
    · have hn : T ≠ [] := by
        rintro rfl
        rcases hT.2 with h | h
        · simp at h
        · revert h; decide
      obtain ⟨l, ls, h1, h2, h3⟩ := ih (hT' hn) hn
      refine ⟨13 :: l, ls, ?_, ?_, h3⟩
      · rw [List.cons_append, Spec.lines, if_neg (by decide), h1]
      · rw [List.all_cons, h2]; rfl
    · refine ⟨[10], Spec.lines (T ++ more), ?_, rfl, ?_⟩
      · rw [List.cons_append, Spec.lines, if_pos rfl]
      · by_cases hn : T = []
        · subst hn; rfl
        · obtain ⟨l, ls, h1, h2, h3⟩ := ih (hT' hn) hn
          rw [h1, dropTerminators, List.dropWhile_cons, if_pos h2]
          exact h3

theorem terminator_drop (T more : Bytes) (hT : Terminator T) : dropTerminators (Spec.lines (T ++ more)) = dropTerminators (Spec.lines more) := by
  by_cases hn : T = []
  · subst hn; rfl
  · obtain ⟨l, ls, h1, h2, h3⟩ := terminator_lines T more hT hn
    rw [h1, dropTerminators, List.dropWhile_cons, if_pos h2]
    exact h3

theorem firstFlaw_terminator (rounds pos : Nat) (T more : Bytes) (hT : Terminator T) :
    firstFlaw rounds pos (T ++ more) = firstFlaw rounds (pos + T.length) more := by
  cases rounds with
  | zero => rfl
  | succ n =>
    have hsz := sizeOf_dropTerminators more
    have hl : (T ++ more).length - Spec.sizeOf (dropTerminators (Spec.lines more)) = T.length + (more.length - Spec.sizeOf (dropTerminators (Spec.lines more))) := by
      simp; omega
    rw [firstFlaw, firstFlaw]
    have hd : ∀ k, (T ++ more).drop (T.length + k) = more.drop k := fun k => by rw [List.drop_append, List.drop_of_length_le (by omega)]; simp
    unfold next
    rw [terminator_drop T more hT, hl]
    cases hlk : look 0 (dropTerminators (Spec.lines more)) with
    | nothing o => simp [Nat.add_assoc]
    | tooMany o => simp [Nat.add_assoc]
    | found over line rest =>
      simp only
      by_cases c1 : versionNumber line ∈ [some (b! "1.0"), some (b! "0.17"), some (b! "0.18")]
      · rw [if_pos c1, if_pos c1]
        by_cases c2 : Spec.stuck false rest = true
        · rw [if_pos c2, if_pos c2]
        · rw [if_neg c2, if_neg c2]
          simp only [Nat.add_assoc, hd]
      · rw [if_neg c1, if_neg c1]

theorem firstFlaw_archive (rs : List RT) (hok : OkT rs) (rounds pos : Nat) (more : Bytes) (hr : (archiveT rs ++ more).length < rounds) :
    firstFlaw rounds pos (archiveT rs ++ more) = firstFlaw (more.length + 1) (pos + (archiveT rs).length) more := by
  induction rs generalizing rounds pos with
  | nil =>
    have e : archiveT [] = [] := rfl
    rw [e] at hr ⊢
    simp only [List.nil_append, List.length_nil, Nat.add_zero] at hr ⊢
    exact firstFlaw_rounds _ _ _ _ hr (by omega)
  | cons r rs ih =>
    obtain ⟨⟨hv, hh, hl⟩, hT⟩ := hok r (by simp)
    have e : archiveT (r :: rs) ++ more = headBytes r.1.version r.1.headers ++ (r.1.body ++ (r.2 ++ (archiveT rs ++ more))) := by
      simp [archiveT, R.core]
    rw [e] at hr ⊢
    have hlen : (archiveT (r :: rs)).length = (headBytes r.1.version r.1.headers).length + r.1.body.length + r.2.length + (archiveT rs).length := by
      simp [archiveT, R.core]; omega
    cases rounds with
    | zero => omega
    | succ n =>
      have hn := next_head [] r.1.version r.1.headers (r.1.body ++ (r.2 ++ (archiveT rs ++ more))) ⟨by simp, Or.inl rfl⟩ hv hh
      rw [List.nil_append] at hn
      rw [firstFlaw, hn]
      have hv1 : 0 < (headBytes r.1.version r.1.headers).length := by simp [headBytes, CRLF]; omega
      simp only [List.length_nil, Nat.zero_add, ne_eq, not_true_eq_false, if_false, List.drop_left, hl, Int.toNat_natCast]
      rw [if_neg (by simp), firstFlaw_terminator _ _ _ _ hT, ih (fun x hx => hok x (by simp [hx])) n _ (by
        simp only [List.length_append] at hr ⊢; omega), hlen]
      congr 1
      omega

/-- **C105** Good records, then something flawed: the message has the offset of the first flawed record, exactly, and its flaws. -/
theorem C105_offset (c : Codec) (fs : FS) (name : Bytes) (rs : List RT) (hok : OkT rs) (bad : Bytes) (hn : ¬ b! ".gz" <:+ name)
    (hf : fs name = some (archiveT rs ++ bad)) (hg : (archiveT rs ++ bad).take 2 ≠ [0x1f, 0x8b])
    (start : Nat) (v : Bytes) (hs : List Header) (es : List Err) (size : Nat) (hbad : next bad = .record start v hs es size) (hes : es ≠ []) :
    WarcValid.report c fs [name] = some ([.errorsAt name ((archiveT rs).length + start) es], -1) := by
  have h := C105_messages c fs [(name, firstFlaw ((archiveT rs ++ bad).length + 2) 0 (archiveT rs ++ bad))] (by
    intro p hp
    simp only [List.mem_singleton] at hp
    subst hp
    exact .plain _ hf hn hg)
  rw [firstFlaw_archive rs hok _ 0 bad (by omega)] at h
  simp only [List.map_cons, List.map_nil] at h
  rw [h, firstFlaw, hbad]
  simp [hes, messages]

/-- **C105 (defect)** The same in a compressed file: neither the name nor the offset nor the flaws are printed, and the files behind it are not looked at. -/
theorem C105_compressed (c : Codec) (fs : FS) (name stored : Bytes) (rs : List RT) (hok : OkT rs) (bad : Bytes) (hn : b! ".gz" <:+ name)
    (hf : fs name = some stored) (hd : c.dec stored = (archiveT rs ++ bad, none))
    (start : Nat) (v : Bytes) (hs : List Header) (es : List Err) (size : Nat) (hbad : next bad = .record start v hs es size) (hes : es ≠ []) (others : List Bytes) :
    WarcValid.report c fs (name :: others) = some ([.exception], -1) := by
  have h := found_tell c fs name _ (.compressed stored _ hf (Or.inl hn) hd)
  rw [firstFlaw_archive rs hok _ 0 bad (by omega), firstFlaw, hbad] at h
  simp only [hes, ne_eq, not_false_eq_true, if_true, Finding.compressed] at h
  rw [WarcValid.report, WarcValid.tell]
  cases ho : openName c fs .warc none name with
  | error e => rfl
  | ok s =>
    rw [ho] at h
    simp only at h ⊢
    cases hq : WarcValid.tellEntries (s.fh.rest.length + 2) s with
    | hang => rw [hq] at h; simp [reportOf] at h
    | raise e t => rfl
    | ok p t =>
      rw [hq] at h
      cases p <;> simp [reportOf] at h

/-! ### concrete cases -/

/-- good records, then the messy one of C106, stored as it is or compressed -/
def flawedFS : FS := fun name => some (if name = b! "z.gz" then toy.enc (archiveT demoRT ++ messy) else archiveT demoRT ++ messy)

example := C105_offset toy flawedFS (b! "a.warc") demoRT demoRT_ok messy (by decide) rfl (by decide +kernel) _ _ _ _ _ messy_next (by decide)
example := C105_compressed toy flawedFS (b! "z.gz") _ demoRT demoRT_ok messy ⟨b! "z", rfl⟩ rfl (by have := toy_laws.members [archiveT demoRT ++ messy]; simpa using this)
  _ _ _ _ _ messy_next (by decide) [b! "a.warc"]
example : ∃ f, Findable toy flawedFS (b! "a.warc") f := ⟨_, .plain _ rfl (by decide) (by decide +kernel)⟩
/-- two flawed files, both reported; a missing file ends the run -/
example : messages [(b! "a", .flawed 9 [.tooMany]), (b! "b", .fine), (b! "c", .flawed 0 [.tooMany]), (b! "d", .raises), (b! "e", .flawed 1 [.tooMany])] =
    some ([.errorsAt (b! "a") 9 [.tooMany], .errorsAt (b! "c") 0 [.tooMany], .exception], -1) := by decide

end Warc
