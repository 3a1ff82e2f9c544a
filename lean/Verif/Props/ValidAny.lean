import Verif.Props.ValidReport
import Verif.Props.ToolDamaged
import Verif.Spec.ValidAny
set_option linter.all false
/-
  C115: what warcvalid reports about any files, damaged ones included.
-/
namespace Warc
open Rx Stream Spec

theorem lines_whole (n : Nat) (x : Bytes) (hn : x.length ≤ n) : ∃ t, Spec.lines x = wholeLines x ++ t := by
  induction n generalizing x with
  | zero =>
    have : x = [] := List.eq_nil_of_length_eq_zero (by omega)
    subst this; exact ⟨[], rfl⟩
  | succ n ih =>
    by_cases h : (File.firstLine x).getLast? = some 10
    · have hx : x ≠ [] := by rintro rfl; simp [File.firstLine] at h
      have hl : 0 < (File.firstLine x).length := by
        cases hf : File.firstLine x with
        | nil => rw [hf] at h; simp at h
        | cons a b => simp
      have hxl : 0 < x.length := List.length_pos_iff.2 hx
      obtain ⟨t, ht⟩ := ih (x.drop (File.firstLine x).length) (by rw [List.length_drop]; omega)
      exact ⟨t, by rw [whole_last h, lines_first hx, ht]; rfl⟩
    · exact ⟨Spec.lines x, by rw [whole_none h]; rfl⟩

theorem look_more (ls more : List Bytes) (bad : Nat) :
    match look bad ls with
    | .nothing _ => True
    | .tooMany over => look bad (ls ++ more) = .tooMany over
    | .found over l rest => look bad (ls ++ more) = .found over l (rest ++ more) := by
  induction ls generalizing bad with
  | nil => trivial
  | cons l ls ih =>
    rw [look, List.cons_append, look]
    by_cases h1 : (versionNumber l).isSome = true
    · rw [if_pos h1, if_pos h1]
    · rw [if_neg h1, if_neg h1]
      by_cases h2 : blankLine l = true
      · rw [if_pos h2, if_pos h2]
        have := ih bad
        cases hl : look bad ls with
        | nothing o => trivial
        | tooMany o => rw [hl] at this; simp only at this; rw [this]; rfl
        | found o a b => rw [hl] at this; simp only at this; rw [this]; rfl
      · rw [if_neg h2, if_neg h2]
        by_cases h3 : bad = 5
        · rw [if_pos h3, if_pos h3]
        · rw [if_neg h3, if_neg h3]
          have := ih (bad + 1)
          cases hl : look (bad + 1) ls with
          | nothing o => trivial
          | tooMany o => rw [hl] at this; simp only at this; rw [this]; rfl
          | found o a b => rw [hl] at this; simp only at this; rw [this]; rfl

theorem dropTerminators_more (ls more : List Bytes) (h : dropTerminators ls ≠ []) : dropTerminators (ls ++ more) = dropTerminators ls ++ more := by
  unfold dropTerminators at *
  induction ls with
  | nil => exact absurd rfl h
  | cons l ls ih =>
    rw [List.cons_append, List.dropWhile_cons, List.dropWhile_cons]
    rw [List.dropWhile_cons] at h
    by_cases hc : (l.all fun c => c == 13 || c == 10) = true
    · rw [if_pos hc] at h ⊢; rw [if_pos hc]; exact ih h
    · rw [if_neg hc, if_neg hc]; rfl

/-- in damaged data, when the reader gives up there is always a complaint -/
theorem damaged_none_errors {data : Bytes} {es : List Err} {size : Nat} (h : nextDamaged data = some (.none es size)) : es ≠ [] := by
  obtain ⟨t, ht⟩ := lines_whole data.length data (Nat.le_refl _)
  have hm := look_more (dropTerminators (wholeLines data)) t 0
  unfold nextDamaged at h
  cases hl : look 0 (dropTerminators (wholeLines data)) with
  | nothing o => rw [hl] at h; simp at h
  | tooMany over =>
    rw [hl] at h hm
    simp only [Option.some.injEq] at h hm
    have hd : dropTerminators (Spec.lines data) = dropTerminators (wholeLines data) ++ t := by
      rw [ht]
      refine dropTerminators_more _ _ ?_
      intro hz; rw [hz, look] at hl; cases hl
    rw [← hd] at hm
    unfold next at h
    rw [hm] at h
    simp only [Next.none.injEq] at h
    rw [← h.1]
    simp
  | found over l rest =>
    rw [hl] at h hm
    simp only at h hm
    have hd : dropTerminators (Spec.lines data) = dropTerminators (wholeLines data) ++ t := by
      rw [ht]
      refine dropTerminators_more _ _ ?_
      intro hz; rw [hz, look] at hl; cases hl
    rw [← hd] at hm
    by_cases c1 : versionNumber l ∈ [some (b! "1.0"), some (b! "0.17"), some (b! "0.18")]
    · rw [if_pos c1] at h
      by_cases c2 : Spec.stuck false rest = true
      · rw [if_pos c2] at h; cases h
      · rw [if_neg c2] at h
        by_cases c3 : (blockLines false rest).length = rest.length
        · rw [if_pos c3] at h; cases h
        · rw [if_neg c3, Option.some.injEq] at h
          unfold next at h
          rw [hm] at h
          simp only [if_pos c1] at h
          by_cases c4 : Spec.stuck false (rest ++ t) = true
          · rw [if_pos c4] at h; cases h
          · rw [if_neg c4] at h; cases h
    · rw [if_neg c1] at h; cases h

theorem tell_damaged (e : Exc) (rounds : Nat) (s : Stream) (hp : s.parser = .warc) (hk : s.kind = .gzipRecord) (he : s.eoc = none)
    (hb : Bad e s) (hr : s.fh.rest.length < rounds) :
    reportOf (WarcValid.tellEntries rounds s) = firstFlawDamaged rounds s.fh.rest := by
  induction rounds generalizing s with
  | zero => omega
  | succ rounds ih =>
    have hx := readRecord_damaged true s hb hp (by rw [hk]; simp) he
    have hrep : ∀ p, reported s.kind true p = none := by intro p; rw [hk]; rfl
    simp only [hrep] at hx
    simp only [WarcValid.tellEntries, M.bind_apply, firstFlawDamaged]
    cases hd : nextDamaged s.fh.rest with
    | none => rw [hd] at hx; simp only at hx ⊢; obtain ⟨s', hx⟩ := hx; rw [hx]; rfl
    | some n =>
    cases n with
    | stuck => rw [hd] at hx; simp only at hx ⊢; rw [hx]; rfl
    | unknown => rw [hd] at hx; simp only at hx ⊢; obtain ⟨s', hx⟩ := hx; rw [hx]; rfl
    | none es size =>
      rw [hd] at hx; simp only at hx ⊢; rw [hx.1]
      have hes : es ≠ [] := damaged_none_errors hd
      simp [hes, reportOf]
    | record start v hs es size =>
      rw [hd] at hx; simp only at hx ⊢
      obtain ⟨hx, hb1, hn⟩ := hx
      rw [hx]
      simp only
      obtain ⟨hsz1, hsz2⟩ := next_size hn
      by_cases hes : es = []
      · subst hes
        simp only [ne_eq, not_true_eq_false, if_false, false_or]
        have hrest : (s.adv size).fh.rest = s.fh.rest.drop size := by simp
        by_cases hsh : (s.fh.rest.drop size).length < (declaredLength hs).toNat
        · rw [if_pos hsh]
          obtain ⟨n, hnn⟩ : ∃ n : Nat, declaredLength hs = (n : Int) := ⟨(declaredLength hs).toNat, by omega⟩
          cases rounds with
          | zero => omega
          | succ m =>
            obtain ⟨exc, q, hx1, _⟩ := readRecord_short true n { s.adv size with eoc := some (declaredLength hs) } (by rw [hnn]) (by
              show (s.adv size).fh.rest.length < n
              rw [hrest]; rw [hnn] at hsh; simpa using hsh)
            simp only [WarcValid.tellEntries, M.bind_apply]
            rw [hx1]
            rfl
        · rw [if_neg hsh]
          have hgo : WarcValid.tellEntries rounds { s.adv size with eoc := some (declaredLength hs) } =
              WarcValid.tellEntries rounds { s.adv (size + (declaredLength hs).toNat) with eoc := none } := by
            by_cases hneg : declaredLength hs ≤ 0
            · rw [tellEntries_eoc rounds (s.adv size) _ hneg, show (declaredLength hs).toNat = 0 by omega]; rfl
            · obtain ⟨n, hnn⟩ : ∃ n : Nat, declaredLength hs = (n : Int) := ⟨(declaredLength hs).toNat, by omega⟩
              rw [hnn, tellEntries_skip rounds (s.adv size) n (by rw [hrest]; rw [hnn] at hsh; simpa using hsh), adv_adv]
              rfl
          rw [hgo]
          have hb3 : Bad e (s.adv (size + (declaredLength hs).toNat)) := Tool.bad_more hb _ (by
            simp only [List.length_drop] at hsh; omega)
          generalize ht : ({ s.adv (size + (declaredLength hs).toNat) with eoc := none } : Stream) = t
          have ht1 : t.fh.rest = (s.fh.rest.drop size).drop (declaredLength hs).toNat := by subst ht; simp
          rw [ih t (by subst ht; exact hp) (by subst ht; exact hk) (by subst ht; rfl) (by subst ht; exact ⟨hb3.fault, hb3.pos⟩)
            (by rw [ht1]; simp; omega), ht1]
      · have hes' : es ≠ [] := hes
        simp [hes', reportOf]

theorem finding_tell (c : Codec) (fs : FS) (name : Bytes) :
    (match openName c fs .warc none name with
     | .error _ => findingOf c fs name = .raises
     | .ok s => reportOf (WarcValid.tellEntries (s.fh.rest.length + 2) s) = findingOf c fs name) := by
  unfold findingOf
  cases hfs : fs name with
  | none => simp [openName, hfs]
  | some stored =>
    have ho := open_any_file c fs name stored hfs
    by_cases hc : Compressed name stored
    · rw [if_pos hc] at ho
      rw [ho]
      simp only [if_pos hc]
      have hr2 : ({ data := (c.dec stored).1, pos := 0, strictNeg := true, fault := (c.dec stored).2 } : File).rest = (c.dec stored).1 := by simp [File.rest]
      cases hd : (c.dec stored).2 with
      | none =>
        have := tell_exact ((c.dec stored).1.length + 2) ⟨{ data := (c.dec stored).1, pos := 0, strictNeg := true, fault := none }, none, .gzipRecord, .warc⟩ rfl (by simp)
          rfl rfl (by simp [File.rest])
        rw [hd] at hr2
        simp only [hr2] at this ⊢
        rw [this]; simp
      | some e =>
        have := tell_damaged e ((c.dec stored).1.length + 2) ⟨{ data := (c.dec stored).1, pos := 0, strictNeg := true, fault := some e }, none, .gzipRecord, .warc⟩ rfl rfl
          rfl ⟨rfl, by simp [File.rest]⟩ (by simp [File.rest])
        rw [hd] at hr2
        simp only [hr2] at this ⊢
        exact this
    · rw [if_neg hc] at ho
      rw [ho]
      simp only [if_neg hc]
      have hrest : (File.openFile stored).rest = stored := by simp [File.openFile, File.rest]
      have := tell_exact (stored.length + 2) ⟨File.openFile stored, none, .plain, .warc⟩ rfl (by simp) rfl rfl (by simp only [hrest]; omega)
      simp only [hrest, if_true] at this ⊢
      exact this

/-- **C115** What `warcvalid` prints and its exit code, for every list of files whatever: nothing is assumed about their contents, or that they are there. -/
theorem C115_messages (c : Codec) (fs : FS) (names : List Bytes) :
    WarcValid.report c fs names = messages (names.map fun name => (name, findingOf c fs name)) := by
  have key : ∀ correct, WarcValid.tell c fs correct names =
      (messages (names.map fun name => (name, findingOf c fs name))).map fun q => (q.1, if correct then q.2 else -1) := by
    induction names with
    | nil => intro correct; cases correct <;> rfl
    | cons name names ih =>
      intro correct
      have hf := finding_tell c fs name
      rw [List.map_cons, WarcValid.tell]
      generalize hg : findingOf c fs name = f at hf ⊢
      cases ho : openName c fs .warc none name with
      | error e =>
        rw [ho] at hf; simp only at hf; subst hf
        simp [messages]
      | ok s =>
        rw [ho] at hf
        simp only at hf ⊢
        cases hq : WarcValid.tellEntries (s.fh.rest.length + 2) s with
        | hang => rw [hq] at hf; simp only [reportOf] at hf; subst hf; simp [messages]
        | raise e t => rw [hq] at hf; simp only [reportOf] at hf; subst hf; simp [messages]
        | ok r t =>
          rw [hq] at hf
          cases r with
          | none => simp only [reportOf] at hf; subst hf; simp only [messages]; exact ih correct
          | some p =>
            simp only [reportOf] at hf; subst hf
            simp only [messages, ih false, Option.map_map]
            cases messages (names.map fun name => (name, findingOf c fs name)) with
            | none => rfl
            | some q => simp
  have := key true
  unfold WarcValid.report
  rw [this]
  cases messages (names.map fun name => (name, findingOf c fs name)) <;> simp

theorem damaged_bad (rounds : Nat) (data : Bytes) : firstFlawDamaged rounds data = .raises ∨ firstFlawDamaged rounds data = .endless := by
  induction rounds generalizing data with
  | zero => exact Or.inr rfl
  | succ n ih =>
    rw [firstFlawDamaged]
    cases hd : nextDamaged data with
    | none => exact Or.inl rfl
    | some x =>
      cases x with
      | stuck => exact Or.inr rfl
      | unknown => exact Or.inl rfl
      | none es size => exact Or.inl rfl
      | record a b hs es size =>
        simp only
        by_cases h : es ≠ [] ∨ (data.drop size).length < (declaredLength hs).toNat
        · rw [if_pos h]; exact Or.inl rfl
        · rw [if_neg h]; exact ih _

theorem messages_zero (fs : List (Bytes × Finding)) (msgs : List WarcValid.Msg) (h : messages fs = some (msgs, 0)) : ∀ p ∈ fs, p.2 = .fine := by
  induction fs generalizing msgs with
  | nil => simp
  | cons p fs ih =>
    obtain ⟨name, f⟩ := p
    cases f with
    | fine =>
      rw [messages] at h
      intro p hp
      rcases List.mem_cons.1 hp with rfl | hp
      · rfl
      · exact ih _ h p hp
    | flawed o es =>
      rw [messages, Option.map_eq_some_iff] at h
      obtain ⟨q, hq, h⟩ := h
      simp only [Prod.mk.injEq] at h
      exact absurd h.2 (by decide)
    | raises => rw [messages] at h; simp at h
    | endless => rw [messages] at h; simp at h

theorem messages_fine (fs : List (Bytes × Finding)) (h : ∀ p ∈ fs, p.2 = .fine) : messages fs = some ([], 0) := by
  induction fs with
  | nil => rfl
  | cons p fs ih =>
    obtain ⟨name, f⟩ := p
    have : f = .fine := h (name, f) (by simp)
    subst this
    rw [messages]
    exact ih fun p hp => h p (by simp [hp])

/-- **C115** The exit code is 0 exactly if every file of the list is there, can be decompressed to its end if it is compressed, and has no flaw up to its end. -/
theorem C115_valid (c : Codec) (fs : FS) (names : List Bytes) :
    WarcValid.main c fs names = some 0 ↔
      ∀ name ∈ names, ∃ stored, fs name = some stored ∧
        (if Compressed name stored then (c.dec stored).2 = none ∧ firstFlaw ((c.dec stored).1.length + 2) 0 (c.dec stored).1 = .fine
         else firstFlaw (stored.length + 2) 0 stored = .fine) := by
  have hiff : ∀ name, findingOf c fs name = .fine ↔ ∃ stored, fs name = some stored ∧
        (if Compressed name stored then (c.dec stored).2 = none ∧ firstFlaw ((c.dec stored).1.length + 2) 0 (c.dec stored).1 = .fine
         else firstFlaw (stored.length + 2) 0 stored = .fine) := by
    intro name
    unfold findingOf
    cases hfs : fs name with
    | none => simp
    | some stored =>
      simp only [Option.some.injEq, exists_eq_left']
      by_cases hc : Compressed name stored
      · rw [if_pos hc, if_pos hc]
        cases hd : (c.dec stored).2 with
        | none =>
          simp only [true_and]
          cases firstFlaw ((c.dec stored).1.length + 2) 0 (c.dec stored).1 <;> simp [Finding.compressed]
        | some e =>
          rcases damaged_bad ((c.dec stored).1.length + 2) (c.dec stored).1 with h | h <;> simp [h]
      · rw [if_neg hc, if_neg hc]
  have he := (C105_exit c fs names).1
  rw [C115_messages] at he
  rw [← he]
  constructor
  · intro h name hn
    rw [Option.map_eq_some_iff] at h
    obtain ⟨⟨msgs, code⟩, hm, hz⟩ := h
    simp only at hz
    subst hz
    exact (hiff name).1 (messages_zero _ _ hm (name, findingOf c fs name) (List.mem_map.2 ⟨name, hn, rfl⟩))
  · intro h
    rw [messages_fine _ (fun p hp => by
      obtain ⟨name, hn, rfl⟩ := List.mem_map.1 hp
      exact (hiff name).2 (h name hn))]
    rfl

/-- **C115** A damaged compressed file is never called valid, whatever the damage, and wherever it stands in the list; and it is always named by no message: the message is that
of an exception, and the files behind it are not looked at. -/
theorem C115_damaged (c : Codec) (fs : FS) (name stored : Bytes) (e : Exc) (hfs : fs name = some stored) (hc : Compressed name stored) (he : (c.dec stored).2 = some e) :
    (∀ before behind, WarcValid.main c fs (before ++ name :: behind) ≠ some 0) ∧
    ∀ behind, WarcValid.report c fs (name :: behind) = some ([.exception], -1) ∨ WarcValid.report c fs (name :: behind) = none := by
  constructor
  · intro before behind h
    obtain ⟨st, h1, h2⟩ := (C115_valid c fs _).1 h name (by simp)
    rw [hfs] at h1
    cases h1
    rw [if_pos hc, he] at h2
    exact absurd h2.1 (by simp)
  · intro behind
    rw [C115_messages, List.map_cons]
    have hf : findingOf c fs name = firstFlawDamaged ((c.dec stored).1.length + 2) (c.dec stored).1 := by
      unfold findingOf; simp only [hfs, if_pos hc, he]
    rcases damaged_bad ((c.dec stored).1.length + 2) (c.dec stored).1 with h | h
    · left; rw [hf, h]; rfl
    · right; rw [hf, h]; rfl

/-! ### concrete cases -/

/-- a good file, the damaged one of C113, and a missing one -/
def mixedFS : FS := fun name => if name = b! "a" then some (archiveT demoRT) else if name = b! "b.gz" then some cutTwice else none

theorem mixed_a : findingOf toy mixedFS (b! "a") = .fine := by decide +kernel
theorem mixed_missing : findingOf toy mixedFS (b! "c") = .raises := by decide +kernel
theorem mixed_b : findingOf toy mixedFS (b! "b.gz") = .raises := by
  have hc : Compressed (b! "b.gz") cutTwice := Or.inl ⟨b! "b", rfl⟩
  have h : firstFlawDamaged ((halfRead ++ b! "a").length + 2) (halfRead ++ b! "a") = .raises := by decide +kernel
  have hf : mixedFS (b! "b.gz") = some cutTwice := by simp [mixedFS]
  simp only [findingOf, hf, if_pos hc, cutTwice_dec, h]

/-- the damaged file ends the run -/
example : WarcValid.report toy mixedFS [b! "a", b! "b.gz", b! "a"] = some ([.exception], -1) := by
  rw [C115_messages]
  simp only [List.map_cons, List.map_nil, mixed_a, mixed_b]
  rfl
example : WarcValid.main toy mixedFS [b! "a", b! "a"] = some 0 := (C115_valid toy mixedFS _).2 (by
  intro name hn
  have : name = b! "a" := by simpa using hn
  subst this
  refine ⟨archiveT demoRT, by simp [mixedFS], ?_⟩
  have hc : ¬ Compressed (b! "a") (archiveT demoRT) := by decide +kernel
  rw [if_neg hc]
  decide +kernel)
example := C115_damaged toy mixedFS (b! "b.gz") cutTwice .eofError (by simp [mixedFS]) (Or.inl ⟨b! "b", rfl⟩) (by rw [cutTwice_dec])

end Warc
