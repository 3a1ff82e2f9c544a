import Verif.Proofs.Open
import Verif.Props.Parsing
import Verif.Spec.Tools
/-
  Generic facts about tools that loop over the records of archives.
-/
set_option linter.all false
namespace Warc
open Rx Stream Spec

theorem archiveT_not_gzip (rs : List RT) (hok : OkT rs) : (archiveT rs).take 2 ≠ [0x1f, 0x8b] := by
  cases rs with
  | nil => simp [archiveT]
  | cons r rs =>
    have := (hok r (by simp)).1.version
    have h2 := versionOk_not_gzip (x := CRLF ++ r.1.headers.flatMap headerLine ++ CRLF ++ r.1.body ++ r.2 ++ archiveT rs) this
    simpa [archiveT, R.core, headBytes] using h2

/-- what is known of a freshly opened stream over records `rs` -/
structure Fresh (s : Stream) (compressed : Bool) (rs : List RT) : Prop where
  kind : s.kind = if compressed then .gzipRecord else .plain
  eoc : s.eoc = none
  parser : s.parser = .warc
  fault : s.fh.fault = none
  pos : s.fh.pos = 0
  rest : s.fh.rest = archiveT rs

theorem endsWith_iff (s t : Bytes) : endsWith s t = true ↔ t <:+ s := by
  simp [endsWith]

theorem openArchive_named (c : Codec) (k : RecClass) (data : Bytes) :
    openArchive c (some k) true .auto none data =
      .ok ⟨gzipFileOf c (File.openFile data), none, .gzipRecord, k.makeParser⟩ := by
  simp [openArchive, openRecordStream]

theorem open_stored (c : Codec) (hc : Codec.Laws c) (fs : FS) (name : Bytes) (z : Bool) (rs : List RT)
    (h : Stored c fs name z rs) : ∃ s, openName c fs .warc none name = .ok s ∧ Fresh s z rs := by
  obtain ⟨hok, h⟩ := h
  cases z with
  | false =>
    simp only [Bool.false_eq_true, if_false] at h
    obtain ⟨h, hn⟩ := h
    have hng : nameGz name = false := by
      rw [nameGz, Bool.eq_false_iff]; exact fun hh => hn ((endsWith_iff _ _).1 hh)
    refine ⟨⟨File.openFile (archiveT rs), none, .plain, .warc⟩, ?_, ⟨rfl, rfl, rfl, rfl, rfl, by simp [File.openFile, File.rest]⟩⟩
    simp only [openName, h, hng]
    exact openArchive_plain c (some .warc) .warc .auto _ (Or.inl rfl) (Or.inl rfl) (archiveT_not_gzip rs hok)
  | true =>
    simp only [if_true] at h
    obtain ⟨ms, hms, h, hn⟩ := h
    have hdec := hc.members ms
    have hrest : (File.openFile (ms.flatMap c.enc)).rest = ms.flatMap c.enc := by simp [File.openFile, File.rest]
    refine ⟨⟨gzipFileOf c (File.openFile (ms.flatMap c.enc)), none, .gzipRecord, .warc⟩, ?_, ⟨rfl, rfl, rfl, ?_, rfl, ?_⟩⟩
    · simp only [openName, h]
      cases hg : nameGz name with
      | true => exact openArchive_named c .warc _
      | false =>
        have hne : ms ≠ [] := by
          rcases hn with hn | hn
          · exact hn
          · rw [nameGz, (endsWith_iff _ _).2 hn] at hg; cases hg
        refine openArchive_gzip c (some .warc) .warc false .auto _ (Or.inl rfl) (Or.inl rfl) ?_ (Or.inl (by rw [hdec]))
        cases ms with
        | nil => exact absurd rfl hne
        | cons m ms => obtain ⟨t, ht⟩ := hc.magic m; simp [ht]
    · simp [gzipFileOf, hrest, hdec]
    · have : (gzipFileOf c (File.openFile (ms.flatMap c.enc))).rest = (c.dec (ms.flatMap c.enc)).1 := by
        simp [gzipFileOf, File.rest, File.openFile]
      rw [this, hdec, hms]

/-- the state of the stream after `k` of the `n` payload bytes were consumed -/
def consumed (s : Stream) (n k : Nat) : Stream := { s.adv k with eoc := some (((n - k : Nat)) : Int) }

/-- first record of a healthy stream, and what comes after it however much of it is consumed -/
theorem first_record (offs : Bool) (s : Stream) (r : R) (T more : Bytes) (hk : s.kind ≠ .gzipFile) (he : s.eoc = none)
    (hok : r.Ok) (hT : Terminator T) (hm : WarcMode s (r.version ++ CRLF)) (hr : s.fh.rest = r.core ++ T ++ more) :
    ∃ s1, readRecord offs s = .ok ⟨reported s.kind offs s.fh.pos, some (parsed r.version r.headers), []⟩ s1 ∧
      s1.eoc = some (r.body.length : Int) ∧ s1.fh.rest = r.body ++ (T ++ more) ∧ s1.parser = s.parser ∧ s1.kind = s.kind ∧
      s1.fh.fault = s.fh.fault ∧ s1.fh.data = s.fh.data ∧
      ∀ offs' k, k ≤ r.body.length →
        readRecord offs' (consumed s1 r.body.length k) = readRecord offs' (s.adv (r.core ++ T).length) := by
  have hhead := readRecord_head offs [] r.version r.headers (r.body ++ T ++ more) s hk he
    ⟨by simp, Or.inl rfl⟩ hok.version hok.headers hm (by rw [hr]; simp [R.core])
  rw [hok.length] at hhead
  simp only [List.length_nil, Nat.zero_add, Nat.add_zero] at hhead
  have hrest : (s.adv (headBytes r.version r.headers).length).fh.rest = r.body ++ (T ++ more) := by
    rw [adv_fh, File.advance_rest, hr]; simp [R.core]
  refine ⟨_, hhead, rfl, hrest, rfl, rfl, rfl, rfl, ?_⟩
  intro offs' k hk'
  have h1 := readRecord_skip offs' (r.body.length - k)
    (consumed { s.adv (headBytes r.version r.headers).length with eoc := some (r.body.length : Int) } r.body.length k)
    rfl (by
      simp only [consumed, adv_fh, File.advance_rest, List.length_drop]
      have : (s.adv (headBytes r.version r.headers).length).fh.rest.length = (r.body ++ (T ++ more)).length := by rw [hrest]
      simp only [adv_fh, File.advance_rest, List.length_drop, List.length_append] at this
      omega)
  have hterm := readRecord_terminator offs' T more (s.adv r.core.length) he hT (by
    rw [adv_fh, File.advance_rest, hr]; simp)
  rw [h1, List.length_append, ← adv_adv, ← hterm]
  congr 1
  obtain ⟨fh, eoc, kind, parser⟩ := s
  simp at he; subst he
  simp only [consumed, adv, R.core, List.length_append, File.advance_advance]
  congr 2
  omega

namespace Tool

/-- Code that handles the record `r` and then leaves the stream inside its payload, appending `o` to
the output. -/
def Handles (body : M World Unit) (r : R) (o : Bytes) : Prop :=
  ∀ s out, s.eoc = some (r.body.length : Int) → (∃ more, s.fh.rest = r.body ++ more) →
    ∃ r' k, k ≤ r.body.length ∧
      body ⟨s, parsed r.version r.headers, out⟩ = .ok () ⟨consumed s r.body.length k, r', out ++ o⟩

/-- Code that raises on the record `r` after writing `o`. -/
def Raises (body : M World Unit) (r : R) (ex : Exc) (o : Bytes) : Prop :=
  ∀ s out, s.eoc = some (r.body.length : Int) → (∃ more, s.fh.rest = r.body ++ more) →
    ∃ w, body ⟨s, parsed r.version r.headers, out⟩ = .raise ex w ∧ w.out = out ++ o

/-- Code that never comes back from the record `r`. -/
def Hangs (body : M World Unit) (r : R) : Prop :=
  ∀ s out, s.eoc = some (r.body.length : Int) → (∃ more, s.fh.rest = r.body ++ more) →
    body ⟨s, parsed r.version r.headers, out⟩ = .hang

theorem forEach_congr (body : M World Unit) (fuel : Nat) (s a : Stream) (out : Bytes)
    (h : readRecord false s = readRecord false a) : forEach body fuel ⟨s, out⟩ = forEach body fuel ⟨a, out⟩ := by
  cases fuel with
  | zero => rfl
  | succ fuel => simp only [forEach, M.bind_apply, onStream, h]

/-- the loop over a well formed archive that is followed by anything -/
theorem forEach_archive (body : M World Unit) (f : R → Bytes) (fuel : Nat) (s : Stream) (out : Bytes) (rs : List RT)
    (more : Bytes) (hk : s.kind ≠ .gzipFile) (he : s.eoc = none) (hok : OkT rs)
    (hm : ∀ r ∈ rs, WarcMode s (r.1.version ++ CRLF)) (hr : s.fh.rest = archiveT rs ++ more)
    (hb : ∀ r ∈ rs, Handles body r.1 (f r.1)) :
    forEach body (rs.length + fuel) ⟨s, out⟩ =
      forEach body fuel ⟨s.adv (archiveT rs).length, out ++ rs.flatMap fun r => f r.1⟩ := by
  induction rs generalizing s out with
  | nil => simp [archiveT]
  | cons r rs ih =>
    have hr' : s.fh.rest = r.1.core ++ r.2 ++ (archiveT rs ++ more) := by rw [hr]; simp [archiveT]
    obtain ⟨s1, h1, h2, h3, h4, h5, h6, h7, h8⟩ := first_record false s r.1 r.2 (archiveT rs ++ more) hk he
      (hok r (by simp)).1 (hok r (by simp)).2 (hm r (by simp)) hr'
    obtain ⟨r', k, hk', hbody⟩ := hb r (by simp) s1 out h2 ⟨_, h3⟩
    rw [show (r :: rs).length + fuel = (rs.length + fuel) + 1 by simp; omega]
    simp only [forEach, M.bind_apply, onStream, h1, withRecord, hbody]
    rw [forEach_congr body _ _ _ _ (h8 false k hk')]
    rw [ih (s.adv (r.1.core ++ r.2).length) (out ++ f r.1) hk he (fun x hx => hok x (by simp [hx]))
      (fun x hx => hm x (by simp [hx])) (by rw [adv_fh, File.advance_rest, hr', List.drop_left])
      (fun x hx => hb x (by simp [hx]))]
    have hA : archiveT (r :: rs) = (r.1.core ++ r.2) ++ archiveT rs := by simp [archiveT]
    rw [adv_adv, hA, List.length_append (as := r.1.core ++ r.2), List.flatMap_cons, List.append_assoc]

theorem archiveT_length (rs : List RT) : rs.length ≤ (archiveT rs).length := by
  induction rs with
  | nil => simp
  | cons r rs ih =>
    have := headBytes_length_pos r.1.version r.1.headers
    simp only [archiveT, List.flatMap_cons, List.length_append, List.length_cons, R.core] at ih ⊢
    omega

/-- the loop over a complete well formed archive -/
theorem each_archive (body : M World Unit) (f : R → Bytes) (z : Bool) (s : Stream) (out : Bytes) (rs : List RT)
    (hf : Fresh s z rs) (hok : OkT rs) (hb : ∀ r ∈ rs, Handles body r.1 (f r.1)) :
    ∃ s', each body ⟨s, out⟩ = .ok () ⟨s', out ++ rs.flatMap fun r => f r.1⟩ := by
  have hk : s.kind ≠ .gzipFile := by rw [hf.kind]; cases z <;> simp
  have hlen := archiveT_length rs
  have hrl : s.fh.rest.length = (archiveT rs).length := by rw [hf.rest]
  obtain ⟨fuel, hfu⟩ : ∃ k, rounds ⟨s, out⟩ = rs.length + (k + 1) :=
    ⟨rounds ⟨s, out⟩ - rs.length - 1, by simp only [rounds]; omega⟩
  refine ⟨s.adv (archiveT rs).length, ?_⟩
  rw [each, hfu, forEach_archive body f (fuel + 1) s out rs [] hk hf.eoc hok (fun _ _ => Or.inl hf.parser)
    (by rw [hf.rest]; simp) hb]
  have heof := readRecord_eof false (s.adv (archiveT rs).length) hk hf.eoc hf.fault (by
    rw [adv_fh, File.advance_rest, hf.rest]; simp)
  simp only [forEach, M.bind_apply, onStream, heof, if_true, M.pure_apply]

/-- the loop over a complete well formed archive up to a record on which the body raises -/
theorem each_raises (body : M World Unit) (f : R → Bytes) (ex : Exc) (o : Bytes) (z : Bool) (s : Stream) (out : Bytes)
    (rs : List RT) (r : RT) (rs' : List RT) (hf : Fresh s z (rs ++ r :: rs')) (hok : OkT (rs ++ r :: rs'))
    (hb : ∀ r ∈ rs, Handles body r.1 (f r.1)) (hx : Raises body r.1 ex o) :
    ∃ t, each body ⟨s, out⟩ = .raise ex t ∧ t.out = (out ++ rs.flatMap fun r => f r.1) ++ o := by
  have hk : s.kind ≠ .gzipFile := by rw [hf.kind]; cases z <;> simp
  have hlen := archiveT_length (rs ++ r :: rs')
  have hrl : s.fh.rest.length = (archiveT (rs ++ r :: rs')).length := by rw [hf.rest]
  simp only [List.length_append, List.length_cons] at hlen
  obtain ⟨fuel, hfu⟩ : ∃ k, rounds ⟨s, out⟩ = rs.length + (k + 1) :=
    ⟨rounds ⟨s, out⟩ - rs.length - 1, by simp only [rounds]; omega⟩
  have hA : archiveT (rs ++ r :: rs') = archiveT rs ++ (r.1.core ++ r.2 ++ archiveT rs') := by simp [archiveT]
  rw [each, hfu, forEach_archive body f (fuel + 1) s out rs (r.1.core ++ r.2 ++ archiveT rs') hk hf.eoc
    (fun x hx => hok x (by simp [hx])) (fun _ _ => Or.inl hf.parser) (by rw [hf.rest, hA]) hb]
  obtain ⟨s1, h1, h2, h3, _⟩ := first_record false (s.adv (archiveT rs).length) r.1 r.2 (archiveT rs') hk hf.eoc
    (hok r (by simp)).1 (hok r (by simp)).2 (Or.inl hf.parser) (by
      rw [adv_fh, File.advance_rest, hf.rest, hA, List.drop_left])
  obtain ⟨w, hw, ho⟩ := hx s1 (out ++ rs.flatMap fun r => f r.1) h2 ⟨_, h3⟩
  simp only [forEach, M.bind_apply, onStream, h1, withRecord, hw]
  exact ⟨_, rfl, ho⟩

/-- `read_records(limit=None)` over a well formed archive that is followed by anything -/
theorem forRecords_archive (offs : Bool) (body : Option Nat → M World Unit) (f : Option Nat → R → Bytes) (fuel : Nat)
    (s : Stream) (out : Bytes) (rs : List RT) (more : Bytes) (hk : s.kind ≠ .gzipFile) (he : s.eoc = none)
    (hok : OkT rs) (hm : ∀ r ∈ rs, WarcMode s (r.1.version ++ CRLF)) (hr : s.fh.rest = archiveT rs ++ more)
    (hb : ∀ r ∈ rs, ∀ o, Handles (body o) r.1 (f o r.1)) :
    forRecords offs body (rs.length + fuel) none ⟨s, out⟩ =
      forRecords offs body fuel none ⟨s.adv (archiveT rs).length,
        out ++ (positions s.fh.pos rs).flatMap fun r => f (reported s.kind offs r.1) r.2⟩ := by
  induction rs generalizing s out with
  | nil => simp [archiveT, positions]
  | cons r rs ih =>
    have hr' : s.fh.rest = r.1.core ++ r.2 ++ (archiveT rs ++ more) := by rw [hr]; simp [archiveT]
    obtain ⟨s1, h1, h2, h3, h4, h5, h6, h7, h8⟩ := first_record offs s r.1 r.2 (archiveT rs ++ more) hk he
      (hok r (by simp)).1 (hok r (by simp)).2 (hm r (by simp)) hr'
    obtain ⟨r', k, hk', hbody⟩ := hb r (by simp) (reported s.kind offs s.fh.pos) s1 out h2 ⟨_, h3⟩
    rw [show (r :: rs).length + fuel = (rs.length + fuel) + 1 by simp; omega]
    have hcong : ∀ (fuel : Nat) (s a : Stream) (out : Bytes), readRecord offs s = readRecord offs a →
        forRecords offs body fuel none ⟨s, out⟩ = forRecords offs body fuel none ⟨a, out⟩ := by
      intro fuel s a out h
      cases fuel with
      | zero => rfl
      | succ fuel => simp only [forRecords, Stream.forRecords, M.bind_apply, onStream, h, reduceCtorEq, if_false]
    have hstep : forRecords offs body (rs.length + fuel + 1) none ⟨s, out⟩ =
        forRecords offs body (rs.length + fuel) none
          ⟨consumed s1 r.1.body.length k, out ++ f (reported s.kind offs s.fh.pos) r.1⟩ := by
      simp only [forRecords, Stream.forRecords, M.bind_apply, onStream, h1, withRecord, hbody, reduceCtorEq, if_false,
        Option.isNone_some, Bool.false_eq_true, Option.map_none]
    rw [hstep, hcong _ _ _ _ (h8 offs k hk')]
    rw [ih (s.adv (r.1.core ++ r.2).length) _ hk he (fun x hx => hok x (by simp [hx]))
      (fun x hx => hm x (by simp [hx])) (by rw [adv_fh, File.advance_rest, hr', List.drop_left])
      (fun x hx => hb x (by simp [hx]))]
    have hA : archiveT (r :: rs) = (r.1.core ++ r.2) ++ archiveT rs := by simp [archiveT]
    rw [adv_adv, hA, List.length_append (as := r.1.core ++ r.2), positions, List.flatMap_cons, List.append_assoc]
    rfl

theorem eachEntry_archive (body : Option Nat → M World Unit) (f : Option Nat → R → Bytes) (z : Bool)
    (s : Stream) (out : Bytes) (rs : List RT) (hf : Fresh s z rs) (hok : OkT rs)
    (hb : ∀ r ∈ rs, ∀ o, Handles (body o) r.1 (f o r.1)) :
    ∃ s', eachEntry true none body ⟨s, out⟩ =
      .ok () ⟨s', out ++ (positions 0 rs).flatMap fun r => f (reportedAt z r.1) r.2⟩ := by
  have hk : s.kind ≠ .gzipFile := by rw [hf.kind]; cases z <;> simp
  have hlen := archiveT_length rs
  have hrl : s.fh.rest.length = (archiveT rs).length := by rw [hf.rest]
  obtain ⟨fuel, hfu⟩ : ∃ k, rounds ⟨s, out⟩ = rs.length + (k + 1) :=
    ⟨rounds ⟨s, out⟩ - rs.length - 1, by simp only [rounds]; omega⟩
  refine ⟨s.adv (archiveT rs).length, ?_⟩
  rw [eachEntry, hfu, forRecords_archive true body f (fuel + 1) s out rs [] hk hf.eoc hok (fun _ _ => Or.inl hf.parser)
    (by rw [hf.rest]; simp) hb]
  have heof := readRecord_eof true (s.adv (archiveT rs).length) hk hf.eoc hf.fault (by
    rw [adv_fh, File.advance_rest, hf.rest]; simp)
  have hrep : ∀ p, reported s.kind true p = reportedAt z p := by
    intro p; rw [hf.kind]; cases z <;> simp [reported, reportedAt]
  simp only [forRecords, Stream.forRecords, M.bind_apply, onStream, heof, M.pure_apply, reduceCtorEq, if_false,
    Option.isNone_none, if_true, hf.pos, hrep]

end Tool

/-- the loop over the files, each of which contributes `o x` to the output -/
theorem forFiles_ok {α : Type} (f : Bytes → M Bytes Unit) (g : α → Bytes) (o : α → Bytes) (xs : List α) (out : Bytes)
    (h : ∀ x ∈ xs, ∀ out, f (g x) out = .ok () (out ++ o x)) :
    forFiles f (xs.map g) out = .ok () (out ++ xs.flatMap o) := by
  induction xs generalizing out with
  | nil => simp [forFiles]
  | cons n ns ih =>
    simp only [List.map_cons, forFiles, M.bind_apply, h n (by simp) out]
    rw [ih _ (fun x hx => h x (by simp [hx]))]
    simp

/-- the loop over the files up to one on which the program raises -/
theorem forFiles_raise {α : Type} (f : Bytes → M Bytes Unit) (g : α → Bytes) (o : α → Bytes) (xs : List α) (rest : List Bytes)
    (name : Bytes) (out o' : Bytes) (ex : Exc) (h : ∀ x ∈ xs, ∀ out, f (g x) out = .ok () (out ++ o x))
    (hx : ∀ out, f name out = .raise ex (out ++ o')) :
    forFiles f (xs.map g ++ name :: rest) out = .raise ex (out ++ xs.flatMap o ++ o') := by
  induction xs generalizing out with
  | nil => simp [forFiles, hx]
  | cons n ns ih =>
    simp only [List.map_cons, List.cons_append, forFiles, M.bind_apply, h n (by simp) out]
    rw [ih _ (fun x hx => h x (by simp [hx]))]
    simp

/-- a tool that loops over the records of stored files, handling each record on its own -/
theorem forFiles_each (c : Codec) (hc : Codec.Laws c) (fs : FS) (files : List StoredFile) (h : AllStored c fs files)
    (body : M World Unit) (f : R → Bytes) (hb : ∀ r ∈ allRecords files, Tool.Handles body r (f r)) (out : Bytes) :
    forFiles (fun name => onArchive c fs .warc none name (Tool.each body)) (files.map StoredFile.name) out =
      .ok () (out ++ (allRecords files).flatMap f) := by
  have := forFiles_ok (fun name => onArchive c fs .warc none name (Tool.each body)) StoredFile.name
    (fun x => x.records.flatMap fun r => f r.1) files out ?_
  · rw [this]
    congr 2
    rw [allRecords, List.flatMap_assoc]
    congr 1
    funext x
    rw [List.flatMap_map]
  · intro x hx out
    obtain ⟨s, ho, hf⟩ := open_stored c hc fs _ _ _ (h x hx)
    obtain ⟨s', he⟩ := Tool.each_archive body f x.compressed s out x.records hf (h x hx).1 (fun r hr =>
      hb r.1 (by simp only [allRecords, List.mem_flatMap, List.mem_map]; exact ⟨x, hx, r, hr, rfl⟩))
    simp only [onArchive, ho, he]

/-- the same up to a record on which the body raises -/
theorem forFiles_each_raise (c : Codec) (hc : Codec.Laws c) (fs : FS) (files : List StoredFile) (g : StoredFile)
    (rest : List Bytes) (rs : List RT) (r : RT) (rs' : List RT) (h : AllStored c fs files) (hg : Stored c fs g.name g.compressed g.records)
    (hrs : g.records = rs ++ r :: rs')
    (body : M World Unit) (f : R → Bytes) (hb : ∀ r ∈ allRecords files ++ rs.map Prod.fst, Tool.Handles body r (f r))
    (ex : Exc) (o : Bytes) (hx : Tool.Raises body r.1 ex o) (out : Bytes) :
    forFiles (fun name => onArchive c fs .warc none name (Tool.each body)) (files.map StoredFile.name ++ g.name :: rest) out =
      .raise ex (out ++ (allRecords files ++ rs.map Prod.fst).flatMap f ++ o) := by
  have := forFiles_raise (fun name => onArchive c fs .warc none name (Tool.each body)) StoredFile.name
    (fun x => x.records.flatMap fun r => f r.1) files rest g.name out ((rs.flatMap fun r => f r.1) ++ o) ex ?_ ?_
  · rw [this]
    congr 1
    rw [List.flatMap_append, allRecords, List.flatMap_assoc, List.flatMap_map]
    simp only [List.append_assoc, List.flatMap_map]
  · intro x hx out
    obtain ⟨s, ho, hf⟩ := open_stored c hc fs _ _ _ (h x hx)
    obtain ⟨s', he⟩ := Tool.each_archive body f x.compressed s out x.records hf (h x hx).1 (fun r hr =>
      hb r.1 (by
        simp only [allRecords, List.mem_append, List.mem_flatMap, List.mem_map]; exact Or.inl ⟨x, hx, r, hr, rfl⟩))
    simp only [onArchive, ho, he]
  · intro out
    obtain ⟨s, ho, hf⟩ := open_stored c hc fs _ _ _ hg
    rw [hrs] at hf
    obtain ⟨t, ht, hto⟩ := Tool.each_raises body f ex o g.compressed s out rs r rs' hf (by rw [← hrs]; exact hg.1)
      (fun r hr => hb r.1 (by simp only [List.mem_append, List.mem_map]; exact Or.inr ⟨r, hr, rfl⟩)) hx
    simp only [onArchive, ho, ht, hto, List.append_assoc]

end Warc
