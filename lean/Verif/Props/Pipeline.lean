import Verif.Props.Copy
import Verif.Props.Offsets
import Verif.Props.Arc2Warc
/-
  C85: the tools agree with each other.
-/
set_option linter.all false
namespace Warc
open Rx Stream Spec

/-- a stream that warcvalid accepts can be read to its end with all contents -/
theorem collect_of_clean (rounds : Nat) (s t : Stream) (es : List Entry) (hp : s.parser = .warc)
    (ht : ∀ offs, readRecord offs t = readRecord offs s)
    (h : readRecords true rounds none s = (es, .done))
    (hc : ∀ e ∈ es, e.errors = [] ∧ ∀ r, e.rcd = some r → r.errors = [])
    (hn : ∀ e ∈ es, ∀ r, e.rcd = some r → 0 ≤ declaredLength r.headers) :
    ∃ gs, collect false rounds t = ⟨gs, some ⟨none, none, []⟩, .done⟩ ∧
      gs.map (fun g => (g.version, g.headers, g.errors)) =
        (es.filterMap Entry.rcd).map (fun r => (r.version, r.headers, r.errors)) := by
  induction rounds generalizing s t es with
  | zero => simp [readRecords] at h
  | succ rounds ih =>
    simp only [readRecords, reduceCtorEq, if_false] at h
    cases hq : readRecord true s with
    | hang => simp [hq] at h
    | raise e s1 => simp [hq] at h
    | ok e s1 =>
      have hq' : readRecord false t = .ok e.noOffset s1 := by rw [ht, readRecord_offset, hq]; rfl
      obtain ⟨off, rcd, errs⟩ := e
      simp only [hq] at h
      cases rcd with
      | none =>
        simp only [Option.isNone_none, if_true, Prod.mk.injEq] at h
        obtain ⟨rfl, _⟩ := h
        have := (hc ⟨off, none, errs⟩ (by simp)).1
        simp only at this
        subst this
        exact ⟨[], by simp only [collect, hq']; rfl, rfl⟩
      | some r =>
        simp only [Option.isNone_some, Bool.false_eq_true, if_false, Option.map_none, Prod.mk.injEq] at h
        obtain ⟨rfl, h2⟩ := h
        obtain ⟨hsane, heoc, herr, hpar, hki, hfa, _⟩ := readRecord_sane true s s1 _ r hp hq rfl
        obtain ⟨n, hnn⟩ := Int.eq_ofNat_of_zero_le (hn ⟨off, some r, errs⟩ (by simp) r rfl)
        rw [hnn] at heoc
        by_cases hle : n ≤ s1.fh.rest.length
        · rcases content_sane s1 r n hsane heoc with ⟨_, r', hcc⟩ | ⟨hlt, _⟩
          · obtain ⟨gs, hg1, hg2⟩ := ih s1 { s1.adv n with eoc := some 0 } (readRecords true rounds none s1).1 hpar (by
                intro offs
                rw [readRecord_neg offs 0 _ rfl (by omega), readRecord_skip offs n s1 heoc hle]) (by rw [← h2])
              (fun e he => hc e (by simp [he])) (fun e he => hn e (by simp [he]))
            refine ⟨⟨none, r.version, r.headers, r.errors,
              (firstValue (b! "Content-Type") r.headers, some (s1.fh.rest.take n))⟩ :: gs, ?_, ?_⟩
            · simp only [collect, hq', Entry.noOffset, hcc, hg1]
            · simp only [List.map_cons, hg2, List.filterMap_cons]
          · omega
        · exfalso
          obtain ⟨ex, m, hraise, _⟩ := readRecord_short true n s1 heoc (by omega)
          cases rounds with
          | zero => simp [readRecords] at h2
          | succ rounds => simp [readRecords, hraise] at h2

/-- what can go wrong in a copy of a record that warcvalid accepts: a negative Content-Length, or a header value that begins with
a blank (which only folded headers have) -/
def CopySafe (r : Rec) : Prop :=
  0 ≤ declaredLength r.headers ∧ ∀ h ∈ r.headers, ∀ b, h.2.head? = some b → isWs b = false

/-- a file that warcvalid accepts can be read to its end, and every record has no errors -/
theorem readable_of_valid (c : Codec) (fs : FS) (name : Bytes) (s : Stream) (ho : openName c fs .warc none name = .ok s)
    (hs : ScansClean s) (hn : ∀ n, ∀ e ∈ (readRecords true n none s).1, ∀ r, e.rcd = some r → CopySafe r) :
    ∃ gs, Readable c fs name gs ∧ ∀ g ∈ gs, Warc.Tidy g := by
  obtain ⟨rounds, es, h1, h2⟩ := hs
  have hsafe : ∀ e ∈ es, ∀ r, e.rcd = some r → CopySafe r := by
    have := hn rounds
    rw [h1] at this
    exact this
  obtain ⟨gs, hg1, hg2⟩ := collect_of_clean rounds s s es (openName_warc c fs name s none ho).1 (fun _ => rfl) h1 h2
    (fun e he r hr => (hsafe e he r hr).1)
  refine ⟨gs, ⟨s, rounds, ho, hg1⟩, ?_⟩
  intro g hg
  have hm : (g.version, g.headers, g.errors) ∈ (es.filterMap Entry.rcd).map (fun r => (r.version, r.headers, r.errors)) := by
    rw [← hg2]; exact List.mem_map.2 ⟨g, hg, rfl⟩
  obtain ⟨r, hr, heq⟩ := List.mem_map.1 hm
  obtain ⟨e, he, her⟩ := List.mem_filterMap.1 hr
  simp only [Prod.mk.injEq] at heq
  obtain ⟨_, e2, e3⟩ := heq
  obtain ⟨a, b⟩ := hsafe e he r her
  exact ⟨by rw [← e3]; exact (h2 e he).2 r her, by rw [← e2]; exact a, by rw [← e2]; exact b⟩

/-- one list for each name -/
theorem choose_list {α β : Type} (P : α → β → Prop) (l : List α) (h : ∀ a ∈ l, ∃ b, P a b) :
    ∃ fs : List (α × β), fs.map Prod.fst = l ∧ ∀ f ∈ fs, P f.1 f.2 := by
  induction l with
  | nil => exact ⟨[], rfl, by simp⟩
  | cons a l ih =>
    obtain ⟨b, hb⟩ := h a (by simp)
    obtain ⟨fs, h1, h2⟩ := ih fun x hx => h x (by simp [hx])
    refine ⟨(a, b) :: fs, by simp [h1], ?_⟩
    intro f hf
    rcases List.mem_cons.1 hf with rfl | hf
    · exact hb
    · exact h2 f hf

/-- the bytes of well formed records, stored as a plain file or record by record in a compressed one, are accepted by warcvalid -/
theorem valid_archive (c : Codec) (hc : Codec.Laws c) (fs : FS) (name : Bytes) (rs : List R) (hok : ∀ r ∈ rs, r.Ok) :
    (fs name = some (archive rs) → ¬ b! ".gz" <:+ name → WarcValid.main c fs [name] = some 0) ∧
    (fs name = some (rs.flatMap fun r => c.enc r.bytes) → b! ".gz" <:+ name → WarcValid.main c fs [name] = some 0) := by
  constructor
  · intro hf hg
    refine C43_accepts_archives c hc fs [name] ?_
    intro n hn
    simp only [List.mem_singleton] at hn
    subst hn
    exact ⟨false, _, stored_archive c fs n rs hok hf hg⟩
  · intro hf hg
    refine C43_accepts_archives c hc fs [name] ?_
    intro n hn
    simp only [List.mem_singleton] at hn
    subst hn
    exact ⟨true, _, stored_gz c fs n rs hok hf (Or.inr hg)⟩

/-- **C85** Whatever the bytes of the input files, if `warcvalid` accepts them (and no record has a negative Content-Length or a header
value that begins with a blank), then `warc2warc` ends normally; its output, stored in any file, is accepted by `warcvalid`, holds
exactly the records of the inputs (in order, same version, headers and content), and is reproduced by `warc2warc` byte by byte. -/
theorem C85_valid_copy (c : Codec) (hc : Codec.Laws c) (z : Http.Zlib) (fs : FS) (names : List Bytes)
    (hv : WarcValid.main c fs names = some 0)
    (hsafe : ∀ name ∈ names, ∀ s, openName c fs .warc none name = .ok s →
      ∀ n, ∀ e ∈ (readRecords true n none s).1, ∀ r, e.rcd = some r → CopySafe r) :
    ∃ (files : List (Bytes × List Got)) (out : Bytes), files.map Prod.fst = names ∧ (∀ f ∈ files, Readable c fs f.1 f.2) ∧
      Warc2Warc.main c z fs {} names [] = .ok () out ∧
      ∀ fs' name, fs' name = some out → ¬ b! ".gz" <:+ name →
        WarcValid.main c fs' [name] = some 0 ∧ Readable c fs' name (files.flatMap Prod.snd) ∧
        Warc2Warc.main c z fs' {} [name] [] = .ok () out := by
  rw [C43_accepts_iff] at hv
  obtain ⟨files, hm, hfiles⟩ := choose_list (fun name gs => Readable c fs name gs ∧ ∀ g ∈ gs, Warc.Tidy g) names (by
    intro name hn
    obtain ⟨s, ho, hs⟩ := hv name hn
    exact readable_of_valid c fs name s ho hs (hsafe name hn s ho))
  have hr : ∀ f ∈ files, Readable c fs f.1 f.2 := fun f hf => (hfiles f hf).1
  have ht : ∀ f ∈ files, ∀ g ∈ f.2, Warc.Tidy g := fun f hf => (hfiles f hf).2
  obtain ⟨out, ho, hout⟩ := C46_same_records c hc z fs files hr ht
  have ho' := (C46_any c z fs files hr (fun f hf g hg => (ht f hf g hg).2.1)).1
  rw [ho'] at ho
  simp only [Res.ok.injEq, true_and] at ho
  refine ⟨files, out, hm, hr, by rw [← hm, ho', ho], ?_⟩
  intro fs' name hf hg
  refine ⟨?_, hout fs' name hf hg⟩
  refine (valid_archive c hc fs' name ((files.flatMap Prod.snd).map Got.record) ?_).1 (by rw [hf, ho]) hg
  intro r hr'
  obtain ⟨g, hg', rfl⟩ := List.mem_map.1 hr'
  obtain ⟨f, hf', hg'⟩ := List.mem_flatMap.1 hg'
  exact (C58_writable c fs f.1 f.2 (hr f hf') (ht f hf') g hg').1

/-- **C85** the same for compressed copies (`warc2warc -Z`) -/
theorem C85_valid_copy_gz (c : Codec) (hc : Codec.Laws c) (z : Http.Zlib) (fs : FS) (names : List Bytes)
    (hv : WarcValid.main c fs names = some 0)
    (hsafe : ∀ name ∈ names, ∀ s, openName c fs .warc none name = .ok s →
      ∀ n, ∀ e ∈ (readRecords true n none s).1, ∀ r, e.rcd = some r → CopySafe r) :
    ∃ (files : List (Bytes × List Got)) (out : Bytes), files.map Prod.fst = names ∧ (∀ f ∈ files, Readable c fs f.1 f.2) ∧
      Warc2Warc.main c z fs { gzip := true } names [] = .ok () out ∧
      ∀ fs' name, fs' name = some out → b! ".gz" <:+ name →
        WarcValid.main c fs' [name] = some 0 ∧ Readable c fs' name (files.flatMap Prod.snd) ∧
        Warc2Warc.main c z fs' { gzip := true } [name] [] = .ok () out := by
  rw [C43_accepts_iff] at hv
  obtain ⟨files, hm, hfiles⟩ := choose_list (fun name gs => Readable c fs name gs ∧ ∀ g ∈ gs, Warc.Tidy g) names (by
    intro name hn
    obtain ⟨s, ho, hs⟩ := hv name hn
    exact readable_of_valid c fs name s ho hs (hsafe name hn s ho))
  have hr : ∀ f ∈ files, Readable c fs f.1 f.2 := fun f hf => (hfiles f hf).1
  have ht : ∀ f ∈ files, ∀ g ∈ f.2, Warc.Tidy g := fun f hf => (hfiles f hf).2
  obtain ⟨out, ho, hout⟩ := C46_same_records_gz c hc z fs files hr ht
  have ho' := (C46_any c z fs files hr (fun f hf g hg => (ht f hf g hg).2.1)).2
  rw [ho'] at ho
  simp only [Res.ok.injEq, true_and] at ho
  refine ⟨files, out, hm, hr, by rw [← hm, ho', ho], ?_⟩
  intro fs' name hf hg
  refine ⟨?_, hout fs' name hf hg⟩
  refine (valid_archive c hc fs' name ((files.flatMap Prod.snd).map Got.record) ?_).2 (by rw [hf, ho]) hg
  intro r hr'
  obtain ⟨g, hg', rfl⟩ := List.mem_map.1 hr'
  obtain ⟨f, hf', hg'⟩ := List.mem_flatMap.1 hg'
  exact (C58_writable c fs f.1 f.2 (hr f hf') (ht f hf') g hg').1

/-- **C85** `warc2warc` repairs line ends and junk: files that can be read to their end, even with complaints (so that `warcvalid` rejects
them), give a copy that `warcvalid` accepts, provided no length is negative and the header values are proper. -/
theorem C85_repairs (c : Codec) (hc : Codec.Laws c) (z : Http.Zlib) (fs : FS) (files : List (Bytes × List Got))
    (h : ∀ f ∈ files, Readable c fs f.1 f.2)
    (hh : ∀ f ∈ files, ∀ g ∈ f.2, 0 ≤ declaredLength g.headers ∧ ∀ x ∈ g.headers, strip x.2 = x.2 ∧ ValueOk x) :
    ∃ out, Warc2Warc.main c z fs {} (files.map Prod.fst) [] = .ok () out ∧
      ∀ fs' name, fs' name = some out → ¬ b! ".gz" <:+ name →
        WarcValid.main c fs' [name] = some 0 ∧
        Readable c fs' name ((files.flatMap Prod.snd).map fun g => { g with errors := [] }) := by
  have hok : ∀ g ∈ files.flatMap Prod.snd, g.record.Ok ∧ g.record.asRead = { g with errors := [] } := by
    intro g hg
    obtain ⟨f, hf, hg⟩ := List.mem_flatMap.1 hg
    obtain ⟨h1, h2, h3, h4, h5, h6⟩ := readable_got c fs f.1 f.2 (h f hf) (fun g hg => (hh f hf g hg).1) g hg
    constructor
    · refine ⟨h1, ?_, h3⟩
      intro x hx
      obtain ⟨a1, a2, a3, a4⟩ := h2 x hx
      obtain ⟨b1, b2, b3⟩ := (hh f hf g hg).2 x hx
      exact ⟨a1, a2, a3, a4, b1, b2, b3⟩
    · obtain ⟨o, v, hs, es, ct⟩ := g
      simp only at h4 h6
      subst h6
      simp only [R.asRead, Got.record]
      rw [h4]
      rfl
  have hokr : ∀ r ∈ (files.flatMap Prod.snd).map Got.record, r.Ok := by
    intro r hr
    obtain ⟨g, hg, rfl⟩ := List.mem_map.1 hr
    exact (hok g hg).1
  refine ⟨_, (C46_any c z fs files h (fun f hf g hg => (hh f hf g hg).1)).1, ?_⟩
  intro fs' name hf hg
  refine ⟨(valid_archive c hc fs' name _ hokr).1 hf hg, ?_⟩
  have := stored_readable c hc fs' name false _ (stored_archive c fs' name _ hokr hf hg)
  rw [List.map_map, List.map_map] at this
  have hid : (files.flatMap Prod.snd).map (((fun r : RT => r.1.asRead) ∘ (fun r : R => (r, CRLF ++ CRLF))) ∘ Got.record) =
      (files.flatMap Prod.snd).map fun g => { g with errors := [] } := by
    apply List.map_congr_left
    intro g hgm
    exact (hok g hgm).2
  rwa [hid] at this

/-- **C85** The WARC file that `arc2warc` writes (from well formed ARC and WARC files, as in C48) is accepted by `warcvalid`, and
`warc2warc` leaves it as it is. -/
theorem C85_arc2warc (c : Codec) (hc : Codec.Laws c) (z : Http.Zlib) (fs : FS) (g : Arc2Warc.Cfg) (hg : CfgOk g) (files : List MixedFile)
    (h : ∀ f ∈ files, f.Stored c fs) (ht : ∀ f ∈ files, ∀ it ∈ f.items, Spec.Tidy it)
    (st' : Arc2Warc.St) (rs : List R) (hcv : ConvertsFiles c g {} files rs st') :
    ∃ out, Arc2Warc.main c fs g false (files.map MixedFile.name) ([], {}) = .ok () (out, st') ∧
      ∀ fs' name, fs' name = some out → ¬ b! ".gz" <:+ name →
        WarcValid.main c fs' [name] = some 0 ∧ Warc2Warc.main c z fs' {} [name] [] = .ok () out := by
  have hok : ∀ r ∈ rs, r.Ok := Arc2Warc.convertsFiles_ok hcv (fun f hf => (h f hf).1) ht hg (by intro i hi; cases hi)
  have hm := C48_converts c hc fs g false files h {} st' rs hcv []
  have hw : written c false rs = archive rs := by simp [written, archive]
  rw [hw, List.nil_append] at hm
  refine ⟨_, hm, ?_⟩
  intro fs' name hf hn
  refine ⟨(valid_archive c hc fs' name rs hok).1 hf hn, ?_⟩
  have := C46_copies c hc z fs' [⟨name, false, rs.map fun r => (r, CRLF ++ CRLF)⟩] (by
    intro f hff
    simp only [List.mem_singleton] at hff
    subst hff
    exact stored_archive c fs' name rs hok hf hn)
  simpa [allRecords, List.map_map, Function.comp_def] using this

/-- two records, the first with a negative length -/
def negativeFS : FS := fun _ =>
  some (b! "WARC/1.0\r\nContent-Length: -1\r\n\r\nWARC/1.0\r\nX: y\r\nContent-Length: 2\r\n\r\nab\r\n\r\n")

/-- does the run end with ValueError? -/
def endsInValueError : Res Bytes Unit → Bool
  | .raise .valueError _ => true
  | _ => false

/-- **C85 (defect)** A negative Content-Length is accepted by `warcvalid`, but `warc2warc` ends with ValueError on such a file. -/
theorem C85_negative_length (z : Http.Zlib) :
    WarcValid.main toy negativeFS [b! "a"] = some 0 ∧
    ∃ out, Warc2Warc.main toy z negativeFS {} [b! "a"] [] = .raise .valueError out := by
  have h : endsInValueError (Warc2Warc.main toy z negativeFS {} [b! "a"] []) = true := by
    have : Warc2Warc.main toy z negativeFS {} [b! "a"] [] = Warc2Warc.main toy ⟨fun _ => none, fun _ => none⟩ negativeFS {} [b! "a"] [] := rfl
    rw [this]
    decide +kernel
  refine ⟨by decide +kernel, ?_⟩
  cases hm : Warc2Warc.main toy z negativeFS {} [b! "a"] [] with
  | hang => rw [hm] at h; cases h
  | ok a o => rw [hm] at h; cases h
  | raise e o =>
    rw [hm] at h
    cases e <;> simp [endsInValueError] at h
    exact ⟨o, rfl⟩

/-- the demonstration files meet the hypotheses of `C85_valid_copy` -/
example (z : Http.Zlib) : WarcValid.main toy demoFS [b! "a.warc"] = some 0 ∧
    ∀ name ∈ [b! "a.warc"], ∀ s, openName toy demoFS .warc none name = .ok s →
      ∀ n, ∀ e ∈ (readRecords true n none s).1, ∀ r, e.rcd = some r → CopySafe r := by
  refine ⟨C43_accepts_archives toy toy_laws _ _ (by
    intro name hn
    simp only [List.mem_singleton] at hn
    subst hn
    exact ⟨false, demoRT, demo_plain⟩), ?_⟩
  intro name hn s ho n e he r hr
  simp only [List.mem_singleton] at hn
  subst hn
  have hs : openName toy demoFS .warc none (b! "a.warc") = .ok offsetDemo :=
    openName_plain toy demoFS _ (archiveT demoRT) demo_plain.2.1 demo_plain.2.2 (archiveT_not_gzip demoRT demoRT_ok)
  rw [hs] at ho
  simp only [Except.ok.injEq] at ho
  subst ho
  have hall : ∀ e ∈ (readRecords true 3 none offsetDemo).1, ∀ r ∈ e.rcd,
      decide (0 ≤ declaredLength r.headers) && r.headers.all (fun h => h.2.head?.all fun b => !isWs b) = true := by decide +kernel
  have h3 : (readRecords true 3 none offsetDemo).2 = .done := by decide +kernel
  have hm : ∀ n, n ≤ 3 → ∀ e ∈ (readRecords true n none offsetDemo).1, e ∈ (readRecords true 3 none offsetDemo).1 := by decide +kernel
  have hmem : e ∈ (readRecords true 3 none offsetDemo).1 := by
    by_cases hle : n ≤ 3
    · exact hm n hle e he
    · have := readRecords_more true 3 n none offsetDemo (readRecords true 3 none offsetDemo).1 .done (by simp) (by omega)
        (by rw [← h3])
      have hfst := congrArg Prod.fst this
      simp only at hfst
      exact hfst ▸ he
  have := hall e hmem r hr
  simp only [Bool.and_eq_true, decide_eq_true_eq, List.all_eq_true] at this
  refine ⟨this.1, ?_⟩
  intro h hh b hb
  have := this.2 h hh
  rw [hb] at this
  simpa using this

/-- a record after a junk line, with bare LF line ends -/
def sloppyFS : FS := fun _ => some (b! "junk\r\nWARC/1.0\nX: y\nContent-Length: 2\r\n\r\nab\r\n\r\n")

/-- what is read from it -/
def sloppyGot : Got :=
  ⟨none, b! "WARC/1.0", [(b! "X", b! "y"), (b! "Content-Length", b! "2")],
    [.ignoredLine (b! "junk\r\n"), .badNlVersion (b! "\n"), .badNlHeader (b! "\n")], (none, some (b! "ab"))⟩

/-- `warcvalid` rejects it, `warc2warc` repairs it -/
example (z : Http.Zlib) : WarcValid.main toy sloppyFS [b! "a"] = some (-1) ∧ Readable toy sloppyFS (b! "a") [sloppyGot] ∧
    ∃ out, Warc2Warc.main toy z sloppyFS {} [b! "a"] [] = .ok () out ∧
      WarcValid.main toy (fun _ => some out) [b! "b"] = some 0 := by
  have hr : Readable toy sloppyFS (b! "a") [sloppyGot] :=
    ⟨_, 2, openName_plain toy sloppyFS _ _ rfl (by decide) (by decide), by decide +kernel⟩
  refine ⟨by decide +kernel, hr, ?_⟩
  obtain ⟨out, h1, h2⟩ := C85_repairs toy toy_laws z sloppyFS [(b! "a", [sloppyGot])] (by simpa using hr) (by
    intro f hf g hg
    simp only [List.mem_singleton] at hf
    subst hf
    simp only [List.mem_singleton] at hg
    subst hg
    decide +kernel)
  exact ⟨out, h1, (h2 (fun _ => some out) (b! "b") rfl (by decide)).1⟩

end Warc
