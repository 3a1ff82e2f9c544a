import Verif.Props.Pipeline
/-
  C90: arc2warc applied to its own output.
-/
set_option linter.all false
namespace Warc
open Rx Stream Spec

theorem converts_tag {c : Codec} {g : Arc2Warc.Cfg} {st st' : Arc2Warc.St} {names : List Bytes} {it : ArcItem} {rs : List R} {mixed : Bool}
    (h : Converts c g st names it rs st') (hok : it.Ok mixed names) : ∀ r ∈ rs, b! "WARC" <+: r.version := by
  intro r hr
  cases h with
  | warc r' =>
    simp only [List.mem_singleton] at hr
    subst hr
    exact hok.2.2
  | data =>
    simp only [List.mem_singleton] at hr
    subst hr
    exact ⟨b! "/1.0", rfl⟩
  | filedesc =>
    simp only [List.mem_cons, List.not_mem_nil, or_false] at hr
    rcases hr with rfl | rfl <;> exact ⟨b! "/1.0", rfl⟩

theorem convertsAll_tag {c : Codec} {g : Arc2Warc.Cfg} {st st' : Arc2Warc.St} {names : List Bytes} {its : List ArcItem} {rs : List R} {mixed : Bool}
    (h : ConvertsAll c g st names its rs st') (hok : ArcItem.AllOk mixed names its) : ∀ r ∈ rs, b! "WARC" <+: r.version := by
  induction h with
  | nil => simp
  | @cons st st1 st2 names it its rs rs' h1 h2 ih =>
    intro r hr
    rcases List.mem_append.1 hr with hr | hr
    · exact converts_tag h1 hok.1 r hr
    · exact ih hok.2 r hr

theorem convertsFiles_tag {c : Codec} {g : Arc2Warc.Cfg} {st st' : Arc2Warc.St} {fl : List MixedFile} {rs : List R}
    (h : ConvertsFiles c g st fl rs st') (hok : ∀ f ∈ fl, ArcItem.AllOk true [] f.items) : ∀ r ∈ rs, b! "WARC" <+: r.version := by
  induction h with
  | nil => simp
  | @cons st st1 st2 f fl rs rs' h1 h2 ih =>
    intro r hr
    rcases List.mem_append.1 hr with hr | hr
    · exact convertsAll_tag h1 (hok f (by simp)) r hr
    · exact ih (fun x hx => hok x (by simp [hx])) r hr

/-- a list of WARC records is converted into itself -/
theorem convertsAll_warc (c : Codec) (g : Arc2Warc.Cfg) (st : Arc2Warc.St) (names : List Bytes) (rs : List R) :
    ConvertsAll c g st names (rs.map .warc) rs st := by
  induction rs with
  | nil => exact .nil _ _
  | cons r rs ih => exact ConvertsAll.cons (rs := [r]) (.warc r) ih

theorem allOk_warc (names : List Bytes) (rs : List R) (h : ∀ r ∈ rs, r.Ok ∧ b! "WARC" <+: r.version) :
    ArcItem.AllOk true names (rs.map .warc) := by
  induction rs with
  | nil => trivial
  | cons r rs ih => exact ⟨⟨rfl, h r (by simp)⟩, ih fun x hx => h x (by simp [hx])⟩

/-- **C90** `arc2warc` leaves WARC archives alone: an archive of well formed WARC records (compressed or not), whatever the settings of the
transformer, is reproduced record by record; the transformer's state is not changed. -/
theorem C90_warc (c : Codec) (hc : Codec.Laws c) (fs : FS) (g : Arc2Warc.Cfg) (gzip gzip' : Bool) (name : Bytes) (rs : List R)
    (hok : ∀ r ∈ rs, r.Ok ∧ b! "WARC" <+: r.version) (hf : fs name = some (written c gzip rs)) (hn : gzip = true ↔ b! ".gz" <:+ name)
    (st : Arc2Warc.St) (out : Bytes) :
    Arc2Warc.main c fs g gzip' [name] (out, st) = .ok () (out ++ written c gzip' rs, st) := by
  have hcv : ConvertsFiles c g st [⟨name, gzip, rs.map .warc⟩] (rs ++ []) st := .cons (convertsAll_warc c g st [] rs) (.nil _)
  have hbytes : (rs.map ArcItem.warc).flatMap ArcItem.bytes = archive rs := by
    simp only [archive, List.flatMap_map]; rfl
  have hst : MixedFile.Stored ⟨name, gzip, rs.map .warc⟩ c fs := by
    refine ⟨allOk_warc [] rs hok, ?_⟩
    cases gzip with
    | false =>
      rw [hbytes]
      refine ⟨by simpa [written, archive] using hf, fun h => ?_, ?_⟩
      · exact absurd (hn.2 h) (by simp)
      · intro h
        exact archive_not_gzip rs (fun r hr => (hok r hr).1) (List.prefix_iff_eq_take.1 h).symm
    | true =>
      refine ⟨rs.map R.bytes, ?_, ?_, Or.inr (hn.1 rfl)⟩
      · rw [hbytes]; simp [archive, List.flatMap]
      · simpa [written, List.flatMap_map] using hf
  have := C48_converts c hc fs g gzip' [⟨name, gzip, rs.map .warc⟩] (by
    intro f hf'
    simp only [List.mem_singleton] at hf'
    subst hf'
    exact hst) st st (rs ++ []) hcv out
  simpa using this

/-- **C90** Converting twice is converting once: the output of `arc2warc` (from well formed ARC and WARC files, as in C48; compressed or not),
stored in a file and given to `arc2warc` again, with whatever settings, comes out as it is (compressed or not, as asked for). -/
theorem C90_twice (c : Codec) (hc : Codec.Laws c) (fs : FS) (g : Arc2Warc.Cfg) (hg : CfgOk g) (gzip : Bool) (files : List MixedFile)
    (h : ∀ f ∈ files, f.Stored c fs) (ht : ∀ f ∈ files, ∀ it ∈ f.items, Spec.Tidy it)
    (st' : Arc2Warc.St) (rs : List R) (hcv : ConvertsFiles c g {} files rs st') :
    ∃ out, Arc2Warc.main c fs g gzip (files.map MixedFile.name) ([], {}) = .ok () (out, st') ∧
      ∀ fs' name, fs' name = some out → (gzip = true ↔ b! ".gz" <:+ name) → ∀ (g' : Arc2Warc.Cfg) (st : Arc2Warc.St),
        Arc2Warc.main c fs' g' gzip [name] ([], st) = .ok () (out, st) ∧
        ∀ gzip', ∃ out', Arc2Warc.main c fs g gzip' (files.map MixedFile.name) ([], {}) = .ok () (out', st') ∧
          Arc2Warc.main c fs' g' gzip' [name] ([], st) = .ok () (out', st) := by
  have hok : ∀ r ∈ rs, r.Ok := Arc2Warc.convertsFiles_ok hcv (fun f hf => (h f hf).1) ht hg (by intro i hi; cases hi)
  have htag := convertsFiles_tag hcv (fun f hf => (h f hf).1)
  have hm := fun gz => C48_converts c hc fs g gz files h {} st' rs hcv []
  simp only [List.nil_append] at hm
  refine ⟨_, hm gzip, ?_⟩
  intro fs' name hf hn g' st
  have hw := fun gz => C90_warc c hc fs' g' gzip gz name rs (fun r hr => ⟨hok r hr, htag r hr⟩) hf hn st []
  simp only [List.nil_append] at hw
  exact ⟨hw gzip, fun gz => ⟨_, hm gz, hw gz⟩⟩

/-- the ARC file with a filedesc record and a WARC record of `C48`: five records, converted, compressed or not, and converted again -/
example (gzip : Bool) : ∃ out st' rs, rs.length = 5 ∧ ConvertsFiles toy demoCfg {} [demo2File] rs st' ∧
    Arc2Warc.main toy demo2FS demoCfg gzip [b! "a.arc"] ([], {}) = .ok () (out, st') ∧
    ∀ fs' name, fs' name = some out → (gzip = true ↔ b! ".gz" <:+ name) →
      Arc2Warc.main toy fs' demoCfg gzip [name] ([], {}) = .ok () (out, {}) := by
  obtain ⟨rs, st', h, hl⟩ := demo2_converts
  obtain ⟨out, h1, h2⟩ := C90_twice toy toy_laws demo2FS demoCfg demoCfg_ok gzip [demo2File] (by simp [demo2_stored])
    (by simpa [demo2File] using demo2Warc_tidy) st' rs h
  exact ⟨out, st', rs, hl, h, h1, fun fs' name hf hn => (h2 fs' name hf hn demoCfg {}).1⟩

end Warc
