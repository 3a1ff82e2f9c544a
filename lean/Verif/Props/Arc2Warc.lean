import Verif.Proofs.Arc2WarcOk
import Verif.Proofs.Arc2WarcFail
import Verif.Proofs.HttpDemo
import Verif.Proofs.Arc2WarcDemo
import Verif.Proofs.HttpMsg
import Verif.Props.HttpBody
import Verif.Props.Arc
/-
  C48, C49, C50: arc2warc.
-/
set_option linter.all false
namespace Warc
open Rx Stream Spec

/-! ### C48 -/

theorem arcItem_length (it : ArcItem) : 0 < it.bytes.length := by
  cases it with
  | filedesc => simp [ArcItem.bytes, arcLine]; omega
  | data => simp [ArcItem.bytes, arcLine]; omega
  | warc r => simp [ArcItem.bytes, R.bytes, recordBytes, CRLF]; omega

theorem arcItems_length (its : List ArcItem) : its.length ≤ (its.flatMap ArcItem.bytes).length := by
  induction its with
  | nil => simp
  | cons it its ih => have := arcItem_length it; simp only [List.flatMap_cons, List.length_append, List.length_cons]; omega

/-- opening a file that holds ARC and WARC records -/
theorem open_mixed (c : Codec) (hc : Codec.Laws c) (fs : FS) (f : MixedFile) (h : f.Stored c fs) :
    ∃ s, openName c fs .mixed none f.name = .ok s ∧ s.kind ≠ .gzipFile ∧ s.eoc = none ∧ s.fh.fault = none ∧
      s.parser = .mixed ArcSt.init ∧ s.fh.rest = f.items.flatMap ArcItem.bytes := by
  obtain ⟨name, z, its⟩ := f
  obtain ⟨hok, h⟩ := h
  cases z with
  | false =>
    simp only [Bool.false_eq_true, if_false] at h
    obtain ⟨h, hn, hg⟩ := h
    have hng : nameGz name = false := by
      rw [nameGz, Bool.eq_false_iff]; exact fun hh => hn ((endsWith_iff _ _).1 hh)
    refine ⟨⟨File.openFile (its.flatMap ArcItem.bytes), none, .plain, .mixed ArcSt.init⟩, ?_, by simp, rfl, rfl, rfl,
      by simp [File.openFile, File.rest]⟩
    simp only [openName, h, hng]
    refine openArchive_plain c (some .mixed) .mixed .auto _ (Or.inl rfl) (Or.inl rfl) ?_
    intro hh; apply hg; rw [← hh]; exact List.take_prefix _ _
  | true =>
    simp only [if_true] at h
    obtain ⟨ms, hms, h, hn⟩ := h
    have hdec := hc.members ms
    have hrest : (File.openFile (ms.flatMap c.enc)).rest = ms.flatMap c.enc := by simp [File.openFile, File.rest]
    refine ⟨⟨gzipFileOf c (File.openFile (ms.flatMap c.enc)), none, .gzipRecord, .mixed ArcSt.init⟩, ?_, by simp, rfl, ?_, rfl, ?_⟩
    · simp only [openName, h]
      cases hg : nameGz name with
      | true => exact openArchive_named c .mixed _
      | false =>
        have hne : ms ≠ [] := by
          rcases hn with hn | hn
          · exact hn
          · rw [nameGz, (endsWith_iff _ _).2 hn] at hg; cases hg
        refine openArchive_gzip c (some .mixed) .mixed false .auto _ (Or.inl rfl) (Or.inl rfl) ?_ (Or.inl (by rw [hdec]))
        cases ms with
        | nil => exact absurd rfl hne
        | cons m ms => obtain ⟨t, ht⟩ := hc.magic m; simp [ht]
    · simp [gzipFileOf, hrest, hdec]
    · have : (gzipFileOf c (File.openFile (ms.flatMap c.enc))).rest = (c.dec (ms.flatMap c.enc)).1 := by
        simp [gzipFileOf, File.rest, File.openFile]
      rw [this, hdec, hms]

/-- **C48** arc2warc over any number of well-formed files of ARC and WARC records, compressed or not, with any transformer
settings: whenever each item can be converted as `Spec.Converts` says, the tool terminates without an exception and appends
to its output exactly the records that `Spec.Converts` lists, in order, each as plain bytes or as one gzip member. -/
theorem C48_converts (c : Codec) (hc : Codec.Laws c) (fs : FS) (g : Arc2Warc.Cfg) (gzip : Bool) (files : List MixedFile)
    (h : ∀ f ∈ files, f.Stored c fs) (st st' : Arc2Warc.St) (rs : List R) (hcv : ConvertsFiles c g st files rs st') (out : Bytes) :
    Arc2Warc.main c fs g gzip (files.map MixedFile.name) (out, st) = .ok () (out ++ written c gzip rs, st') := by
  induction hcv generalizing out with
  | nil st => simp [Arc2Warc.main, written]
  | @cons st st1 st2 f fl rs rs' h1 h2 ih =>
    obtain ⟨s, ho, hk, he, hf, hp, hr⟩ := open_mixed c hc fs f (h f (by simp))
    obtain ⟨s', hl⟩ := Arc2Warc.loop_items c g gzip f.items rs st st1 [] h1 (s.fh.rest.length + 2) s out ArcSt.init hk he hf
      (by rw [hp]; rfl) rfl (by rw [hp]; exact (h f (by simp)).1) hr (by rw [hr]; have := arcItems_length f.items; omega)
    simp only [List.map_cons, Arc2Warc.main, ho, hl]
    rw [ih (fun f hf => h f (by simp [hf])), Arc2Warc.written_append, List.append_assoc]

/-- a response that is well formed, whatever request it belongs to -/
def Spec.WellFormedResponse (x : Http.Message) : Prop := x.Ok (.response (.str "")) []

/-- **C48** The content of an `http` record counts as a response if it is a well-formed HTTP response; -/
theorem C48_response (c : Codec) (x : Http.Message) (hx : WellFormedResponse x) : IsResponse c x.text := by
  obtain ⟨m, h1, h2, -⟩ := Http.kind_parse c (.response (.str "")) [] x hx [] (fun _ => rfl)
  rw [List.append_nil] at h1
  exact ⟨m, h1, by rw [h2.close]; rfl⟩

/-- it does not if the response is cut short, -/
theorem C48_truncated (c : Codec) (x : Http.Message) (hx : WellFormedResponse x) (he : x.payload.ends = true) (n : Nat)
    (hn : n < x.text.length) : NotResponse c (x.text.take n) := by
  obtain ⟨m, h1, h2, h3, -⟩ := C38_truncated c (.response (.str "")) [] x hx he n hn [x.text.take n] (by simp)
  refine ⟨[], m, ?_, Or.inr h3⟩
  simp only [Http.feedAll, M.bind_apply, Http.Kind.feed, Http.Kind.message] at h1
  cases hf : Http.feedResponse c (x.text.take n) (Http.Msg.response (.str "") []) with
  | hang => simp [hf] at h1
  | raise e m' => simp [hf] at h1
  | ok l m' => simp only [hf, M.pure_apply, List.append_nil] at h1; cases h1; rfl

/-- or if anything follows it. -/
theorem C48_trailing (c : Codec) (x : Http.Message) (hx : WellFormedResponse x) (he : x.payload.ends = true) (more : Bytes)
    (hm : more ≠ []) : NotResponse c (x.text ++ more) := by
  obtain ⟨m, h1, -, -⟩ := Http.kind_parse c (.response (.str "")) [] x hx more (fun h => by rw [he] at h; cases h)
  exact ⟨more, m, h1, Or.inl hm⟩

/-- **C48** What arc2warc writes can be read back: with an ordinary clock, and if no header value has white space at its
ends, the output opens as a WARC file and yields exactly the records that `Spec.Converts` lists, without errors. -/
theorem C48_readable (c : Codec) (hc : Codec.Laws c) (fs : FS) (g : Arc2Warc.Cfg) (hg : CfgOk g) (files : List MixedFile)
    (h : ∀ f ∈ files, f.Stored c fs) (ht : ∀ f ∈ files, ∀ it ∈ f.items, Tidy it)
    (st' : Arc2Warc.St) (rs : List R) (hcv : ConvertsFiles c g {} files rs st')
    (cls : Option RecClass) (hcls : cls = none ∨ cls = some .warc) (fuel : Nat) (hfuel : rs.length < fuel) :
    ∃ file s, Arc2Warc.main c fs g false (files.map MixedFile.name) ([], {}) = .ok () (file, st') ∧
      openArchive c cls false .auto none file = .ok s ∧
      collect true fuel s = ⟨expectGot some 0 rs, some ⟨some file.length, none, []⟩, .done⟩ := by
  have hok : ∀ r ∈ rs, r.Ok := Arc2Warc.convertsFiles_ok hcv (fun f hf => (h f hf).1) ht hg (by intro i hi; cases hi)
  have hm := C48_converts c hc fs g false files h {} st' rs hcv []
  have hw : written c false rs = archive rs := by simp [written, archive]
  rw [hw, List.nil_append] at hm
  refine ⟨archive rs, ⟨File.openFile (archive rs), none, .plain, .warc⟩, hm, ?_, ?_⟩
  · apply openArchive_plain c cls .warc .auto _ (Or.inl rfl) _ (archive_not_gzip _ hok)
    rcases hcls with rfl | rfl
    · exact Or.inr ⟨rfl, archive_classify _ hok⟩
    · exact Or.inl rfl
  · rw [collect_archive true fuel _ rs (by simp) rfl rfl hok
      (fun _ _ => Or.inl rfl) (by simp [File.openFile, File.rest]) hfuel]
    have hrep : reported .plain true = some := by funext p; rfl
    simp [hrep, File.openFile]

/-- **C48** The same with compressed output. -/
theorem C48_readable_gzip (c : Codec) (hc : Codec.Laws c) (fs : FS) (g : Arc2Warc.Cfg) (hg : CfgOk g) (files : List MixedFile)
    (h : ∀ f ∈ files, f.Stored c fs) (ht : ∀ f ∈ files, ∀ it ∈ f.items, Tidy it)
    (st' : Arc2Warc.St) (rs : List R) (hcv : ConvertsFiles c g {} files rs st') (hne : rs ≠ [])
    (cls : Option RecClass) (hcls : cls = none ∨ cls = some .warc) (fuel : Nat) (hfuel : rs.length < fuel) :
    ∃ file s, Arc2Warc.main c fs g true (files.map MixedFile.name) ([], {}) = .ok () (file, st') ∧
      openArchive c cls true .auto none file = .ok s ∧
      collect true fuel s = ⟨expectGot (fun _ => none) 0 rs, some ⟨none, none, []⟩, .done⟩ := by
  have hok : ∀ r ∈ rs, r.Ok := Arc2Warc.convertsFiles_ok hcv (fun f hf => (h f hf).1) ht hg (by intro i hi; cases hi)
  have hm := C48_converts c hc fs g true files h {} st' rs hcv []
  have hw : written c true rs = (rs.map R.bytes).flatMap c.enc := by simp [written, List.flatMap_map]
  have hdec : c.dec ((rs.map R.bytes).flatMap c.enc) = (archive rs, none) := by
    rw [hc.members]; simp [archive, List.flatMap]
  rw [hw, List.nil_append] at hm
  refine ⟨_, ⟨gzipFileOf c (File.openFile ((rs.map R.bytes).flatMap c.enc)), none, .gzipRecord, .warc⟩, hm, ?_, ?_⟩
  · apply openArchive_gzip c cls .warc true .auto _ (Or.inl rfl)
    · rw [hdec]
      rcases hcls with rfl | rfl
      · exact Or.inr ⟨rfl, archive_classify _ hok⟩
      · exact Or.inl rfl
    · cases rs with
      | nil => exact absurd rfl hne
      | cons r rs => obtain ⟨t, ht⟩ := hc.magic r.bytes; simp [ht]
    · rw [hdec]; exact Or.inl rfl
  · have hrest : (File.openFile ((rs.map R.bytes).flatMap c.enc)).rest = (rs.map R.bytes).flatMap c.enc := by
      simp [File.openFile, File.rest]
    rw [collect_archive true fuel _ rs (by simp) rfl
      (by simp only [gzipFileOf]; rw [hrest, hdec]) hok
      (fun _ _ => Or.inl rfl)
      (by simp only [gzipFileOf, File.rest, List.drop_zero]
          have := hrest
          simp only [File.rest] at this
          rw [this, hdec]) hfuel]
    have hrep : reported .gzipRecord true = fun _ => none := by funext p; rfl
    simp [hrep, gzipFileOf]

/-- **C48** (defects) A record as described by `Spec.Stops` ends the whole run with an exception: the files and records before
it were converted, nothing after it is. -/
theorem C48_stops (c : Codec) (hc : Codec.Laws c) (fs : FS) (g : Arc2Warc.Cfg) (gzip : Bool) (files : List MixedFile)
    (h : ∀ f ∈ files, f.Stored c fs) (st st1 st2 : Arc2Warc.St) (rs rs' : List R) (hcv : ConvertsFiles c g st files rs st1)
    (f : MixedFile) (hf : f.Stored c fs) (its : List ArcItem) (bad : ArcItem) (more : List ArcItem) (hits : f.items = its ++ bad :: more)
    (hcv' : ConvertsAll c g st1 [] its rs' st2) (e : Exc) (o : Bytes) (hbad : Stops c g gzip st2 (namesAfter [] its) bad e o)
    (rest : List Bytes) (out : Bytes) :
    ∃ st3, Arc2Warc.main c fs g gzip (files.map MixedFile.name ++ f.name :: rest) (out, st) =
      .raise e (out ++ written c gzip (rs ++ rs') ++ o, st3) := by
  induction hcv generalizing out with
  | nil st =>
    obtain ⟨s, ho, hk, he, -, hp, hr⟩ := open_mixed c hc fs f hf
    have hok : ArcItem.AllOk true [] (its ++ bad :: more) := by rw [← hits]; exact hf.1
    rw [hits] at hr
    obtain ⟨u, hl, hu⟩ := Arc2Warc.loop_raises c g gzip its rs' st st2 [] bad more e o hcv' (s.fh.rest.length + 2) s out ArcSt.init hk he
      (by rw [hp]; rfl) rfl (by rw [hp]; exact hok) hr
      (by rw [hr]; have := arcItems_length (its ++ bad :: more); simp only [List.length_append, List.length_cons] at this; omega)
      (fun names' s1 out1 he1 hr1 hn => Arc2Warc.handle_stops c g gzip st2 names' bad e o (by rw [hn]; exact hbad) s1 out1 he1 hr1)
    refine ⟨u.2, ?_⟩
    simp only [List.map_nil, List.nil_append, Arc2Warc.main, ho, hl]
    rw [hu]
  | @cons st sta stb f' fl rsa rsb h1 h2 ih =>
    obtain ⟨s, ho, hk, he, hf', hp, hr⟩ := open_mixed c hc fs f' (h f' (by simp))
    obtain ⟨s', hl⟩ := Arc2Warc.loop_items c g gzip f'.items rsa st sta [] h1 (s.fh.rest.length + 2) s out ArcSt.init hk he hf'
      (by rw [hp]; rfl) rfl (by rw [hp]; exact (h f' (by simp)).1) hr (by rw [hr]; have := arcItems_length f'.items; omega)
    obtain ⟨st3, h3⟩ := ih (fun f hf => h f (by simp [hf])) hcv' (out ++ written c gzip rsa)
    refine ⟨st3, ?_⟩
    simp only [List.map_cons, List.cons_append, Arc2Warc.main, ho, hl]
    rw [h3]
    simp [Arc2Warc.written_append]

theorem prefix_line (tag line : Bytes) (ht : 10 ∉ tag) (h : tag <+: line ++ [10]) : tag <+: line := by
  rcases Nat.lt_or_ge line.length tag.length with hlt | hge
  · exfalso
    have : line ++ [10] <+: tag := List.prefix_of_prefix_length_le (List.prefix_refl _) h (by simp; omega)
    exact ht (this.subset (by simp))
  · exact List.prefix_of_prefix_length_le h (List.prefix_append _ _) hge

/-- reading on at such a text -/
theorem unreadable_read (s : Stream) (a : ArcSt) (tail : Bytes) (e : Exc) (hk : s.kind ≠ .gzipFile) (he : s.eoc = none)
    (hp : s.parser.arcSt? = some a) (hm : s.parser.isMixed = true) (hr : s.fh.rest = tail) (h : Unreadable a.headers tail e) :
    (∃ t, readRecord false s = .raise e t) ∨
    (∃ o es t, readRecord false s = .ok ⟨o, none, es⟩ t ∧ es ≠ [] ∧ e = .generic "Errors while decoding") := by
  cases h with
  | junk line junk more hw hl hjs h5 =>
    right
    obtain ⟨st, hst⟩ : ∃ st, s.parser = .mixed st := by
      cases hp' : s.parser with
      | warc => rw [hp'] at hm; cases hm
      | arc => rw [hp'] at hm; cases hm
      | mixed st => exact ⟨st, rfl⟩
    have := readRecord_giveUp_mode false [] (line :: junk.take 5) ((junk.drop 5).flatten ++ more) s hk he
      (by intro l hl; simp at hl; subst hl; exact Or.inr ⟨⟨st, hst⟩, List.isPrefixOf_iff_prefix.2 hw⟩) ⟨by simp, Or.inl rfl⟩
      (by
        intro j hj
        rcases List.mem_cons.1 hj with rfl | hj
        · exact hl
        · exact hjs j (List.mem_of_mem_take hj)) (by simp; omega)
      (by
        rw [hr, List.nil_append, List.flatten_cons, List.append_assoc, List.append_assoc, ← List.append_assoc ((junk.take 5).flatten),
          ← List.flatten_append, List.take_append_drop])
    exact ⟨_, _, _, this, by simp, rfl⟩
  | noFiledesc line more hl hv hw hf hn =>
    left
    have hvis : Visible (line ++ [10]) := by obtain ⟨c, h1, h2⟩ := hv; exact ⟨c, by simp [h1], h2⟩
    refine ⟨s.adv (([] : Bytes).length + (line.length + 1)), readRecord_line_raise false [] line more s _ _ hk he ⟨by simp, Or.inl rfl⟩ hl hvis
      (by rw [hr]; simp) ?_⟩
    intro o
    rw [parseWith_arc _ a o (line ++ [10]) (by exact hp) hvis.ne.1 (fun _ h => hw (prefix_line _ _ (by decide) h)) hvis.ne.2]
    exact parse_no_filedesc _ _ _ _ _ hn hvis (fun h => hf (prefix_line _ _ (by decide) h))
  | fewValues line more hl hv hw hf hn =>
    left
    have hvis : Visible (line ++ [10]) := by obtain ⟨c, h1, h2⟩ := hv; exact ⟨c, by simp [h1], h2⟩
    refine ⟨s.adv (([] : Bytes).length + (line.length + 1)), readRecord_line_raise false [] line more s _ _ hk he ⟨by simp, Or.inl rfl⟩ hl hvis
      (by rw [hr]; simp) ?_⟩
    intro o
    rw [parseWith_arc _ a o (line ++ [10]) (by exact hp) hvis.ne.1 (fun _ h => hw (prefix_line _ _ (by decide) h)) hvis.ne.2]
    refine parse_few _ _ _ _ _ ?_ hvis (fun h => hf (prefix_line _ _ (by decide) h)) ?_
    · intro e; rw [e] at hn; simp at hn
    · have h1 : (rstripCRLF (line ++ [10])).countP isWs ≤ line.countP isWs := by
        have : rstripCRLF (line ++ [10]) = rstripCRLF line := by simp [rstripCRLF, rstripP, List.dropWhile_cons]
        rw [this]; exact rstripCRLF_le line
      omega

/-- **C48** A damaged file is not passed over in silence: when the items of a file are followed by text at which reading cannot go on,
everything before it is converted and written, then an exception ends the run; the files after it are not read. -/
theorem C48_damaged (c : Codec) (hc : Codec.Laws c) (fs : FS) (g : Arc2Warc.Cfg) (gzip : Bool) (files : List MixedFile)
    (h : ∀ f ∈ files, f.Stored c fs) (st st1 st2 : Arc2Warc.St) (rs rs' : List R) (hcv : ConvertsFiles c g st files rs st1)
    (name : Bytes) (its : List ArcItem) (tail : Bytes) (hits : ArcItem.AllOk true [] its) (hn : ¬ b! ".gz" <:+ name)
    (hfs : fs name = some (its.flatMap ArcItem.bytes ++ tail)) (hg : ¬ [0x1f, 0x8b] <+: its.flatMap ArcItem.bytes ++ tail)
    (hcv' : ConvertsAll c g st1 [] its rs' st2) (e : Exc) (ht : Unreadable (namesAfter [] its) tail e) (rest : List Bytes) (out : Bytes) :
    Arc2Warc.main c fs g gzip (files.map MixedFile.name ++ name :: rest) (out, st) =
      .raise e (out ++ written c gzip (rs ++ rs'), st2) := by
  induction hcv generalizing out with
  | nil st =>
    have hng : nameGz name = false := by
      rw [nameGz, Bool.eq_false_iff]; exact fun hh => hn ((endsWith_iff _ _).1 hh)
    have ho : openName c fs .mixed none name =
        .ok ⟨File.openFile (its.flatMap ArcItem.bytes ++ tail), none, .plain, .mixed ArcSt.init⟩ := by
      simp only [openName, hfs, hng]
      exact openArchive_plain c (some .mixed) .mixed .auto _ (Or.inl rfl) (Or.inl rfl)
        (fun hh => hg (by rw [← hh]; exact List.take_prefix _ _))
    have hrest : (File.openFile (its.flatMap ArcItem.bytes ++ tail)).rest = its.flatMap ArcItem.bytes ++ tail := by
      simp [File.openFile, File.rest]
    have hlen := arcItems_length its
    obtain ⟨fuel, hfu⟩ : ∃ k, (its.flatMap ArcItem.bytes ++ tail).length + 2 = its.length + (k + 1) :=
      ⟨(its.flatMap ArcItem.bytes ++ tail).length + 1 - its.length, by simp only [List.length_append]; omega⟩
    obtain ⟨s', a', q1, q2, q3, q4, q5, q6, q7⟩ := Arc2Warc.loop_then c g gzip its rs' st st2 [] hcv' tail fuel
      ⟨File.openFile (its.flatMap ArcItem.bytes ++ tail), none, .plain, .mixed ArcSt.init⟩ out ArcSt.init (by simp) rfl rfl rfl hits hrest
    have hr' : s'.fh.rest = tail := by
      rw [q3, File.advance_rest]; show List.drop _ (File.openFile _).rest = _; rw [hrest, List.drop_left]
    have hread := unreadable_read s' a' tail e (by rw [q1]; simp) q2 q4 (by rw [q5]; rfl) hr' (by rw [q6]; exact ht)
    simp only [List.map_nil, List.nil_append, Arc2Warc.main, ho]
    rw [show (File.openFile (its.flatMap ArcItem.bytes ++ tail)).rest.length + 2 = its.length + (fuel + 1) by rw [hrest, hfu], q7,
      Arc2Warc.loop]
    rcases hread with ⟨t, hread⟩ | ⟨o, es, t, hread, hes, rfl⟩
    · simp only [hread]
    · simp only [hread, if_neg hes]
  | @cons st sta stb f' fl rsa rsb h1 h2 ih =>
    obtain ⟨s, ho, hk, he, hf', hp, hr⟩ := open_mixed c hc fs f' (h f' (by simp))
    obtain ⟨s', hl⟩ := Arc2Warc.loop_items c g gzip f'.items rsa st sta [] h1 (s.fh.rest.length + 2) s out ArcSt.init hk he hf'
      (by rw [hp]; rfl) rfl (by rw [hp]; exact (h f' (by simp)).1) hr (by rw [hr]; have := arcItems_length f'.items; omega)
    have h3 := ih (fun f hf => h f (by simp [hf])) hcv' (out ++ written c gzip rsa)
    simp only [List.map_cons, List.cons_append, Arc2Warc.main, ho, hl]
    rw [h3]
    simp [Arc2Warc.written_append]

/-- **C48** (defect) On the command line, `-o name` makes the first filedesc record fail: for any list of files whose first one
begins with a filedesc record (with URL and date), the tool raises TypeError, and all that it has written is the beginning
of a warcinfo record, or nothing if the name ends in `.gz` or `-Z` was given. -/
theorem C48_output_option (c : Codec) (hc : Codec.Laws c) (fs : FS) (sha1 : Bytes → Bytes) (clock : Nat → DateTime) (fields : Bytes)
    (name : String) (hname : name ≠ "") (gzip : Bool) (resources responses : List String)
    (f : MixedFile) (hf : f.Stored c fs) (values : List Bytes) (version : Bytes) (ns : List Bytes) (body T : Bytes) (more : List ArcItem)
    (hits : f.items = .filedesc values version ns body T :: more) (url date wdate : Bytes)
    (hurl : firstValue (b! "URL") (ns.zip values) = some url)
    (hdate : firstValue (b! "Archive-date") (ns.zip values) = some date) (hwdate : ArcDate date wdate) (rest : List Bytes) :
    ∃ st, Arc2Warc.cli c fs sha1 clock fields (some name) gzip resources responses (f.name :: rest) ([], {}) =
      .raise .typeError
        (if gzip || name.endsWith ".gz" then [] else
          b! "WARC/1.0\r\nWARC-Type: warcinfo\r\nWARC-Record-ID: " ++ warcUuid sha1 (url ++ warcDatetimeStr (clock 0)) ++
          b! "\r\nWARC-Date: " ++ warcDatetimeStr (clock 0) ++ b! "\r\nWARC-Filename: ", st) := by
  obtain ⟨st, h⟩ := C48_stops c hc fs
    { sha1 := sha1, now := clock, outputFilename := some (.str name), warcinfoFields := fields,
      resources := resources.map .str, responses := responses.map .str } (gzip || name.endsWith ".gz") [] (by simp) {} {} {} [] []
    (.nil _) f hf [] (.filedesc values version ns body T) more hits (.nil _ _) .typeError _
    (.filename values version ns body T url date wdate name hurl hdate hwdate rfl hname) rest []
  refine ⟨st, ?_⟩
  simp only [written, List.append_nil, List.nil_append, List.map_nil, List.flatMap_nil] at h
  exact h

/-! a concrete file -/

theorem demo2_converts : ∃ rs st', ConvertsFiles toy demoCfg {} [demo2File] rs st' ∧ rs.length = 5 := by
  have hr : NotListed demoCfg.resources (b! "dns:h") := by
    intro p hp; simp [demoCfg] at hp; subst hp; exact ⟨_, rfl, by decide⟩
  have hr1 : NotListed demoCfg.resources (b! "http://h/a b") := by
    intro p hp; simp [demoCfg] at hp; subst hp; exact ⟨_, rfl, by decide⟩
  have hr2 : NotListed demoCfg.resources (b! "http://h/") := by
    intro p hp; simp [demoCfg] at hp; subst hp; exact ⟨_, rfl, by decide⟩
  have hs : ∀ u, NotListed demoCfg.responses u := by intro u p hp; cases hp
  refine ⟨_, _, .cons (.cons (.filedesc _ _ _ _ _ _ _ _ (some (b! "out.warc")) rfl rfl
      ⟨⟨2000, 1, 1, 0, 0, 0, 0, none⟩, by decide, Or.inl ⟨rfl, rfl⟩⟩ ⟨rfl, by decide⟩)
    (.cons (.data _ _ _ _ _ _ _ _ _ _ rfl rfl ⟨⟨2012, 2, 29, 0, 0, 0, 0, none⟩, by decide, Or.inr ⟨rfl, rfl⟩⟩ rfl
      (.other hr (hs _) (by decide)) rfl)
    (.cons (.data _ _ _ _ _ _ _ _ _ _ rfl rfl ⟨⟨2000, 1, 1, 0, 0, 1, 0, none⟩, by decide, Or.inl ⟨rfl, rfl⟩⟩ rfl
      (.http hr1 (hs _) (by decide) (C48_response toy demoPage demoPage_ok)) rfl)
    (.cons (.data _ _ _ _ _ _ _ _ _ _ rfl rfl ⟨⟨2000, 1, 1, 0, 0, 2, 0, none⟩, by decide, Or.inl ⟨rfl, rfl⟩⟩ rfl
      (.notHttp hr2 (hs _) (by decide) (C48_truncated toy demoShort demoShort_ok rfl 40 (by decide))) rfl)
    (.nil _ _))))) (.nil _), rfl⟩

example : ∃ rs st' file s, ConvertsFiles toy demoCfg {} [demo2File] rs st' ∧ rs.length = 5 ∧
    Arc2Warc.main toy demo2FS demoCfg false [b! "a.arc"] ([], {}) = .ok () (file, st') ∧
    openArchive toy none false .auto none file = .ok s ∧ collect true 9 s = ⟨expectGot some 0 rs, some ⟨some file.length, none, []⟩, .done⟩ := by
  obtain ⟨rs, st', h, hl⟩ := demo2_converts
  obtain ⟨file, s, h1, h2, h3⟩ := C48_readable toy toy_laws demo2FS demoCfg demoCfg_ok [demo2File] (by simp [demo2_stored])
    (by simpa [demo2File] using demo2Warc_tidy) st' rs h none (Or.inl rfl) 9 (by omega)
  exact ⟨rs, st', file, s, h, hl, h1, h2, h3⟩

/-- with `-o` only the beginning of a record is written -/
example (sha1 : Bytes → Bytes) : ∃ st out, Arc2Warc.cli toy demo2FS sha1 demoCfg.now [] (some "o") false [] [] [b! "a.arc"] ([], {}) =
      .raise .typeError (out, st) := by
  obtain ⟨st, h⟩ := C48_output_option toy toy_laws demo2FS sha1 demoCfg.now [] "o" (by decide) false [] [] demo2File demo2_stored
    _ _ _ _ _ _ rfl _ _ _ rfl rfl ⟨⟨2000, 1, 1, 0, 0, 0, 0, none⟩, by decide, Or.inl ⟨rfl, rfl⟩⟩ []
  exact ⟨st, _, h⟩

/-- a file with a WARC record and then a line that is too short -/
example (fs : FS) (hfs : fs (b! "d.arc") = some (demo1.R.bytes ++ (b! "WARC\n" ++ (List.replicate 5 (b! "x\n")).flatten ++ b! "y"))) :
    Arc2Warc.main toy fs demoCfg false [b! "d.arc"] ([], {}) = .raise (.generic "Errors while decoding") (demo1.R.bytes, {}) := by
  have := C48_damaged toy toy_laws fs demoCfg false [] (by simp) {} {} {} [] [demo1.R] (.nil _) (b! "d.arc") [.warc demo1.R]
    (b! "WARC\n" ++ (List.replicate 5 (b! "x\n")).flatten ++ b! "y") ⟨⟨rfl, item_R_ok demo1 demo1_ok, by decide⟩, trivial⟩ (by decide)
    (by simpa [ArcItem.bytes] using hfs) (by decide +kernel) (.cons (.warc _) (.nil _ _)) (.generic "Errors while decoding")
    (.junk (b! "WARC\n") (List.replicate 5 (b! "x\n")) (b! "y") (by decide) ⟨⟨b! "WARC", rfl, by decide⟩, by decide, by decide⟩
      (by intro j hj; obtain rfl := List.eq_of_mem_replicate hj; exact ⟨⟨b! "x", rfl, by decide⟩, by decide, by decide⟩) (by decide)) [] []
  simpa [written] using this

end Warc
