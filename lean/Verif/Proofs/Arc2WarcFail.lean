import Verif.Proofs.Arc2Warc
/-
  Records on which arc2warc raises or hangs.
-/
set_option linter.all false
namespace Warc
open Rx Stream Spec

namespace Arc2Warc

/-- a data record whose type cannot be chosen -/
theorem handle_data_raise (c : Codec) (g : Cfg) (gzip : Bool) (st : St) (names values : List Bytes)
    (body url date wdate ctype : Bytes) (e : Exc)
    (hurl : firstValue (b! "URL") (names.zip values) = some url)
    (hdate : firstValue (b! "Archive-date") (names.zip values) = some date)
    (hwdate : ArcDate date wdate)
    (hctype : firstValue (b! "Content-type") (names.zip values) = some ctype)
    (htype : ∀ x, ∃ y, chooseType c g (lower url) (arcType ctype) body x = .raise e y ∧ y.1.out = x.1.out)
    (s : Stream) (out : Bytes)
    (he : s.eoc = some (body.length : Int)) (hr : ∃ x, s.fh.rest = body ++ x) :
    ∃ y, handle c g gzip (⟨s, arcRec names values, out⟩, st) = .raise e y ∧ y.1.out = out := by
  obtain ⟨d, hd, hds⟩ := recordDate_arc g date wdate hwdate
  have hu : (arcRec names values).url = some url := by
    rw [Rec.url, Rec.getHeader, lookupHeader_eq]; exact hurl
  have hdt : (arcRec names values).date = some date := by
    rw [Rec.date, Rec.getHeader, lookupHeader_eq]; exact hdate
  have hcont := content_item s (arcRec names values) body out (by simp [arcRec]) rfl rfl he hr
  have hct : firstValue (b! "Content-type") (arcRec names values).headers = some ctype := hctype
  rw [hct] at hcont
  have hty : ¬ (arcRec names values).type = some (b! "filedesc") := by
    show ¬ some (b! "response") = some (b! "filedesc"); decide
  have hcls : ¬ (arcRec names values).cls = .warc := by simp [arcRec]
  obtain ⟨y, hy, ho⟩ := htype (⟨consumed s body.length body.length, readRec (arcRec names values) body, out⟩, st)
  refine ⟨y, ?_, ho⟩
  rw [arcType] at hy
  simp only [handle, M.bind_apply, M.get_apply, if_neg hcls, convert, if_neg hty, convertRecord, hu, hdt, operand, M.pure_apply, hd, onWorld, hcont, hy]

/-- a data record for which choosing the type does not end -/
theorem handle_data_hang (c : Codec) (g : Cfg) (gzip : Bool) (st : St) (names values : List Bytes)
    (body url date wdate ctype : Bytes)
    (hurl : firstValue (b! "URL") (names.zip values) = some url)
    (hdate : firstValue (b! "Archive-date") (names.zip values) = some date)
    (hwdate : ArcDate date wdate)
    (hctype : firstValue (b! "Content-type") (names.zip values) = some ctype)
    (htype : ∀ x, chooseType c g (lower url) (arcType ctype) body x = .hang)
    (s : Stream) (out : Bytes)
    (he : s.eoc = some (body.length : Int)) (hr : ∃ x, s.fh.rest = body ++ x) :
    handle c g gzip (⟨s, arcRec names values, out⟩, st) = .hang := by
  obtain ⟨d, hd, hds⟩ := recordDate_arc g date wdate hwdate
  have hu : (arcRec names values).url = some url := by
    rw [Rec.url, Rec.getHeader, lookupHeader_eq]; exact hurl
  have hdt : (arcRec names values).date = some date := by
    rw [Rec.date, Rec.getHeader, lookupHeader_eq]; exact hdate
  have hcont := content_item s (arcRec names values) body out (by simp [arcRec]) rfl rfl he hr
  have hct : firstValue (b! "Content-type") (arcRec names values).headers = some ctype := hctype
  rw [hct] at hcont
  have hty : ¬ (arcRec names values).type = some (b! "filedesc") := by
    show ¬ some (b! "response") = some (b! "filedesc"); decide
  have hcls : ¬ (arcRec names values).cls = .warc := by simp [arcRec]
  have hy := htype (⟨consumed s body.length body.length, readRec (arcRec names values) body, out⟩, st)
  rw [arcType] at hy
  simp only [handle, M.bind_apply, M.get_apply, if_neg hcls, convert, if_neg hty, convertRecord, hu, hdt, operand, M.pure_apply, hd, onWorld, hcont, hy]

/-- a filedesc record when the output file name is a `str` -/
theorem handle_filedesc_str (c : Codec) (g : Cfg) (gzip : Bool) (st : St) (values : List Bytes) (version : Bytes) (ns : List Bytes)
    (body url date wdate : Bytes) (filename : String)
    (hurl : firstValue (b! "URL") (ns.zip values) = some url)
    (hdate : firstValue (b! "Archive-date") (ns.zip values) = some date)
    (hwdate : ArcDate date wdate)
    (hname : g.outputFilename = some (.str filename)) (hne : filename ≠ "") (s : Stream) (out : Bytes)
    (he : s.eoc = some (body.length : Int)) (hr : ∃ x, s.fh.rest = body ++ x) :
    ∃ y, handle c g gzip (⟨s, arcHeaderRec ns values version, out⟩, st) = .raise .typeError y ∧
      y.1.out = out ++ if gzip then [] else
        b! "WARC/1.0\r\nWARC-Type: warcinfo\r\nWARC-Record-ID: " ++ idOf g (url ++ warcDatetimeStr (g.now st.ticks)) ++
        b! "\r\nWARC-Date: " ++ warcDatetimeStr (g.now st.ticks) ++ b! "\r\nWARC-Filename: " := by
  have hu : (arcHeaderRec ns values version).url = some url := by
    rw [Rec.url, Rec.getHeader, lookupHeader_eq]; exact hurl
  have hdt : (arcHeaderRec ns values version).date = some date := by
    rw [Rec.date, Rec.getHeader, lookupHeader_eq]; exact hdate
  have hcont := content_item s (arcHeaderRec ns values version) body out (by simp [arcHeaderRec]) rfl rfl he hr
  have hmd := metaDate_arc (warcDatetimeStr (g.now st.ticks)) date wdate hwdate
  have hty : (arcHeaderRec ns values version).type = some (b! "filedesc") := rfl
  have hcls : ¬ (arcHeaderRec ns values version).cls = .warc := by simp [arcHeaderRec]
  have hfn : filenameHeader g.outputFilename = [(WH.FILENAME, none)] := by
    rw [hname]; simp [filenameHeader, given, hne, headerValue]
  simp only [handle, M.bind_apply, M.get_apply, if_neg hcls, convert, if_pos hty, convertFiledesc, hu, hdt, operand, M.pure_apply, now,
    hmd, raw, onWorld, WarcFilter.contentBytes, hcont, M.modify_apply, hfn, writeNews, writeNew, List.cons_append, List.nil_append,
    allBytes, Option.map_none]
  refine ⟨_, rfl, ?_⟩
  cases gzip with
  | true => simp
  | false =>
    simp only [Bool.false_eq_true, if_false, idOf]
    generalize warcUuid g.sha1 (url ++ warcDatetimeStr (g.now st.ticks)) = i
    generalize warcDatetimeStr (g.now st.ticks) = d
    congr 1
    simp [partialHead, WH.TYPE, WH.ID, WH.DATE, WH.FILENAME, WT.WARCINFO, CRLF]

theorem url_of (names values : List Bytes) : (arcRec names values).url = firstValue (b! "URL") (names.zip values) := by
  rw [Rec.url, Rec.getHeader, lookupHeader_eq]; rfl

theorem date_of (names values : List Bytes) : (arcRec names values).date = firstValue (b! "Archive-date") (names.zip values) := by
  rw [Rec.date, Rec.getHeader, lookupHeader_eq]; rfl

theorem hurl_of (ns values : List Bytes) (v : Bytes) : (arcHeaderRec ns values v).url = firstValue (b! "URL") (ns.zip values) := by
  rw [Rec.url, Rec.getHeader, lookupHeader_eq]; rfl

theorem hdate_of (ns values : List Bytes) (v : Bytes) : (arcHeaderRec ns values v).date = firstValue (b! "Archive-date") (ns.zip values) := by
  rw [Rec.date, Rec.getHeader, lookupHeader_eq]; rfl

theorem handle_stops (c : Codec) (g : Cfg) (gzip : Bool) (st : St) (names : List Bytes) (it : ArcItem) (e : Exc) (o : Bytes)
    (h : Stops c g gzip st names it e o) (s : Stream) (out : Bytes)
    (he : s.eoc = some (it.body.length : Int)) (hr : ∃ x, s.fh.rest = it.body ++ x) :
    ∃ y, handle c g gzip (⟨s, it.rcd names, out⟩, st) = .raise e y ∧ y.1.out = out ++ o := by
  have hcls : ∀ values, ¬ (arcRec names values).cls = .warc := by intro v; simp [arcRec]
  have hty : ∀ values, ¬ (arcRec names values).type = some (b! "filedesc") := by
    intro v; show ¬ some (b! "response") = some (b! "filedesc"); decide
  cases h with
  | filename values version ns body T url date wdate f hurl hdate hwdate hf hne =>
    exact handle_filedesc_str c g gzip st values version ns body url date wdate f hurl hdate hwdate hf hne s out he hr
  | filedescField values version ns body T h =>
    have hcls : ¬ (arcHeaderRec ns values version).cls = .warc := by simp [arcHeaderRec]
    have hty : (arcHeaderRec ns values version).type = some (b! "filedesc") := rfl
    show ∃ y, handle c g gzip (⟨s, arcHeaderRec ns values version, out⟩, st) = .raise .typeError y ∧ y.1.out = out ++ []
    simp only [handle, M.bind_apply, M.get_apply, if_neg hcls, convert, if_pos hty, convertFiledesc, now, hurl_of, hdate_of]
    cases hu : firstValue (b! "URL") (ns.zip values) with
    | none => exact ⟨_, rfl, by simp⟩
    | some url =>
      rw [hu] at h
      rcases h with h | h
      · cases h
      · rw [h]; exact ⟨_, rfl, by simp⟩
  | field values body T h =>
    show ∃ y, handle c g gzip (⟨s, arcRec names values, out⟩, st) = .raise .typeError y ∧ y.1.out = out ++ []
    simp only [handle, M.bind_apply, M.get_apply, if_neg (hcls values), convert, if_neg (hty values), convertRecord, url_of, date_of]
    cases hu : firstValue (b! "URL") (names.zip values) with
    | none => exact ⟨_, rfl, by simp⟩
    | some url =>
      rw [hu] at h
      rcases h with h | h
      · cases h
      · rw [h]; exact ⟨_, rfl, by simp⟩
  | date values body T url date hurl hdate hne h1 h2 =>
    show ∃ y, handle c g gzip (⟨s, arcRec names values, out⟩, st) = .raise .valueError y ∧ y.1.out = out ++ []
    simp only [handle, M.bind_apply, M.get_apply, if_neg (hcls values), convert, if_neg (hty values), convertRecord, url_of, date_of, hurl,
      hdate, operand, M.pure_apply, recordDate, if_neg hne, h1, h2, lift]
    exact ⟨_, rfl, by simp⟩
  | contentType values body T url date wdate hurl hdate hwdate hctype =>
    obtain ⟨d, hd, hds⟩ := recordDate_arc g date wdate hwdate
    have hcont := content_item s (arcRec names values) body out (by simp [arcRec]) rfl rfl he hr
    have hct : firstValue (b! "Content-type") (arcRec names values).headers = none := hctype
    rw [hct] at hcont
    show ∃ y, handle c g gzip (⟨s, arcRec names values, out⟩, st) = .raise .attributeError y ∧ y.1.out = out ++ []
    simp only [handle, M.bind_apply, M.get_apply, if_neg (hcls values), convert, if_neg (hty values), convertRecord, url_of, date_of, hurl,
      hdate, operand, M.pure_apply, hd, onWorld, hcont]
    exact ⟨_, rfl, by simp⟩
  | resource values body T url date wdate ctype p ps hurl hdate hwdate hctype h =>
    rw [List.append_nil]
    refine handle_data_raise c g gzip st names values body url date wdate ctype .typeError hurl hdate hwdate hctype (fun x => ?_) s out he hr
    simp only [chooseType, h, anyPrefix, lift, M.bind_apply]
    exact ⟨_, rfl, rfl⟩
  | response values body T url date wdate ctype p ps hurl hdate hwdate hctype h1 h =>
    rw [List.append_nil]
    refine handle_data_raise c g gzip st names values body url date wdate ctype .typeError hurl hdate hwdate hctype (fun x => ?_) s out he hr
    simp only [chooseType, h, anyPrefix_not _ _ h1, anyPrefix, lift, M.bind_apply, M.pure_apply]
    exact ⟨_, rfl, rfl⟩
  | http values body T url date wdate ctype e m hurl hdate hwdate hctype h1 h2 h3 h4 =>
    rw [List.append_nil]
    refine handle_data_raise c g gzip st names values body url date wdate ctype e hurl hdate hwdate hctype (fun x => ?_) s out he hr
    have hs : startsWith (lower url) (b! "http") = true := List.isPrefixOf_iff_prefix.2 h3
    simp only [chooseType, anyPrefix_not _ _ h1, anyPrefix_not _ _ h2, lift, M.bind_apply, M.pure_apply, Bool.false_eq_true, if_false,
      if_pos hs, isHttpResponse, onWorld, WarcFilter.local', WarcFilter.newResponse, h4]
    exact ⟨_, rfl, rfl⟩

/-! ### a file up to such a record -/

theorem loop_raises (c : Codec) (g : Cfg) (gzip : Bool) (its : List ArcItem) (rs : List R) (st st' : St) (names : List Bytes)
    (bad : ArcItem) (more : List ArcItem) (e : Exc) (o : Bytes)
    (h : ConvertsAll c g st names its rs st') :
    ∀ (fuel : Nat) (s : Stream) (out : Bytes) (a : ArcSt), s.kind ≠ .gzipFile → s.eoc = none →
      s.parser.arcSt? = some a → a.headers = names → ArcItem.AllOk s.parser.isMixed names (its ++ bad :: more) →
      s.fh.rest = (its ++ bad :: more).flatMap ArcItem.bytes → its.length + 1 < fuel →
      (∀ names' s1 out1, s1.eoc = some (bad.body.length : Int) → (∃ x, s1.fh.rest = bad.body ++ x) →
        names' = its.foldl (fun n it => it.names n) names →
        ∃ y, handle c g gzip (⟨s1, bad.rcd names', out1⟩, st') = .raise e y ∧ y.1.out = out1 ++ o) →
      ∃ u, loop c g gzip fuel (⟨s, out⟩, st) = .raise e u ∧ u.1.out = out ++ written c gzip rs ++ o := by
  induction h with
  | nil st names =>
    intro fuel s out a hk he hp ha hok hr hfu hbad
    obtain ⟨fuel, rfl⟩ : ∃ k, fuel = k + 1 := ⟨fuel - 1, by simp at hfu; omega⟩
    subst ha
    obtain ⟨o', s1, s2, st', hread, heoc, hrest, -⟩ :=
      item_first s bad a (more.flatMap ArcItem.bytes) hk he hp hok.1 (by simpa using hr)
    obtain ⟨y, hy, ho⟩ := hbad a.headers s1 out heoc hrest rfl
    refine ⟨(⟨y.1.strm, y.1.out⟩, y.2), ?_, by simpa [written] using ho⟩
    rw [loop]
    simp only [hread, hy]
  | @cons st st1 st2 names it its rs rs' h1 h2 ih =>
    intro fuel s out a hk he hp ha hok hr hfu hbad
    obtain ⟨fuel, rfl⟩ : ∃ k, fuel = k + 2 := ⟨fuel - 2, by simp at hfu; omega⟩
    subst ha
    obtain ⟨o', s1, s2, st', hread, heoc, hrest, hskip, k2, e2, f2, p2, m2, n2⟩ :=
      item_first s it a ((its ++ bad :: more).flatMap ArcItem.bytes) hk he hp hok.1 (by simpa using hr)
    obtain ⟨r', k, hkk, hh⟩ := handle_item c g gzip st st1 a.headers it rs h1 s1 out heoc hrest
    obtain ⟨u, hu, ho⟩ := ih (fuel + 1) s2 (out ++ written c gzip rs) st' (by rw [k2]; exact hk) e2 p2 n2
      (by rw [m2]; exact hok.2) (by rw [f2, File.advance_rest, hr]; simp) (by simp at hfu; omega) (by simpa using hbad)
    refine ⟨u, ?_, by rw [ho, written_append]; simp⟩
    rw [loop]
    simp only [hread, hh]
    rw [loop_congr c g gzip fuel _ s2 _ _ (hskip k hkk), hu]

theorem loop_hangs (c : Codec) (g : Cfg) (gzip : Bool) (its : List ArcItem) (rs : List R) (st st' : St) (names : List Bytes)
    (bad : ArcItem) (more : List ArcItem)
    (h : ConvertsAll c g st names its rs st') :
    ∀ (fuel : Nat) (s : Stream) (out : Bytes) (a : ArcSt), s.kind ≠ .gzipFile → s.eoc = none →
      s.parser.arcSt? = some a → a.headers = names → ArcItem.AllOk s.parser.isMixed names (its ++ bad :: more) →
      s.fh.rest = (its ++ bad :: more).flatMap ArcItem.bytes → its.length + 1 < fuel →
      (∀ names' s1 out1, s1.eoc = some (bad.body.length : Int) → (∃ x, s1.fh.rest = bad.body ++ x) →
        names' = its.foldl (fun n it => it.names n) names →
        handle c g gzip (⟨s1, bad.rcd names', out1⟩, st') = .hang) →
      loop c g gzip fuel (⟨s, out⟩, st) = .hang := by
  induction h with
  | nil st names =>
    intro fuel s out a hk he hp ha hok hr hfu hbad
    obtain ⟨fuel, rfl⟩ : ∃ k, fuel = k + 1 := ⟨fuel - 1, by simp at hfu; omega⟩
    subst ha
    obtain ⟨o', s1, s2, st', hread, heoc, hrest, -⟩ :=
      item_first s bad a (more.flatMap ArcItem.bytes) hk he hp hok.1 (by simpa using hr)
    have hy := hbad a.headers s1 out heoc hrest rfl
    rw [loop]
    simp only [hread, hy]
  | @cons st st1 st2 names it its rs rs' h1 h2 ih =>
    intro fuel s out a hk he hp ha hok hr hfu hbad
    obtain ⟨fuel, rfl⟩ : ∃ k, fuel = k + 2 := ⟨fuel - 2, by simp at hfu; omega⟩
    subst ha
    obtain ⟨o', s1, s2, st', hread, heoc, hrest, hskip, k2, e2, f2, p2, m2, n2⟩ :=
      item_first s it a ((its ++ bad :: more).flatMap ArcItem.bytes) hk he hp hok.1 (by simpa using hr)
    obtain ⟨r', k, hkk, hh⟩ := handle_item c g gzip st st1 a.headers it rs h1 s1 out heoc hrest
    have hu := ih (fuel + 1) s2 (out ++ written c gzip rs) st' (by rw [k2]; exact hk) e2 p2 n2
      (by rw [m2]; exact hok.2) (by rw [f2, File.advance_rest, hr]; simp) (by simp at hfu; omega) (by simpa using hbad)
    rw [loop]
    simp only [hread, hh]
    rw [loop_congr c g gzip fuel _ s2 _ _ (hskip k hkk), hu]

end Arc2Warc
end Warc
