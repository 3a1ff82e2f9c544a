import Verif.Proofs.ArcFirst
import Verif.Props.Dates
import Verif.Spec.Arc2Warc
/-
  What arc2warc does with one record.
-/
set_option linter.all false
namespace Warc
open Rx Stream Spec

namespace Arc2Warc

/-! ### dates -/

theorem arcDay_length (y mo d : Nat) : (arcDay y mo d).length = 8 := by
  simp [arcDay, fourDigits, twoDigits]

theorem arcStamp_length (y mo d h mi s : Nat) : (arcStamp y mo d h mi s).length = 14 := by
  simp [arcStamp, arcDay_length, twoDigits]

theorem recordDate_arc (g : Cfg) (date wdate : Bytes) (h : ArcDate date wdate) :
    ∃ d, (∀ s, recordDate g (some date) s = .ok d s) ∧ warcDatetimeStr d = wdate := by
  obtain ⟨d, hv, ⟨rfl, rfl⟩ | ⟨rfl, rfl⟩⟩ := h
  · obtain ⟨e, h1, h2⟩ := C52_from_arc d hv
    refine ⟨e, fun s => ?_, h2⟩
    have hne : arcStamp d.year d.month d.day d.hour d.minute d.second ≠ [] := by
      intro hh; have := arcStamp_length d.year d.month d.day d.hour d.minute d.second; rw [hh] at this; simp at this
    simp only [recordDate, if_neg hne, h1]; rfl
  · obtain ⟨h0, e, h1, h2⟩ := C52_from_arc_short d hv
    refine ⟨e, fun s => ?_, h2⟩
    have hne : arcDay d.year d.month d.day ≠ [] := by
      intro hh; have := arcDay_length d.year d.month d.day; rw [hh] at this; simp at this
    simp only [recordDate, if_neg hne, h0, h1, lift]; rfl

theorem metaDate_arc (infoDate date wdate : Bytes) (h : ArcDate date wdate) (s : XW) :
    metaDate infoDate (some date) s = .ok wdate s := by
  obtain ⟨d, hv, ⟨rfl, rfl⟩ | ⟨rfl, rfl⟩⟩ := h
  · obtain ⟨e, h1, h2⟩ := C52_from_arc d hv
    have hl := arcStamp_length d.year d.month d.day d.hour d.minute d.second
    have hne : arcStamp d.year d.month d.day d.hour d.minute d.second ≠ [] := by
      intro hh; rw [hh] at hl; simp at hl
    rw [metaDate, if_neg hne, if_pos (by omega), List.take_of_length_le (by omega), h1]
    simp [lift, h2]
  · obtain ⟨h0, e, h1, h2⟩ := C52_from_arc_short d hv
    have hl := arcDay_length d.year d.month d.day
    have hne : arcDay d.year d.month d.day ≠ [] := by
      intro hh; rw [hh] at hl; simp at hl
    rw [metaDate, if_neg hne, if_neg (by omega), List.take_of_length_le (by omega), h1]
    simp [lift, h2]

/-! ### types -/

theorem anyPrefix_listed (ps : List PyStr) (url : Bytes) (h : Listed ps url) : anyPrefix (lower url) ps = .ok true := by
  obtain ⟨before, b, after, rfl, h1, h3⟩ := h
  induction before with
  | nil => rw [List.nil_append, anyPrefix, if_pos (show startsWith (lower url) b = true from List.isPrefixOf_iff_prefix.2 h3)]
  | cons p ps ih =>
    obtain ⟨b', rfl⟩ := h1 p (by simp)
    rw [List.cons_append, anyPrefix]
    by_cases hb : startsWith (lower url) b' = true
    · rw [if_pos hb]
    · rw [if_neg hb]
      exact ih (fun q hq => h1 q (by simp [hq]))

theorem anyPrefix_not (ps : List PyStr) (url : Bytes) (h : NotListed ps url) : anyPrefix (lower url) ps = .ok false := by
  induction ps with
  | nil => rfl
  | cons p ps ih =>
    obtain ⟨b, rfl, hb⟩ := h p (by simp)
    have hb' : ¬ startsWith (lower url) b = true := fun hh => hb (List.isPrefixOf_iff_prefix.1 hh)
    rw [anyPrefix, if_neg hb']
    exact ih (fun q hq => h q (by simp [hq]))

theorem isHttp_true (c : Codec) (body : Bytes) (h : IsResponse c body) (s : XW) : isHttpResponse c body s = .ok true s := by
  obtain ⟨m, h1, h2⟩ := h
  simp [isHttpResponse, onWorld, WarcFilter.local', WarcFilter.newResponse, h1, h2]

theorem isHttp_false (c : Codec) (body : Bytes) (h : NotResponse c body) (s : XW) : isHttpResponse c body s = .ok false s := by
  obtain ⟨l, m, h1, h2⟩ := h
  simp only [isHttpResponse, M.bind_apply, onWorld, WarcFilter.local', WarcFilter.newResponse, h1, M.pure_apply]
  rcases h2 with h2 | h2 <;> simp [h2]

theorem chooseType_typed (c : Codec) (g : Cfg) (url ctype body type ctype' : Bytes) (h : Typed c g url ctype body type ctype')
    (s : XW) : chooseType c g (lower url) ctype body s = .ok (type, ctype') s := by
  cases h with
  | resource h1 => simp [chooseType, anyPrefix_listed _ _ h1, lift, WT.RESOURCE]
  | response h1 h2 => simp [chooseType, anyPrefix_listed _ _ h2, anyPrefix_not _ _ h1, lift, WT.RESPONSE]
  | http h1 h2 h3 h4 =>
    simp [chooseType, anyPrefix_not _ _ h2, anyPrefix_not _ _ h1, lift, WT.RESPONSE, startsWith, h3, isHttp_true c body h4,
      Warc2Warc.responseType]
  | notHttp h1 h2 h3 h4 =>
    simp [chooseType, anyPrefix_not _ _ h2, anyPrefix_not _ _ h1, lift, WT.RESOURCE, startsWith, h3, isHttp_false c body h4]
  | other h1 h2 h3 =>
    simp [chooseType, anyPrefix_not _ _ h2, anyPrefix_not _ _ h1, lift, WT.RESPONSE, startsWith, h3]

/-! ### writing -/

/-- the record as written -/
def New.R (n : New) (hs : List Header) : R := ⟨b! "WARC/1.0", writtenHeaders hs (some n.ctype) n.content, n.content⟩

theorem writeNew_ok (c : Codec) (gzip : Bool) (n : New) (hs : List Header) (h : allBytes n.headers = some hs) (w : World) (st : St) :
    writeNew c gzip n (w, st) = .ok () ({ w with out := w.out ++ written c gzip [n.R hs] }, st) := by
  have h1 := World.writeTo_tuple { w with rcd := Rec.mkWarc (b! "WARC/1.0") hs (some n.ctype) (some n.content) }
    (some n.ctype) (some n.content) rfl rfl rfl
  have h2 := World.writeTo_tuple { w with rcd := Rec.mkWarc (b! "WARC/1.0") hs (some n.ctype) (some n.content), out := [] }
    (some n.ctype) (some n.content) rfl rfl rfl
  cases gzip with
  | false =>
    simp only [writeNew, onWorld, h, writeAs, Bool.false_eq_true, if_false, h1]
    simp [written, New.R, R.bytes, Rec.mkWarc]
  | true =>
    simp only [writeNew, onWorld, h, writeAs, if_true, World.writeToGz, h2]
    simp [written, New.R, R.bytes, Rec.mkWarc]

theorem written_cons (c : Codec) (gzip : Bool) (r : R) (rs : List R) :
    written c gzip (r :: rs) = written c gzip [r] ++ written c gzip rs := by simp [written]

theorem written_append (c : Codec) (gzip : Bool) (rs rs' : List R) :
    written c gzip (rs ++ rs') = written c gzip rs ++ written c gzip rs' := by simp [written]

/-! ### content -/

/-- the record after its content was read -/
def readRec (r : Rec) (body : Bytes) : Rec :=
  { r with content := some (firstValue (b! "Content-type") r.headers, some body), cfile := .none, cfileValid := false }

theorem content_item (s : Stream) (r : Rec) (body out : Bytes) (hc : r.cls ≠ .warc) (h1 : r.content = none) (h2 : r.cfile = .stream)
    (he : s.eoc = some (body.length : Int)) (hr : ∃ x, s.fh.rest = body ++ x) :
    World.content ⟨s, r, out⟩ = .ok (firstValue (b! "Content-type") r.headers, some body)
      ⟨consumed s body.length body.length, readRec r body, out⟩ := by
  obtain ⟨more, hr⟩ := hr
  have hn : body.length ≤ s.fh.rest.length := by rw [hr]; simp
  have ht : s.fh.rest.take body.length = body := by rw [hr]; simp
  have hop := op_run (.read none) s body.length he (Or.inl hn)
  simp only [ReadOp.run, ReadOp.result, Option.map_none, ht, Nat.sub_self] at hop
  have hname : r.cls.contentTypeName = b! "Content-type" := by
    cases hh : r.cls with
    | warc => exact absurd hh hc
    | arc => rfl
    | arcHeader => rfl
  simp only [World.content, h1, World.cfileRead, h2, World.onStream, hop, Rec.getHeader, lookupHeader_eq, hname,
    World.clearCfile, readRec, consumed, Nat.sub_self]


/-! ### one item -/

theorem arcType_ne (t : Bytes) : arcType t ≠ [] := by
  unfold arcType
  by_cases h : strip t = []
  · rw [if_pos h]; decide
  · rw [if_neg h]; rintro rfl; exact h rfl

theorem typed_ne {c : Codec} {g : Cfg} {url ctype body type ctype' : Bytes} (h : Typed c g url ctype body type ctype')
    (hc : ctype ≠ []) : ctype' ≠ [] := by
  cases h with
  | http => decide
  | resource => exact hc
  | response => exact hc
  | notHttp => exact hc
  | other => exact hc

theorem data_new (id url infoId date type ctype body : Bytes) (hs : List Header) (hne : ctype ≠ []) :
    ∃ h, allBytes ([(WH.ID, some id), (WH.URL, some url), (WH.WARCINFO_ID, some infoId)] ++
        ipHeader (firstValue AH.IP hs) ++ [(WH.DATE, some date), (WH.TYPE, some type)]) = some h ∧
      New.R ⟨[(WH.ID, some id), (WH.URL, some url), (WH.WARCINFO_ID, some infoId)] ++
        ipHeader (firstValue AH.IP hs) ++ [(WH.DATE, some date), (WH.TYPE, some type)], ctype, body⟩ h =
      dataRecord id url infoId (keptIp hs) date type ctype body := by
  have hip : keptIp hs = [] ∧ ipHeader (firstValue AH.IP hs) = [] ∨
      ∃ v, keptIp hs = [(b! "WARC-IP-Address", v)] ∧ ipHeader (firstValue AH.IP hs) = [(WH.IP_ADDRESS, some v)] := by
    have e : AH.IP = b! "IP-address" := rfl
    rw [keptIp, e]
    cases hv : firstValue (b! "IP-address") hs with
    | none => exact Or.inl ⟨rfl, rfl⟩
    | some ip =>
      simp only [ipHeader]
      by_cases h1 : ip = []
      · exact Or.inl ⟨by rw [if_pos (Or.inl h1)], by rw [if_pos h1]⟩
      · by_cases h2 : strip ip = b! "0.0.0.0"
        · exact Or.inl ⟨by rw [if_pos (Or.inr h2)], by rw [if_neg h1, if_pos h2]⟩
        · refine Or.inr ⟨strip ip, ?_, ?_⟩
          · rw [if_neg (by rintro (h | h) <;> contradiction)]
          · rw [if_neg h1, if_neg h2]
  rcases hip with ⟨h1, h2⟩ | ⟨v, h1, h2⟩
  · rw [h1, h2]
    refine ⟨[(WH.ID, id), (WH.URL, url), (WH.WARCINFO_ID, infoId), (WH.DATE, date), (WH.TYPE, type)], rfl, ?_⟩
    simp only [New.R, dataRecord, writtenHeaders, if_neg hne]
    rfl
  · rw [h1, h2]
    refine ⟨[(WH.ID, id), (WH.URL, url), (WH.WARCINFO_ID, infoId), (WH.IP_ADDRESS, v), (WH.DATE, date), (WH.TYPE, type)], rfl, ?_⟩
    simp only [New.R, dataRecord, writtenHeaders, if_neg hne]
    rfl

theorem handle_data (c : Codec) (g : Cfg) (gzip : Bool) (st : St) (names values : List Bytes)
    (body url date wdate ctype type ctype' infoId : Bytes)
    (hurl : firstValue (b! "URL") (names.zip values) = some url)
    (hdate : firstValue (b! "Archive-date") (names.zip values) = some date)
    (hwdate : ArcDate date wdate)
    (hctype : firstValue (b! "Content-type") (names.zip values) = some ctype)
    (htype : Typed c g url (arcType ctype) body type ctype')
    (hinfo : st.warcinfoId = some infoId) (s : Stream) (out : Bytes)
    (he : s.eoc = some (body.length : Int)) (hr : ∃ x, s.fh.rest = body ++ x) :
    handle c g gzip (⟨s, arcRec names values, out⟩, st) =
      .ok () (⟨consumed s body.length body.length, readRec (arcRec names values) body,
        out ++ written c gzip [dataRecord (idOf g (url ++ date)) url infoId (keptIp (names.zip values)) wdate type ctype' body]⟩, st) := by
  obtain ⟨d, hd, hds⟩ := recordDate_arc g date wdate hwdate
  obtain ⟨hs, ha, hR⟩ := data_new (warcUuid g.sha1 (url ++ date)) url infoId wdate type ctype' body (names.zip values)
    (typed_ne htype (arcType_ne ctype))
  have hu : (arcRec names values).url = some url := by
    rw [Rec.url, Rec.getHeader, lookupHeader_eq]; exact hurl
  have hdt : (arcRec names values).date = some date := by
    rw [Rec.date, Rec.getHeader, lookupHeader_eq]; exact hdate
  have hip : (arcRec names values).getHeader AH.IP = firstValue AH.IP (names.zip values) := by
    rw [Rec.getHeader, lookupHeader_eq]; rfl
  have hcont := content_item s (arcRec names values) body out (by simp [arcRec]) rfl rfl he hr
  have hct : firstValue (b! "Content-type") (arcRec names values).headers = some ctype := hctype
  rw [hct] at hcont
  have hconv : convert c g (⟨s, arcRec names values, out⟩, st) =
      .ok [⟨[(WH.ID, some (warcUuid g.sha1 (url ++ date))), (WH.URL, some url), (WH.WARCINFO_ID, some infoId)] ++
        ipHeader (firstValue AH.IP (names.zip values)) ++ [(WH.DATE, some wdate), (WH.TYPE, some type)], ctype', body⟩]
        (⟨consumed s body.length body.length, readRec (arcRec names values) body, out⟩, st) := by
    have hty : ¬ (arcRec names values).type = some (b! "filedesc") := by
      show ¬ some (b! "response") = some (b! "filedesc"); decide
    have hch := chooseType_typed c g url (arcType ctype) body type ctype' htype
    simp only [convert, M.bind_apply, M.get_apply, if_neg hty, convertRecord, hu, hdt, operand, M.pure_apply, hd, onWorld, hcont]
    rw [arcType] at hch
    simp only [hch, hip, hinfo, hds]
  have hcls : ¬ (arcRec names values).cls = .warc := by simp [arcRec]
  simp only [handle, M.bind_apply, M.get_apply, if_neg hcls, hconv, writeNews]
  rw [writeNew_ok c gzip _ hs ha, hR]
  simp only [M.pure_apply, idOf]

theorem handle_filedesc (c : Codec) (g : Cfg) (gzip : Bool) (st : St) (values : List Bytes) (version : Bytes) (ns : List Bytes)
    (body url date wdate : Bytes) (filename : Option Bytes)
    (hurl : firstValue (b! "URL") (ns.zip values) = some url)
    (hdate : firstValue (b! "Archive-date") (ns.zip values) = some date)
    (hwdate : ArcDate date wdate)
    (hname : FilenameOk g filename) (s : Stream) (out : Bytes)
    (he : s.eoc = some (body.length : Int)) (hr : ∃ x, s.fh.rest = body ++ x) :
    handle c g gzip (⟨s, arcHeaderRec ns values version, out⟩, st) =
      .ok () (⟨consumed s body.length body.length, readRec (arcHeaderRec ns values version) body,
        out ++ written c gzip
          [infoRecord (idOf g (url ++ warcDatetimeStr (g.now st.ticks))) (warcDatetimeStr (g.now st.ticks)) filename g.warcinfoFields,
           filedescRecord (idOf g (url ++ warcDatetimeStr (g.now st.ticks))) (idOf g (url ++ date ++ b! "-meta")) (withoutScheme url) wdate
            (arcLine values ++ ArcItem.preamble version ns ++ body)]⟩,
        ⟨some (idOf g (url ++ warcDatetimeStr (g.now st.ticks))), st.ticks + 1⟩) := by
  have hu : (arcHeaderRec ns values version).url = some url := by
    rw [Rec.url, Rec.getHeader, lookupHeader_eq]; exact hurl
  have hdt : (arcHeaderRec ns values version).date = some date := by
    rw [Rec.date, Rec.getHeader, lookupHeader_eq]; exact hdate
  have hcont := content_item s (arcHeaderRec ns values version) body out (by simp [arcHeaderRec]) rfl rfl he hr
  generalize hi : warcUuid g.sha1 (url ++ warcDatetimeStr (g.now st.ticks)) = infoId
  generalize hdd : warcDatetimeStr (g.now st.ticks) = infoDate at hi
  have hmd := metaDate_arc infoDate date wdate hwdate
  have hraw : (arcHeaderRec ns values version).rawHeaders.flatten = arcLine values ++ ArcItem.preamble version ns := by
    simp [arcHeaderRec, ArcItem.preamble]
  have hwu : (if startsWith url (b! "filedesc://") then url.drop 11 else url) = withoutScheme url := by
    unfold withoutScheme
    by_cases h : startsWith url (b! "filedesc://") = true
    · rw [if_pos h, if_pos (List.isPrefixOf_iff_prefix.1 h)]
    · rw [if_neg h, if_neg (fun hh => h (List.isPrefixOf_iff_prefix.2 hh))]
  have hconv : convert c g (⟨s, arcHeaderRec ns values version, out⟩, st) =
      .ok [⟨[(WH.TYPE, some WT.WARCINFO), (WH.ID, some infoId), (WH.DATE, some infoDate)] ++
          filenameHeader g.outputFilename, b! "application/warc-fields", g.warcinfoFields⟩,
        ⟨[(WH.TYPE, some WT.METADATA), (WH.CONCURRENT_TO, some infoId), (WH.ID, some (warcUuid g.sha1 (url ++ date ++ b! "-meta"))),
          (WH.URL, some (withoutScheme url)), (WH.DATE, some wdate), (WH.WARCINFO_ID, some infoId)], b! "application/arc",
          arcLine values ++ ArcItem.preamble version ns ++ body⟩]
        (⟨consumed s body.length body.length, readRec (arcHeaderRec ns values version) body, out⟩, ⟨some infoId, st.ticks + 1⟩) := by
    have hty : (arcHeaderRec ns values version).type = some (b! "filedesc") := rfl
    simp only [convert, M.bind_apply, M.get_apply, if_pos hty, convertFiledesc, hu, hdt, operand, M.pure_apply, now, hdd]
    simp only [hmd, raw, M.bind_apply, M.get_apply, onWorld, WarcFilter.contentBytes, hcont, M.pure_apply, hraw, M.modify_apply, hi, hwu]
  have hcls : ¬ (arcHeaderRec ns values version).cls = .warc := by simp [arcHeaderRec]
  simp only [handle, M.bind_apply, M.get_apply, if_neg hcls, hconv, writeNews]
  obtain ⟨hn1, hn2⟩ := hname
  have hinfo : ∃ hs, allBytes ([(WH.TYPE, some WT.WARCINFO), (WH.ID, some infoId), (WH.DATE, some infoDate)] ++
          filenameHeader g.outputFilename) = some hs ∧
      New.R ⟨[(WH.TYPE, some WT.WARCINFO), (WH.ID, some infoId), (WH.DATE, some infoDate)] ++
          filenameHeader g.outputFilename, b! "application/warc-fields", g.warcinfoFields⟩ hs = infoRecord infoId infoDate filename g.warcinfoFields := by
    rw [hn1]
    cases filename with
    | none =>
      exact ⟨[(WH.TYPE, WT.WARCINFO), (WH.ID, infoId), (WH.DATE, infoDate)], rfl, rfl⟩
    | some f =>
      have hf : f ≠ [] := fun h => hn2 (by rw [h])
      have hg : given (.bytes f) = true := by simp [given, hf]
      simp only [Option.map_some, filenameHeader, hg, if_true, headerValue]
      exact ⟨[(WH.TYPE, WT.WARCINFO), (WH.ID, infoId), (WH.DATE, infoDate), (WH.FILENAME, f)], rfl, rfl⟩
  obtain ⟨hs, ha, hR⟩ := hinfo
  rw [writeNew_ok c gzip _ hs ha, hR]
  simp only []
  rw [writeNew_ok c gzip _ [(WH.TYPE, WT.METADATA), (WH.CONCURRENT_TO, infoId), (WH.ID, warcUuid g.sha1 (url ++ date ++ b! "-meta")),
    (WH.URL, withoutScheme url), (WH.DATE, wdate), (WH.WARCINFO_ID, infoId)] rfl]
  have hR2 : New.R ⟨[(WH.TYPE, some WT.METADATA), (WH.CONCURRENT_TO, some infoId), (WH.ID, some (warcUuid g.sha1 (url ++ date ++ b! "-meta"))),
          (WH.URL, some (withoutScheme url)), (WH.DATE, some wdate), (WH.WARCINFO_ID, some infoId)], b! "application/arc",
          arcLine values ++ ArcItem.preamble version ns ++ body⟩ [(WH.TYPE, WT.METADATA), (WH.CONCURRENT_TO, infoId), (WH.ID, warcUuid g.sha1 (url ++ date ++ b! "-meta")),
    (WH.URL, withoutScheme url), (WH.DATE, wdate), (WH.WARCINFO_ID, infoId)] =
      filedescRecord infoId (warcUuid g.sha1 (url ++ date ++ b! "-meta")) (withoutScheme url) wdate
        (arcLine values ++ ArcItem.preamble version ns ++ body) := rfl
  rw [hR2]
  simp only [M.pure_apply, idOf, hdd, hi]
  simp only [written, List.flatMap_cons, List.flatMap_nil, List.append_nil, List.append_assoc]

/-- any item -/
theorem handle_item (c : Codec) (g : Cfg) (gzip : Bool) (st st' : St) (names : List Bytes) (it : ArcItem) (rs : List R)
    (h : Converts c g st names it rs st') (s : Stream) (out : Bytes)
    (he : s.eoc = some (it.body.length : Int)) (hr : ∃ x, s.fh.rest = it.body ++ x) :
    ∃ r' k, k ≤ it.body.length ∧ handle c g gzip (⟨s, it.rcd names, out⟩, st) =
      .ok () (⟨consumed s it.body.length k, r', out ++ written c gzip rs⟩, st') := by
  cases h with
  | warc r =>
    have hh : Tool.Handles (writeAs c gzip) r (written c gzip [r]) := by
      cases gzip with
      | false => simpa [writeAs, written] using Tool.handles_writeTo r
      | true => simpa [writeAs, written] using Tool.handles_writeToGz c r
    obtain ⟨r', k, hk, h1⟩ := hh s out he hr
    refine ⟨r', k, hk, ?_⟩
    have hcls : (ArcItem.rcd names (.warc r)).cls = .warc := rfl
    simp only [handle, M.bind_apply, M.get_apply, if_pos hcls, onWorld]
    have h1' : writeAs c gzip ⟨s, ArcItem.rcd names (.warc r), out⟩ =
      .ok () ⟨consumed s r.body.length k, r', out ++ written c gzip [r]⟩ := h1
    rw [h1']
    rfl
  | data values body T url date wdate ctype type ctype' infoId hurl hdate hwdate hctype htype hinfo =>
    exact ⟨_, _, Nat.le_refl _,
      handle_data c g gzip st names values body url date wdate ctype type ctype' infoId hurl hdate hwdate hctype htype hinfo s out he hr⟩
  | filedesc values version ns body T url date wdate filename hurl hdate hwdate hname =>
    exact ⟨_, _, Nat.le_refl _,
      handle_filedesc c g gzip st values version ns body url date wdate filename hurl hdate hwdate hname s out he hr⟩

/-! ### a whole file -/

theorem loop_congr (c : Codec) (g : Cfg) (gzip : Bool) (fuel : Nat) (s s' : Stream) (out : Bytes) (st : St)
    (h : readRecord false s = readRecord false s') :
    loop c g gzip (fuel + 1) (⟨s, out⟩, st) = loop c g gzip (fuel + 1) (⟨s', out⟩, st) := by
  simp only [loop, h]

theorem loop_items (c : Codec) (g : Cfg) (gzip : Bool) (its : List ArcItem) (rs : List R) (st st' : St) (names : List Bytes)
    (h : ConvertsAll c g st names its rs st') :
    ∀ (fuel : Nat) (s : Stream) (out : Bytes) (a : ArcSt), s.kind ≠ .gzipFile → s.eoc = none → s.fh.fault = none →
      s.parser.arcSt? = some a → a.headers = names → ArcItem.AllOk s.parser.isMixed names its →
      s.fh.rest = its.flatMap ArcItem.bytes → its.length < fuel →
      ∃ s', loop c g gzip fuel (⟨s, out⟩, st) = .ok () (⟨s', out ++ written c gzip rs⟩, st') := by
  induction h with
  | nil st names =>
    intro fuel s out a hk he hf hp ha hok hr hfu
    obtain ⟨fuel, rfl⟩ : ∃ k, fuel = k + 1 := ⟨fuel - 1, by simp at hfu; omega⟩
    refine ⟨s, ?_⟩
    have heof := readRecord_eof false s hk he hf (by simpa using hr)
    simp [loop, heof, written]
  | @cons st st1 st2 names it its rs rs' h1 h2 ih =>
    intro fuel s out a hk he hf hp ha hok hr hfu
    obtain ⟨fuel, rfl⟩ : ∃ k, fuel = k + 2 := ⟨fuel - 2, by simp at hfu; omega⟩
    subst ha
    obtain ⟨o, s1, s2, st', hread, heoc, hrest, hskip, k2, e2, f2, p2, m2, n2⟩ :=
      item_first s it a (its.flatMap ArcItem.bytes) hk he hp hok.1 (by simpa using hr)
    obtain ⟨r', k, hkk, hh⟩ := handle_item c g gzip st st1 a.headers it rs h1 s1 out heoc hrest
    obtain ⟨s', hs'⟩ := ih (fuel + 1) s2 (out ++ written c gzip rs) st' (by rw [k2]; exact hk) e2 (by rw [f2]; simpa using hf) p2 n2
      (by rw [m2]; exact hok.2) (by rw [f2, File.advance_rest, hr]; simp) (by simp at hfu; omega)
    refine ⟨s', ?_⟩
    rw [loop]
    simp only [hread, hh]
    rw [loop_congr c g gzip fuel _ s2 _ _ (hskip k hkk), hs', written_append, List.append_assoc]

/-- after the items have been converted the loop goes on with what follows them -/
theorem loop_then (c : Codec) (g : Cfg) (gzip : Bool) (its : List ArcItem) (rs : List R) (st st' : St) (names : List Bytes)
    (h : ConvertsAll c g st names its rs st') (tail : Bytes) :
    ∀ (fuel : Nat) (s : Stream) (out : Bytes) (a : ArcSt), s.kind ≠ .gzipFile → s.eoc = none →
      s.parser.arcSt? = some a → a.headers = names → ArcItem.AllOk s.parser.isMixed names its →
      s.fh.rest = its.flatMap ArcItem.bytes ++ tail →
      ∃ s' a', s'.kind = s.kind ∧ s'.eoc = none ∧ s'.fh = s.fh.advance (its.flatMap ArcItem.bytes).length ∧
        s'.parser.arcSt? = some a' ∧ s'.parser.isMixed = s.parser.isMixed ∧ a'.headers = namesAfter names its ∧
        loop c g gzip (its.length + (fuel + 1)) (⟨s, out⟩, st) = loop c g gzip (fuel + 1) (⟨s', out ++ written c gzip rs⟩, st') := by
  induction h with
  | nil st names =>
    intro fuel s out a hk he hp ha hok hr
    exact ⟨s, a, rfl, he, by simp [File.advance], hp, rfl, ha, by simp [written]⟩
  | @cons st st1 st2 names it its rs rs' h1 h2 ih =>
    intro fuel s out a hk he hp ha hok hr
    subst ha
    obtain ⟨o, s1, s2, sta, hread, heoc, hrest, hskip, k2, e2, f2, p2, m2, n2⟩ :=
      item_first s it a (its.flatMap ArcItem.bytes ++ tail) hk he hp hok.1 (by simpa using hr)
    obtain ⟨r', k, hkk, hh⟩ := handle_item c g gzip st st1 a.headers it rs h1 s1 out heoc hrest
    obtain ⟨s', a', q1, q2, q3, q4, q5, q6, q7⟩ := ih fuel s2 (out ++ written c gzip rs) sta (by rw [k2]; exact hk) e2 p2 n2
      (by rw [m2]; exact hok.2) (by rw [f2, File.advance_rest, hr]; simp)
    refine ⟨s', a', by rw [q1, k2], q2, ?_, q4, by rw [q5, m2], q6, ?_⟩
    · rw [q3, f2]; simp [File.advance, Nat.add_assoc]
    · rw [show (it :: its).length + (fuel + 1) = (its.length + fuel + 1) + 1 by simp; omega, loop]
      simp only [hread, hh]
      rw [loop_congr c g gzip _ _ s2 _ _ (hskip k hkk), show its.length + fuel + 1 = its.length + (fuel + 1) by omega, q7,
        written_append, List.append_assoc]

end Arc2Warc
end Warc
