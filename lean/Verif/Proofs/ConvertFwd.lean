import Verif.Props.Convert
import Verif.Proofs.Ends
/-
  The conversion of any record succeeds if the record becomes something.
-/
set_option linter.all false
namespace Warc
open Rx Stream Spec

namespace Arc2Warc

theorem content_any {s : Stream} {r : Rec} {x : Option Bytes × Option Bytes} {w : World} (out : Bytes) (h1 : r.cfile = .stream) (h2 : r.content = none)
    (h : World.content ⟨s, r, []⟩ = .ok x w) : World.content ⟨s, r, out⟩ = .ok x { w with out := out } := by
  simp only [World.content, h2, World.cfileRead, h1, World.onStream] at h ⊢
  cases hr : Stream.read none s with
  | hang => simp [hr] at h
  | raise e t => simp [hr] at h
  | ok b t =>
    simp only [hr, Res.ok.injEq] at h ⊢
    obtain ⟨rfl, rfl⟩ := h
    exact ⟨rfl, rfl⟩

theorem writeTo_fwd (s : Stream) (r : Rec) (out : Bytes) (x : Option Bytes × Option Bytes) (w : World) (n : Nat) (hcls : r.cls = .warc)
    (hcf : r.cfile = .stream) (hc : r.content = none) (hv : r.cfileValid = true) (he : s.eoc = some (n : Int))
    (h : World.content ⟨s, r, []⟩ = .ok x w) (body : Bytes) (hb : x.2 = some body) :
    ∃ w', World.writeTo CRLF ⟨s, r, out⟩ = .ok () w' ∧ w'.strm = w.strm ∧ w'.out = out ++ R.bytes ⟨r.version, r.headers, body⟩ := by
  have hok : n ≤ s.fh.rest.length ∨ s.fh.fault = none := by
    by_cases hn : n ≤ s.fh.rest.length
    · exact Or.inl hn
    · cases hf : s.fh.fault with
      | none => exact Or.inr rfl
      | some ex =>
        exfalso
        simp only [World.content, hc, World.cfileRead, hcf, World.onStream, Stream.read, M.bind_apply, M.get_apply, he, limitOf,
          rawRead, onFile, File.read, if_pos (show (0 : Int) ≤ (n : Int) by omega), File.deliver, hf] at h
        have : (decide (s.fh.rest.length < n)) = true := by simp; omega
        simp [this] at h
  have hw := World.writeTo_stream ⟨s, r, out⟩ n hcls hcf hv he hok
  have hop := op_run (.read none) s n he hok
  simp only [ReadOp.run, ReadOp.result, Option.map_none] at hop
  simp only [World.content, hc, World.cfileRead, hcf, World.onStream, hop, Res.ok.injEq] at h
  obtain ⟨rfl, rfl⟩ := h
  simp only [Option.some.injEq] at hb
  refine ⟨_, hw, rfl, ?_⟩
  simp [R.bytes, hb]

theorem recordDate_fwd {g : Cfg} {st st' : St} {date wdate : Bytes} (h : Dated g st date wdate st') (w : World) :
    ∃ d, recordDate g (some date) (w, st) = .ok d (w, st') ∧ warcDatetimeStr d = wdate := by
  cases h with
  | long t h hne => exact ⟨t, by simp [recordDate, hne, h], rfl⟩
  | short t h1 h2 hne => exact ⟨t, by simp [recordDate, hne, h1, h2, lift], rfl⟩
  | now h => exact ⟨g.now st.ticks, by simp [recordDate, h, now], rfl⟩

theorem metaDate_fwd {date info wdate : Bytes} (h : MetaDated date info wdate) (s : XW) : metaDate info (some date) s = .ok wdate s := by
  cases h with
  | long t h ht =>
    have hne : date ≠ [] := by rintro rfl; simp at h
    simp [metaDate, hne, h, ht, lift]
  | short t hne h ht =>
    simp [metaDate, hne, show ¬ 14 ≤ date.length by omega, ht, lift]
  | now h => simp [metaDate, h]

theorem handle_fwd (c : Codec) (g : Cfg) (gzip : Bool) (s : Stream) (r : Rec) (out : Bytes) (st st' : St) (ha : Announces r s)
    (x : Option Bytes × Option Bytes) (w : World) (hx : World.content ⟨s, r, []⟩ = .ok x w) (rs : List R)
    (hb : Becomes c g st (piece r x) rs st') (hn : r.cls = .warc → 0 ≤ declaredLength r.headers) :
    ∃ z, handle c g gzip (⟨s, r, out⟩, st) = .ok () z ∧ z.1.strm = w.strm ∧ z.1.out = out ++ written c gzip rs ∧ z.2 = st' := by
  obtain ⟨he, hcf, hct, hv⟩ := ha
  have hcont := content_any out hcf hct hx
  cases hb with
  | warc body hc hb =>
    have hc : r.cls = .warc := hc
    obtain ⟨n, hn'⟩ := Int.eq_ofNat_of_zero_le (hn hc)
    have heoc : s.eoc = some (n : Int) := by rw [he, payloadLength, hc]; simp [hn']
    have hh : handle c g gzip (⟨s, r, out⟩, st) = onWorld (writeAs c gzip) (⟨s, r, out⟩, st) := by
      simp only [handle, M.bind_apply, M.get_apply, if_pos hc]
    rw [hh]
    cases gzip with
    | false =>
      obtain ⟨w', h1, h2, h3⟩ := writeTo_fwd s r out x w n hc hcf hct hv heoc hx body hb
      refine ⟨(w', st), by simp only [onWorld, writeAs, Bool.false_eq_true, if_false, h1], h2, ?_, rfl⟩
      rw [h3]; simp [written, piece]
    | true =>
      obtain ⟨w', h1, h2, h3⟩ := writeTo_fwd s r [] x w n hc hcf hct hv heoc hx body hb
      refine ⟨_, by simp only [onWorld, writeAs, if_true, World.writeToGz, h1]; rfl, h2, ?_, rfl⟩
      simp [h3, written, piece]
  | data _ body url date wdate ctype type ctype' infoId hc hurl hdate hwdate hb htype hinfo =>
    have hc : r.cls = .arc := hc
    have hncls : ¬ r.cls = .warc := by rw [hc]; simp
    have hty : ¬ r.type = some (b! "filedesc") := by
      simp only [Rec.type, hc]; decide
    have hurl : firstValue (b! "URL") r.headers = some url := hurl
    have hdate : firstValue (b! "Archive-date") r.headers = some date := hdate
    have hu : r.url = some url := by
      rw [← hurl, Rec.url, Rec.getHeader, lookupHeader_eq, hc]; rfl
    have hdt : r.date = some date := by
      rw [← hdate, Rec.date, Rec.getHeader, lookupHeader_eq, hc]; rfl
    have hip : r.getHeader AH.IP = firstValue AH.IP r.headers := by rw [Rec.getHeader, lookupHeader_eq]
    have hb : x = (some ctype, some body) := hb
    obtain ⟨d, hd, hds⟩ := recordDate_fwd hwdate ⟨s, r, out⟩
    obtain ⟨hs, hal, hR⟩ := data_new (warcUuid g.sha1 (url ++ date)) url infoId wdate type ctype' body r.headers
      (typed_ne htype (arcType_ne ctype))
    have hch := chooseType_typed c g url (arcType ctype) body type ctype' htype
    subst hb
    have hconv : convert c g (⟨s, r, out⟩, st) =
      .ok [⟨[(WH.ID, some (warcUuid g.sha1 (url ++ date))), (WH.URL, some url), (WH.WARCINFO_ID, some infoId)] ++
        ipHeader (firstValue AH.IP r.headers) ++ [(WH.DATE, some wdate), (WH.TYPE, some type)], ctype', body⟩]
        ({ w with out := out }, st') := by
      simp only [convert, M.bind_apply, M.get_apply, if_neg hty, convertRecord, hu, hdt, operand, M.pure_apply, hd, onWorld, hcont]
      rw [arcType] at hch
      simp only [hch, hip, hinfo, hds]
    refine ⟨_, by simp only [handle, M.bind_apply, M.get_apply, if_neg hncls, hconv, writeNews]; rw [writeNew_ok c gzip _ hs hal, hR]; rfl, rfl, rfl, rfl⟩
  | filedesc body url date wdate filename hc hurl hdate hwdate hb hname =>
    have hc : r.cls = .arcHeader := hc
    have hncls : ¬ r.cls = .warc := by rw [hc]; simp
    have hty : r.type = some (b! "filedesc") := by simp only [Rec.type, hc]
    have hurl : firstValue (b! "URL") r.headers = some url := hurl
    have hdate : firstValue (b! "Archive-date") r.headers = some date := hdate
    have hu : r.url = some url := by
      rw [← hurl, Rec.url, Rec.getHeader, lookupHeader_eq, hc]; rfl
    have hdt : r.date = some date := by
      rw [← hdate, Rec.date, Rec.getHeader, lookupHeader_eq, hc]; rfl
    obtain ⟨x1, x2⟩ := x
    have hb : x2 = some body := hb
    subst hb
    generalize hi : warcUuid g.sha1 (url ++ warcDatetimeStr (g.now st.ticks)) = infoId
    generalize hdd : warcDatetimeStr (g.now st.ticks) = infoDate at hi hwdate
    have hmd := metaDate_fwd hwdate
    have hwu : (if startsWith url (b! "filedesc://") then url.drop 11 else url) = withoutScheme url := by
      unfold withoutScheme
      by_cases h : startsWith url (b! "filedesc://") = true
      · rw [if_pos h, if_pos (List.isPrefixOf_iff_prefix.1 h)]
      · rw [if_neg h, if_neg (fun hh => h (List.isPrefixOf_iff_prefix.2 hh))]
    have hconv : convert c g (⟨s, r, out⟩, st) =
        .ok [⟨[(WH.TYPE, some WT.WARCINFO), (WH.ID, some infoId), (WH.DATE, some infoDate)] ++
            filenameHeader g.outputFilename, b! "application/warc-fields", g.warcinfoFields⟩,
          ⟨[(WH.TYPE, some WT.METADATA), (WH.CONCURRENT_TO, some infoId), (WH.ID, some (warcUuid g.sha1 (url ++ date ++ b! "-meta"))),
            (WH.URL, some (withoutScheme url)), (WH.DATE, some wdate), (WH.WARCINFO_ID, some infoId)], b! "application/arc",
            r.rawHeaders.flatten ++ body⟩]
          ({ w with out := out }, ⟨some infoId, st.ticks + 1⟩) := by
      simp only [convert, M.bind_apply, M.get_apply, if_pos hty, convertFiledesc, hu, hdt, operand, M.pure_apply, now, hdd]
      simp only [hmd, raw, M.bind_apply, M.get_apply, onWorld, WarcFilter.contentBytes, hcont, M.pure_apply, M.modify_apply, hi, hwu]
    have hinfo : ∃ hs, allBytes ([(WH.TYPE, some WT.WARCINFO), (WH.ID, some infoId), (WH.DATE, some infoDate)] ++
          filenameHeader g.outputFilename) = some hs ∧
        New.R ⟨[(WH.TYPE, some WT.WARCINFO), (WH.ID, some infoId), (WH.DATE, some infoDate)] ++
          filenameHeader g.outputFilename, b! "application/warc-fields", g.warcinfoFields⟩ hs = infoRecord infoId infoDate filename g.warcinfoFields := by
      cases hname with
      | none h =>
        have hfh : filenameHeader g.outputFilename = [] := by
          rcases h with h | h | h <;> rw [h] <;> simp [filenameHeader, given]
        rw [hfh]
        exact ⟨[(WH.TYPE, WT.WARCINFO), (WH.ID, infoId), (WH.DATE, infoDate)], rfl, rfl⟩
      | some f hne h =>
        have hg : given (.bytes f) = true := by simp [given, hne]
        simp only [h, filenameHeader, hg, if_true, headerValue]
        exact ⟨[(WH.TYPE, WT.WARCINFO), (WH.ID, infoId), (WH.DATE, infoDate), (WH.FILENAME, f)], rfl, rfl⟩
    obtain ⟨hs, hal, hR⟩ := hinfo
    refine ⟨_, by
      simp only [handle, M.bind_apply, M.get_apply, if_neg hncls, hconv, writeNews]
      rw [writeNew_ok c gzip _ hs hal, hR]
      simp only []
      rw [writeNew_ok c gzip _ [(WH.TYPE, WT.METADATA), (WH.CONCURRENT_TO, infoId), (WH.ID, warcUuid g.sha1 (url ++ date ++ b! "-meta")),
        (WH.URL, withoutScheme url), (WH.DATE, wdate), (WH.WARCINFO_ID, infoId)] rfl]
      rfl, rfl, ?_, ?_⟩
    · simp only [idOf, hdd, hi, written, List.flatMap_cons, List.flatMap_nil, List.append_nil, List.append_assoc, piece]
      rfl
    · simp only [idOf, hdd, hi]

/-- the loop over a stream that can be read to its end -/
theorem loop_fwd (c : Codec) (g : Cfg) (gzip : Bool) (k : Nat) (s : Stream) (out : Bytes) (st st' : St) (hcl : CleanNames s.parser)
    (ps : List Piece) (hp : pieces k s = (ps, true)) (rs : List R) (hb : BecomesAll c g st ps rs st')
    (hn : ∀ p ∈ ps, p.cls = .warc → 0 ≤ declaredLength p.headers) (fuel : Nat) (hfuel : s.fh.rest.length < fuel) :
    ∃ t, loop c g gzip fuel (⟨s, out⟩, st) = .ok () (⟨t, out ++ written c gzip rs⟩, st') := by
  induction k generalizing s out st ps rs fuel with
  | zero => cases hp
  | succ k ih =>
    obtain ⟨fuel, rfl⟩ : ∃ j, fuel = j + 1 := ⟨fuel - 1, by omega⟩
    rw [pieces] at hp
    cases hq : readRecord false s with
    | hang => simp [hq] at hp
    | raise e t => simp [hq] at hp
    | ok e t =>
      cases hr : e.rcd with
      | none =>
        simp only [hq, hr, Prod.mk.injEq] at hp
        obtain ⟨rfl, he⟩ := hp
        cases hb
        have he' : e.errors = [] := by simpa using he
        exact ⟨t, by simp [loop, hq, hr, he', written]⟩
      | some r =>
        cases hc : World.content ⟨t, r, []⟩ with
        | hang => simp [hq, hr, hc] at hp
        | raise e w => simp [hq, hr, hc] at hp
        | ok x w =>
          simp only [hq, hr, hc, Prod.mk.injEq] at hp
          obtain ⟨rfl, hp2⟩ := hp
          cases hb with
          | cons hb1 hb2 =>
            have han := (readRecord_announces false s t e r hcl hq hr).1
            have hclt := (tidies_readRecord false).ok hcl hq
            obtain ⟨z, h1, h2, h3, h4⟩ := handle_fwd c g gzip t r out st _ han x w hc _ hb1 (hn _ (List.mem_cons_self ..))
            have hclw : CleanNames w.strm.parser := by
              have hc' := hc
              simp only [World.content, han.2.2.1, World.cfileRead, han.2.1, World.onStream] at hc'
              cases hy : Stream.read none t with
              | hang => simp [hy] at hc'
              | raise e y => simp [hy] at hc'
              | ok b y =>
                simp only [hy, Res.ok.injEq] at hc'
                rw [← hc'.2]
                exact (Keeps.read (p := true) _).tidies.ok hclt hy
            have hu := (readRecord_uses false s t e r hq hr).2
            have hf := World.fwd_content ⟨t, r, []⟩
            rw [hc] at hf
            have hw : w.strm.fh.rest.length ≤ t.fh.rest.length := After.rest hf
            obtain ⟨t', h5⟩ := ih w.strm z.1.out _ hclw _ (Prod.ext rfl hp2) _ hb2
              (fun p hp => hn p (by simp [hp])) fuel (by omega)
            refine ⟨t', ?_⟩
            rw [h3] at h5
            simp only [loop, hq, hr, h1, h2, h3, h4, h5, written_append, List.append_assoc]

end Arc2Warc
end Warc
