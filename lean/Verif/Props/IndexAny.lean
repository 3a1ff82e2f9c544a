import Verif.Props.Pipeline
import Verif.Props.Reread
import Verif.Props.Extract
/-
  C87: warcindex on any file, and going from its lines to the payloads.
-/
set_option linter.all false
namespace Warc
open Rx Stream Spec

/-- the index line of any record returned by the parser with a complete payload; afterwards the next record is found as if nothing had
been read -/
theorem index_sane (name : Bytes) (o : Option Nat) (s : Stream) (r : Rec) (out : Bytes) (n : Nat) (hr : Sane r)
    (he : s.eoc = some (n : Int)) (hn : n ≤ s.fh.rest.length)
    (hl : ∀ v, firstValue (b! "Content-Length") r.headers = some v → (pyInt 10 v).isSome = true) :
    ∃ t r', WarcIndex.indexRecord name o ⟨s, r, out⟩ =
        .ok () ⟨t, r', out ++ indexLine name o ⟨r.version, r.headers, s.fh.rest.take n⟩⟩ ∧
      t.parser = s.parser ∧ ∀ offs, readRecord offs t = readRecord offs s := by
  have hlen : (s.fh.rest.take n).length = n := by simp; omega
  have ht : r.type = firstValue (b! "WARC-Type") r.headers := by
    simp [Rec.type, hr.cls, Rec.getHeader, lookupHeader_eq, WH.TYPE]
  have hu : r.url = firstValue (b! "WARC-Target-URI") r.headers := by
    simp [Rec.url, hr.cls, Rec.getHeader, lookupHeader_eq, WH.URL, Cls.urlName]
  have hi : r.id = firstValue (b! "WARC-Record-ID") r.headers := by
    simp [Rec.id, hr.cls, Rec.getHeader, lookupHeader_eq, WH.ID]
  have hline : ∀ ct : Option Bytes, ct = firstValue (b! "Content-Type") r.headers →
      join [32] [name, WarcIndex.offsetText o, WarcIndex.orDash r.type,
        WarcIndex.orDash r.url, WarcIndex.orDash r.id,
        WarcIndex.orDash ct, decimalInt (shownLength ⟨r.version, r.headers, s.fh.rest.take n⟩)] ++ [10] =
      indexLine name o ⟨r.version, r.headers, s.fh.rest.take n⟩ := by
    intro ct hct
    rw [ht, hu, hi, hct, Tool.orDash_shown, Tool.orDash_shown, Tool.orDash_shown, Tool.orDash_shown, Tool.offsetText_eq]
    simp only [join, indexLine, List.append_assoc]
    cases o <;> rfl
  have hop := op_run (.read none) s n he (Or.inl hn)
  simp only [ReadOp.run, ReadOp.result, Option.map_none] at hop
  rw [hlen, Nat.sub_self] at hop
  have hgt : r.getHeader r.cls.contentTypeName = firstValue (b! "Content-Type") r.headers := by
    simp [Rec.getHeader, lookupHeader_eq, hr.cls, Cls.contentTypeName, WH.CONTENT_TYPE]
  have hgl : r.getHeader r.cls.contentLengthName = firstValue (b! "Content-Length") r.headers := by
    simp [Rec.getHeader, lookupHeader_eq, hr.cls, Cls.contentLengthName, WH.CONTENT_LENGTH]
  have hsame : ∀ offs, readRecord offs { s.adv n with eoc := some ((0 : Nat) : Int) } = readRecord offs s := by
    intro offs
    rw [readRecord_neg offs 0 _ rfl (by omega), readRecord_skip offs n s he hn]
  cases h1 : firstValue (b! "Content-Type") r.headers with
  | some t =>
    cases h2 : firstValue (b! "Content-Length") r.headers with
    | some v =>
      obtain ⟨k, hk⟩ := Option.isSome_iff_exists.1 (hl v h2)
      have h4 : shownLength ⟨r.version, r.headers, s.fh.rest.take n⟩ = k := by simp only [shownLength, h1, h2]; rw [hk]; rfl
      refine ⟨s, r, ?_, rfl, fun _ => rfl⟩
      rw [← hline (some t) h1.symm, h4]
      simp only [WarcIndex.indexRecord, M.bind_apply, M.get_apply, World.contentType, World.contentLength, hr.content, hgt, h1, hgl, h2,
        hk, World.write, M.modify_apply]
    | none =>
      have h4 : shownLength ⟨r.version, r.headers, s.fh.rest.take n⟩ = (s.fh.rest.take n).length := by simp only [shownLength, h1, h2]
      refine ⟨{ s.adv n with eoc := some ((0 : Nat) : Int) }, ?_, ?_, rfl, hsame⟩
      rotate_left
      · rw [← hline (some t) h1.symm, h4]
        simp only [WarcIndex.indexRecord, M.bind_apply, M.get_apply, World.contentType, World.contentLength, hr.content, hgt, h1, hgl, h2,
          World.lenContent, World.content, World.cfileRead, hr.cfile, World.onStream, hop, World.write, M.modify_apply, M.pure_apply]
        rfl
  | none =>
    have h4 : shownLength ⟨r.version, r.headers, s.fh.rest.take n⟩ = (s.fh.rest.take n).length := by simp only [shownLength, h1]
    refine ⟨{ s.adv n with eoc := some ((0 : Nat) : Int) }, ?_, ?_, rfl, hsame⟩
    rotate_left
    · rw [← hline none h1.symm, h4]
      simp only [WarcIndex.indexRecord, M.bind_apply, M.get_apply, World.contentType, World.contentLength, hr.content, hgt, h1,
        World.lenContent, World.content, World.cfileRead, hr.cfile, World.onStream, hop, World.write, M.modify_apply, M.pure_apply]
      rfl

theorem index_any (name : Bytes) (fuel k : Nat) (s t : Stream) (out : Bytes) (gs : List Got) (l : Entry)
    (hp : s.parser = .warc) (hst : ∀ offs, readRecord offs t = readRecord offs s)
    (hn : ∀ g ∈ gs, 0 ≤ declaredLength g.headers)
    (hl : ∀ g ∈ gs, ∀ v, firstValue (b! "Content-Length") g.headers = some v → (pyInt 10 v).isSome = true)
    (h : collect true fuel s = ⟨gs, some l, .done⟩) (hk : s.fh.rest.length + 1 ≤ k) :
    ∃ s', Tool.forRecords true (WarcIndex.indexRecord name) k none ⟨t, out⟩ =
      .ok () ⟨s', out ++ gs.flatMap fun g => indexLine name g.offset g.record⟩ := by
  induction fuel generalizing s t out gs k with
  | zero => simp [collect] at h
  | succ fuel ih =>
    obtain ⟨k, rfl⟩ : ∃ j, k = j + 1 := ⟨k - 1, by omega⟩
    rcases collect_done_inv true fuel s gs l hp hn h with ⟨rfl, hnone, s', hq⟩ |
      ⟨e, r, s1, n, g, gs', rfl, hq, her, hsane, heoc, hd, hle, hprog, hpar, hoffn, hg, hrec⟩
    · refine ⟨s', ?_⟩
      simp only [Tool.forRecords, Stream.forRecords, reduceCtorEq, if_false, M.bind_apply, Tool.onStream, hst, hq, hnone, Option.isNone_none,
        if_true, M.pure_apply, List.flatMap_nil, List.append_nil]
    · have hlg : ∀ v, firstValue (b! "Content-Length") r.headers = some v → (pyInt 10 v).isSome = true := by
        have := hl g (by simp); rw [hg] at this; exact this
      obtain ⟨u, r', hbody, hup, hus⟩ := index_sane name e.offset s1 r out n hsane heoc hle hlg
      have hus' : ∀ offs, readRecord offs u = readRecord offs { s1.adv n with eoc := some 0 } := by
        intro offs
        rw [hus, readRecord_neg offs 0 { s1.adv n with eoc := some 0 } rfl (by omega), readRecord_skip offs n s1 heoc hle]
      obtain ⟨s', hs'⟩ := ih k { s1.adv n with eoc := some 0 } u (out ++ indexLine name e.offset ⟨r.version, r.headers, s1.fh.rest.take n⟩) gs'
        hpar hus' (fun x hx => hn x (by simp [hx])) (fun x hx => hl x (by simp [hx])) hrec (by
          simp only [adv_fh, File.advance_rest, List.length_drop]; omega)
      refine ⟨s', ?_⟩
      simp only [Tool.forRecords, Stream.forRecords, reduceCtorEq, if_false, M.bind_apply, Tool.onStream, hst, hq, her, Tool.withRecord,
        hbody, Option.isNone_some, Bool.false_eq_true, Option.map_none]
      rw [Tool.forRecords] at hs'
      rw [hs', hg]
      simp [Got.record]

/-- The file called `name`, whatever its bytes, can be read to its end without an exception, giving the records `gs` with their
offsets; there may be errors in the records and at the end. -/
def ReadableAt (c : Codec) (fs : FS) (name : Bytes) (gs : List Got) : Prop :=
  ∃ s rounds l, openName c fs .warc none name = .ok s ∧ collect true rounds s = ⟨gs, some l, .done⟩

/-- **C87** `warcindex` on any files, whatever their bytes, that can be read to their end: the heading and one line for every record
that a reader gets, in order, with its offset, fields and length. (No length is negative or, in the first header that gives one, not a
number.) -/
theorem C87_index (c : Codec) (fs : FS) (files : List (Bytes × List Got)) (h : ∀ f ∈ files, ReadableAt c fs f.1 f.2)
    (hn : ∀ f ∈ files, ∀ g ∈ f.2, 0 ≤ declaredLength g.headers)
    (hl : ∀ f ∈ files, ∀ g ∈ f.2, ∀ v, firstValue (b! "Content-Length") g.headers = some v → (pyInt 10 v).isSome = true) :
    WarcIndex.main c fs (files.map Prod.fst) [] =
      .ok () (b! "#WARC filename offset warc-type warc-subject-uri warc-record-id content-type content-length\n" ++
        files.flatMap fun f => f.2.flatMap fun g => indexLine f.1 g.offset g.record) := by
  have := forFiles_ok (fun name => onArchive c fs .warc none name (Tool.eachEntry true none (WarcIndex.indexRecord name)))
    Prod.fst (fun f => f.2.flatMap fun g => indexLine f.1 g.offset g.record) files ([] ++ WarcIndex.heading) ?_
  · simp only [WarcIndex.main, M.bind_apply, M.modify_apply]
    rw [this]
    rfl
  · intro x hx out
    obtain ⟨s, rounds, l, ho, hc⟩ := h x hx
    obtain ⟨s', he⟩ := index_any x.1 rounds (Tool.rounds ⟨s, out⟩) s s out x.2 l (openName_warc c fs x.1 s none ho).1 (fun _ => rfl)
      (hn x hx) (hl x hx) hc (by simp [Tool.rounds])
    simp only [onArchive, ho, Tool.eachEntry, he]

/-- **C87** For an uncompressed file every line of the index carries an offset, and `warcextract` with the name and offset of a line
writes exactly the content of the record that the line describes; with the whole content in the index line as length if the record
has one Content-Length header. -/
theorem C87_extract (c : Codec) (fs : FS) (name data : Bytes) (hfs : fs name = some data) (hnm : ¬ b! ".gz" <:+ name)
    (hg : data.take 2 ≠ [0x1f, 0x8b]) (gs : List Got) (h : ReadableAt c fs name gs) (g : Got) (hgm : g ∈ gs) (out : Bytes) :
    ∃ o, g.offset = some o ∧ WarcExtract.main c fs name o out = .ok () (out ++ g.record.body) := by
  obtain ⟨s, rounds, l, ho, hc⟩ := h
  rw [openName_plain c fs name data hfs hnm hg] at ho
  simp only [Except.ok.injEq] at ho
  subst ho
  have hgot : g ∈ (collect true rounds ⟨File.openFile data, none, .plain, .warc⟩).records := by rw [hc]; exact hgm
  have hs : PlainWarc ⟨File.openFile data, none, .plain, .warc⟩ := ⟨rfl, rfl, rfl⟩
  obtain ⟨s1, s2, e, r, w, hs1, hat, _, hrd, hrc, _, hoff, hct⟩ := collect_source rounds _ hs g hgot
  obtain ⟨o, hoo⟩ := C80_offset s1 s2 e r hs1 hrd hrc
  have hgo : g.offset = some o := by rw [hoff, hoo]
  obtain ⟨body, hb, hx⟩ := C80_extract c fs name data hfs hnm hg rounds g o hgot hgo out
  refine ⟨o, hgo, ?_⟩
  rw [hx, Got.record, hb]
  rfl

/-- the copy loop of warcpayload on any record returned by the parser -/
theorem dumpPayload_any (http : M World Unit) (s : Stream) (r : Rec) (n : Nat) (out : Bytes) (hr : Sane r)
    (he : s.eoc = some (n : Int)) (hf : s.fh.fault = none)
    (hn : firstValue (b! "WARC-Type") r.headers ≠ some (b! "response") ∨
      ∃ t, firstValue (b! "Content-Type") r.headers = some t ∧ ¬ b! "application/http" <+: t) :
    ∃ w, WarcPayload.dumpPayload http ⟨s, r, out⟩ = .ok () w ∧ w.out = out ++ s.fh.rest.take n := by
  have ht : r.type = firstValue (b! "WARC-Type") r.headers := by
    simp [Rec.type, hr.cls, Rec.getHeader, lookupHeader_eq, WH.TYPE]
  have hgt : r.getHeader r.cls.contentTypeName = firstValue (b! "Content-Type") r.headers := by
    simp [Rec.getHeader, lookupHeader_eq, hr.cls, Cls.contentTypeName, WH.CONTENT_TYPE]
  have hcopy := World.copyLoop_stream (World.cfileRemaining ⟨s, r, out⟩ + 2) n ⟨s, r, out⟩ hr.cfile he (Or.inr hf) (by
    simp only [World.cfileRemaining, hr.cfile]; omega)
  by_cases h1 : r.type = some WT.RESPONSE
  · rcases hn with hn | ⟨t, h2, h3⟩
    · exact absurd (ht.symm.trans h1) hn
    · have h3' : startsWith t (b! "application/http") = false := by
        rw [Bool.eq_false_iff]; exact fun hh => h3 (by simpa [startsWith] using hh)
      simp only [WarcPayload.dumpPayload, M.bind_apply, M.get_apply, h1, if_true, World.contentType, hr.content, hgt, h2, h3',
        Bool.false_eq_true, if_false, hcopy]
      exact ⟨_, rfl, rfl⟩
  · simp only [WarcPayload.dumpPayload, M.bind_apply, M.get_apply, h1, if_false, hcopy]
    exact ⟨_, rfl, rfl⟩

/-- **C87** `warcpayload` with the name and offset of an index line writes the content of that record too, unless it is an HTTP response
(then what `http.client` makes of it is written). -/
theorem C87_payload (c : Codec) (fs : FS) (http : M World Unit) (name data : Bytes) (hfs : fs name = some data) (hnm : ¬ b! ".gz" <:+ name)
    (hg : data.take 2 ≠ [0x1f, 0x8b]) (gs : List Got) (h : ReadableAt c fs name gs) (g : Got) (hgm : g ∈ gs)
    (hneg : 0 ≤ declaredLength g.headers) (hnh : NotHttp g.record) (out : Bytes) :
    ∃ o, g.offset = some o ∧ WarcPayload.main c fs http name o out = .ok () (out ++ g.record.body) := by
  obtain ⟨s, rounds, l, ho, hc⟩ := h
  rw [openName_plain c fs name data hfs hnm hg] at ho
  simp only [Except.ok.injEq] at ho
  subst ho
  have hgot : g ∈ (collect true rounds ⟨File.openFile data, none, .plain, .warc⟩).records := by rw [hc]; exact hgm
  have hs : PlainWarc ⟨File.openFile data, none, .plain, .warc⟩ := ⟨rfl, rfl, rfl⟩
  obtain ⟨s1, s2, e, r, w, hs1, hat, hdat, hrd, hrc, hhd, hoff, hct⟩ := collect_source rounds _ hs g hgot
  obtain ⟨o, hoo⟩ := C80_offset s1 s2 e r hs1 hrd hrc
  have hgo : g.offset = some o := by rw [hoff, hoo]
  have hre := C80_record s1 s2 e r o hs1 hrd hrc hoo false
  rw [hat] at hre
  obtain ⟨hsane, heoc, _, _, _, hfa, _⟩ := readRecord_sane true s1 s2 e r hs1.parser hrd hrc
  have hopen := (C80_open c data s1 s2 e r o hs1 hdat hrd hrc hoo (some .warc) (Or.inl rfl) .auto (Or.inl rfl)).1
  have hng : nameGz name = false := by
    rw [nameGz, Bool.eq_false_iff]; exact fun hh => hnm ((endsWith_iff _ _).1 hh)
  have hon : openName c fs .warc (some o) name = .ok (warcAt (File.openFile data) o) := by
    simp only [openName, hfs, hng]; exact hopen
  obtain ⟨n, hn⟩ := Int.eq_ofNat_of_zero_le hneg
  rw [← hhd, hn] at heoc
  have hsane' : Sane r.alone := (readRecord_sane false _ s2 _ r.alone rfl hre rfl).1
  obtain ⟨w', hw', hwo⟩ := dumpPayload_any http s2 r.alone n out hsane' heoc (by rw [hfa]; exact hs1.fault) (by
    rw [show r.alone.headers = g.headers from hhd.symm]; exact hnh)
  refine ⟨o, hgo, ?_⟩
  have hbody : g.record.body = s2.fh.rest.take n := by
    have hop := op_run (.read none) s2 n heoc (Or.inr (by rw [hfa]; exact hs1.fault))
    simp only [ReadOp.run, ReadOp.result, Option.map_none] at hop
    simp only [World.content, hsane.content, World.cfileRead, hsane.cfile, World.onStream, hop, World.clearCfile, Res.ok.injEq] at hct
    simp only [Got.record, ← hct.1, Option.getD_some]
  simp only [WarcPayload.main, onArchive, hon, WarcPayload.dumpStream, M.bind_apply, Tool.onStream, hre, Tool.withRecord, hw', hwo, hbody]

/-- a file with a junk line, a prefix before the version, a bare newline: the index, and the payloads that its offsets lead to -/
example : ReadableAt toy (fun _ => some rereadFile) (b! "a") (collect true 9 rereadStream).records ∧
    (∀ g ∈ (collect true 9 rereadStream).records, 0 ≤ declaredLength g.headers ∧ g.offset ≠ none ∧ NotHttp g.record) ∧
    (collect true 9 rereadStream).records.flatMap (fun g => indexLine (b! "a") g.offset g.record) =
      b! "a 10 - - - - 3\na 47 - - - - 1\n" := by
  refine ⟨⟨rereadStream, 9, (collect true 9 rereadStream).last.getD ⟨none, none, []⟩, openName_plain toy _ _ _ rfl (by decide) (by decide), ?_⟩, ?_, ?_⟩
  · decide +kernel
  · intro g hg
    have : ∀ g ∈ (collect true 9 rereadStream).records, 0 ≤ declaredLength g.headers ∧ g.offset ≠ none ∧
      firstValue (b! "WARC-Type") g.record.headers ≠ some (b! "response") := by decide +kernel
    exact ⟨(this g hg).1, (this g hg).2.1, Or.inl (this g hg).2.2⟩
  · decide +kernel

end Warc
