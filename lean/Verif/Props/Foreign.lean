import Verif.Spec.Foreign
import Verif.Props.Salvage
/-
  C100: data that are not WARC records, behind records or alone.
-/
set_option linter.all false
namespace Warc
open Rx Stream Spec

theorem versionLoop_foreign (fuel : Nat) (l : Bytes) (errors : List Err) (off : Option Nat) (s : Stream) (a b : List Bytes)
    (h : Cur l s) (hf : (Spec.lines (l ++ s.fh.rest)).length < fuel) (he : errors.length ≤ 5)
    (hl : Spec.lines (l ++ s.fh.rest) = a ++ b) (ha : ∀ x ∈ a, versionNumber x = none)
    (hb : b = [] ∨ 6 ≤ errors.length + (visible a).length) :
    ∃ v s', WarcParser.versionLoop fuel l errors off s = .ok v s' ∧
      ∃ o, (off = none → o = none) ∧ v = if 6 ≤ errors.length + (visible a).length then
          .giveUp (errors ++ ((visible a).take (6 - errors.length)).map Err.ignoredLine ++ [Err.tooMany]) o
        else .eof (errors ++ (visible a).map Err.ignoredLine) o := by
  induction fuel generalizing l errors off s a with
  | zero => omega
  | succ fuel ih =>
    by_cases hl0 : l = []
    · have hr := h.nil hl0
      subst hl0
      rw [hr] at hl
      simp [Spec.lines] at hl
      obtain ⟨rfl, rfl⟩ := hl
      refine ⟨.eof errors off, s, by simp [WarcParser.versionLoop], off, id, ?_⟩
      rw [if_neg (by simp [visible]; omega)]
      simp [visible]
    · have hls := h.lines hl0
      rw [hls] at hf hl
      cases a with
      | nil =>
        exfalso
        rcases hb with rfl | hb
        · simp at hl
        · simp [visible] at hb; omega
      | cons x a =>
        simp only [List.cons_append, List.cons.injEq] at hl
        obtain ⟨rfl, hl⟩ := hl
        have hn := vspec_number h.like
        rw [ha l (by simp)] at hn
        have hv : vspec l = none := by
          cases hq : vspec l with
          | none => rfl
          | some p => rw [hq] at hn; simp at hn
        simp only [WarcParser.versionLoop, if_neg hl0, pmatch_versionRx', hv, Option.map_none, nlRx_isBlank]
        obtain ⟨l', s1, hr, hc, hcat, _, _⟩ := h.next
        by_cases hbl : blankLine l = true
        · have hb' : isBlank l = true := hbl
          rw [if_pos hb']
          simp only [M.bind_apply, hr]
          have hvis : visible (l :: a) = visible a := by simp [visible, hbl]
          rw [hvis] at hb ⊢
          obtain ⟨v, s', h1, o, h0, h2⟩ := ih l' errors (off.map (· + l.length)) s1 a hc (by rw [hcat]; simpa using hf) he (by rw [hcat]; exact hl)
            (fun y hy => ha y (by simp [hy])) hb
          exact ⟨v, s', h1, o, fun h => h0 (by rw [h]; rfl), h2⟩
        · have hb' : ¬ isBlank l = true := hbl
          rw [if_neg hb']
          have hvis : visible (l :: a) = l :: visible a := by simp [visible, hbl]
          rw [hvis] at hb ⊢
          by_cases h5 : errors.length = 5
          · rw [if_pos (by simp [badLines, h5])]
            refine ⟨_, s, rfl, off.map (· + l.length), fun h => by rw [h]; rfl, ?_⟩
            rw [if_pos (by simp; omega), h5]
            simp
          · rw [if_neg (by simp [badLines]; omega)]
            simp only [M.bind_apply, hr]
            obtain ⟨v, s', h1, o, h0, h2⟩ := ih l' (errors ++ [Err.ignoredLine l]) (off.map (· + l.length)) s1 a hc
              (by rw [hcat]; simpa using hf) (by simp; omega) (by rw [hcat]; exact hl)
              (fun y hy => ha y (by simp [hy])) (by
                rcases hb with hb | hb
                · exact Or.inl hb
                · right; simp at hb ⊢; omega)
            refine ⟨v, s', h1, o, fun h => h0 (by rw [h]; rfl), ?_⟩
            rw [h2]
            have e1 : (errors ++ [Err.ignoredLine l]).length + (visible a).length = errors.length + (l :: visible a).length := by
              simp; omega
            rw [e1]
            have e2 : 6 - errors.length = (6 - (errors ++ [Err.ignoredLine l]).length) + 1 := by simp; omega
            rw [e2]
            simp only [List.take_succ_cons, List.map_cons, List.append_assoc, List.singleton_append]

theorem mem_lines_ne (d : Bytes) : ∀ l ∈ Spec.lines d, l ≠ [] := by
  induction d with
  | nil => simp [Spec.lines]
  | cons c d ih =>
    intro l hl
    rw [Spec.lines] at hl
    by_cases h : c = 10
    · rw [if_pos h] at hl
      rcases List.mem_cons.1 hl with rfl | hl
      · simp
      · exact ih l hl
    · rw [if_neg h] at hl
      cases hq : Spec.lines d with
      | nil => rw [hq] at hl; simp at hl; simp [hl]
      | cons x xs =>
        rw [hq] at hl
        simp only [List.mem_cons] at hl
        rcases hl with rfl | hl
        · simp
        · exact ih l (by rw [hq]; simp [hl])

/-- a line of CR and LF only is blank -/
theorem termLine_blank (d l : Bytes) (hl : l ∈ Spec.lines d) (ht : (l.all fun c => c == 13 || c == 10) = true) : blankLine l = true := by
  induction d generalizing l with
  | nil => simp [Spec.lines] at hl
  | cons c d ih =>
    rw [Spec.lines] at hl
    by_cases h : c = 10
    · rw [if_pos h] at hl
      rcases List.mem_cons.1 hl with rfl | hl
      · decide
      · exact ih l hl ht
    · rw [if_neg h] at hl
      have key : ∀ t, ((c :: t).all fun c => c == 13 || c == 10) = true → blankLine (c :: t) = true := by
        intro t h2
        simp [h] at h2
        simp [blankLine, h2.1]
      cases hq : Spec.lines d with
      | nil => rw [hq] at hl; simp at hl; subst hl; exact key _ ht
      | cons x xs =>
        rw [hq] at hl
        simp only [List.mem_cons] at hl
        rcases hl with rfl | hl
        · exact key _ ht
        · exact ih l (by rw [hq]; simp [hl]) ht

theorem dropWhile_visible (p : Bytes → Bool) (a b : List Bytes) (h : ∀ l ∈ a, p l = true → blankLine l = true)
    (hb : b = [] ∨ 6 ≤ (visible a).length) :
    ∃ a', (a ++ b).dropWhile p = a' ++ b ∧ visible a' = visible a ∧ ∀ l ∈ a', l ∈ a := by
  induction a with
  | nil =>
    rcases hb with rfl | hb
    · exact ⟨[], rfl, rfl, by simp⟩
    · simp [visible] at hb
  | cons x a ih =>
    by_cases hx : p x = true
    · have hv : visible (x :: a) = visible a := by simp [visible, h x (by simp) hx]
      obtain ⟨a', h1, h2, h3⟩ := ih (fun l hl => h l (by simp [hl])) (by rw [← hv]; exact hb)
      refine ⟨a', ?_, by rw [h2, hv], fun l hl => by simp [h3 l hl]⟩
      rw [List.cons_append, List.dropWhile_cons, if_pos hx, h1]
    · exact ⟨x :: a, by rw [List.cons_append, List.dropWhile_cons, if_neg hx], rfl, fun l hl => hl⟩

theorem blankLoop_no_offset (fuel : Nat) (s s' : Stream) (off : Option Nat) (l : Bytes)
    (h : blankLoop false fuel s = .ok (off, l) s') : off = none := by
  induction fuel generalizing s with
  | zero => cases h
  | succ fuel ih =>
    simp only [blankLoop, M.bind_apply, M.get_apply] at h
    cases hq : onFile (File.readline none) s with
    | hang => simp [hq] at h
    | raise e t => simp [hq] at h
    | ok a t =>
      simp only [hq] at h
      by_cases hb : rxTest blankLineRx a = true
      · rw [if_pos hb] at h; exact ih t h
      · rw [if_neg hb] at h
        simp only [M.pure_apply, Res.ok.injEq, Prod.mk.injEq] at h
        simpa using h.1.1.symm

/-- reading a record from foreign data -/
theorem readRecord_foreign (offs : Bool) (s : Stream) (hp : s.parser = .warc) (hk : s.kind ≠ .gzipFile)
    (he : s.eoc = none) (hfa : s.fh.fault = none) (a : List Bytes) (hd : Foreign s.fh.rest a) :
    ∃ o s', readRecord offs s = .ok ⟨o, none, complaints a⟩ s' ∧ (s.kind = .gzipRecord ∨ offs = false → o = none) := by
  obtain ⟨b, hl, ha, hb⟩ := hd
  obtain ⟨a', hdrop, hvis, hmem⟩ := dropWhile_visible (fun l => l.all fun c => c == 13 || c == 10) a b
    (fun l h1 h2 => termLine_blank s.fh.rest l (by rw [hl]; simp [h1]) h2) hb
  have hset : { s with eoc := none } = s := by
    obtain ⟨fh, eoc, kind, parser⟩ := s; simp at he; subst he; rfl
  have hlen : (Spec.lines s.fh.rest).length < s.fh.rest.length + 2 := by
    have := lines_length s.fh.rest; omega
  have key : ∀ offs2, ∃ off l s1, blankLoop offs2 (s.fh.rest.length + 2) s = .ok (off, l) s1 ∧
      (offs2 = false → off = none) ∧
      ∀ o, ∃ o' s', parseWith o l s1 = .ok (none, complaints a, o') s' ∧ (o = none → o' = none) := by
    intro offs2
    obtain ⟨off, l, s1, h1, h2, h3, h4, h5⟩ := blankLoop_lines offs2 _ s he hfa hlen
    refine ⟨off, l, s1, h1, fun hq => blankLoop_no_offset _ _ _ _ _ (by rw [← hq]; exact h1), fun o => ?_⟩
    rw [parseWith_warc _ _ _ (Or.inl (by rw [h4, hp]))]
    have hlen1 : (Spec.lines (l ++ s1.fh.rest)).length < s1.fh.rest.length + 2 := by
      by_cases hl : l = []
      · rw [hl, h2.nil hl]; simp [Spec.lines]
      · rw [h2.lines hl]; have := lines_length s1.fh.rest; simp; omega
    obtain ⟨v, s2, hv, o2, ho2, hv2⟩ := versionLoop_foreign (s1.fh.rest.length + 2) l [] o s1 a' b h2 hlen1 (by simp)
      (by rw [h5, dropTerminators, hl]; exact hdrop) (fun x hx => ha x (hmem x hx)) (by
        rw [hvis]; simpa using hb)
    unfold WarcParser.parse
    simp only [M.bind_apply, M.get_apply, hv]
    rw [hvis] at hv2
    simp only [List.length_nil, Nat.zero_add, List.nil_append, Nat.sub_zero] at hv2
    by_cases h6 : 6 ≤ (visible a).length
    · rw [if_pos h6] at hv2
      subst hv2
      exact ⟨o2, s2, by simp only [M.pure_apply, complaints, if_pos h6], ho2⟩
    · rw [if_neg h6] at hv2
      subst hv2
      refine ⟨o2, s2, ?_, ho2⟩
      simp only [M.pure_apply, complaints, if_neg h6, List.append_nil]
      rw [List.take_of_length_le (by omega)]
  unfold readRecord
  simp only [M.bind_apply, M.get_apply, he, M.pure_apply, M.modify_apply, hset]
  cases hkind : s.kind with
  | gzipFile => exact absurd hkind hk
  | plain =>
    obtain ⟨off, l, s1, hb, hoff, hq⟩ := key offs
    simp only [M.bind_apply, hb]
    obtain ⟨o', s', hh, ho'⟩ := hq off
    rw [hh]
    refine ⟨o', s', rfl, ?_⟩
    rintro (h | h)
    · cases h
    · exact ho' (hoff h)
  | gzipRecord =>
    obtain ⟨off, l, s1, hb, hoff, hq⟩ := key false
    simp only [M.bind_apply, hb]
    obtain ⟨o', s', hh, ho'⟩ := hq none
    rw [hh]
    exact ⟨none, s', rfl, fun _ => rfl⟩


/-- reading records off the front of any data, exactly -/
theorem collect_before (offs : Bool) (n : Nat) (s : Stream) (rs : List RT) (tail : Bytes) (hk : s.kind ≠ .gzipFile) (he : s.eoc = none)
    (hp : s.parser = .warc) (hok : OkT rs) (hr : s.fh.rest = archiveT rs ++ tail) :
    collect offs (rs.length + n) s =
      let q := collect offs n (s.adv (archiveT rs).length)
      { q with records := ((positions s.fh.pos rs).map fun p => ⟨reported s.kind offs p.1, p.2.version, p.2.headers, [],
          (firstValue (b! "Content-Type") p.2.headers, some p.2.body)⟩) ++ q.records } := by
  induction rs generalizing s with
  | nil => simp [positions, archiveT]
  | cons r rs ih =>
    have hr' : s.fh.rest = r.1.core ++ r.2 ++ (archiveT rs ++ tail) := by rw [hr]; simp [archiveT]
    have hhead := readRecord_head offs [] r.1.version r.1.headers (r.1.body ++ r.2 ++ (archiveT rs ++ tail)) s hk he
      ⟨by simp, Or.inl rfl⟩ (hok r (by simp)).1.version (hok r (by simp)).1.headers (Or.inl hp) (by rw [hr']; simp [R.core])
    rw [(hok r (by simp)).1.length] at hhead
    simp only [List.length_nil, Nat.zero_add, Nat.add_zero] at hhead
    have hrest : (s.adv (headBytes r.1.version r.1.headers).length).fh.rest = r.1.body ++ (r.2 ++ (archiveT rs ++ tail)) := by
      rw [adv_fh, File.advance_rest, hr']; simp [R.core]
    have hl : (r :: rs).length + n = (rs.length + n) + 1 := by simp; omega
    rw [hl, collect_step offs (rs.length + n) s _ _ _ r.1.body r.2 (archiveT rs ++ tail) hhead rfl rfl rfl (hok r (by simp)).2 hrest]
    have e : { ({ s.adv (headBytes r.1.version r.1.headers).length with eoc := some (r.1.body.length : Int) } : Stream).adv
        (r.1.body.length + r.2.length) with eoc := none } = s.adv (r.1.core ++ r.2).length := by
      obtain ⟨fh, eoc, kind, parser⟩ := s
      simp at he; subst he
      simp only [adv, R.core, List.length_append, File.advance_advance, Nat.add_assoc]
    rw [e, ih (s.adv (r.1.core ++ r.2).length) hk he hp (fun x hx => hok x (by simp [hx]))
      (by rw [adv_fh, File.advance_rest, hr', List.drop_left])]
    have e2 : (s.adv (r.1.core ++ r.2).length).adv (archiveT rs).length = s.adv (archiveT (r :: rs)).length := by
      rw [adv_adv]; simp [archiveT, Nat.add_assoc]
    rw [e2]
    simp only [positions, List.map_cons, parsed]
    rfl

theorem open_holds (c : Codec) (hc : Codec.Laws c) (fs : FS) (name data : Bytes) (h : HoldsData c fs name data) :
    ∃ (s : Stream) (z : Bool), openName c fs .warc none name = .ok s ∧ s.kind = (if z then .gzipRecord else .plain) ∧ s.eoc = none ∧ s.parser = .warc ∧
      s.fh.fault = none ∧ s.fh.pos = 0 ∧ s.fh.rest = data := by
  rcases h with ⟨hf, hn, hg⟩ | ⟨ms, hms, h, hn⟩
  · exact ⟨_, false, openName_plain c fs name data hf hn hg, rfl, rfl, rfl, rfl, rfl, by simp [File.openFile, File.rest]⟩
  · have hdec := hc.members ms
    have hrest : (File.openFile (ms.flatMap c.enc)).rest = ms.flatMap c.enc := by simp [File.openFile, File.rest]
    refine ⟨⟨gzipFileOf c (File.openFile (ms.flatMap c.enc)), none, .gzipRecord, .warc⟩, true, ?_, rfl, rfl, rfl, ?_, rfl, ?_⟩
    · simp only [openName, h]
      cases hg : nameGz name with
      | true => exact openArchive_named c .warc _
      | false =>
        have hne : ms ≠ [] := by
          rcases hn with hn | hn
          · exact hn
          · rw [nameGz, (endsWith_iff _ _).2 hn] at hg; cases hg
        refine openArchive_gzip c (some .warc) .warc false .auto _ (Or.inl rfl) (Or.inl rfl) ?_ (Or.inl (by rw [hdec]))
        cases ms with
        | nil => exact absurd rfl hne
        | cons m ms => obtain ⟨t, ht⟩ := hc.magic m; simp [ht]
    · simp [gzipFileOf, hrest, hdec]
    · have : (gzipFileOf c (File.openFile (ms.flatMap c.enc))).rest = (c.dec (ms.flatMap c.enc)).1 := by
        simp [gzipFileOf, File.rest, File.openFile]
      rw [this, hdec, hms]

/-- **C100** Behind well formed records (perhaps none) stand data in which no version line comes before the sixth line that is not blank (or before
the end): another file format, log output, junk; whatever follows, be it good records, makes no difference. A reader gets the records before,
with their offsets, contents and without errors, and then one last entry that complains about the lines. -/
theorem C100_reader (c : Codec) (hc : Codec.Laws c) (fs : FS) (name : Bytes) (rs : List RT) (hok : OkT rs) (data : Bytes) (a : List Bytes)
    (hd : Foreign data a) (hf : HoldsData c fs name (archiveT rs ++ data)) :
    ∃ s z o, openName c fs .warc none name = .ok s ∧ s.fh.fault = none ∧
      (∀ rounds, s.fh.rest.length < rounds → collect true rounds s = ⟨(positions 0 rs).map (gotAt z), some ⟨o, none, complaints a⟩, .done⟩) ∧
      ∀ rounds, s.fh.rest.length < rounds → collect false rounds s = ⟨noted rs, some ⟨none, none, complaints a⟩, .done⟩ := by
  obtain ⟨s, z, ho, hkind, he, hp, hfa, hpos, hrest⟩ := open_holds c hc fs name _ hf
  have hk : s.kind ≠ .gzipFile := by rw [hkind]; cases z <;> simp
  have hrest2 : (s.adv (archiveT rs).length).fh.rest = data := by
    rw [adv_fh, File.advance_rest, hrest, List.drop_left]
  have hlen : rs.length ≤ s.fh.rest.length := by
    rw [hrest]; have := Tool.archiveT_length rs; simp; omega
  have key : ∀ offs, ∃ o, (s.kind = .gzipRecord ∨ offs = false → o = none) ∧ ∀ rounds, s.fh.rest.length < rounds → collect offs rounds s =
      ⟨((positions 0 rs).map fun p => ⟨reported s.kind offs p.1, p.2.version, p.2.headers, [],
          (firstValue (b! "Content-Type") p.2.headers, some p.2.body)⟩), some ⟨o, none, complaints a⟩, .done⟩ := by
    intro offs
    obtain ⟨o, s', hread, ho⟩ := readRecord_foreign offs (s.adv (archiveT rs).length) hp hk he hfa a (by rw [hrest2]; exact hd)
    refine ⟨o, ho, fun rounds hr => ?_⟩
    obtain ⟨n, rfl⟩ : ∃ n, rounds = rs.length + (n + 1) := ⟨rounds - rs.length - 1, by omega⟩
    rw [collect_before offs (n + 1) s rs data hk he hp hok hrest, hpos]
    simp only [collect, hread, List.append_nil]
  obtain ⟨o, _, h1⟩ := key true
  obtain ⟨o', h2, h3⟩ := key false
  obtain rfl := h2 (Or.inr rfl)
  have hrep : ∀ p, reported s.kind true p = reportedAt z p := by
    intro p; rw [hkind]; cases z <;> rfl
  refine ⟨s, z, o, ho, hfa, fun rounds hr => ?_, fun rounds hr => ?_⟩
  · rw [h1 rounds hr]
    simp only [hrep]
    rfl
  · rw [h3 rounds hr]
    have := noted_positions 0 rs false
    rw [← this]
    have hr0 : ∀ k p, reported k false p = none := by intro k p; cases k <;> rfl
    simp only [hr0]

/-- there is something to complain about as soon as one of the lines is not blank -/
theorem complaints_nil (a : List Bytes) : complaints a = [] ↔ visible a = [] := by
  constructor
  · intro h
    simp only [complaints, List.append_eq_nil_iff, List.map_eq_nil_iff, List.take_eq_nil_iff] at h
    rcases h.1 with h | h
    · omega
    · exact h
  · intro h
    simp [complaints, h]


theorem noted_record (rs : List RT) : (noted rs).map Got.record = rs.map Prod.fst := by
  simp only [noted, List.map_map]
  apply List.map_congr_left
  intro r _
  rfl

theorem foreign_stop (c : Codec) (hc : Codec.Laws c) (fs : FS) (name : Bytes) (rs : List RT) (hok : OkT rs) (data : Bytes) (a : List Bytes)
    (hd : Foreign data a) (hv : visible a ≠ []) (hf : HoldsData c fs name (archiveT rs ++ data)) :
    ∃ s rounds, openName c fs .warc none name = .ok s ∧ s.fh.fault = none ∧ (collect false rounds s).records = noted rs ∧
      (collect false rounds s).stop = some (.generic "Errors while decoding") ∧ ∀ m ∈ met false rounds s, 0 ≤ declaredLength m.headers := by
  obtain ⟨s, z, o, ho, hfa, _, h⟩ := C100_reader c hc fs name rs hok data a hd hf
  have h := h (s.fh.rest.length + 1) (by omega)
  refine ⟨s, s.fh.rest.length + 1, ho, hfa, by rw [h], ?_, ?_⟩
  · rw [h]
    simp only [Collected.stop]
    rw [if_neg (by rw [complaints_nil]; exact hv)]
  · intro m hm
    have h2 := met_done _ _ _ _ _ h
    have h3 : (m.version, m.headers) ∈ (noted rs).map fun g => (g.version, g.headers) := by
      rw [← h2]; exact List.mem_map.2 ⟨m, hm, rfl⟩
    obtain ⟨g, hg, hgm⟩ := List.mem_map.1 h3
    obtain ⟨r, hr, rfl⟩ := List.mem_map.1 hg
    simp only [Prod.mk.injEq] at hgm
    rw [← hgm.2, (hok r hr).1.length]
    omega

/-- **C100** `warc2warc` copies the records before such data and then ends with an exception; of what follows the sixth line, and of the other
files, nothing is copied. -/
theorem C100_copy (c : Codec) (hc : Codec.Laws c) (z : Http.Zlib) (fs : FS) (files : List (Bytes × List Got))
    (h : ∀ f ∈ files, Readable c fs f.1 f.2) (hn : ∀ f ∈ files, ∀ g ∈ f.2, 0 ≤ declaredLength g.headers)
    (name : Bytes) (rest : List Bytes) (rs : List RT) (hok : OkT rs) (data : Bytes) (a : List Bytes)
    (hd : Foreign data a) (hv : visible a ≠ []) (hf : HoldsData c fs name (archiveT rs ++ data)) :
    Warc2Warc.main c z fs {} (files.map Prod.fst ++ name :: rest) [] =
      .raise (.generic "Errors while decoding") (archive ((files.flatMap Prod.snd).map Got.record ++ rs.map Prod.fst)) := by
  obtain ⟨s, rounds, ho, hfa, hrec, hstop, hmet⟩ := foreign_stop c hc fs name rs hok data a hd hv hf
  obtain ⟨p, h1, h2⟩ := C89_copy c z fs files h hn name rest s ho rounds _ hstop hmet
  have hp : p = [] := by
    rcases h2 with rfl | ⟨ex, r, h3, _⟩
    · rfl
    · rw [hfa] at h3; cases h3
  subst hp
  rw [h1, hrec, List.map_append, noted_record, List.append_nil]

/-- **C100** `warcfilter` (not `-H`) likewise -/
theorem C100_filter (c : Codec) (hc : Codec.Laws c) (fs : FS) (search : Bytes → Bool) (m : Mode) (invert : Bool) (files : List (Bytes × List Got))
    (h : ∀ f ∈ files, Readable c fs f.1 f.2) (hn : ∀ f ∈ files, ∀ g ∈ f.2, 0 ≤ declaredLength g.headers)
    (name : Bytes) (rest : List Bytes) (rs : List RT) (hok : OkT rs) (data : Bytes) (a : List Bytes)
    (hd : Foreign data a) (hv : visible a ≠ []) (hf : HoldsData c fs name (archiveT rs ++ data)) :
    WarcFilter.main c fs search (m.opts invert) (files.map Prod.fst ++ name :: rest) [] =
      .raise (.generic "Errors while decoding")
        (archive ((((files.flatMap Prod.snd).map Got.record ++ rs.map Prod.fst).filter fun r => m.selects search r != invert).map m.copy)) := by
  obtain ⟨s, rounds, ho, hfa, hrec, hstop, hmet⟩ := foreign_stop c hc fs name rs hok data a hd hv hf
  obtain ⟨p, h1, h2⟩ := C89_filter c fs search m invert files h hn name rest s ho rounds _ hstop hmet
  have hp : p = [] := by
    rcases h2 with rfl | ⟨ex, r, h3, _⟩
    · rfl
    · rw [hfa] at h3; cases h3
  subst hp
  rw [h1, hrec, List.map_append, noted_record, List.append_nil]

/-- **C100 (defect)** `warcindex` lists the records before such data and ends normally, as if the file were complete: the index of an archive
with junk in the middle silently lacks everything behind it, and any other file has an empty index. -/
theorem C100_index (c : Codec) (hc : Codec.Laws c) (fs : FS) (name : Bytes) (rs : List RT) (hok : OkT rs)
    (hl : ∀ r ∈ rs, NumericLength r.1.headers) (data : Bytes) (a : List Bytes)
    (hd : Foreign data a) (hf : HoldsData c fs name (archiveT rs ++ data)) :
    ∃ z : Bool, WarcIndex.main c fs [name] [] =
      .ok () (b! "#WARC filename offset warc-type warc-subject-uri warc-record-id content-type content-length\n" ++
        (positions 0 rs).flatMap fun p => indexLine name (reportedAt z p.1) p.2) := by
  obtain ⟨s, z, o, ho, hfa, h, _⟩ := C100_reader c hc fs name rs hok data a hd hf
  have h := h (s.fh.rest.length + 1) (by omega)
  have hmem : ∀ g ∈ (positions 0 rs).map (gotAt z), ∃ r ∈ rs, g.headers = r.1.headers := by
    intro g hg
    obtain ⟨p, hp, rfl⟩ := List.mem_map.1 hg
    have : ∀ n (rs : List RT), p ∈ positions n rs → ∃ r ∈ rs, p.2 = r.1 := by
      intro n rs
      induction rs generalizing n with
      | nil => simp [positions]
      | cons r rs ih =>
        intro hp
        simp only [positions, List.mem_cons] at hp
        rcases hp with rfl | hp
        · exact ⟨r, by simp, rfl⟩
        · obtain ⟨x, hx, e⟩ := ih _ hp
          exact ⟨x, by simp [hx], e⟩
    obtain ⟨r, hr, e⟩ := this 0 rs hp
    exact ⟨r, hr, by rw [gotAt, e]⟩
  have hi := C87_index c fs [(name, (positions 0 rs).map (gotAt z))] (by
      intro f hf; rcases List.mem_singleton.1 hf with rfl; exact ⟨s, _, _, ho, h⟩) (by
      intro f hf g hg; rcases List.mem_singleton.1 hf with rfl
      obtain ⟨r, hr, e⟩ := hmem g hg
      rw [e, (hok r hr).1.length]; omega) (by
      intro f hf g hg; rcases List.mem_singleton.1 hf with rfl
      obtain ⟨r, hr, e⟩ := hmem g hg
      rw [e]; exact hl r hr)
  refine ⟨z, ?_⟩
  simp only [List.map_cons, List.map_nil] at hi
  rw [hi]
  simp only [List.flatMap_cons, List.flatMap_nil, List.append_nil, List.flatMap_map]
  rfl

/-- **C100** `warcvalid` rejects the file, unless the lines are all blank -/
theorem C100_valid (c : Codec) (hc : Codec.Laws c) (fs : FS) (name : Bytes) (rs : List RT) (hok : OkT rs) (data : Bytes) (a : List Bytes)
    (hd : Foreign data a) (hf : HoldsData c fs name (archiveT rs ++ data)) :
    WarcValid.main c fs [name] = some (if visible a = [] then 0 else -1) := by
  obtain ⟨s, z, ho, hkind, he, hp, hfa, hpos, hrest⟩ := open_holds c hc fs name _ hf
  have hk : s.kind ≠ .gzipFile := by rw [hkind]; cases z <;> simp
  have hrest2 : (s.adv (archiveT rs).length).fh.rest = data := by
    rw [adv_fh, File.advance_rest, hrest, List.drop_left]
  obtain ⟨o, s', hread, -⟩ := readRecord_foreign true (s.adv (archiveT rs).length) hp hk he hfa a (by rw [hrest2]; exact hd)
  obtain ⟨es, hes, hall⟩ := readRecords_archive 1 s rs data hk he hok hp hrest
  have hlast : readRecords true 1 none (s.adv (archiveT rs).length) = ([⟨o, none, complaints a⟩], .done) := by
    simp [readRecords, hread]
  rw [hlast] at hall
  have hmore : ∀ n, rs.length + 1 ≤ n → readRecords true n none s = (es ++ [⟨o, none, complaints a⟩], .done) := fun n hn =>
    readRecords_more true _ n none s _ _ (by simp) hn hall
  have hlen : rs.length ≤ s.fh.rest.length := by
    rw [hrest]; have := Tool.archiveT_length rs; simp; omega
  by_cases hv : visible a = []
  · rw [if_pos hv, C43_accepts_iff]
    intro n hn
    obtain rfl := List.mem_singleton.1 hn
    refine ⟨s, ho, _, _, hall, ?_⟩
    intro e he
    rcases List.mem_append.1 he with he | he
    · exact hes e he
    · obtain rfl := List.mem_singleton.1 he
      exact ⟨(complaints_nil a).2 hv, by simp⟩
  · rw [if_neg hv]
    rcases C43_terminates c fs [name] (by
      intro n hn s2 ho2 rounds hr
      obtain rfl := List.mem_singleton.1 hn
      rw [ho] at ho2
      cases ho2
      rw [hmore rounds (by omega)]
      simp) with h | h
    · exfalso
      rw [C43_accepts_iff] at h
      obtain ⟨s2, ho2, n, es2, h2, h3⟩ := h name (by simp)
      rw [ho] at ho2
      cases ho2
      have h4 := readRecords_more true n (n + rs.length + 1) none s _ _ (by simp) (by omega) h2
      rw [hmore _ (by omega)] at h4
      simp only [Prod.mk.injEq, and_true] at h4
      have := (h3 ⟨o, none, complaints a⟩ (by rw [← h4]; simp)).1
      exact hv ((complaints_nil a).1 this)
    · exact h

/-! ### the hypotheses can be met -/

/-- six lines of some log, and then good records -/
def logLines : List Bytes := [b! "one\n", b! "two\n", b! "\n", b! "three\n", b! "four\n", b! "five\n", b! "six\n"]

theorem log_foreign : Foreign (logLines.flatten ++ archiveT demoRT) logLines :=
  ⟨Spec.lines (archiveT demoRT), by decide +kernel, by decide +kernel, Or.inr (by decide +kernel)⟩

/-- a short HTML page -/
theorem html_foreign : Foreign (b! "<html>\n<p>Hello</html>") [b! "<html>\n", b! "<p>Hello</html>"] :=
  ⟨[], by decide +kernel, by decide +kernel, Or.inl rfl⟩

/-- records, log output, records -/
def logFS : FS := fun n => if n = b! "log.warc" then some (archiveT demoRT ++ (logLines.flatten ++ archiveT demoRT)) else
  if n = b! "page.html" then some (b! "<html>\n<p>Hello</html>") else none

theorem log_holds : HoldsData toy logFS (b! "log.warc") (archiveT demoRT ++ (logLines.flatten ++ archiveT demoRT)) :=
  Or.inl ⟨by decide +kernel, by decide +kernel, by decide +kernel⟩

theorem page_holds : HoldsData toy logFS (b! "page.html") (archiveT [] ++ b! "<html>\n<p>Hello</html>") :=
  Or.inl ⟨by decide +kernel, by decide +kernel, by decide +kernel⟩

/-- the records behind the six lines are neither copied nor listed; only `warcvalid` and `warc2warc` notice -/
example (z : Http.Zlib) (rest : List Bytes) :
    Warc2Warc.main toy z logFS {} (b! "log.warc" :: rest) [] = .raise (.generic "Errors while decoding") (archive (demoRT.map Prod.fst)) ∧
    WarcValid.main toy logFS [b! "log.warc"] = some (-1) ∧
    ∃ z, WarcIndex.main toy logFS [b! "log.warc"] [] =
      .ok () (b! "#WARC filename offset warc-type warc-subject-uri warc-record-id content-type content-length\n" ++
        (positions 0 demoRT).flatMap fun p => indexLine (b! "log.warc") (reportedAt z p.1) p.2) := by
  have hv : visible logLines ≠ [] := by decide +kernel
  refine ⟨?_, ?_, ?_⟩
  · exact C100_copy toy toy_laws z logFS [] (by simp) (by simp) _ rest demoRT demoRT_ok _ _ log_foreign hv log_holds
  · rw [C100_valid toy toy_laws logFS _ demoRT demoRT_ok _ _ log_foreign log_holds, if_neg hv]
  · exact C100_index toy toy_laws logFS _ demoRT demoRT_ok (by
      intro r hr v hv
      simp only [demoRT, List.mem_cons, List.not_mem_nil, or_false] at hr
      have key : ∀ r ∈ demoRT, ((firstValue (b! "Content-Length") r.1.headers).all fun v => (pyInt 10 v).isSome) = true := by decide +kernel
      have := key r (by simpa [demoRT] using hr)
      rw [hv] at this
      simpa using this) _ _ log_foreign log_holds

/-- a page has an empty index -/
example : ∃ z : Bool, WarcIndex.main toy logFS [b! "page.html"] [] =
    .ok () (b! "#WARC filename offset warc-type warc-subject-uri warc-record-id content-type content-length\n" ++
      (positions 0 []).flatMap fun p => indexLine (b! "page.html") (reportedAt z p.1) p.2) :=
  C100_index toy toy_laws logFS _ [] (by simp [OkT]) (by simp) _ _ html_foreign page_holds

end Warc
