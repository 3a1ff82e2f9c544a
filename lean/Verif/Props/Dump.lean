import Verif.Proofs.Dump
import Verif.Props.Terminates
import Verif.Props.Index
/-
  C66: record.dump and warcdump.
-/
set_option linter.all false
namespace Warc
open Rx Stream Spec

/-- `collect` hangs only if reading some record does -/
theorem collect_hang (offs : Bool) (fuel : Nat) (s : Stream) (hf : s.fh.rest.length < fuel) (h : (collect offs fuel s).fin = .hangs) :
    ∃ s', After s s' ∧ readRecord offs s' = .hang := by
  induction fuel generalizing s with
  | zero => omega
  | succ fuel ih =>
    simp only [collect] at h
    cases hq : readRecord offs s with
    | hang => exact ⟨s, After.refl _, hq⟩
    | raise e s1 => simp [hq] at h
    | ok e s1 =>
      simp only [hq] at h
      cases hr : e.rcd with
      | none => simp [hr] at h
      | some r =>
        simp only [hr] at h
        obtain ⟨ha, hlt⟩ := readRecord_uses _ _ _ _ _ hq hr
        have hw := World.fwd_content ⟨s1, r, []⟩
        cases hx : World.content ⟨s1, r, []⟩ with
        | hang => exact absurd hx (World.calm_content _)
        | raise e2 w => simp [hx] at h
        | ok c w =>
          simp only [hx] at h hw
          have hle := After.rest hw
          obtain ⟨s', h1, h2⟩ := ih w.strm (by omega) h
          exact ⟨s', After.trans ha (After.trans hw h1), h2⟩

theorem collect_fuel (offs : Bool) (fuel fuel' : Nat) (s : Stream) (hf : s.fh.rest.length < fuel) (hf' : s.fh.rest.length < fuel') :
    collect offs fuel s = collect offs fuel' s := by
  induction fuel generalizing fuel' s with
  | zero => omega
  | succ fuel ih =>
    obtain ⟨k, rfl⟩ : ∃ k, fuel' = k + 1 := ⟨fuel' - 1, by omega⟩
    simp only [collect]
    cases hq : readRecord offs s with
    | hang => rfl
    | raise e s1 => rfl
    | ok e s1 =>
      simp only
      cases hr : e.rcd with
      | none => rfl
      | some r =>
        simp only
        obtain ⟨ha, hlt⟩ := readRecord_uses _ _ _ _ _ hq hr
        have hw := World.fwd_content ⟨s1, r, []⟩
        cases hx : World.content ⟨s1, r, []⟩ with
        | hang => rfl
        | raise e2 w => rfl
        | ok c w =>
          simp only [hx] at hw
          have hle := After.rest hw
          simp only [ih k w.strm (by omega) (by omega)]

/-- reading a well formed archive, record by record -/
theorem collect_archiveT (offs : Bool) (fuel : Nat) (s : Stream) (rs : List RT) (hk : s.kind ≠ .gzipFile) (he : s.eoc = none)
    (hf : s.fh.fault = none) (hok : OkT rs) (hm : ∀ r ∈ rs, WarcMode s (r.1.version ++ CRLF)) (hr : s.fh.rest = archiveT rs)
    (hfuel : rs.length < fuel) :
    collect offs fuel s =
      ⟨(positions s.fh.pos rs).map fun p => ⟨reported s.kind offs p.1, p.2.version, p.2.headers, [],
          (firstValue (b! "Content-Type") p.2.headers, some p.2.body)⟩,
       some ⟨reported s.kind offs (s.fh.pos + (archiveT rs).length), none, []⟩, .done⟩ := by
  induction rs generalizing fuel s with
  | nil =>
    obtain ⟨fuel, rfl⟩ : ∃ k, fuel = k + 1 := ⟨fuel - 1, by omega⟩
    simp only [collect, readRecord_eof offs s hk he hf hr]
    simp [positions, archiveT]
  | cons r rs ih =>
    obtain ⟨fuel, rfl⟩ : ∃ k, fuel = k + 1 := ⟨fuel - 1, by simp at hfuel; omega⟩
    have hr' : s.fh.rest = r.1.core ++ r.2 ++ archiveT rs := by rw [hr]; simp [archiveT]
    have hhead := readRecord_head offs [] r.1.version r.1.headers (r.1.body ++ r.2 ++ archiveT rs) s hk he
      ⟨by simp, Or.inl rfl⟩ (hok r (by simp)).1.version (hok r (by simp)).1.headers (hm r (by simp)) (by rw [hr']; simp [R.core])
    rw [(hok r (by simp)).1.length] at hhead
    simp only [List.length_nil, Nat.zero_add, Nat.add_zero] at hhead
    have hrest : (s.adv (headBytes r.1.version r.1.headers).length).fh.rest = r.1.body ++ (r.2 ++ archiveT rs) := by
      rw [adv_fh, File.advance_rest, hr']; simp [R.core]
    rw [collect_step offs fuel s _ _ _ r.1.body r.2 (archiveT rs) hhead rfl rfl rfl (hok r (by simp)).2 hrest]
    have e : { ({ s.adv (headBytes r.1.version r.1.headers).length with eoc := some (r.1.body.length : Int) } : Stream).adv
        (r.1.body.length + r.2.length) with eoc := none } = s.adv (r.1.core ++ r.2).length := by
      obtain ⟨fh, eoc, kind, parser⟩ := s
      simp at he; subst he
      simp only [adv, R.core, List.length_append, File.advance_advance, Nat.add_assoc]
    rw [e]
    have := ih fuel (s.adv (r.1.core ++ r.2).length) hk he hf (fun x hx => hok x (by simp [hx]))
      (fun x hx => hm x (by simp [hx])) (by rw [adv_fh, File.advance_rest, hr', List.drop_left]) (by simp at hfuel; omega)
    rw [this]
    have hA : archiveT (r :: rs) = (r.1.core ++ r.2) ++ archiveT rs := by simp [archiveT]
    have hpos : (s.adv (r.1.core ++ r.2).length).fh.pos = s.fh.pos + (r.1.core ++ r.2).length := rfl
    have hkind : (s.adv (r.1.core ++ r.2).length).kind = s.kind := rfl
    simp only [positions, List.map_cons, parsed, hA, List.length_append (as := r.1.core ++ r.2), hpos, hkind, Nat.add_assoc]
    rfl

theorem scanAll_stored (z : Bool) (s : Stream) (rs : List RT) (hf : Fresh s z rs) (hok : OkT rs) :
    scanAll s = ⟨(positions 0 rs).map (gotAt z), some ⟨reportedAt z (archiveT rs).length, none, []⟩, .done⟩ := by
  have hk : s.kind ≠ .gzipFile := by rw [hf.kind]; cases z <;> simp
  have hlen := Tool.archiveT_length rs
  have hrl : s.fh.rest.length = (archiveT rs).length := by rw [hf.rest]
  have hrep : ∀ p, reported s.kind true p = reportedAt z p := by
    intro p; rw [hf.kind]; cases z <;> rfl
  rw [scanAll, collect_archiveT true _ s rs hk hf.eoc hf.fault hok (fun _ _ => Or.inl hf.parser) hf.rest (by omega), hf.pos]
  simp only [hrep, Nat.zero_add]
  rfl

/-- **C66** For any file that can be opened, whatever its bytes: `warcdump` prints one block per record that reading gives, in
order; it gives up (with the exception of the specification) at the first record without Content-Type or with
errors; otherwise it ends as the reading ends: with the note or the errors at the end of the file, with the exception that
reading raised, or never. -/
theorem C66_file (c : Codec) (fs : FS) (name : Bytes) (s : Stream) (h : openName c fs .warc none name = .ok s) :
    match dumpBlocks name (scanAll s).records with
    | (text, some ex) => WarcDump.main c fs [name] [] = .raise ex text
    | (text, none) => match (scanAll s).fin with
      | .done => ∃ l, (scanAll s).last = some l ∧ WarcDump.main c fs [name] [] = .ok () (text ++ tailNote name l)
      | .raised ex => ∃ more, WarcDump.main c fs [name] [] = .raise ex (text ++ more) ∧
          (more = [] ∨ ∃ g, more = dumpHead name g)
      | .hangs => WarcDump.main c fs [name] [] = .hang := by
  have hd := dump_loop name (s.fh.rest.length + 2) s [] (openName_warc c fs name s none h).1
  have hmain : WarcDump.main c fs [name] [] =
      match Stream.forRecords Tool.onStream true (WarcDump.entry name) (s.fh.rest.length + 2) none ⟨s, []⟩ with
      | .ok () t => .ok () t.out
      | .raise e t => .raise e t.out
      | .hang => .hang := by
    simp only [WarcDump.main, forFiles, M.bind_apply, onArchive, h, WarcDump.dumpArchive, Tool.rounds]
    cases Stream.forRecords Tool.onStream true (WarcDump.entry name) (s.fh.rest.length + 2) none ⟨s, []⟩ <;> rfl
  rw [hmain]
  simp only [List.nil_append] at hd
  unfold scanAll
  cases hb : dumpBlocks name (collect true (s.fh.rest.length + 2) s).records with
  | mk text ex =>
    simp only [hb] at hd
    cases ex with
    | some ex =>
      obtain ⟨t, h1, h2⟩ := hd
      simp only [h1, h2]
    | none =>
      simp only at hd ⊢
      cases hfin : (collect true (s.fh.rest.length + 2) s).fin with
      | done =>
        simp only [hfin] at hd ⊢
        obtain ⟨l, t, h1, h2, h3⟩ := hd
        exact ⟨l, h1, by simp only [h2, h3]⟩
      | raised ex =>
        simp only [hfin] at hd ⊢
        obtain ⟨t, more, h1, h2, h3⟩ := hd
        exact ⟨more, by simp only [h1, h2], h3⟩
      | hangs =>
        simp only [hfin] at hd ⊢
        simp only [hd]

theorem onArchive_dump (c : Codec) (fs : FS) (name out : Bytes) (s : Stream) (gs : List Got) (fin : End) (last : Option Entry)
    (h : openName c fs .warc none name = .ok s) (hq : scanAll s = ⟨gs, last, fin⟩) :
    match (dumpBlocks name gs).2, fin with
    | some ex, _ => onArchive c fs .warc none name (WarcDump.dumpArchive name) out = .raise ex (out ++ (dumpBlocks name gs).1)
    | none, .done => ∃ l, last = some l ∧
        onArchive c fs .warc none name (WarcDump.dumpArchive name) out = .ok () (out ++ ((dumpBlocks name gs).1 ++ tailNote name l))
    | none, _ => True := by
  have hd := dump_loop name (s.fh.rest.length + 2) s out (openName_warc c fs name s none h).1
  rw [show collect true (s.fh.rest.length + 2) s = ⟨gs, last, fin⟩ from hq] at hd
  simp only at hd
  simp only [onArchive, h, WarcDump.dumpArchive, Tool.rounds]
  cases hb : (dumpBlocks name gs).2 with
  | some ex =>
    simp only [hb] at hd
    obtain ⟨t, h1, h2⟩ := hd
    simp only [h1, h2]
  | none =>
    cases fin with
    | done =>
      simp only [hb] at hd
      obtain ⟨l, t, h1, h2, h3⟩ := hd
      exact ⟨l, h1, by simp only [h2, h3, List.append_assoc]⟩
    | raised ex => trivial
    | hangs => trivial

/-- all blocks are printed completely -/
theorem dumpBlocks_fine (name : Bytes) (gs : List Got) (h : ∀ g ∈ gs, Showable g) :
    dumpBlocks name gs = (gs.flatMap fun g => (dumpBlock name g).1, none) := by
  induction gs with
  | nil => rfl
  | cons g gs ih =>
    have : (dumpBlock name g).2 = none := by
      obtain ⟨h1, h2⟩ := h g (by simp)
      obtain ⟨t, ht⟩ := Option.ne_none_iff_exists'.1 h1
      simp [dumpBlock, ht, h2]
    simp only [dumpBlocks, this, ih (fun x hx => h x (by simp [hx])), List.flatMap_cons]

/-- the blocks up to the first record that cannot be shown -/
theorem dumpBlocks_bad (name : Bytes) (gs : List Got) (g : Got) (gs' : List Got) (h : ∀ x ∈ gs, Showable x) (hg : ¬ Showable g) :
    ∃ ex, (dumpBlock name g).2 = some ex ∧
      dumpBlocks name (gs ++ g :: gs') = ((gs.flatMap fun g => (dumpBlock name g).1) ++ (dumpBlock name g).1, some ex) := by
  have : ∃ ex, (dumpBlock name g).2 = some ex := by
    cases ht : firstValue (b! "Content-Type") g.headers with
    | none => exact ⟨.attributeError, by simp [dumpBlock, ht]⟩
    | some t =>
      by_cases he : g.errors = []
      · exact absurd ⟨by simp [ht], he⟩ hg
      · exact ⟨.typeError, by simp [dumpBlock, ht, he]⟩
  obtain ⟨ex, hex⟩ := this
  refine ⟨ex, hex, ?_⟩
  induction gs with
  | nil => simp [dumpBlocks, hex]
  | cons x xs ih =>
    have : (dumpBlock name x).2 = none := by
      obtain ⟨h1, h2⟩ := h x (by simp)
      obtain ⟨t, ht⟩ := Option.ne_none_iff_exists'.1 h1
      simp [dumpBlock, ht, h2]
    simp only [List.cons_append, dumpBlocks, this, ih (fun y hy => h y (by simp [hy])), List.flatMap_cons, List.append_assoc]

/-- **C66** Files that can be read to their end and whose records all have a Content-Type and no errors: the output is, file
by file, one block per record and the note about the end of the file. -/
theorem C66_files (c : Codec) (fs : FS) (files : List (Bytes × List Got × Entry)) (h : ∀ f ∈ files, Scans c fs f.1 f.2.1 f.2.2)
    (hs : ∀ f ∈ files, ∀ g ∈ f.2.1, Showable g) :
    WarcDump.main c fs (files.map Prod.fst) [] =
      .ok () (files.flatMap fun f => (f.2.1.flatMap fun g => (dumpBlock f.1 g).1) ++ tailNote f.1 f.2.2) := by
  have := forFiles_ok (fun name => onArchive c fs .warc none name (WarcDump.dumpArchive name)) Prod.fst
    (fun f => (f.2.1.flatMap fun g => (dumpBlock f.1 g).1) ++ tailNote f.1 f.2.2) files [] ?_
  · simpa [WarcDump.main] using this
  · intro f hf out
    obtain ⟨s, ho, hq⟩ := h f hf
    have := onArchive_dump c fs f.1 out s _ _ _ ho hq
    rw [dumpBlocks_fine f.1 f.2.1 (hs f hf)] at this
    obtain ⟨l, h1, h2⟩ := this
    simp only [Option.some.injEq] at h1
    rw [h1]
    exact h2

/-- **C66 (defect)** The first record without Content-Type, or with errors, ends the run: the blocks before it, a part of its own
block, an exception; the rest of the file and the other files are not shown. -/
theorem C66_stops (c : Codec) (fs : FS) (files : List (Bytes × List Got × Entry)) (h : ∀ f ∈ files, Scans c fs f.1 f.2.1 f.2.2)
    (hs : ∀ f ∈ files, ∀ g ∈ f.2.1, Showable g) (name : Bytes) (s : Stream) (ho : openName c fs .warc none name = .ok s)
    (gs : List Got) (g : Got) (gs' : List Got) (hq : (scanAll s).records = gs ++ g :: gs') (hgs : ∀ x ∈ gs, Showable x)
    (hg : ¬ Showable g) (names : List Bytes) :
    ∃ ex, (dumpBlock name g).2 = some ex ∧ WarcDump.main c fs (files.map Prod.fst ++ name :: names) [] =
      .raise ex ((files.flatMap fun f => (f.2.1.flatMap fun g => (dumpBlock f.1 g).1) ++ tailNote f.1 f.2.2) ++
        (gs.flatMap fun g => (dumpBlock name g).1) ++ (dumpBlock name g).1) := by
  obtain ⟨ex, hex, hb⟩ := dumpBlocks_bad name gs g gs' hgs hg
  refine ⟨ex, hex, ?_⟩
  have := forFiles_raise (fun name => onArchive c fs .warc none name (WarcDump.dumpArchive name)) Prod.fst
    (fun f => (f.2.1.flatMap fun g => (dumpBlock f.1 g).1) ++ tailNote f.1 f.2.2) files names name [] 
    ((gs.flatMap fun g => (dumpBlock name g).1) ++ (dumpBlock name g).1) ex ?_ ?_
  · rw [List.append_assoc]; simpa [WarcDump.main] using this
  · intro f hf out
    obtain ⟨s, ho, hq⟩ := h f hf
    have := onArchive_dump c fs f.1 out s _ _ _ ho hq
    rw [dumpBlocks_fine f.1 f.2.1 (hs f hf)] at this
    obtain ⟨l, h1, h2⟩ := this
    simp only [Option.some.injEq] at h1
    rw [h1]
    exact h2
  · intro out
    have hq' : scanAll s = ⟨gs ++ g :: gs', (scanAll s).last, (scanAll s).fin⟩ := by rw [← hq]
    have := onArchive_dump c fs name out s _ _ _ ho hq'
    rw [hb] at this
    simpa using this

/-- **C66** files of well formed records, compressed or not -/
theorem C66_archives (c : Codec) (hc : Codec.Laws c) (fs : FS) (files : List StoredFile) (h : AllStored c fs files)
    (hs : ∀ f ∈ files, ∀ r ∈ f.records, firstValue (b! "Content-Type") r.1.headers ≠ none) :
    WarcDump.main c fs (files.map StoredFile.name) [] =
      .ok () (files.flatMap fun f => ((positions 0 f.records).flatMap fun p => (dumpBlock f.name (gotAt f.compressed p)).1) ++
        b! "\nnote: no errors encountered in tail of file\n") := by
  have hscan : ∀ f ∈ files, Scans c fs f.name ((positions 0 f.records).map (gotAt f.compressed))
      ⟨reportedAt f.compressed (archiveT f.records).length, none, []⟩ := by
    intro f hf
    obtain ⟨s, ho, hfr⟩ := open_stored c hc fs _ _ _ (h f hf)
    exact ⟨s, ho, scanAll_stored f.compressed s f.records hfr (h f hf).1⟩
  have := C66_files c fs (files.map fun f => (f.name, (positions 0 f.records).map (gotAt f.compressed),
      ⟨reportedAt f.compressed (archiveT f.records).length, none, []⟩)) ?_ ?_
  · simp only [List.map_map, List.flatMap_map] at this
    exact this
  · intro x hx
    obtain ⟨f, hf, rfl⟩ := List.mem_map.1 hx
    exact hscan f hf
  · intro x hx g hg
    obtain ⟨f, hf, rfl⟩ := List.mem_map.1 hx
    obtain ⟨p, hp, rfl⟩ := List.mem_map.1 hg
    refine ⟨?_, rfl⟩
    have hmem : ∀ (rs : List RT) (pos : Nat) (p : Nat × R), p ∈ positions pos rs → ∃ r ∈ rs, r.1 = p.2 := by
      intro rs
      induction rs with
      | nil => intro pos p hp; simp [positions] at hp
      | cons r rs ih =>
        intro pos p hp
        rcases List.mem_cons.1 hp with rfl | hp
        · exact ⟨r, by simp, rfl⟩
        · obtain ⟨r', h1, h2⟩ := ih _ _ hp
          exact ⟨r', by simp [h1], h2⟩
    obtain ⟨r, hr, hr2⟩ := hmem _ _ _ hp
    have := hs f hf r hr
    rw [hr2] at this
    exact this

/-- **C66** `warcdump` ends, unless one of the files has a stuck header block -/
theorem C66_terminates (c : Codec) (fs : FS) (names : List Bytes) (out : Bytes)
    (h : ∀ name ∈ names, ∀ s, openName c fs .warc none name = .ok s → ¬ StuckData s.fh.data) :
    WarcDump.main c fs names out ≠ .hang := by
  apply forFiles_no_hang
  intro name hn out
  apply onArchive_no_hang
  intro s out ho hh
  have hd := dump_loop name (s.fh.rest.length + 2) s out (openName_warc c fs name s none ho).1
  simp only [WarcDump.dumpArchive, Tool.rounds] at hh
  simp only [hh] at hd
  cases hb : (dumpBlocks name (collect true (s.fh.rest.length + 2) s).records).2 with
  | some ex => simp [hb] at hd
  | none =>
    cases hfin : (collect true (s.fh.rest.length + 2) s).fin with
    | done => simp [hb, hfin] at hd
    | raised ex => simp [hb, hfin] at hd
    | hangs =>
      obtain ⟨s', h1, h2⟩ := collect_hang true _ s (by omega) hfin
      exact h1.stuck (h name hn s ho) _ h2

theorem hexNumber_plain (b : Byte) : (∀ x ∈ hexNumber b, PlainByte x) ∧ (hexNumber b).length ≤ 2 := by
  have key : ∀ n : Fin 256, (∀ x ∈ hexNumber (UInt8.ofNat n.val), PlainByte x) ∧ (hexNumber (UInt8.ofNat n.val)).length ≤ 2 := by
    decide +kernel
  simpa using key ⟨b.toNat, b.toNat_lt⟩

/-- **C66** The content shown for a record never contains a control character, a line end or a byte outside ASCII, it has at
most 4096 characters, it depends only on the first 1024 bytes, and a content of up to 1024 plain characters is shown
as it is. -/
theorem C66_preview (content : Bytes) :
    (∀ x ∈ preview content, PlainByte x) ∧ (preview content).length ≤ 4 * 1024 ∧
    (∀ more, 1024 ≤ content.length → preview (content ++ more) = preview content) ∧
    ((∀ x ∈ content, PlainByte x) → content.length ≤ 1024 → preview content = content) := by
  refine ⟨?_, ?_, ?_, ?_⟩
  · intro x hx
    simp only [preview, List.mem_flatMap] at hx
    obtain ⟨b, _, hx⟩ := hx
    by_cases hb : PlainByte b
    · rw [if_pos hb] at hx
      simp only [List.mem_singleton] at hx
      rw [hx]; exact hb
    · rw [if_neg hb] at hx
      rcases List.mem_append.1 hx with hx | hx
      · exact (by decide : ∀ x ∈ b! "\\x", PlainByte x) x hx
      · exact (hexNumber_plain b).1 x hx
  · have key : ∀ l : Bytes, (l.flatMap fun b => if PlainByte b then [b] else b! "\\x" ++ hexNumber b).length ≤ 4 * l.length := by
      intro l
      induction l with
      | nil => simp
      | cons b l ih =>
        have := (hexNumber_plain b).2
        simp only [List.flatMap_cons, List.length_append, List.length_cons]
        by_cases hb : PlainByte b
        · simp only [hb, if_true, List.length_singleton]; omega
        · simp only [hb, if_false, List.length_append, List.length_cons, List.length_nil]; omega
    refine Nat.le_trans (key _) ?_
    simp only [List.length_take]; omega
  · intro more hl
    simp only [preview, List.take_append_of_le_length hl]
  · intro hp hl
    simp only [preview, List.take_of_length_le hl]
    clear hl
    induction content with
    | nil => rfl
    | cons b l ih =>
      simp only [List.flatMap_cons, if_pos (hp b (by simp)), ih (fun x hx => hp x (by simp [hx]))]
      rfl

/-- **C66 (defect)** What is shown does not tell the content: the number of an escaped byte is not padded and the backslash is
not escaped. -/
theorem C66_ambiguous : preview [0x01, 0x32] = preview [0x12] ∧ preview [0x01] = preview (b! "\\x1") := by decide +kernel

/-- **C66** `record.dump(content=False)` prints the headers and leaves the record and its stream untouched; it raises TypeError
if the record has errors. -/
theorem C66_headers_only (s : Stream) (r : Rec) (out : Bytes) :
    World.dump false ⟨s, r, out⟩ =
      (let text := b! "Headers:\n" ++ (r.headers.flatMap fun h => b! "\t" ++ h.1 ++ b! ":" ++ h.2 ++ b! "\n") ++ b! "Content: none\n\n\n"
       if r.errors = [] then .ok () ⟨s, r, out ++ text⟩ else .raise .typeError ⟨s, r, out ++ text ++ b! "Errors:\n"⟩) := by
  by_cases he : r.errors = []
  · simp [World.dump, World.print, World.write, printHeaders_eq, he]
  · simp [World.dump, World.print, World.write, printHeaders_eq, he]

/-- two blocks, and one that is cut short -/
example :
    (dumpBlock (b! "a.warc") ⟨some 138, b! "WARC/1.0", [(b! "Content-Type", b! "text/plain"), (b! "Content-Length", b! "5")], [],
      (some (b! "text/plain"), some (b! "a<b>\n"))⟩) =
      (b! "archive record at a.warc:138\nHeaders:\n\tContent-Type:text/plain\n\tContent-Length:5\nContent Headers:\n\tContent-Type : text/plain\n\tContent-Length : 5\nContent:\n\ta\\x3Cb\\x3E\\xA\n\t...\n\n", none) ∧
    (dumpBlock (b! "b.warc.gz") ⟨none, b! "WARC/1.0", [(b! "Content-Length", b! "5")], [], (none, some (b! "a<b>\n"))⟩) =
      (b! "archive record at b.warc.gz:None\nHeaders:\n\tContent-Length:5\nContent Headers:\n", some .attributeError) := by
  decide +kernel

/-- a file of two records, of which the second has no Content-Type -/
example : ∃ text, WarcDump.main toy demoFS [b! "a.warc"] [] = .raise .attributeError text := by
  obtain ⟨s, ho, hf⟩ := open_stored toy toy_laws demoFS _ _ _ demo_plain
  have hsc := scanAll_stored false s demoRT hf demoRT_ok
  obtain ⟨ex, h1, h2⟩ := C66_stops toy demoFS [] (by simp) (by simp) (b! "a.warc") s ho
    [gotAt false (0, demo1.R)] (gotAt false (138, demo2.R)) [] (by rw [hsc]; decide +kernel)
    (by intro x hx; simp only [List.mem_singleton] at hx; subst hx; exact ⟨by decide +kernel, rfl⟩)
    (by intro hx; exact hx.1 (by decide +kernel)) []
  have h3 : (dumpBlock (b! "a.warc") (gotAt false (138, demo2.R))).2 = some .attributeError := by decide +kernel
  rw [h1] at h3
  simp only [Option.some.injEq] at h3
  subst h3
  exact ⟨_, h2⟩

/-! ### the lines shown in error lists -/

theorem literal_byte (q c : Byte) (hq : q = 39 ∨ q = 34) {t b : Bytes} (h : Literal q t b) :
    Literal q (Http.reprByte q c ++ t) (c :: b) := by
  by_cases h1 : c = q
  · subst h1
    rw [show Http.reprByte c c = [92, c] by simp [Http.reprByte]]
    exact .quote h
  by_cases h2 : c = 92
  · subst h2
    rw [show Http.reprByte q 92 = [92, 92] by simp [Http.reprByte]]
    exact .backslash h
  by_cases h3 : c = 9
  · subst h3
    rw [show Http.reprByte q 9 = [92, 116] by simp [Http.reprByte, h1]]
    exact .tab h
  by_cases h4 : c = 10
  · subst h4
    rw [show Http.reprByte q 10 = [92, 110] by simp [Http.reprByte, h1]]
    exact .newline h
  by_cases h5 : c = 13
  · subst h5
    rw [show Http.reprByte q 13 = [92, 114] by simp [Http.reprByte, h1]]
    exact .ret h
  by_cases h6 : c < 32 ∨ 127 ≤ c
  · have hl : ∀ n, n < 16 → LowerHex (if n < 10 then UInt8.ofNat (48 + n) else UInt8.ofNat (87 + n)) n := by
      intro n hn
      refine ⟨hn, ?_⟩
      revert hn; revert n
      decide
    have hc := c.toNat_lt
    have := Literal.hex (q := q) _ _ (c.toNat / 16) (c.toNat % 16) (hl _ (by omega)) (hl _ (by omega)) h
    rw [show 16 * (c.toNat / 16) + c.toNat % 16 = c.toNat by omega, UInt8.ofNat_toNat] at this
    simp only [Http.reprByte, h1, h2, h3, h4, h5, h6, or_self, if_false, if_true]
    exact this
  · simp only [Http.reprByte, h1, h2, h3, h4, h5, h6, or_self, if_false]
    simp only [not_or, UInt8.not_lt, UInt8.not_le] at h6
    exact .char c h1 h2 h6.1 h6.2 h

theorem literal_repr (q : Byte) (hq : q = 39 ∨ q = 34) (b : Bytes) : Literal q (b.flatMap (Http.reprByte q)) b := by
  induction b with
  | nil => exact .nil
  | cons c b ih => rw [List.flatMap_cons]; exact literal_byte q c hq ih

theorem literal_plain {q : Byte} (hq : q = 39 ∨ q = 34) {t b : Bytes} (h : Literal q t b) : ∀ x ∈ t, 32 ≤ x ∧ x < 127 := by
  have hd : ∀ d n, LowerHex d n → 32 ≤ d ∧ d < 127 := by
    rintro d n ⟨h1, h2⟩
    have hm := List.mem_of_getElem? h2
    clear h2
    revert hm; revert d
    decide
  induction h with
  | nil => simp
  | char c h1 h2 h3 h4 _ ih =>
    intro x hx
    rcases List.mem_cons.1 hx with rfl | hx
    · exact ⟨h3, h4⟩
    · exact ih x hx
  | quote _ ih =>
    intro x hx; simp only [List.mem_cons] at hx
    rcases hx with rfl | rfl | hx
    · decide
    · rcases hq with rfl | rfl <;> decide
    · exact ih x hx
  | hex d e m n h1 h2 _ ih =>
    intro x hx; simp only [List.mem_cons] at hx
    rcases hx with rfl | rfl | rfl | rfl | hx
    · decide
    · decide
    · exact hd _ _ h1
    · exact hd _ _ h2
    · exact ih x hx
  | _ _ ih =>
    intro x hx; simp only [List.mem_cons] at hx
    rcases hx with rfl | rfl | hx
    · decide
    · decide
    · exact ih x hx

theorem lowerHex_unique {d : Byte} {m n : Nat} (h1 : LowerHex d m) (h2 : LowerHex d n) : m = n := by
  obtain ⟨h1, h3⟩ := h1
  obtain ⟨h2, h4⟩ := h2
  rw [← h3] at h4
  clear h3
  revert h4
  have : ∀ n, n < 16 → ∀ m, m < 16 → (b! "0123456789abcdef")[n]? = (b! "0123456789abcdef")[m]? → m = n := by decide
  exact this n h2 m h1

theorem literal_unique {q : Byte} (hq : q = 39 ∨ q = 34) {t b b' : Bytes} (h : Literal q t b) (h' : Literal q t b') : b = b' := by
  induction h generalizing b' with
  | nil => cases h'; rfl
  | char c h1 h2 h3 h4 _ ih =>
    cases h' with
    | char _ _ _ _ _ h => rw [ih h]
    | _ => exact absurd rfl h2
  | quote _ ih =>
    rcases hq with rfl | rfl
    all_goals
      cases h' with
      | char _ _ h2 => exact absurd rfl h2
      | quote h => rw [ih h]
  | backslash _ ih =>
    cases h' with
    | char _ _ h2 => exact absurd rfl h2
    | quote h => rcases hq with h | h <;> cases h
    | backslash h => rw [ih h]
  | tab _ ih =>
    cases h' with
    | char _ _ h2 => exact absurd rfl h2
    | quote h => rcases hq with h | h <;> cases h
    | tab h => rw [ih h]
  | newline _ ih =>
    cases h' with
    | char _ _ h2 => exact absurd rfl h2
    | quote h => rcases hq with h | h <;> cases h
    | newline h => rw [ih h]
  | ret _ ih =>
    cases h' with
    | char _ _ h2 => exact absurd rfl h2
    | quote h => rcases hq with h | h <;> cases h
    | ret h => rw [ih h]
  | hex d e m n h1 h2 _ ih =>
    cases h' with
    | char _ _ h2 => exact absurd rfl h2
    | quote h => rcases hq with h | h <;> cases h
    | hex _ _ m' n' h3 h4 h =>
      rw [ih h, lowerHex_unique h1 h3, lowerHex_unique h2 h4]

/-- **C66** The lines shown in the lists of errors (and wherever `repr` of bytes is shown) are literals of printable characters
between quotes, and they tell the bytes exactly. -/
theorem C66_lines_shown (b : Bytes) :
    ∃ q t, (q = 39 ∨ q = 34) ∧ Http.reprBytes b = 98 :: q :: t ++ [q] ∧ (∀ x ∈ t, 32 ≤ x ∧ x < 127) ∧
      ∀ b', Literal q t b' ↔ b' = b := by
  have hq : (if (b.contains 39 && !b.contains 34) = true then (34 : Byte) else 39) = 39 ∨
      (if (b.contains 39 && !b.contains 34) = true then (34 : Byte) else 39) = 34 := by
    cases (b.contains 39 && !b.contains 34)
    · exact Or.inl rfl
    · exact Or.inr rfl
  exact ⟨_, _, hq, rfl, literal_plain hq (literal_repr _ hq b),
    fun b' => ⟨fun h => literal_unique hq h (literal_repr _ hq b), fun h => h ▸ literal_repr _ hq b⟩⟩

example : Http.reprBytes (b! "it's\n\x7f") = b! "b\"it's\\n\\x7f\"" := by rfl

end Warc
