import Verif.Proofs.Extend
import Verif.Spec.Damage
import Verif.Props.Dump
/-
  **C67** Damaged compressed archives are never taken for complete ones, and lose nothing before the damage.
-/
set_option linter.all false
namespace Warc
open Rx Stream Spec

theorem content_like {more : Bytes} {g : Option Exc} {e : Exc} {s : Stream} (hb : Bad e s) (r : Rec) (hr1 : r.content = none) (hr2 : r.cfile = .stream) :
    match World.content ⟨s, r, []⟩ with
    | .ok c w => Bad e w.strm ∧ w.strm.fh.rest.length ≤ s.fh.rest.length ∧
        ∃ w', World.content ⟨ext more g s, r, []⟩ = .ok c w' ∧ w'.strm = ext more g w.strm
    | .raise e' _ => e' = e ∨ ∃ t, World.content ⟨ext more g s, r, []⟩ = .raise e' t
    | .hang => World.content ⟨ext more g s, r, []⟩ = .hang := by
  have h : Like more g e s (Stream.read none) (Stream.read none) := like_read hb none
  simp only [Like] at h
  simp only [World.content, hr1, World.cfileRead, hr2, World.onStream]
  cases hq : Stream.read none s with
  | hang => simp only [hq] at h; simp only [h]
  | raise e' s1 =>
    simp only [hq] at h
    simp only
    rcases h with h | ⟨t, h⟩
    · exact Or.inl h
    · exact Or.inr ⟨World.clearCfile ⟨t, r, []⟩, by simp only [h]⟩
  | ok a s1 =>
    simp only [hq] at h
    simp only [h.1]
    exact ⟨h.2.1, h.2.2, _, rfl, rfl⟩

theorem collect_like {more : Bytes} {g : Option Exc} {e : Exc} (offs : Bool) (n m : Nat) (s : Stream) (hb : Bad e s)
    (hn : s.fh.rest.length < n) (hm : (ext more g s).fh.rest.length < m) :
    collect offs n s = collect offs m (ext more g s) ∨ StoppedBy e (collect offs n s) (collect offs m (ext more g s)) := by
  induction n generalizing m s with
  | zero => omega
  | succ n ih =>
    obtain ⟨m, rfl⟩ : ∃ k, m = k + 1 := ⟨m - 1, by omega⟩
    have hl : Like more g e s (readRecord offs) (readRecord offs) := like_readRecord offs hb
    simp only [Like] at hl
    simp only [collect]
    cases hq : readRecord offs s with
    | hang => simp only [hq] at hl; simp only [hl]; exact Or.inl trivial
    | raise e' s1 =>
      simp only [hq] at hl
      rcases hl with rfl | ⟨t, h⟩
      · exact Or.inr ⟨by simp, rfl, rfl⟩
      · simp only [h]; exact Or.inl trivial
    | ok en s1 =>
      simp only [hq] at hl
      obtain ⟨h1, h2, h3⟩ := hl
      simp only [h1]
      cases hr : en.rcd with
      | none => exact Or.inl rfl
      | some r =>
        obtain ⟨s0, off, line, s2, off', _, _, _, _, _, _, _, _, _, hparse, _⟩ := readRecord_inv offs s s1 en hq
        obtain ⟨ho1, ho2⟩ := gives_parseWith _ _ _ _ _ r hparse hr
        have huse := readRecord_uses offs s s1 en r hq hr
        have huse' := readRecord_uses offs _ _ en r h1 hr
        have hc := content_like (more := more) (g := g) h2 r ho1 ho2
        simp only
        cases hx : World.content ⟨s1, r, []⟩ with
        | hang => simp only [hx] at hc; simp only [hc]; exact Or.inl trivial
        | raise e' w =>
          simp only [hx] at hc
          rcases hc with rfl | ⟨t, h⟩
          · exact Or.inr ⟨by simp, rfl, rfl⟩
          · simp only [h]; exact Or.inl trivial
        | ok c w =>
          simp only [hx] at hc
          obtain ⟨c1, c2, w', c3, c4⟩ := hc
          simp only [c3, c4]
          have hw : (ext more g w.strm).fh.rest.length ≤ (ext more g s1).fh.rest.length := by
            rw [ext_rest c1, ext_rest h2]; simp only [List.length_append]; omega
          rcases ih m w.strm c1 (by omega) (by omega) with h | h
          · left; rw [h]
          · right
            exact ⟨by simpa using h.records, h.fin, h.last⟩

/-- the entry that ends the reading of a damaged file carries errors -/
theorem collect_bad {e : Exc} (offs : Bool) (n : Nat) (s : Stream) (hb : Bad e s) (l : Entry) (h : (collect offs n s).last = some l) :
    l.errors ≠ [] := by
  induction n generalizing s with
  | zero => simp [collect] at h
  | succ n ih =>
    have hl : Like [] none e s (readRecord offs) (readRecord offs) := like_readRecord offs hb
    simp only [Like] at hl
    simp only [collect] at h
    cases hq : readRecord offs s with
    | hang => simp [hq] at h
    | raise e' s1 => simp [hq] at h
    | ok en s1 =>
      simp only [hq] at hl h
      cases hr : en.rcd with
      | none => simp only [hr] at h; cases h; exact readRecord_bad offs hb hq hr
      | some r =>
        simp only [hr] at h
        obtain ⟨s0, off, line, s2, off', _, _, _, _, _, _, _, _, _, hparse, _⟩ := readRecord_inv offs s s1 en hq
        obtain ⟨ho1, ho2⟩ := gives_parseWith _ _ _ _ _ r hparse hr
        have hc := content_like (more := []) (g := none) hl.2.1 r ho1 ho2
        cases hx : World.content ⟨s1, r, []⟩ with
        | hang => simp [hx] at h
        | raise e' w => simp [hx] at h
        | ok c w =>
          simp only [hx] at hc h
          exact ih w.strm hc.1 h

theorem readRecords_bad {e : Exc} (offs : Bool) (n : Nat) (s : Stream) (hb : Bad e s) (es : List Entry)
    (h : readRecords offs n none s = (es, .done)) : ∃ l, es.getLast? = some l ∧ l.rcd = none ∧ l.errors ≠ [] := by
  induction n generalizing s es with
  | zero => simp [readRecords] at h
  | succ n ih =>
    have hl : Like [] none e s (readRecord offs) (readRecord offs) := like_readRecord offs hb
    simp only [Like] at hl
    simp only [readRecords, reduceCtorEq, if_false] at h
    cases hq : readRecord offs s with
    | hang => simp [hq] at h
    | raise e' s1 => simp [hq] at h
    | ok en s1 =>
      simp only [hq] at hl h
      cases hr : en.rcd with
      | none =>
        simp only [hr, Option.isNone_none, if_true, Prod.mk.injEq, and_true] at h
        subst h
        exact ⟨en, rfl, hr, readRecord_bad offs hb hq hr⟩
      | some r =>
        simp only [hr, Option.isNone_some, Bool.false_eq_true, if_false, Option.map_none] at h
        cases hrr : readRecords offs n none s1 with
        | mk es' fin =>
          simp only [hrr, Prod.mk.injEq] at h
          obtain ⟨rfl, rfl⟩ := h
          obtain ⟨l, h1, h2⟩ := ih s1 hl.2.1 es' hrr
          refine ⟨l, ?_, h2⟩
          cases es' with
          | nil => simp at h1
          | cons a as => simpa using h1

theorem iterate_bad {e : Exc} (n : Nat) (s : Stream) (hb : Bad e s) : (iterate n s).2 ≠ .done := by
  induction n generalizing s with
  | zero => simp [iterate]
  | succ n ih =>
    have hl : Like [] none e s (readRecord false) (readRecord false) := like_readRecord false hb
    simp only [Like] at hl
    simp only [iterate]
    cases hq : readRecord false s with
    | hang => simp
    | raise e' s1 => simp
    | ok en s1 =>
      simp only [hq] at hl
      cases hr : en.rcd with
      | none => simp [hr, readRecord_bad false hb hq hr]
      | some r => simp only [hr]; exact ih s1 hl.2.1

/-- opening damaged compressed data -/
theorem bad_open (c : Codec) (raw : Bytes) (e : Exc) (k : Kind) (p : Parser) (h : (c.dec raw).2 = some e) :
    Bad e ⟨gzipFileOf c (File.openFile raw), none, k, p⟩ := by
  have hr : (File.openFile raw).rest = raw := by simp [File.openFile, File.rest]
  exact ⟨by simp [gzipFileOf, hr, h], by simp [gzipFileOf]⟩

theorem open_gz (c : Codec) (cls : Option RecClass) (name : Bool) (gz : GzMode) (raw : Bytes) (s : Stream) (hgz : gz = .auto ∨ gz = .record)
    (h2 : raw.take 2 = [0x1f, 0x8b]) (ho : openArchive c cls name gz none raw = .ok s) :
    ∃ k, s = ⟨gzipFileOf c (File.openFile raw), none, .gzipRecord, RecClass.makeParser k⟩ ∧
      (cls = some k ∨ cls = none ∧ Detect.classify (File.firstLine (c.dec raw).1) = some k ∧ ((c.dec raw).2 = none ∨ 10 ∈ (c.dec raw).1)) := by
  have hf : (File.openFile raw).fault = none := rfl
  have hrest : (File.openFile raw).rest = raw := by simp [File.openFile, File.rest]
  have his := Detect.isGzipFile_apply (File.openFile raw) hf
  rw [hrest, h2] at his
  have hb : (([0x1f, 0x8b] : Bytes) == [0x1f, 0x8b]) = true := by decide
  rw [hb] at his
  cases cls with
  | some k =>
    refine ⟨k, ?_, Or.inl rfl⟩
    rcases hgz with rfl | rfl <;> cases name <;> simp [openArchive, openRecordStream, his] at ho <;> exact ho.symm
  | none =>
    by_cases hd : (c.dec raw).2 = none ∨ 10 ∈ (c.dec raw).1
    · have hgu := Detect.guess_gzip c (File.openFile raw) hf (by rw [hrest]; exact h2) (by rw [hrest]; exact hd)
      rw [hrest] at hgu
      cases hcl : Detect.classify (File.firstLine (c.dec raw).1) with
      | none =>
        rw [hcl] at hgu
        rcases hgz with rfl | rfl <;> cases name <;> simp [openArchive, openRecordStream, hgu] at ho
      | some k =>
        rw [hcl] at hgu
        refine ⟨k, ?_, Or.inr ⟨rfl, rfl, hd⟩⟩
        rcases hgz with rfl | rfl <;> cases name <;> simp [openArchive, openRecordStream, hgu, his] at ho <;> exact ho.symm
    · exfalso
      have h10 : 10 ∉ (c.dec raw).1 := fun h => hd (Or.inr h)
      obtain ⟨e, he⟩ : ∃ e, (c.dec raw).2 = some e := by
        cases h : (c.dec raw).2 with
        | none => exact absurd (Or.inl h) hd
        | some e => exact ⟨e, rfl⟩
      have hgr : (gzipFileOf c (File.openFile raw)).rest = (c.dec raw).1 := by simp [gzipFileOf, File.rest, File.openFile]
      have hgf : (gzipFileOf c (File.openFile raw)).fault = some e := by simp [gzipFileOf, hrest, he]
      have hlast : (File.firstLine (c.dec raw).1).getLast? ≠ some 10 := by
        intro h
        exact h10 ((File.firstLine_prefix _).subset (List.mem_of_getLast? h))
      have hrl : ∃ f, File.readline none (gzipFileOf c (File.openFile raw)) = .raise e f := by
        simp [File.readline, File.deliver, hgf, hgr, hlast]
      obtain ⟨f, hrl⟩ := hrl
      rcases hgz with rfl | rfl <;> cases name <;>
        simp [openArchive, openRecordStream, Detect.guessRecordType, his, hrl] at ho

theorem magic_cut (c : Codec) (hc : Codec.Laws c) (ms : List Bytes) (m : Bytes) (k : Nat)
    (h2 : 2 ≤ (ms.flatMap c.enc ++ (c.enc m).take k).length) :
    (ms.flatMap c.enc ++ (c.enc m).take k).take 2 = [0x1f, 0x8b] := by
  cases ms with
  | nil =>
    obtain ⟨t, ht⟩ := hc.magic m
    simp only [List.flatMap_nil, List.nil_append, List.length_take] at h2 ⊢
    rw [List.take_take, Nat.min_eq_left (by omega), ht]; rfl
  | cons b bs =>
    obtain ⟨t, ht⟩ := hc.magic b
    simp [ht]

theorem magic_full (c : Codec) (hc : Codec.Laws c) (ms : List Bytes) (m : Bytes) (ms' : List Bytes) :
    ((ms ++ m :: ms').flatMap c.enc).take 2 = [0x1f, 0x8b] := by
  cases ms with
  | nil => obtain ⟨t, ht⟩ := hc.magic m; simp [ht]
  | cons b bs => obtain ⟨t, ht⟩ := hc.magic b; simp [ht]

/-- **C67** Cut a compressed file anywhere inside a member (its contents may be anything) and read it, as any class and with any
detected or given compression: either the reading goes exactly as for the whole file, and then it does
not end the way a complete archive ends, or it gives a first part of the records of the whole file, each
with the same headers, errors and content, and then raises the exception of the decompressor. -/
theorem C67_cut (c : Codec) (hc : Codec.Laws c) (hx : Codec.Cut c) (ms : List Bytes) (m : Bytes) (ms' : List Bytes) (k : Nat)
    (h0 : 0 < k) (hk : k < (c.enc m).length) (h2 : 2 ≤ (ms.flatMap c.enc ++ (c.enc m).take k).length)
    (cls : Option RecClass) (name : Bool) (gz : GzMode) (hgz : gz = .auto ∨ gz = .record) (s : Stream)
    (ho : openArchive c cls name gz none (ms.flatMap c.enc ++ (c.enc m).take k) = .ok s) :
    ∃ s' e, openArchive c cls name gz none ((ms ++ m :: ms').flatMap c.enc) = .ok s' ∧
      ∀ offs rounds rounds', s.fh.rest.length < rounds → s'.fh.rest.length < rounds' →
        (collect offs rounds s = collect offs rounds' s' ∧ ∀ l, (collect offs rounds s).last = some l → l.errors ≠ []) ∨
        StoppedBy e (collect offs rounds s) (collect offs rounds' s') := by
  obtain ⟨p, e, ⟨q, hp⟩, hd⟩ := hx.cut ms m k h0 hk
  obtain ⟨cl, hs, hcl⟩ := open_gz c cls name gz _ s hgz (magic_cut c hc ms m k h2) ho
  have hfull : c.dec ((ms ++ m :: ms').flatMap c.enc) = ((ms.flatten ++ p) ++ (q ++ ms'.flatten), none) := by
    rw [hc.members, ← hp]; simp
  have hb : Bad e s := by rw [hs]; exact bad_open c _ e _ _ (by rw [hd])
  have ho' : openArchive c cls name gz none ((ms ++ m :: ms').flatMap c.enc) =
      .ok ⟨gzipFileOf c (File.openFile ((ms ++ m :: ms').flatMap c.enc)), none, .gzipRecord, cl.makeParser⟩ := by
    refine openArchive_gzip c cls cl name gz _ hgz ?_ (magic_full c hc ms m ms') (by rw [hfull]; exact Or.inl rfl)
    rcases hcl with h | ⟨h1, h2, h3⟩
    · exact Or.inl h
    · refine Or.inr ⟨h1, ?_⟩
      rw [hd] at h2 h3
      rw [hfull]
      rcases h3 with h3 | h3
      · cases h3
      · rw [firstLine_ext _ _ ?_]
        · exact h2
        · rcases File.firstLine_cases (ms.flatten ++ p) with h | h
          · obtain ⟨u, _, _, _, h⟩ := h; rw [h]; simp
          · exact absurd h3 h.1
  refine ⟨_, e, ho', ?_⟩
  have hext : (⟨gzipFileOf c (File.openFile ((ms ++ m :: ms').flatMap c.enc)), none, .gzipRecord, cl.makeParser⟩ : Stream) =
      ext (q ++ ms'.flatten) none s := by
    rw [hs]
    have r1 : ∀ x, (File.openFile x).rest = x := by intro x; simp [File.openFile, File.rest]
    simp only [ext, gzipFileOf, r1, hd, hfull]
  rw [hext]
  intro offs n n' hn hn'
  rcases collect_like (more := q ++ ms'.flatten) (g := none) offs n n' s hb hn hn' with h | h
  · exact Or.inl ⟨h, fun l hl => collect_bad offs n s hb l hl⟩
  · exact Or.inr h


/-- reading records off the front of any data -/
theorem collect_front (offs : Bool) (n : Nat) (s : Stream) (rs : List RT) (tail : Bytes) (hk : s.kind ≠ .gzipFile) (he : s.eoc = none)
    (hp : s.parser = .warc) (hok : OkT rs) (hr : s.fh.rest = archiveT rs ++ tail) :
    ∃ more, (collect offs (rs.length + n) s).records = ((positions s.fh.pos rs).map fun p => ⟨reported s.kind offs p.1, p.2.version, p.2.headers, [],
          (firstValue (b! "Content-Type") p.2.headers, some p.2.body)⟩) ++ more := by
  induction rs generalizing s with
  | nil => exact ⟨_, rfl⟩
  | cons r rs ih =>
    have hr' : s.fh.rest = r.1.core ++ r.2 ++ (archiveT rs ++ tail) := by rw [hr]; simp [archiveT]
    have hhead := readRecord_head offs [] r.1.version r.1.headers (r.1.body ++ r.2 ++ (archiveT rs ++ tail)) s hk he
      ⟨by simp, Or.inl rfl⟩ (hok r (by simp)).1.version (hok r (by simp)).1.headers (Or.inl hp) (by rw [hr']; simp [R.core])
    rw [(hok r (by simp)).1.length] at hhead
    simp only [List.length_nil, Nat.zero_add, Nat.add_zero] at hhead
    have hrest : (s.adv (headBytes r.1.version r.1.headers).length).fh.rest = r.1.body ++ (r.2 ++ (archiveT rs ++ tail)) := by
      rw [adv_fh, File.advance_rest, hr']; simp [R.core]
    have hl : (r :: rs).length + n = (rs.length + n) + 1 := by simp; omega
    rw [hl, collect_step offs (rs.length + n) s _ _ _ r.1.body r.2 (archiveT rs ++ tail) hhead rfl rfl rfl (hok r (by simp)).2 hrest]
    have e : { ({ s.adv (headBytes r.1.version r.1.headers).length with eoc := some (r.1.body.length : Int) } : Stream).adv
        (r.1.body.length + r.2.length) with eoc := none } = s.adv (r.1.core ++ r.2).length := by
      obtain ⟨fh, eoc, kind, parser⟩ := s
      simp at he; subst he
      simp only [adv, R.core, List.length_append, File.advance_advance, Nat.add_assoc]
    rw [e]
    obtain ⟨more, hmore⟩ := ih (s.adv (r.1.core ++ r.2).length) hk he hp (fun x hx => hok x (by simp [hx]))
      (by rw [adv_fh, File.advance_rest, hr', List.drop_left])
    refine ⟨more, ?_⟩
    simp only [hmore]
    simp only [positions, List.map_cons, parsed]
    rfl

theorem noted_positions (pos : Nat) (rs : List RT) (offs : Bool) :
    ((positions pos rs).map fun p => (⟨reported .gzipRecord offs p.1, p.2.version, p.2.headers, [],
          (firstValue (b! "Content-Type") p.2.headers, some p.2.body)⟩ : Got)) = noted rs := by
  induction rs generalizing pos with
  | nil => rfl
  | cons r rs ih =>
    simp only [positions, List.map_cons, noted] at ih ⊢
    rw [ih]
    cases offs <;> rfl

/-- **C67** Cut a compressed archive of well formed records anywhere inside a member, however the records were
distributed over members: reading the rest gives the first `j` records of the archive, unaltered, and
then raises; every record that lies in the complete members is among them. -/
theorem C67_archive (c : Codec) (hc : Codec.Laws c) (hx : Codec.Cut c) (rs : List RT) (hok : OkT rs)
    (ms : List Bytes) (m : Bytes) (ms' : List Bytes) (hms : (ms ++ m :: ms').flatten = archiveT rs) (k : Nat)
    (h0 : 0 < k) (hk : k < (c.enc m).length) (h2 : 2 ≤ (ms.flatMap c.enc ++ (c.enc m).take k).length)
    (name : Bool) (gz : GzMode) (hgz : gz = .auto ∨ gz = .record) (offs : Bool) :
    ∃ s j e, openArchive c (some .warc) name gz none (ms.flatMap c.enc ++ (c.enc m).take k) = .ok s ∧
      (∀ rounds, s.fh.rest.length < rounds → collect offs rounds s = ⟨noted (rs.take j), none, .raised e⟩) ∧
      j ≤ rs.length ∧
      ∀ i (hi : i < rs.length), (archiveT (rs.take i)).length + rs[i].1.core.length ≤ ms.flatten.length → i < j := by
  obtain ⟨p, e, ⟨q, hp⟩, hd⟩ := hx.cut ms m k h0 hk
  have ho : openArchive c (some .warc) name gz none (ms.flatMap c.enc ++ (c.enc m).take k) =
      .ok ⟨gzipFileOf c (File.openFile (ms.flatMap c.enc ++ (c.enc m).take k)), none, .gzipRecord, .warc⟩ := by
    have his := Detect.isGzipFile_apply (File.openFile (ms.flatMap c.enc ++ (c.enc m).take k)) rfl
    have hrest : (File.openFile (ms.flatMap c.enc ++ (c.enc m).take k)).rest = ms.flatMap c.enc ++ (c.enc m).take k := by simp [File.openFile, File.rest]
    rw [hrest, magic_cut c hc ms m k h2] at his
    have hb : (([0x1f, 0x8b] : Bytes) == [0x1f, 0x8b]) = true := by decide
    rw [hb] at his
    rcases hgz with rfl | rfl <;> cases name <;> simp [openArchive, openRecordStream, his, RecClass.makeParser]
  generalize hsd : (⟨gzipFileOf c (File.openFile (ms.flatMap c.enc ++ (c.enc m).take k)), none, .gzipRecord, .warc⟩ : Stream) = s at ho
  have r1 : ∀ x, (File.openFile x).rest = x := by intro x; simp [File.openFile, File.rest]
  have hb : Bad e s := by rw [← hsd]; exact bad_open c _ e _ _ (by rw [hd])
  have hdata : s.fh.rest = ms.flatten ++ p := by rw [← hsd]; simp [gzipFileOf, r1, hd]; simp [File.rest]
  have hall : (ms.flatten ++ p) ++ (q ++ ms'.flatten) = archiveT rs := by rw [← hms, ← hp]; simp
  have hext : (ext (q ++ ms'.flatten) none s).fh.rest = archiveT rs := by rw [ext_rest hb, hdata, hall]
  have hpos : s.fh.pos = 0 := by rw [← hsd]; rfl
  have hkind : s.kind = .gzipRecord := by rw [← hsd]
  have hpar : s.parser = .warc := by rw [← hsd]
  have heoc : s.eoc = none := by rw [← hsd]
  have hfull := collect_archiveT offs ((archiveT rs).length + rs.length + 1) (ext (q ++ ms'.flatten) none s) rs (by show s.kind ≠ _; rw [hkind]; simp)
    heoc rfl hok (fun _ _ => Or.inl hpar) hext (by omega)
  have hek : (ext (q ++ ms'.flatten) none s).kind = .gzipRecord := hkind
  have hep : (ext (q ++ ms'.flatten) none s).fh.pos = 0 := hpos
  rw [hek, hep, noted_positions] at hfull
  have hcmp := collect_like (more := q ++ ms'.flatten) (g := none) offs (s.fh.rest.length + 1) ((archiveT rs).length + rs.length + 1) s hb
    (by omega) (by rw [hext]; omega)
  have hst : StoppedBy e (collect offs (s.fh.rest.length + 1) s) (collect offs ((archiveT rs).length + rs.length + 1) (ext (q ++ ms'.flatten) none s)) := by
    rcases hcmp with h | h
    · exfalso
      have hl : (collect offs (s.fh.rest.length + 1) s).last = some ⟨reported .gzipRecord offs (0 + (archiveT rs).length), none, []⟩ := by
        rw [h, hfull]
      exact collect_bad offs _ s hb _ hl rfl
    · exact h
  have hj : (collect offs (s.fh.rest.length + 1) s).records = noted (rs.take (collect offs (s.fh.rest.length + 1) s).records.length) := by
    have h := hst.records
    rw [hfull] at h
    rw [noted, List.map_take]
    exact List.prefix_iff_eq_take.1 h
  have hjle : (collect offs (s.fh.rest.length + 1) s).records.length ≤ rs.length := by
    have h := hst.records.length_le
    rw [hfull] at h
    simpa [noted] using h
  refine ⟨s, (collect offs (s.fh.rest.length + 1) s).records.length, e, ho, ?_, hjle, ?_⟩
  · intro rounds hr
    rw [collect_fuel offs rounds (s.fh.rest.length + 1) s hr (by omega), ← hj]
    rw [← hst.fin, ← hst.last]
  · intro i hi hle
    have hok' : OkT (rs.take i ++ [(rs[i].1, [])]) := by
      intro r hr
      rcases List.mem_append.1 hr with h | h
      · exact hok r (List.mem_of_mem_take h)
      · simp only [List.mem_singleton] at h
        subst h
        exact ⟨(hok rs[i] (List.getElem_mem hi)).1, by simp, Or.inl rfl⟩
    have hA : archiveT (rs.take i ++ [(rs[i].1, [])]) = archiveT (rs.take i) ++ rs[i].1.core := by
      simp [archiveT]
    have hpre : ∃ tail, s.fh.rest = archiveT (rs.take i ++ [(rs[i].1, [])]) ++ tail := by
      have h1 : archiveT (rs.take i ++ [(rs[i].1, [])]) <+: archiveT rs := by
        rw [hA, archiveT_split rs i hi]; simp
      have h2 : s.fh.rest <+: archiveT rs := by rw [hdata, ← hall]; simp
      obtain ⟨t, ht⟩ := List.prefix_of_prefix_length_le h1 h2 (by rw [hA, hdata]; simp only [List.length_append]; omega)
      exact ⟨t, ht.symm⟩
    obtain ⟨tail, htail⟩ := hpre
    obtain ⟨more, hmore⟩ := collect_front offs (s.fh.rest.length + 1) s _ tail (by rw [hkind]; simp) heoc hpar hok' htail
    rw [collect_fuel offs _ (s.fh.rest.length + 1) s (by omega) (by omega), hpos, hkind, noted_positions] at hmore
    rw [hmore]
    simp [noted]
    omega

theorem perRecord_flatten (rs : List RT) : (perRecord rs).flatten = archiveT rs := by
  simp [perRecord, archiveT, List.flatMap]

/-- **C67** An archive compressed record by record, cut inside the member of record number `i`: reading it
gives the `i` records before it, and record `i` itself only if its payload could still be decompressed in full, and then
raises. -/
theorem C67_record_members (c : Codec) (hc : Codec.Laws c) (hx : Codec.Cut c) (rs : List RT) (hok : OkT rs) (i : Nat) (hi : i < rs.length) (k : Nat)
    (h0 : 0 < k) (hk : k < (c.enc (rs[i].1.core ++ rs[i].2)).length)
    (h2 : 2 ≤ ((perRecord (rs.take i)).flatMap c.enc ++ (c.enc (rs[i].1.core ++ rs[i].2)).take k).length)
    (name : Bool) (gz : GzMode) (hgz : gz = .auto ∨ gz = .record) (offs : Bool) :
    ∃ s e, openArchive c (some .warc) name gz none ((perRecord (rs.take i)).flatMap c.enc ++ (c.enc (rs[i].1.core ++ rs[i].2)).take k) = .ok s ∧
      ((∀ rounds, s.fh.rest.length < rounds → collect offs rounds s = ⟨noted (rs.take i), none, .raised e⟩) ∨
       (∀ rounds, s.fh.rest.length < rounds → collect offs rounds s = ⟨noted (rs.take (i + 1)), none, .raised e⟩)) := by
  have hsplit : rs.take (i + 1) = rs.take i ++ [rs[i]] := by rw [List.take_succ_eq_append_getElem hi]
  have hok' : OkT (rs.take (i + 1)) := fun r hr => hok r (List.mem_of_mem_take hr)
  obtain ⟨s, j, e, h1, h3, h4, h5⟩ := C67_archive c hc hx (rs.take (i + 1)) hok' (perRecord (rs.take i)) (rs[i].1.core ++ rs[i].2) []
    (by rw [List.flatten_append, perRecord_flatten, hsplit]; simp only [archiveT, List.flatMap_append]; simp) k h0 hk h2 name gz hgz offs
  refine ⟨s, e, h1, ?_⟩
  have hjle : j ≤ i + 1 := by simp at h4; omega
  have hge : i ≤ j := by
    cases i with
    | zero => omega
    | succ i' =>
      have := h5 i' (by simp; omega) (by
        rw [perRecord_flatten]
        have e1 : (rs.take (i' + 1 + 1)).take i' = rs.take i' := by rw [List.take_take]; congr 1; omega
        have e2 : rs.take (i' + 1) = rs.take i' ++ [rs[i']] := by rw [List.take_succ_eq_append_getElem (by omega)]
        rw [e1, e2]
        simp only [archiveT, List.flatMap_append, List.length_append, List.getElem_take]
        simp)
      omega
  have hcases : j = i ∨ j = i + 1 := by omega
  rcases hcases with rfl | rfl
  · left
    intro rounds hr
    rw [h3 rounds hr, List.take_take, Nat.min_eq_left (by omega)]
  · right
    intro rounds hr
    rw [h3 rounds hr, List.take_take, Nat.min_self]

/-- **C67** Whatever the compressed data decompress to before the decompressor raises: a reader of all records never ends as for a complete
archive. Iteration does not end normally; `read_records` can end only with an entry that carries errors. -/
theorem C67_never_complete (c : Codec) (raw : Bytes) (e : Exc) (hd : (c.dec raw).2 = some e) (h2 : raw.take 2 = [0x1f, 0x8b])
    (cls : Option RecClass) (name : Bool) (gz : GzMode) (hgz : gz = .auto ∨ gz = .record) (s : Stream) (ho : openArchive c cls name gz none raw = .ok s) (rounds : Nat) :
    (iterate rounds s).2 ≠ .done ∧
    ∀ offs es, readRecords offs rounds none s = (es, .done) → ∃ l, es.getLast? = some l ∧ l.rcd = none ∧ l.errors ≠ [] := by
  obtain ⟨k, rfl, _⟩ := open_gz c cls name gz raw s hgz h2 ho
  have hb := bad_open c raw e .gzipRecord k.makeParser hd
  exact ⟨iterate_bad rounds _ hb, fun offs es h => readRecords_bad offs rounds _ hb es h⟩

/-- **C67** `warcvalid` does not accept a list of files one of which is compressed (by its name or its first
bytes) and damaged. -/
theorem C67_warcvalid (c : Codec) (fs : FS) (names : List Bytes) (name : Bytes) (hmem : name ∈ names) (raw : Bytes) (e : Exc)
    (hf : fs name = some raw) (hgz : b! ".gz" <:+ name ∨ raw.take 2 = [0x1f, 0x8b]) (hd : (c.dec raw).2 = some e) :
    WarcValid.main c fs names ≠ some 0 := by
  rw [Ne, C43_accepts_iff]
  intro hall
  obtain ⟨s, ho, rounds, es, hs, hclean⟩ := hall name hmem
  have hb : Bad e s := by
    simp only [openName, hf] at ho
    have hs : s = ⟨gzipFileOf c (File.openFile raw), none, .gzipRecord, .warc⟩ := by
      rcases hgz with h | h
      · have : nameGz name = true := (endsWith_iff _ _).2 h
        rw [this, openArchive_named] at ho
        exact (Except.ok.inj ho).symm
      · obtain ⟨k, rfl, h⟩ := open_gz c (some .warc) _ .auto raw s (Or.inl rfl) h ho
        rcases h with h | h
        · cases h; rfl
        · cases h.1
    rw [hs]; exact bad_open c raw e _ _ hd
  obtain ⟨l, h1, _, h3⟩ := readRecords_bad true rounds s hb es hs
  exact h3 (hclean l (List.mem_of_getLast? h1)).1

/-- two records, compressed one by one with the toy codec, the file cut 12 bytes into the second member:
the first record is read, then the decompressor raises -/
example : ∃ s, openArchive toy (some .warc) false .auto none
      ((perRecord (demoRT.take 1)).flatMap toy.enc ++ (toy.enc (demoRT[1].1.core ++ demoRT[1].2)).take 12) = .ok s ∧
    ∃ e, collect true (s.fh.rest.length + 1) s = ⟨noted (demoRT.take 1), none, .raised e⟩ ∨
         collect true (s.fh.rest.length + 1) s = ⟨noted demoRT, none, .raised e⟩ := by
  obtain ⟨s, e, h1, h2⟩ := C67_record_members toy toy_laws toy_cut demoRT demoRT_ok 1 (by decide) 12 (by omega) (by decide +kernel) (by decide +kernel)
    false .auto (Or.inl rfl) true
  exact ⟨s, h1, e, h2.imp (fun h => h _ (by omega)) (fun h => h _ (by omega))⟩

/-- the same with the first record in two members, cut in the second of them -/
example : ∃ s j e, openArchive toy (some .warc) false .auto none
      ([demo1.R.core.take 20].flatMap toy.enc ++ (toy.enc (demo1.R.core.drop 20 ++ (CRLF ++ CRLF))).take 9) = .ok s ∧
    collect true (s.fh.rest.length + 1) s = ⟨noted (demoRT.take j), none, .raised e⟩ := by
  obtain ⟨s, j, e, h1, h2, _⟩ := C67_archive toy toy_laws toy_cut demoRT demoRT_ok [demo1.R.core.take 20]
    (demo1.R.core.drop 20 ++ (CRLF ++ CRLF)) [demo2.R.core ++ (CRLF ++ CRLF)] (by decide +kernel) 9 (by omega) (by decide +kernel) (by decide +kernel)
    false .auto (Or.inl rfl) true
  exact ⟨s, j, e, h1, h2 _ (by omega)⟩

/-- damaged data to which the other theorems apply -/
example : (toy.dec ((toy.enc demo1.R.bytes).take 30)).2 = some .eofError ∧ ((toy.enc demo1.R.bytes).take 30).take 2 = [0x1f, 0x8b] := by
  decide +kernel

end Warc
