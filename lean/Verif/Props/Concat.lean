import Verif.Proofs.Concat
import Verif.Proofs.Open
import Verif.Props.Append
import Verif.Props.Reread
/-
  C81: an archive inside a larger file; C82: concatenated archives.
-/
set_option linter.all false
namespace Warc
open Rx Stream Spec

/-- **C81** What stands in front of the reader's position has no influence on anything it reads, in any state, for any class and
any contents: with `X` in front the same entries are returned, with the offsets greater by the length of `X`, the same results of
all calls on the content files, and the scan ends in the same way. -/
theorem C81_scan (X : Bytes) (offs : Bool) (plan : Nat → List ReadOp) (n i : Nat) (s : Stream) :
    scan offs plan n i (behind X s) = ((scan offs plan n i s).1.map (Seen.later X.length), (scan offs plan n i s).2) := by
  induction n generalizing i s with
  | zero => rfl
  | succ n ih =>
    have h := late_readRecord (X := X) (s := s) offs
    simp only [Late] at h
    cases hrd : readRecord offs s with
    | hang => rw [hrd] at h; simp [scan, hrd, h, Res.behind]
    | raise e s' => rw [hrd] at h; simp [scan, hrd, h, Res.behind]
    | ok e s' =>
      rw [hrd] at h
      simp only [Res.behind] at h
      have hrc : (e.later X.length).rcd = e.rcd := rfl
      cases hr : e.rcd with
      | none => rw [hr] at hrc; simp [scan, hrd, h, hr, hrc, Seen.later]
      | some r =>
        rw [hr] at hrc
        have h2 := late_runOps (X := X) (s := s') (plan i)
        simp only [Late] at h2
        cases hops : runOps (plan i) s' with
        | hang => rw [hops] at h2; simp [scan, hrd, h, hr, hrc, hops, h2, Res.behind, Seen.later]
        | raise x s2 => rw [hops] at h2; simp [scan, hrd, h, hr, hrc, hops, h2, Res.behind, Seen.later]
        | ok outs s2 =>
          rw [hops] at h2
          simp only [Res.behind, id] at h2
          simp only [scan, hrd, h, hr, hrc, hops, h2, ih, List.map_cons]
          rfl

/-- **C81** Opening a file at an offset: the class is guessed and compression detected from the bytes at the offset on, as for a
file that consists of these bytes only; an uncompressed archive is then read as in `C81_scan`, and for a compressed one the stream
is the same. -/
theorem C81_open (c : Codec) (cls : Option RecClass) (name : Bool) (gz : GzMode) (X D : Bytes) :
    openArchive c cls name gz (some X.length) (X ++ D) =
      match openArchive c cls name gz none D with
      | .ok s => .ok (if s.kind = .plain then behind X s else s)
      | .error e => .error e := by
  have hsk : File.seek ((X.length : Nat) : Int) 0 (File.openFile (X ++ D)) = .ok () { File.openFile (X ++ D) with pos := X.length } := by
    simp [File.seek]
  have hf1 : ({ File.openFile (X ++ D) with pos := X.length } : File).fault = none := rfl
  have hr1 : ({ File.openFile (X ++ D) with pos := X.length } : File).rest = D := by simp [File.openFile, File.rest]
  have hf2 : (File.openFile D).fault = none := rfl
  have hr2 : (File.openFile D).rest = D := by simp [File.openFile, File.rest]
  have i1 := Detect.isGzipFile_apply _ hf1
  have i2 := Detect.isGzipFile_apply _ hf2
  rw [hr1] at i1
  rw [hr2] at i2
  have g1 : gzipFileOf c ({ File.openFile (X ++ D) with pos := X.length } : File) = gzipFileOf c (File.openFile D) := by
    simp only [gzipFileOf, hr1, hr2]
  -- from the class on
  have inner : ∀ k : RecClass,
      (match openRecordStream c (some k) name gz { File.openFile (X ++ D) with pos := X.length } with
        | .ok s _ => (.ok s : Except Exc Stream)
        | .raise e _ => .error e
        | .hang => .error (.generic "hang")) =
      match openArchive c (some k) name gz none D with
      | .ok s => .ok (if s.kind = .plain then behind X s else s)
      | .error e => .error e := by
    intro k
    have hb : ∀ s : Stream, s = ⟨File.openFile D, none, .plain, k.makeParser⟩ →
        (⟨{ File.openFile (X ++ D) with pos := X.length }, none, .plain, k.makeParser⟩ : Stream) = behind X s := by
      intro s hs; subst hs; simp [behind, File.openFile]
    cases gz <;> cases name <;> cases hz : (D.take 2 == [0x1f, 0x8b]) <;>
      simp [openArchive, openRecordStream, i1, i2, hz, g1, hb _ rfl]
  cases cls with
  | some k =>
    rw [← inner k]
    simp only [openArchive, M.bind_apply, hsk]
    cases openRecordStream c (some k) name gz { File.openFile (X ++ D) with pos := X.length } <;> rfl
  | none =>
    by_cases hz : D.take 2 = [0x1f, 0x8b]
    · -- compressed: the guess reads the same decompressed line
      have hz1 : (D.take 2 == [0x1f, 0x8b]) = true := by simpa using hz
      rw [hz1] at i1 i2
      have gg : ∀ f f' : File, f.fault = none → f.rest = D → f'.fault = none → f'.rest = D → gzipFileOf c f = gzipFileOf c f' →
          Detect.isGzipFile f = .ok true f → Detect.isGzipFile f' = .ok true f' →
          (∀ a, Detect.guessRecordType c f = .ok a f ↔ Detect.guessRecordType c f' = .ok a f') ∧
          (∀ e, Detect.guessRecordType c f = .raise e f ↔ Detect.guessRecordType c f' = .raise e f') ∧
          ((∃ a, Detect.guessRecordType c f = .ok a f) ∨ (∃ e, Detect.guessRecordType c f = .raise e f) ∨
            (Detect.guessRecordType c f = .hang ∧ Detect.guessRecordType c f' = .hang)) := by
        intro f f' _ _ _ _ hgz h1 h2
        have s1 : File.seek (f.tell : Int) 0 f = .ok () f := by
          have := Detect.seek_tell f 0; rwa [File.advance_zero] at this
        have s2 : File.seek (f'.tell : Int) 0 f' = .ok () f' := by
          have := Detect.seek_tell f' 0; rwa [File.advance_zero] at this
        simp only [Detect.guessRecordType, h1, h2, hgz]
        cases File.readline none (gzipFileOf c f') with
        | hang => simp
        | raise e g => simp
        | ok l g => simp [M.bind_apply, s1, s2]
      obtain ⟨a1, a2, a3⟩ := gg _ _ hf1 hr1 hf2 hr2 g1 i1 i2
      rcases a3 with ⟨a, ha⟩ | ⟨e, he⟩ | ⟨h1, h2⟩
      · have ha' := (a1 a).1 ha
        cases a with
        | none => simp [openArchive, openRecordStream, hsk, ha, ha']
        | some k =>
          have e1 : ∀ f, Detect.guessRecordType c f = .ok (some k) f → openRecordStream c none name gz f = openRecordStream c (some k) name gz f := by
            intro f hf; simp only [openRecordStream, M.bind_apply, hf, M.pure_apply]
          have := inner k
          simp only [openArchive, M.bind_apply, hsk, M.pure_apply] at this ⊢
          rw [e1 _ ha, e1 _ ha']
          exact this
      · have he' := (a2 e).1 he
        simp [openArchive, openRecordStream, hsk, he, he']
      · simp [openArchive, openRecordStream, hsk, h1, h2]
    · have ga := Detect.guess_plain c _ hf1 (by rw [hr1]; exact hz)
      have gb := Detect.guess_plain c _ hf2 (by rw [hr2]; exact hz)
      rw [hr1] at ga
      rw [hr2] at gb
      cases hcl : Detect.classify (File.firstLine D) with
      | none => rw [hcl] at ga gb; simp [openArchive, openRecordStream, hsk, ga, gb]
      | some k =>
        rw [hcl] at ga gb
        have e1 : ∀ f, Detect.guessRecordType c f = .ok (some k) f → openRecordStream c none name gz f = openRecordStream c (some k) name gz f := by
          intro f hf; simp only [openRecordStream, M.bind_apply, hf, M.pure_apply]
        have := inner k
        simp only [openArchive, M.bind_apply, hsk, M.pure_apply] at this ⊢
        rw [e1 _ ga, e1 _ gb]
        exact this

/-! ### concatenation -/

theorem readFirst_longer (B : Bytes) (offs : Bool) (plan : Nat → List ReadOp) (k m i : Nat) (s t : Stream) (xs : List Seen)
    (hf : s.fh.fault = none) (hp : s.fh.pos ≤ s.fh.data.length) (h : readFirst offs plan k i s = some (xs, t))
    (hpar : s.parser = .warc) (hl : t.fh.pos < t.fh.data.length) :
    SameSrc true s t ∧
    scan offs plan (k + m) i (longer B s) =
      (xs ++ (scan offs plan m (i + k) (longer B t)).1, (scan offs plan m (i + k) (longer B t)).2) := by
  induction k generalizing i s xs with
  | zero =>
    simp only [readFirst, Option.some.injEq, Prod.mk.injEq] at h
    obtain ⟨rfl, rfl⟩ := h
    exact ⟨SameSrc.refl _, by simp⟩
  | succ k ih =>
    simp only [readFirst] at h
    cases hrd : readRecord offs s with
    | hang => simp [hrd] at h
    | raise e s' => simp [hrd] at h
    | ok e s' =>
      obtain ⟨o, rc, es⟩ := e
      cases rc with
      | none => simp [hrd] at h
      | some r =>
        simp only [hrd] at h
        cases hops : runOps (plan i) s' with
        | hang => simp [hops] at h
        | raise x s2 => simp [hops] at h
        | ok outs s2 =>
          simp only [hops] at h
          cases hrest : readFirst offs plan k (i + 1) s2 with
          | none => simp [hrest] at h
          | some p =>
            simp only [hrest, Option.map_some, Option.some.injEq, Prod.mk.injEq] at h
            obtain ⟨rfl, rfl⟩ := h
            have hs1 := readRecord_same offs hrd
            have hpar1 := (readRecord_progress offs s s' _ r hpar hrd rfl).2.1
            have hs2 : SameSrc true s' s2 := by
              have := Keeps.runOps (plan i) s'
              rw [hops] at this; exact this
            have hpar2 : s2.parser = .warc := (hs2.2.2.2.2 rfl).trans hpar1
            have hb : Ord s := ⟨hf, hp⟩
            have hg1 := grow_readRecord (more := B) offs hb
            simp only [Grow, hrd] at hg1
            have hg2 := grow_runOps (more := B) (plan i) hg1.1
            simp only [Grow, hops] at hg2
            obtain ⟨hsame, hscan⟩ := ih (i + 1) s2 p.1 hg2.1.fault hg2.1.pos hrest hpar2
            have hsame' : SameSrc true s p.2 :=
              ⟨hsame.1.trans (hs2.1.trans hs1.1), hsame.2.1.trans (hs2.2.1.trans hs1.2.1), hsame.2.2.1.trans (hs2.2.2.1.trans hs1.2.2.1),
               hsame.2.2.2.1.trans (hs2.2.2.2.1.trans hs1.2.2.2.1), fun _ => (hsame.2.2.2.2 rfl).trans (hpar2.trans hpar.symm)⟩
            refine ⟨hsame', ?_⟩
            -- the position after this record is before the end as well
            have hmono : s2.fh.pos ≤ p.2.fh.pos := readFirst_pos hrest hpar2 hg2.1.fault hg2.1.pos
            have hlt : s2.fh.pos < s2.fh.data.length := by rw [← hsame.2.1]; omega
            obtain ⟨h1, h2⟩ := C79_record B offs (plan i) s s' s2 _ outs hf hp hrd hops hlt
            have e1 : k + 1 + m = (k + m) + 1 := by omega
            rw [e1]
            simp only [scan, h1, h2, hscan, List.cons_append]
            have e2 : i + 1 + k = i + (k + 1) := by omega
            rw [e2]
where
  readFirst_pos {offs plan k i} {s : Stream} {p : List Seen × Stream} (h : readFirst offs plan k i s = some p) (hpar : s.parser = .warc)
      (hf : s.fh.fault = none) (hp : s.fh.pos ≤ s.fh.data.length) : s.fh.pos ≤ p.2.fh.pos := by
    induction k generalizing i s p with
    | zero => simp only [readFirst, Option.some.injEq] at h; subst h; exact Nat.le_refl _
    | succ k ih =>
      simp only [readFirst] at h
      cases hrd : readRecord offs s with
      | hang => simp [hrd] at h
      | raise e s' => simp [hrd] at h
      | ok e s' =>
        obtain ⟨o, rc, es⟩ := e
        cases rc with
        | none => simp [hrd] at h
        | some r =>
          simp only [hrd] at h
          cases hops : runOps (plan i) s' with
          | hang => simp [hops] at h
          | raise x s2 => simp [hops] at h
          | ok outs s2 =>
            simp only [hops] at h
            cases hrest : readFirst offs plan k (i + 1) s2 with
            | none => simp [hrest] at h
            | some q =>
              simp only [hrest, Option.map_some, Option.some.injEq] at h
              subst h
              have hs1 := readRecord_same offs hrd
              have hpar1 := (readRecord_progress offs s s' _ r hpar hrd rfl).2.1
              have hs2 : SameSrc true s' s2 := by
                have := Keeps.runOps (plan i) s'
                rw [hops] at this; exact this
              have hg1 := grow_readRecord (more := []) offs ⟨hf, hp⟩
              simp only [Grow, hrd] at hg1
              have hg2 := grow_runOps (more := []) (plan i) hg1.1
              simp only [Grow, hops] at hg2
              have hle := Nat.le_trans hg2.2.1 hg1.2.1
              have := ih hrest ((hs2.2.2.2.2 rfl).trans hpar1) hg2.1.fault hg2.1.pos
              have hd : s2.fh.data = s.fh.data := hs2.2.1.trans hs1.2.1
              simp only [File.rest, List.length_drop, hd] at hle
              have hp2 := hg2.1.pos
              rw [hd] at hp2
              simp only at this ⊢
              omega

/-- **C82** A program has read some records of a WARC file (any contents; uncompressed, or the decompressed contents of a
compressed one), made any calls on their content files, has not yet come to the end of the file, and is then told that there are no
more records, without errors.  If the file ends in a newline and other contents `B` follow it, then the same program sees the
same records and after them exactly what it would have seen in `B` alone, with the offsets shifted. -/
theorem C82_scan (B : Bytes) (offs : Bool) (plan : Nat → List ReadOp) (k m i : Nat) (s t t' : Stream) (xs : List Seen) (o : Option Nat)
    (hk : s.kind ≠ .gzipFile) (hpar : s.parser = .warc) (hf : s.fh.fault = none) (hp : s.fh.pos ≤ s.fh.data.length)
    (h : readFirst offs plan k i s = some (xs, t)) (hl : t.fh.pos < t.fh.data.length) (hend : readRecord offs t = .ok ⟨o, none, []⟩ t')
    (hnl : s.fh.data.getLast? = some 10) :
    scan offs plan (k + m) i (longer B s) =
      (xs ++ (scan offs plan m (i + k) (anew B s)).1.map (Seen.later s.fh.data.length), (scan offs plan m (i + k) (anew B s)).2) := by
  obtain ⟨hsame, hscan⟩ := readFirst_longer B offs plan k m i s t xs hf hp h hpar hl
  rw [hscan]
  have hpt : t.parser = .warc := (hsame.2.2.2.2 rfl).trans hpar
  have hkt : t.kind ≠ .gzipFile := by rw [hsame.1]; exact hk
  have hft : t.fh.fault = none := hsame.2.2.1.trans hf
  have hdt : t.fh.data = s.fh.data := hsame.2.1
  have hrest : t.fh.rest ≠ [] := by
    simp only [File.rest]
    intro h0
    have := List.drop_eq_nil_iff.1 h0
    omega
  have hlast : t.fh.rest.getLast? = some 10 := by
    have hs : s.fh.data = t.fh.data.take t.fh.pos ++ t.fh.rest := by rw [← hdt]; exact (List.take_append_drop _ _).symm
    rw [hs, getLast_app _ hrest] at hnl
    exact hnl
  have hj := readRecord_junction offs B t t' o hkt hpt hft (Nat.le_of_lt hl) (Or.inr hlast) hend
  have hanew : anew B t = anew B s := by
    simp only [anew, hsame.1, hsame.2.2.1, hsame.2.2.2.1, hsame.2.2.2.2 rfl]
  rw [hanew, hdt] at hj
  have hb : readRecord offs (longer B t) = readRecord offs (behind s.fh.data (anew B s)) := by
    rw [hj]
    exact (late_readRecord (X := s.fh.data) (s := anew B s) offs).symm
  have hscan2 : scan offs plan m (i + k) (longer B t) = scan offs plan m (i + k) (behind s.fh.data (anew B s)) := by
    cases m with
    | zero => rfl
    | succ m => simp only [scan, hb]
  rw [hscan2, C81_scan]


/-- **C82** On files (`cat a.warc b.warc`): the concatenation can be opened like `A`, and the program sees the records of `A` and then
what it would see in `B`. -/
theorem C82_file (c : Codec) (cls : Option RecClass) (gz : GzMode) (hgz : gz = .auto ∨ gz = .off) (A B : Bytes)
    (hz : A.take 2 ≠ [0x1f, 0x8b]) (hnl : A.getLast? = some 10) (s t t' : Stream) (ho : openArchive c cls false gz none A = .ok s)
    (hpar : s.parser = .warc) (offs : Bool) (plan : Nat → List ReadOp) (k : Nat) (xs : List Seen) (o : Option Nat)
    (h : readFirst offs plan k 0 s = some (xs, t)) (hl : t.fh.pos < t.fh.data.length) (hend : readRecord offs t = .ok ⟨o, none, []⟩ t') :
    ∃ u, openArchive c cls false gz none (A ++ B) = .ok u ∧
      ∀ m, scan offs plan (k + m) 0 u =
        (xs ++ (scan offs plan m k ⟨File.openFile B, none, .plain, .warc⟩).1.map (Seen.later A.length),
         (scan offs plan m k ⟨File.openFile B, none, .plain, .warc⟩).2) := by
  have h10 : 10 ∈ A := getLast_mem hnl
  have hz2 : (A ++ B).take 2 ≠ [0x1f, 0x8b] := by
    intro h
    match A with
    | [] => simp at h10
    | [a] =>
      simp at hnl
      subst hnl
      simp at h
    | a :: b :: A => simp at h hz; exact hz h.1 h.2
  have key : ∀ cl : RecClass, (cls = some cl ∨ cls = none ∧ Detect.classify (File.firstLine A) = some cl) →
      ∃ u, openArchive c cls false gz none (A ++ B) = .ok u ∧
      ∀ m, scan offs plan (k + m) 0 u =
        (xs ++ (scan offs plan m k ⟨File.openFile B, none, .plain, .warc⟩).1.map (Seen.later A.length),
         (scan offs plan m k ⟨File.openFile B, none, .plain, .warc⟩).2) := by
    intro cl hcl
    rw [openArchive_plain c cls cl gz A hgz hcl hz] at ho
    cases ho
    refine ⟨_, openArchive_plain c cls cl gz (A ++ B) hgz ?_ hz2, fun m => ?_⟩
    · rw [firstLine_ext _ _ (firstLine_nl _ h10)]; exact hcl
    · have hpar' : cl.makeParser = .warc := hpar
      have := C82_scan B offs plan k m 0 ⟨File.openFile A, none, .plain, cl.makeParser⟩ t t' xs o (by simp) hpar rfl (Nat.zero_le _) h hl hend hnl
      simp only [longer, anew, File.openFile, hpar', Nat.zero_add] at this ⊢
      exact this
  cases cls with
  | some cl => exact key cl (Or.inl rfl)
  | none =>
    cases hcl : Detect.classify (File.firstLine A) with
    | some cl => exact key cl (Or.inr ⟨rfl, hcl⟩)
    | none =>
      exfalso
      have hr : (File.openFile A).rest = A := by simp [File.openFile, File.rest]
      have hgu := Detect.guess_plain c (File.openFile A) rfl (by rw [hr]; exact hz)
      rw [hr, hcl] at hgu
      simp [openArchive, openRecordStream, hgu] at ho

/-- **C82** The same for compressed archives (`cat a.warc.gz b.warc.gz`). -/
theorem C82_members (c : Codec) (hc : Codec.Laws c) (name : Bool) (gz : GzMode) (hgz : gz = .auto ∨ gz = .record)
    (ms ms' : List Bytes) (hne : ms ≠ []) (hnl : ms.flatten.getLast? = some 10) (s t t' : Stream)
    (ho : openArchive c (some .warc) name gz none (ms.flatMap c.enc) = .ok s)
    (offs : Bool) (plan : Nat → List ReadOp) (k : Nat) (xs : List Seen) (o : Option Nat)
    (h : readFirst offs plan k 0 s = some (xs, t)) (hl : t.fh.pos < t.fh.data.length) (hend : readRecord offs t = .ok ⟨o, none, []⟩ t') :
    ∃ u, openArchive c (some .warc) name gz none (ms.flatMap c.enc ++ ms'.flatMap c.enc) = .ok u ∧
      ∀ v, (ms' ≠ [] → openArchive c (some .warc) name gz none (ms'.flatMap c.enc) = .ok v) →
        (ms' = [] → v = ⟨gzipFileOf c (File.openFile []), none, .gzipRecord, .warc⟩) →
      ∀ m, scan offs plan (k + m) 0 u =
        (xs ++ (scan offs plan m k v).1.map (Seen.later ms.flatten.length), (scan offs plan m k v).2) := by
  have magic : ∀ ns : List Bytes, ns ≠ [] → ∀ x, (ns.flatMap c.enc ++ x).take 2 = [0x1f, 0x8b] := by
    intro ns hn x
    cases ns with
    | nil => exact absurd rfl hn
    | cons a ns => obtain ⟨y, hy⟩ := hc.magic a; simp [hy]
  have opn : ∀ ns : List Bytes, ns ≠ [] → openArchive c (some .warc) name gz none (ns.flatMap c.enc) =
      .ok ⟨gzipFileOf c (File.openFile (ns.flatMap c.enc)), none, .gzipRecord, .warc⟩ := by
    intro ns hn
    exact openArchive_gzip c (some .warc) .warc name gz _ hgz (Or.inl rfl) (by simpa using magic ns hn []) (Or.inl (by rw [hc.members]))
  have gf : ∀ ns : List Bytes, gzipFileOf c (File.openFile (ns.flatMap c.enc)) = { data := ns.flatten, pos := 0, strictNeg := true, fault := none } := by
    intro ns
    have : (File.openFile (ns.flatMap c.enc)).rest = ns.flatMap c.enc := by simp [File.openFile, File.rest]
    simp only [gzipFileOf, this, hc.members]
  rw [opn ms hne] at ho
  cases ho
  have happ : ms.flatMap c.enc ++ ms'.flatMap c.enc = (ms ++ ms').flatMap c.enc := by simp
  rw [happ]
  refine ⟨_, opn _ (by simp [hne]), fun v hv1 hv2 m => ?_⟩
  have hv : v = ⟨{ data := ms'.flatten, pos := 0, strictNeg := true, fault := none }, none, .gzipRecord, .warc⟩ := by
    by_cases hm : ms' = []
    · rw [hv2 hm]
      have := gf ms'
      rw [hm] at this
      subst hm
      simpa using this
    · have := hv1 hm
      rw [opn _ hm, gf] at this
      cases this; rfl
  subst hv
  rw [gf] at h ⊢
  have := C82_scan ms'.flatten offs plan k m 0 _ t t' xs o (by simp) rfl rfl (Nat.zero_le _) h hl hend hnl
  simp only [longer, anew, Nat.zero_add] at this
  simp only [List.flatten_append]
  exact this

/-- **C82** Whatever follows a well formed archive, its records are read as usual and then what follows is read as if it stood alone. -/
theorem C82_archive (rs : List RT) (hok : OkT rs) (B : Bytes) (offs : Bool) (plan : Nat → List ReadOp) (m : Nat) :
    scan offs plan (rs.length + m) 0 ⟨File.openFile (archiveT rs ++ B), none, .plain, .warc⟩ =
      (expect (reported .plain offs) plan 0 0 rs ++
        (scan offs plan m rs.length ⟨File.openFile B, none, .plain, .warc⟩).1.map (Seen.later (archiveT rs).length),
       (scan offs plan m rs.length ⟨File.openFile B, none, .plain, .warc⟩).2) := by
  have h := scan_archive offs plan m 0 ⟨File.openFile (archiveT rs ++ B), none, .plain, .warc⟩ rs B (by simp) rfl hok
    (fun _ _ => Or.inl rfl) (by simp [File.openFile, File.rest])
  rw [h]
  have e : (⟨File.openFile (archiveT rs ++ B), none, .plain, .warc⟩ : Stream).adv (archiveT rs).length =
      behind (archiveT rs) ⟨File.openFile B, none, .plain, .warc⟩ := by
    simp [adv, behind, File.openFile, File.advance]
  simp only [e, Nat.zero_add, C81_scan]
  rfl

/-! ### a case -/

/-- the damaged file of C80 followed by another one with junk in front -/
def catB : Bytes := b! "\r\nmore junk\nWARC/1.0\r\nContent-Length: 2\r\n\r\nhi"

example : (match readFirst true (fun _ => [.readline none]) 2 0 rereadStream with
    | some (_, t) => decide (t.fh.pos < t.fh.data.length) && (match readRecord true t with | .ok ⟨some 83, none, []⟩ _ => true | _ => false)
    | none => false) = true := by decide +kernel

example : rereadFile.getLast? = some 10 ∧ rereadFile.take 2 ≠ [0x1f, 0x8b] := by decide +kernel

example : (scan true (fun _ => [.readline none]) 9 0 ⟨File.openFile (rereadFile ++ catB), none, .plain, .warc⟩).1.map
    (fun x => (x.entry.offset, x.reads)) = [(some 10, [b! "abc"]), (some 47, [b! "z"]), (some 95, [b! "hi"]), (some 128, [])] := by
  decide +kernel

end Warc
