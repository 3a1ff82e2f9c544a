import Verif.Proofs.Reread
import Verif.Proofs.Open
import Verif.Proofs.ToolDemo
import Verif.Spec.Extract
import Verif.Spec.Collect
/-
  C80: going back to a record by its offset works in every file.
-/
set_option linter.all false
namespace Warc
open Rx Stream Spec

/-- the stream reads an uncompressed file as WARC -/
structure PlainWarc (s : Stream) : Prop where
  kind : s.kind = .plain
  parser : s.parser = .warc
  fault : s.fh.fault = none

theorem PlainWarc.next {s s' : Stream} {e : Entry} {r : Rec} {offs : Bool} (hs : PlainWarc s)
    (h : readRecord offs s = .ok e s') (hr : e.rcd = some r) :
    PlainWarc s' ∧ ∀ o, warcAt s'.fh o = warcAt s.fh o := by
  obtain ⟨_, hp, hd, hf, hk⟩ := readRecord_progress offs s s' e r hs.parser h hr
  have hsm := readRecord_same offs h
  refine ⟨⟨hk.trans hs.kind, hp, hf.trans hs.fault⟩, fun o => ?_⟩
  simp only [warcAt, hd, hf, hsm.2.2.2.1]

theorem PlainWarc.same {s s' : Stream} (hs : PlainWarc s) (h : SameSrc true s s') :
    PlainWarc s' ∧ ∀ o, warcAt s'.fh o = warcAt s.fh o :=
  ⟨⟨h.1.trans hs.kind, (h.2.2.2.2 rfl).trans hs.parser, h.2.2.1.trans hs.fault⟩,
   fun o => by simp only [warcAt, h.2.1, h.2.2.1, h.2.2.2.1]⟩

theorem Keeps.runOps (ops : List ReadOp) : Keeps true (runOps ops) := by
  induction ops with
  | nil => exact .pure _
  | cons op ops ih =>
    refine .bind ?_ fun _ => .bind ih fun _ => .pure _
    cases op with
    | read n => exact Keeps.read _
    | readline n => exact Keeps.readline _
    | readinto n => exact Keeps.read _

/-- **C80** Whatever stands in an uncompressed file, a record that was reported with the offset `o` is read again by a stream that
starts at `o`: the same version, headers, class and payload position, and the file is left at the same place, so that everything
that follows is also the same.  Only the complaints about the bytes in front of it are gone. -/
theorem C80_record (s s' : Stream) (e : Entry) (r : Rec) (o : Nat) (hs : PlainWarc s)
    (h : readRecord true s = .ok e s') (hr : e.rcd = some r) (ho : e.offset = some o) (offs : Bool) :
    readRecord offs (warcAt s.fh o) = .ok ⟨if offs then some o else none, some r.alone, []⟩ s' :=
  reread s s' e r o hs.kind hs.parser hs.fault h hr ho offs

/-- **C80** Every record read from an uncompressed file is reported with an offset. -/
theorem C80_offset (s s' : Stream) (e : Entry) (r : Rec) (hs : PlainWarc s)
    (h : readRecord true s = .ok e s') (hr : e.rcd = some r) : ∃ o, e.offset = some o := by
  obtain ⟨o, h1, _⟩ := reread_full s s' e r hs.kind hs.parser hs.fault h hr
  exact ⟨o, h1⟩

/-- **C80** A scan can be taken up again at the offset of any record: from there the same program sees that record and then
exactly the rest of what it saw the first time, whatever it read from the records. -/
theorem C80_scan (plan : Nat → List ReadOp) (n i j : Nat) (s : Stream) (hs : PlainWarc s) (x : Seen) (r : Rec) (o : Nat)
    (hx : (scan true plan n i s).1[j]? = some x) (hr : x.entry.rcd = some r) (ho : x.entry.offset = some o) :
    scan true plan (n - j) (i + j) (warcAt s.fh o) =
      (⟨⟨some o, some r.alone, []⟩, x.reads⟩ :: (scan true plan n i s).1.drop (j + 1), (scan true plan n i s).2) := by
  induction n generalizing s i j with
  | zero => simp [scan] at hx
  | succ n ih =>
    cases hrd : readRecord true s with
    | hang => simp [scan, hrd] at hx
    | raise e s' => simp [scan, hrd] at hx
    | ok e s' =>
      cases hrc : e.rcd with
      | none =>
        simp only [scan, hrd, hrc] at hx
        cases j with
        | zero => simp at hx; subst hx; simp [hrc] at hr
        | succ j => simp at hx
      | some r' =>
        obtain ⟨hs', hat⟩ := hs.next hrd hrc
        cases hops : runOps (plan i) s' with
        | hang =>
          simp only [scan, hrd, hrc, hops] at hx ⊢
          cases j with
          | succ j => simp at hx
          | zero =>
            simp at hx; subst hx
            simp only at hr ho
            rw [hrc] at hr; cases hr
            have h1 := C80_record s s' e r o hs hrd hrc ho true
            simp [scan, h1, hops]
        | raise ex sx =>
          simp only [scan, hrd, hrc, hops] at hx ⊢
          cases j with
          | succ j => simp at hx
          | zero =>
            simp at hx; subst hx
            simp only at hr ho
            rw [hrc] at hr; cases hr
            have h1 := C80_record s s' e r o hs hrd hrc ho true
            simp [scan, h1, hops]
        | ok outs s'' =>
          simp only [scan, hrd, hrc, hops] at hx ⊢
          have hsame : SameSrc true s' s'' := by
            have := Keeps.runOps (plan i) s'
            rw [hops] at this; exact this
          obtain ⟨hs'', hat'⟩ := hs'.same hsame
          cases j with
          | zero =>
            simp at hx; subst hx
            simp only at hr ho
            rw [hrc] at hr; cases hr
            have h1 := C80_record s s' e r o hs hrd hrc ho true
            simp [scan, h1, hops]
          | succ j =>
            have hx' : (scan true plan n (i + 1) s'').1[j]? = some x := by simpa using hx
            have := ih (i + 1) j s'' hs'' hx'
            rw [hat', hat] at this
            have e1 : n + 1 - (j + 1) = n - j := by omega
            have e2 : i + (j + 1) = i + 1 + j := by omega
            rw [e1, e2, this]
            simp

/-! ### opening the file at the offset -/

theorem at_not_gzip {y : Bytes} {v} (h : vspec (File.firstLine y) = some ([], v)) : y.take 2 ≠ [0x1f, 0x8b] := by
  intro hy
  cases y with
  | nil => simp at hy
  | cons c cs =>
    have hc : c = 0x1f := by simp at hy; exact hy.1
    subst hc
    have hfl : ∃ t, File.firstLine ((0x1f : Byte) :: cs) = 0x1f :: t := ⟨_, by simp [File.firstLine]; rfl⟩
    obtain ⟨t, ht⟩ := hfl
    rw [ht] at h
    have : versionAt ((0x1f : Byte) :: t) = none := by
      simp only [versionAt]
      have : (31 :: t : Bytes).dropWhile isWs = 31 :: t := by simp [isWs]
      rw [this]
      have : stripI (b! "WARC/") (31 :: t) = none := by
        simp only [stripI]
        rw [if_neg (by decide)]
      rw [this]; rfl
    simp only [vspec, this] at h
    rw [if_neg (by decide)] at h
    cases hv : vspec t with
    | none => simp [hv] at h
    | some p => simp [hv] at h

theorem openArchive_at (c : Codec) (cls : Option RecClass) (gz : GzMode) (data : Bytes) (o : Nat) (hgz : gz = .auto ∨ gz = .off)
    (hcls : cls = some .warc ∨ cls = none) (v) (hv : vspec (File.firstLine (data.drop o)) = some ([], v)) :
    openArchive c cls false gz (some o) data = .ok (warcAt (File.openFile data) o) := by
  have hsk : File.seek (o : Int) 0 (File.openFile data) = .ok () { File.openFile data with pos := o } := by simp [File.seek]
  have hf : ({ File.openFile data with pos := o } : File).fault = none := rfl
  have hrest : ({ File.openFile data with pos := o } : File).rest = data.drop o := by simp [File.openFile, File.rest]
  have hg := at_not_gzip hv
  have hgu := Detect.guess_plain c _ hf (by rw [hrest]; exact hg)
  have his := Detect.isGzipFile_apply _ hf
  rw [hrest] at his hgu
  have hb : ((data.drop o).take 2 == [0x1f, 0x8b]) = false := by simpa using hg
  rw [hb] at his
  rw [classify_version _ _ hv] at hgu
  rcases hcls with rfl | rfl <;> rcases hgz with rfl | rfl <;>
    simp [openArchive, openRecordStream, hgu, his, hsk, warcAt, RecClass.makeParser]

/-- **C80** Both ways of going to the offset lead to the stream of `C80_record`: `stream.seek(offset)` on a stream that has not
read anything yet, and `open_archive(..., offset=offset)`, with the record class given or guessed. -/
theorem C80_open (c : Codec) (data : Bytes) (s s' : Stream) (e : Entry) (r : Rec) (o : Nat) (hs : PlainWarc s)
    (hd : s.fh.data = data) (h : readRecord true s = .ok e s') (hr : e.rcd = some r) (ho : e.offset = some o)
    (cls : Option RecClass) (hcls : cls = some .warc ∨ cls = none) (gz : GzMode) (hgz : gz = .auto ∨ gz = .off) :
    openArchive c cls false gz (some o) data = .ok (warcAt (File.openFile data) o) ∧
    ∀ s0, s0.kind = .plain → s0.parser = .warc → s0.eoc = none →
      Stream.seek o 0 s0 = .ok () (warcAt s0.fh o) := by
  obtain ⟨o', h1, ⟨v, hv⟩, _⟩ := reread_full s s' e r hs.kind hs.parser hs.fault h hr
  rw [ho] at h1; cases h1
  have hrest : (warcAt s.fh o).fh.rest = data.drop o := by simp [warcAt, File.rest, hd]
  rw [hrest] at hv
  refine ⟨openArchive_at c cls gz data o hgz hcls v hv, ?_⟩
  rintro ⟨f, eo, ki, pa⟩ rfl rfl rfl
  simp [Stream.seek, onFile, File.seek, warcAt]

/-! ### warcextract -/

theorem content_alone (s : Stream) (r : Rec) (hs : Sane r) (w : World) (c : Option Bytes × Option Bytes) (out : Bytes)
    (h : World.content ⟨s, r, []⟩ = .ok c w) :
    ∃ w', World.content ⟨s, r.alone, out⟩ = .ok c w' ∧ w'.out = out ∧ ∃ b, c.2 = some b := by
  have h1 : r.alone.content = none := hs.content
  have h2 : r.alone.cfile = .stream := hs.cfile
  simp only [World.content, hs.content, World.cfileRead, hs.cfile, World.onStream] at h
  cases hr : Stream.read none s with
  | hang => simp [hr] at h
  | raise e s' => simp [hr] at h
  | ok b s' =>
    simp only [hr] at h
    cases h
    refine ⟨_, by simp only [World.content, h1, World.cfileRead, h2, World.onStream, hr]; rfl, rfl, b, rfl⟩

/-- where a collected record came from -/
theorem collect_source (n : Nat) (s : Stream) (hs : PlainWarc s) (g : Got) (hg : g ∈ (collect true n s).records) :
    ∃ s1 s2 e r w, PlainWarc s1 ∧ (∀ o, warcAt s1.fh o = warcAt s.fh o) ∧ s1.fh.data = s.fh.data ∧ readRecord true s1 = .ok e s2 ∧ e.rcd = some r ∧
      g.headers = r.headers ∧ g.offset = e.offset ∧ World.content ⟨s2, r, []⟩ = .ok g.content w := by
  induction n generalizing s with
  | zero => simp [collect] at hg
  | succ n ih =>
    cases hrd : readRecord true s with
    | hang => simp [collect, hrd] at hg
    | raise e s' => simp [collect, hrd] at hg
    | ok e s' =>
      cases hrc : e.rcd with
      | none => simp [collect, hrd, hrc] at hg
      | some r =>
        obtain ⟨hs', hat⟩ := hs.next hrd hrc
        have hdat : s'.fh.data = s.fh.data := (readRecord_progress true s s' e r hs.parser hrd hrc).2.2.1
        obtain ⟨hsane, _⟩ := readRecord_sane true s s' e r hs.parser hrd hrc
        cases hct : World.content ⟨s', r, []⟩ with
        | hang => simp [collect, hrd, hrc, hct] at hg
        | raise e s' => simp [collect, hrd, hrc, hct] at hg
        | ok c w =>
          simp only [collect, hrd, hrc, hct, List.mem_cons] at hg
          rcases hg with rfl | hg
          · exact ⟨s, s', e, r, w, hs, fun _ => rfl, rfl, hrd, hrc, rfl, rfl, hct⟩
          · have hsame : SameSrc true s' w.strm := by
              simp only [World.content, hsane.content, World.cfileRead, hsane.cfile, World.onStream] at hct
              have hk := Keeps.read (p := true) none s'
              cases hr : Stream.read none s' with
              | hang => simp [hr] at hct
              | raise e s'' => simp [hr] at hct
              | ok b s'' =>
                simp only [hr] at hct hk
                cases hct
                exact hk
            obtain ⟨hw, hat'⟩ := hs'.same hsame
            obtain ⟨s1, s2, e1, r1, w1, h1, h2, h2', h3⟩ := ih w.strm hw hg
            exact ⟨s1, s2, e1, r1, w1, h1, fun o => (h2 o).trans ((hat' o).trans (hat o)), h2'.trans (hsame.2.1.trans hdat), h3⟩

/-- **C80** Whatever stands in an uncompressed file, `warcextract file offset` with an offset that a scan of the file reported
writes exactly the bytes which that scan read as the content of the record. -/
theorem C80_extract (c : Codec) (fs : FS) (name data : Bytes) (hfs : fs name = some data) (hn : ¬ b! ".gz" <:+ name)
    (hg : data.take 2 ≠ [0x1f, 0x8b]) (n : Nat) (g : Got) (o : Nat)
    (hgot : g ∈ (collect true n ⟨File.openFile data, none, .plain, .warc⟩).records) (ho : g.offset = some o) (out : Bytes) :
    ∃ body, g.content.2 = some body ∧ WarcExtract.main c fs name o out = .ok () (out ++ body) := by
  have hng : nameGz name = false := by
    rw [nameGz, Bool.eq_false_iff]; exact fun hh => hn ((endsWith_iff _ _).1 hh)
  have hs : PlainWarc ⟨File.openFile data, none, .plain, .warc⟩ := ⟨rfl, rfl, rfl⟩
  obtain ⟨s1, s2, e, r, w, hs1, hat, _, hrd, hrc, _, hoff, hct⟩ := collect_source n _ hs g hgot
  have hre := C80_record s1 s2 e r o hs1 hrd hrc (by rw [← hoff, ho]) false
  obtain ⟨hsane, _⟩ := readRecord_sane true s1 s2 e r hs1.parser hrd hrc
  rw [hat] at hre
  obtain ⟨w', hc', hout, b, hb⟩ := content_alone s2 r hsane w g.content out hct
  refine ⟨b, hb, ?_⟩
  have hopen : openName c fs .warc none name = .ok ⟨File.openFile data, none, .plain, .warc⟩ := by
    simp only [openName, hfs, hng]
    exact openArchive_plain c (some .warc) .warc .auto _ (Or.inl rfl) (Or.inl rfl) hg
  have hseek : WarcExtract.seekFresh c data o ⟨File.openFile data, none, .plain, .warc⟩ = .ok () (warcAt (File.openFile data) o) := by
    simp [WarcExtract.seekFresh, Stream.seek, onFile, File.seek, warcAt]
  obtain ⟨gc1, gc2⟩ : ∃ a, g.content = (a, some b) := ⟨g.content.1, by rw [← hb]⟩
  simp only [WarcExtract.main, onArchive, hopen, M.bind_apply, Tool.onStream, hfs, Option.getD_some, hseek, WarcExtract.dumpRecord, hre,
    Tool.withRecord, WarcFilter.contentBytes, hc', gc2, M.pure_apply, World.write, M.modify_apply, hout]

/-! ### a case -/

/-- a junk line, a prefix before the version, a record with a bare newline after a header, and a second record -/
def rereadFile : Bytes :=
  b! "junk\r\n\r\nxyWARC/1.0\r\nContent-Length: 3\n\r\nabc\r\n\r\nWARC/1.0\r\nContent-Length: 1\r\n\r\nz\r\n\r\n"

def rereadStream : Stream := ⟨File.openFile rereadFile, none, .plain, .warc⟩

example : PlainWarc rereadStream := ⟨rfl, rfl, rfl⟩

/-- the first record is at offset 10 and has three errors; two of them are about what stands in front of it -/
example : (scan true (fun _ => []) 9 0 rereadStream).1.map (fun x => (x.entry.offset, x.entry.rcd.map (·.errors.length))) =
    [(some 10, some 3), (some 47, some 0), (some 83, none)] := by decide +kernel

example : (scan true (fun _ => []) 9 0 (warcAt (File.openFile rereadFile) 10)).1.map
    (fun x => (x.entry.offset, x.entry.rcd.map (·.errors.length))) = [(some 10, some 1), (some 47, some 0), (some 83, none)] := by decide +kernel

example : (collect true 9 rereadStream).records.map (fun g => (g.offset, g.content.2)) =
    [(some 10, some (b! "abc")), (some 47, some (b! "z"))] := by decide +kernel

end Warc
