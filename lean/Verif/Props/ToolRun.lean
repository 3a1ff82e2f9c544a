import Verif.Proofs.ToolActs
import Verif.Props.Grammar
set_option linter.all false
/-
  C108: what the tools write, as a function of the bytes of their input files.
-/
namespace Warc
open Rx Stream Spec

theorem open_intact (c : Codec) (fs : FS) (name stored : Bytes) (hfs : fs name = some stored) (hi : Compressed name stored → (c.dec stored).2 = none) :
    openName c fs .warc none name = .ok
      (if Compressed name stored then ⟨{ data := (c.dec stored).1, pos := 0, strictNeg := true, fault := none }, none, .gzipRecord, .warc⟩
       else ⟨File.openFile stored, none, .plain, .warc⟩) := by
  have hrest : (File.openFile stored).rest = stored := by simp [File.openFile, File.rest]
  by_cases hc : Compressed name stored
  · rw [if_pos hc]
    have hd : (c.dec stored).2 = none := hi hc
    have hg : gzipFileOf c (File.openFile stored) = { data := (c.dec stored).1, pos := 0, strictNeg := true, fault := none } := by
      simp [gzipFileOf, hrest, hd]
    simp only [openName, hfs]
    by_cases hn : b! ".gz" <:+ name
    · have hng : nameGz name = true := by rw [nameGz]; exact (endsWith_iff _ _).2 hn
      rw [hng, openArchive_named c .warc, hg]; rfl
    · rw [openArchive_gzip c (some .warc) .warc (nameGz name) .auto stored (Or.inl rfl) (Or.inl rfl) (hc.resolve_left hn) (Or.inl hd), hg]; rfl
  · rw [if_neg hc]
    have h1 : ¬ b! ".gz" <:+ name := fun h => hc (Or.inl h)
    have h2 : stored.take 2 ≠ [0x1f, 0x8b] := fun h => hc (Or.inr h)
    exact openName_plain c fs name stored hfs h1 h2

/-- a tool on one file -/
theorem onArchive_exact (c : Codec) (fs : FS) (offs : Bool) (act : Bytes → Head → Done) (tail : Bytes → Option Nat → List Err → Output) (name : Bytes)
    (loop : M Tool Unit) (step fin) (hl : ∀ t, loop t = Tool.loopOf offs step fin (t.strm.fh.rest.length + 2) t)
    (hstep : Tool.Performs (act name) step) (hfin : Tool.Ends (tail name) fin) (hi : Intact c fs [name]) (out : Bytes) :
    onArchive c fs .warc none name loop out = (onFileOutput c fs offs act tail name).result out := by
  unfold onFileOutput
  cases hfs : fs name with
  | none => simp [onArchive, openName, hfs, Output.result]
  | some stored =>
    have ho := open_intact c fs name stored hfs (hi name (by simp) stored hfs)
    have finish : ∀ (s : Stream) (o : Output), openName c fs .warc none name = .ok s → Tool.Shows out (loop ⟨s, out⟩) o →
        onArchive c fs .warc none name loop out = o.result out := by
      intro s o ho h
      simp only [onArchive, ho]
      unfold Tool.Shows at h
      unfold Output.result
      cases hs : o.stop with
      | done => rw [hs] at h; obtain ⟨s', h⟩ := h; simp only [h]
      | raised e => rw [hs] at h; obtain ⟨s', h⟩ := h; simp only [h]
      | hangs => rw [hs] at h; simp only at h; simp only [h]
    by_cases hc : Compressed name stored
    · rw [if_pos hc] at ho
      simp only [if_pos hc]
      refine finish _ _ ho ?_
      rw [hl]
      have h := Tool.loopOf_exact offs (act name) (tail name) step fin hstep hfin ((c.dec stored).1.length + 2)
        ⟨{ data := (c.dec stored).1, pos := 0, strictNeg := true, fault := none }, none, .gzipRecord, .warc⟩ out rfl (by simp) rfl rfl rfl (by simp [File.rest])
      have e1 : (reported Kind.gzipRecord offs) = fun _ => none := by funext p; rfl
      have e2 : ({ data := (c.dec stored).1, pos := 0, strictNeg := true, fault := none } : File).rest = (c.dec stored).1 := by simp [File.rest]
      simp only [e1, e2] at h ⊢
      exact h
    · rw [if_neg hc] at ho
      simp only [if_neg hc]
      refine finish _ _ ho ?_
      rw [hl]
      have e2 : (File.openFile stored).rest = stored := by simp [File.openFile, File.rest]
      have h := Tool.loopOf_exact offs (act name) (tail name) step fin hstep hfin (stored.length + 2)
        ⟨File.openFile stored, none, .plain, .warc⟩ out rfl (by simp) rfl rfl rfl (by simp [e2])
      have e1 : (reported Kind.plain offs) = fun p => if offs then some p else none := by funext p; rfl
      simp only [e1, e2] at h ⊢
      exact h

/-- a tool on a list of files -/
theorem forFiles_exact (c : Codec) (fs : FS) (offs : Bool) (act : Bytes → Head → Done) (tail : Bytes → Option Nat → List Err → Output) (f : Bytes → M Bytes Unit)
    (names : List Bytes) (h : ∀ name ∈ names, ∀ out, f name out = (onFileOutput c fs offs act tail name).result out) (out : Bytes) :
    forFiles f names out = (onFilesOutput c fs offs act tail names).result out := by
  induction names generalizing out with
  | nil => simp [forFiles, onFilesOutput, Output.result]
  | cons name names ih =>
    have ih := ih fun n hn => h n (by simp [hn])
    simp only [forFiles, M.bind_apply, h name (by simp), onFilesOutput]
    unfold Output.andThen
    cases hs : (onFileOutput c fs offs act tail name).stop with
    | done =>
      have hr : ∀ out, (onFileOutput c fs offs act tail name).result out = .ok () (out ++ (onFileOutput c fs offs act tail name).text) := by
        intro out; simp [Output.result, hs]
      rw [hr]
      simp only [if_true, ih]
      unfold Output.result
      simp only
      cases (onFilesOutput c fs offs act tail names).stop <;> simp
    | raised e =>
      have hr : ∀ out, (onFileOutput c fs offs act tail name).result out = .raise e (out ++ (onFileOutput c fs offs act tail name).text) := by
        intro out; simp [Output.result, hs]
      simp [hr]
    | hangs =>
      have hr : ∀ out, (onFileOutput c fs offs act tail name).result out = .hang := by
        intro out; simp [Output.result, hs]
      simp [hr]

theorem Spec.Intact.one {c : Codec} {fs : FS} {names : List Bytes} (h : Intact c fs names) {name : Bytes} (hn : name ∈ names) : Intact c fs [name] := by
  intro n hn' stored
  simp only [List.mem_singleton] at hn'
  subst hn'
  exact h n hn stored

theorem ends_strict : Tool.Ends strictTail (fun e => if e.errors = [] then pure () else M.throw (.generic "Errors while decoding")) := by
  intro s o es out
  unfold strictTail
  by_cases h : es = []
  · subst h; exact ⟨s, by simp⟩
  · rw [if_neg h]; exact ⟨s, by simp [h]⟩

theorem each_loop (body : M World Unit) (t : Tool) : Tool.each body t = Tool.loopOf false (fun _ r => Tool.withRecord r body)
    (fun e => if e.errors = [] then pure () else M.throw (.generic "Errors while decoding")) (t.strm.fh.rest.length + 2) t := by
  rw [Tool.each, Tool.rounds, Tool.forEach_loop]

/-- **C108** `warc2warc` without options: for every list of files, whatever their bytes, what it writes and how it ends. -/
theorem C108_copy (c : Codec) (z : Http.Zlib) (fs : FS) (names : List Bytes) (hi : Intact c fs names) :
    Warc2Warc.main c z fs {} names [] = (onFilesOutput c fs false (fun _ => copying) (fun _ => strictTail) names).result [] := by
  unfold Warc2Warc.main
  exact forFiles_exact c fs false _ _ _ names (fun name hn out => onArchive_exact c fs false (fun _ => copying) (fun _ => strictTail) name _ _ _
    (each_loop _) (Tool.performs_copy copying rfl c z) ends_strict (hi.one hn) out) []

/-- **C108** `warc2warc -Z` -/
theorem C108_compress (c : Codec) (z : Http.Zlib) (fs : FS) (names : List Bytes) (hi : Intact c fs names) :
    Warc2Warc.main c z fs { gzip := true } names [] = (onFilesOutput c fs false (fun _ => compressing c.enc) (fun _ => strictTail) names).result [] := by
  unfold Warc2Warc.main
  exact forFiles_exact c fs false _ _ _ names (fun name hn out => onArchive_exact c fs false (fun _ => compressing c.enc) (fun _ => strictTail) name _ _ _
    (each_loop _) (Tool.performs_compress c z _ rfl rfl) ends_strict (hi.one hn) out) []

/-- **C108** `warcfilter` (all modes but `-H`, with and without `-i`) -/
theorem C108_filter (c : Codec) (fs : FS) (search : Bytes → Bool) (m : Mode) (invert : Bool) (names : List Bytes) (hi : Intact c fs names) :
    WarcFilter.main c fs search (m.opts invert) names [] =
      (onFilesOutput c fs false (fun _ => filtering m search invert) (fun _ => strictTail) names).result [] := by
  unfold WarcFilter.main
  exact forFiles_exact c fs false _ _ _ names (fun name hn out => onArchive_exact c fs false (fun _ => filtering m search invert) (fun _ => strictTail) name _ _ _
    (each_loop _) (Tool.performs_filter c search m invert) ends_strict (hi.one hn) out) []

/-- **C108** `warcindex`, behind the heading -/
theorem C108_index (c : Codec) (fs : FS) (names : List Bytes) (hi : Intact c fs names) :
    WarcIndex.main c fs names [] = (onFilesOutput c fs true indexing (fun _ => quietTail) names).result
      (b! "#WARC filename offset warc-type warc-subject-uri warc-record-id content-type content-length\n") := by
  unfold WarcIndex.main
  simp only [M.bind_apply, M.modify_apply, List.nil_append]
  refine forFiles_exact c fs true _ _ _ names (fun name hn out => onArchive_exact c fs true indexing (fun _ => quietTail) name _
    (fun e r => Tool.withRecord r (WarcIndex.indexRecord name e.offset)) (fun _ => pure ()) ?_ (Tool.performs_index name) ?_ (hi.one hn) out) _
  · intro t
    rw [Tool.eachEntry, Tool.rounds, Tool.forRecords, Tool.entries_loop]
    generalize t.strm.fh.rest.length + 2 = n
    induction n generalizing t with
    | zero => rfl
    | succ n ih =>
      simp only [Tool.loopOf]
      cases hq : readRecord true t.strm with
      | hang => rfl
      | raise e s => rfl
      | ok e s =>
        simp only
        cases hr : e.rcd with
        | none => rfl
        | some r =>
          simp only
          cases hw : Tool.withRecord r (WarcIndex.indexRecord name e.offset) ⟨s, t.out⟩ with
          | hang => rfl
          | raise x t' => rfl
          | ok a t' => exact ih t'
  · intro s o es out
    exact ⟨s, by simp [quietTail]⟩

/-- **C108** `warcdump` -/
theorem C108_dump (c : Codec) (fs : FS) (names : List Bytes) (hi : Intact c fs names) :
    WarcDump.main c fs names [] = (onFilesOutput c fs true dumping dumpTail names).result [] := by
  unfold WarcDump.main
  refine forFiles_exact c fs true _ _ _ names (fun name hn out => onArchive_exact c fs true dumping dumpTail name _
    (fun e _ => WarcDump.entry name e) (WarcDump.entry name) ?_ (Tool.performs_dump name) ?_ (hi.one hn) out) _
  · intro t
    rw [WarcDump.dumpArchive, Tool.rounds, Tool.entries_loop]
  · intro s o es out
    have h := dump_tail name ⟨o, none, es⟩ s out rfl
    exact ⟨s, h⟩

/-- **C108** `warcextract name offset` on an uncompressed file, with any offset: what is written depends on the bytes from there on only. -/
theorem C108_extract (c : Codec) (fs : FS) (name data : Bytes) (offset : Nat) (hfs : fs name = some data) (hn : ¬ Compressed name data) :
    WarcExtract.main c fs name offset [] = (onceOn extracting (data.drop offset)).result [] := by
  have ho := open_intact c fs name data hfs (fun h => absurd h hn)
  rw [if_neg hn] at ho
  have hsk : WarcExtract.seekFresh c data offset ⟨File.openFile data, none, .plain, .warc⟩ = .ok () (readerFrom data offset) := by
    simp [WarcExtract.seekFresh, Stream.seek, onFile, File.seek, readerFrom]
  have hrest : (readerFrom data offset).fh.rest = data.drop offset := by simp [readerFrom, File.openFile, File.rest]
  have hx := readRecord_exact false (readerFrom data offset) rfl (by simp [readerFrom]) rfl rfl
  rw [hrest] at hx
  simp only [WarcExtract.main, onArchive, ho, M.bind_apply, Tool.onStream, hfs, Option.getD_some, hsk, WarcExtract.dumpRecord]
  unfold onceOn
  cases hq : next (data.drop offset) with
  | stuck => rw [hq] at hx; simp only at hx ⊢; rw [hx]; rfl
  | unknown => rw [hq] at hx; simp only at hx ⊢; obtain ⟨s', hx⟩ := hx; rw [hx]; rfl
  | none es size =>
    rw [hq] at hx; simp only at hx ⊢; rw [hx]
    by_cases he : es = []
    · subst he; rfl
    · simp [he, Output.result]
  | record start v hs es size =>
    rw [hq] at hx; simp only at hx ⊢; rw [hx]
    have hd := Tool.performs_extract ({ (readerFrom data offset).adv size with eoc := some (declaredLength hs) } : Stream) v hs es none []
      ⟨rfl, rfl, rfl⟩
    have hr2 : ({ (readerFrom data offset).adv size with eoc := some (declaredLength hs) } : Stream).fh.rest = (data.drop offset).drop size := by
      simp [hrest]
    rw [hr2] at hd
    simp only at hd ⊢
    cases ha : extracting ⟨none, v, hs, es, (data.drop offset).drop size⟩ with
    | never => rw [ha] at hd; rw [show _ = _ from hd]; rfl
    | stops text exc =>
      rw [ha] at hd
      obtain ⟨s', hd⟩ := hd
      rw [hd]; rfl
    | goes text took =>
      rw [ha] at hd
      obtain ⟨k, hd, -⟩ := hd
      rw [hd]; rfl

/-- **C108** `warcpayload name:offset` on an uncompressed file, with any offset, unless an HTTP response is found there. -/
theorem C108_payload (c : Codec) (fs : FS) (http : M World Unit) (name data : Bytes) (offset : Nat) (hfs : fs name = some data) (hn : ¬ b! ".gz" <:+ name)
    (hg : ¬ [0x1f, 0x8b] <+: data.drop offset)
    (hh : ∀ start v hs es size, next (data.drop offset) = .record start v hs es size → isHttp ⟨v, hs, []⟩ = false) :
    WarcPayload.main c fs http name offset [] = (onceOn payloading (data.drop offset)).result [] := by
  have hng : nameGz name = false := by
    rw [nameGz, Bool.eq_false_iff]; exact fun hh => hn ((endsWith_iff _ _).1 hh)
  have ho : openName c fs .warc (some offset) name = .ok (readerFrom data offset) := by
    simp only [openName, hfs, hng]
    rw [openArchive_at_any c (some .warc) .auto data offset (Or.inl rfl) hg]; rfl
  have hrest : (readerFrom data offset).fh.rest = data.drop offset := by simp [readerFrom, File.openFile, File.rest]
  have hx := readRecord_exact false (readerFrom data offset) rfl (by simp [readerFrom]) rfl rfl
  rw [hrest] at hx
  simp only [WarcPayload.main, onArchive, ho, M.bind_apply, Tool.onStream, WarcPayload.dumpStream]
  unfold onceOn
  cases hq : next (data.drop offset) with
  | stuck => rw [hq] at hx; simp only at hx ⊢; rw [hx]; rfl
  | unknown => rw [hq] at hx; simp only at hx ⊢; obtain ⟨s', hx⟩ := hx; rw [hx]; rfl
  | none es size =>
    rw [hq] at hx; simp only at hx ⊢; rw [hx]
    by_cases he : es = []
    · subst he; rfl
    · simp [he, Output.result]
  | record start v hs es size =>
    rw [hq] at hx; simp only at hx ⊢; rw [hx]
    have hd := Tool.performs_payload http ({ (readerFrom data offset).adv size with eoc := some (declaredLength hs) } : Stream) v hs es none []
      ⟨rfl, rfl, rfl⟩ (hh _ _ _ _ _ hq)
    have hr2 : ({ (readerFrom data offset).adv size with eoc := some (declaredLength hs) } : Stream).fh.rest = (data.drop offset).drop size := by
      simp [hrest]
    rw [hr2] at hd
    simp only at hd ⊢
    cases ha : payloading ⟨none, v, hs, es, (data.drop offset).drop size⟩ with
    | never => rw [ha] at hd; rw [show _ = _ from hd]; rfl
    | stops text exc =>
      rw [ha] at hd
      obtain ⟨s', hd⟩ := hd
      rw [hd]; rfl
    | goes text took =>
      rw [ha] at hd
      obtain ⟨k, hd, -⟩ := hd
      rw [hd]; rfl

/-! ### concrete cases -/

/-- a record with a length of -1, and another one behind it -/
def minusOne : Bytes :=
  b! "WARC/1.0\r\nWARC-Type: a\r\nContent-Type: t\r\nContent-Length: -1\r\n\r\nWARC/1.0\r\nContent-Type: t\r\nContent-Length: 2\r\n\r\nxy\r\n\r\n"

/-- `warc2warc` writes the rest of the file as the content of the first record and ends with ValueError -/
theorem minusOne_copy : runOn (fun _ => none) copying strictTail 200 0 minusOne =
    ⟨b! "WARC/1.0\r\nWARC-Type: a\r\nContent-Type: t\r\nContent-Length: -1\r\n\r\nWARC/1.0\r\nContent-Type: t\r\nContent-Length: 2\r\n\r\nxy\r\n\r\n",
      .raised .valueError⟩ := by decide +kernel

/-- `warcindex` finds both records -/
theorem minusOne_index : runOn some (indexing (b! "f")) quietTail 200 0 minusOne =
    ⟨b! "f 0 a - - t -1\nf 63 - - - t 2\n", .done⟩ := by decide +kernel

/-- `warcfilter` without a match in the headers reads the rest of the file as the content of the first record, so that the second is never seen -/
theorem minusOne_filter : runOn (fun _ => none) (filtering .whole (fun x => x == b! "2") false) strictTail 200 0 minusOne = ⟨[], .done⟩ ∧
    runOn (fun _ => none) (filtering .type (fun x => x == b! "zz") true) strictTail 200 0 minusOne =
      ⟨b! "WARC/1.0\r\nWARC-Type: a\r\nContent-Type: t\r\nContent-Length: -1\r\n\r\nWARC/1.0\r\nContent-Type: t\r\nContent-Length: 2\r\n\r\nxy\r\n\r\n",
        .raised .valueError⟩ := by decide +kernel

/-- `warcdump` of messy bytes: the record has flaws, so that the run ends inside its block -/
theorem messy_dump : runOn some (dumping (b! "f")) (dumpTail (b! "f")) 200 0 messy =
    ⟨b! "archive record at f:9\nHeaders:\n\tA b:c d e\n\tcontent-TYPE:\n\tContent-Length:3\nContent Headers:\n\tContent-Type : \n\tContent-Length : 3\nContent:\n\tabc\n\t...\n\nErrors:\n",
      .raised .typeError⟩ := by decide +kernel

/-- payload and extraction in the middle of a file -/
theorem minusOne_once : onceOn extracting (minusOne.drop 63) = ⟨b! "xy", .done⟩ ∧ onceOn payloading (minusOne.drop 63) = ⟨b! "xy", .done⟩ ∧
    onceOn payloading minusOne = ⟨minusOne.drop 63, .raised .valueError⟩ := by decide +kernel

/-- two files: an uncompressed one and a compressed one that decompresses without an error -/
example : ∃ fs : FS, Intact toy fs [b! "a", b! "b.gz"] ∧ fs (b! "a") = some minusOne ∧ fs (b! "b.gz") = some (toy.enc messy) :=
  ⟨fun n => if n = b! "a" then some minusOne else some (toy.enc messy), by
    intro name hn stored hs hc
    simp only [List.mem_cons, List.not_mem_nil, or_false] at hn
    rcases hn with rfl | rfl
    · simp only [if_true, Option.some.injEq] at hs
      subst hs
      revert hc; decide
    · simp only [if_neg (show ¬ b! "b.gz" = b! "a" by decide)] at hs
      simp only [Option.some.injEq] at hs
      subst hs
      have := toy_laws.members [messy]
      simp at this
      rw [this], by simp, rfl⟩

example (c : Codec) (fs : FS) (hfs : fs (b! "a") = some minusOne) := C108_extract c fs (b! "a") minusOne 63 hfs (by decide)
example (c : Codec) (fs : FS) (http : M World Unit) (hfs : fs (b! "a") = some minusOne) :=
  C108_payload c fs http (b! "a") minusOne 63 hfs (by decide) (by decide) (by
    have : next (minusOne.drop 63) = .record 0 (b! "WARC/1.0") [(b! "Content-Type", b! "t"), (b! "Content-Length", b! "2")] [] 48 := by decide +kernel
    rw [this]
    intro _ _ _ _ _ h
    simp only [Next.record.injEq] at h
    obtain ⟨-, rfl, rfl, -, -⟩ := h
    decide)

end Warc
