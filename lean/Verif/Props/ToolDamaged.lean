import Verif.Proofs.ToolDamaged
import Verif.Props.ToolRun
import Verif.Props.GrammarDamaged
set_option linter.all false
/-
  C114: what the tools write for any files, damaged ones included.
-/
namespace Warc
open Rx Stream Spec

theorem open_any_file (c : Codec) (fs : FS) (name stored : Bytes) (hfs : fs name = some stored) :
    openName c fs .warc none name = .ok
      (if Compressed name stored then ⟨{ data := (c.dec stored).1, pos := 0, strictNeg := true, fault := (c.dec stored).2 }, none, .gzipRecord, .warc⟩
       else ⟨File.openFile stored, none, .plain, .warc⟩) := by
  have hf : (File.openFile stored).fault = none := rfl
  have hrest : (File.openFile stored).rest = stored := by simp [File.openFile, File.rest]
  by_cases hc : Compressed name stored
  · rw [if_pos hc]
    have hg : gzipFileOf c (File.openFile stored) = { data := (c.dec stored).1, pos := 0, strictNeg := true, fault := (c.dec stored).2 } := by
      simp [gzipFileOf, hrest]
    simp only [openName, hfs]
    by_cases hn : b! ".gz" <:+ name
    · have hng : nameGz name = true := by rw [nameGz]; exact (endsWith_iff _ _).2 hn
      rw [hng, openArchive_named c .warc, hg]; rfl
    · have hb : (stored.take 2 == [0x1f, 0x8b]) = true := by simpa using hc.resolve_left hn
      have his := Detect.isGzipFile_apply (File.openFile stored) hf
      rw [hrest, hb] at his
      cases nameGz name <;> simp [openArchive, openRecordStream, his, hg, RecClass.makeParser]
  · rw [if_neg hc]
    have h1 : ¬ b! ".gz" <:+ name := fun h => hc (Or.inl h)
    have h2 : stored.take 2 ≠ [0x1f, 0x8b] := fun h => hc (Or.inr h)
    exact openName_plain c fs name stored hfs h1 h2

/-- a tool on any one file -/
theorem onArchive_any (c : Codec) (fs : FS) (offs : Bool) (act : Bytes → Head → Done) (actD : Exc → Bytes → Head → Done)
    (tail : Bytes → Option Nat → List Err → Output) (name : Bytes)
    (loop : M Tool Unit) (step fin) (hl : ∀ t, loop t = Tool.loopOf offs step fin (t.strm.fh.rest.length + 2) t)
    (hstep : Tool.Performs (act name) step) (hstepD : ∀ e, Tool.PerformsD e (actD e name) step) (hfin : Tool.Ends (tail name) fin) (out : Bytes) :
    onArchive c fs .warc none name loop out = (onAnyFile c fs offs act actD tail name).result out := by
  unfold onAnyFile
  cases hfs : fs name with
  | none => simp [onArchive, openName, hfs, Output.result]
  | some stored =>
    have ho := open_any_file c fs name stored hfs
    have finish : ∀ (s : Stream) (o : Output), openName c fs .warc none name = .ok s → Tool.Shows out (loop ⟨s, out⟩) o →
        onArchive c fs .warc none name loop out = o.result out := by
      intro s o ho h
      simp only [onArchive, ho]
      unfold Tool.Shows at h
      unfold Output.result
      cases hs : o.stop with
      | done => rw [hs] at h; obtain ⟨s', h⟩ := h; simp only [h]
      | raised e => rw [hs] at h; obtain ⟨s', h⟩ := h; simp only [h]
      | hangs => rw [hs] at h; simp only at h; simp only [h]
    by_cases hc : Compressed name stored
    · rw [if_pos hc] at ho
      simp only [if_pos hc]
      refine finish _ _ ho ?_
      rw [hl]
      cases hd : (c.dec stored).2 with
      | none =>
        have h := Tool.loopOf_exact offs (act name) (tail name) step fin hstep hfin ((c.dec stored).1.length + 2)
          ⟨{ data := (c.dec stored).1, pos := 0, strictNeg := true, fault := none }, none, .gzipRecord, .warc⟩ out rfl (by simp) rfl rfl rfl (by simp [File.rest])
        have e1 : (reported Kind.gzipRecord offs) = fun _ => none := by funext p; rfl
        have e2 : ({ data := (c.dec stored).1, pos := 0, strictNeg := true, fault := none } : File).rest = (c.dec stored).1 := by simp [File.rest]
        simp only [e1, e2] at h ⊢
        exact h
      | some e =>
        have h := Tool.loopOf_damaged e offs (actD e name) (tail name) step fin (hstepD e) hfin ((c.dec stored).1.length + 2)
          ⟨{ data := (c.dec stored).1, pos := 0, strictNeg := true, fault := some e }, none, .gzipRecord, .warc⟩ out rfl rfl rfl ⟨rfl, Nat.zero_le _⟩ rfl (by simp [File.rest])
        have e2 : ({ data := (c.dec stored).1, pos := 0, strictNeg := true, fault := some e } : File).rest = (c.dec stored).1 := by simp [File.rest]
        simp only [e2] at h ⊢
        exact h
    · rw [if_neg hc] at ho
      simp only [if_neg hc]
      refine finish _ _ ho ?_
      rw [hl]
      have e2 : (File.openFile stored).rest = stored := by simp [File.openFile, File.rest]
      have h := Tool.loopOf_exact offs (act name) (tail name) step fin hstep hfin (stored.length + 2)
        ⟨File.openFile stored, none, .plain, .warc⟩ out rfl (by simp) rfl rfl rfl (by simp [e2])
      have e1 : (reported Kind.plain offs) = fun p => if offs then some p else none := by funext p; rfl
      simp only [e1, e2] at h ⊢
      exact h

theorem forAll_any (c : Codec) (fs : FS) (offs : Bool) (act : Bytes → Head → Done) (actD : Exc → Bytes → Head → Done)
    (tail : Bytes → Option Nat → List Err → Output) (f : Bytes → M Bytes Unit)
    (names : List Bytes) (h : ∀ name ∈ names, ∀ out, f name out = (onAnyFile c fs offs act actD tail name).result out) (out : Bytes) :
    forFiles f names out = (onAnyFiles c fs offs act actD tail names).result out := by
  induction names generalizing out with
  | nil => simp [forFiles, onAnyFiles, Output.result]
  | cons name names ih =>
    have ih := ih fun n hn => h n (by simp [hn])
    simp only [forFiles, M.bind_apply, h name (by simp), onAnyFiles]
    unfold Output.andThen
    cases hs : (onAnyFile c fs offs act actD tail name).stop with
    | done =>
      have hr : ∀ out, (onAnyFile c fs offs act actD tail name).result out = .ok () (out ++ (onAnyFile c fs offs act actD tail name).text) := by
        intro out; simp [Output.result, hs]
      rw [hr]
      simp only [if_true, ih]
      unfold Output.result
      simp only
      cases (onAnyFiles c fs offs act actD tail names).stop <;> simp
    | raised e =>
      have hr : ∀ out, (onAnyFile c fs offs act actD tail name).result out = .raise e (out ++ (onAnyFile c fs offs act actD tail name).text) := by
        intro out; simp [Output.result, hs]
      simp [hr]
    | hangs =>
      have hr : ∀ out, (onAnyFile c fs offs act actD tail name).result out = .hang := by
        intro out; simp [Output.result, hs]
      simp [hr]

/-- **C114** `warc2warc` without options, for every list of files whatever, compressed and damaged ones included: what it writes and how it ends. -/
theorem C114_copy (c : Codec) (z : Http.Zlib) (fs : FS) (names : List Bytes) :
    Warc2Warc.main c z fs {} names [] = (onAnyFiles c fs false (fun _ => copying) (fun e _ => copyingDamaged e) (fun _ => strictTail) names).result [] := by
  unfold Warc2Warc.main
  exact forAll_any c fs false _ _ _ _ names (fun name hn out => onArchive_any c fs false (fun _ => copying) (fun e _ => copyingDamaged e) (fun _ => strictTail) name _ _ _
    (each_loop _) (Tool.performs_copy copying rfl c z) (fun e => Tool.performsD_copy e c z) ends_strict out) []

/-- **C114** `warc2warc -Z` -/
theorem C114_compress (c : Codec) (z : Http.Zlib) (fs : FS) (names : List Bytes) :
    Warc2Warc.main c z fs { gzip := true } names [] =
      (onAnyFiles c fs false (fun _ => compressing c.enc) (fun e _ => compressingDamaged e c.enc) (fun _ => strictTail) names).result [] := by
  unfold Warc2Warc.main
  exact forAll_any c fs false _ _ _ _ names (fun name hn out => onArchive_any c fs false (fun _ => compressing c.enc) (fun e _ => compressingDamaged e c.enc)
    (fun _ => strictTail) name _ _ _
    (each_loop _) (Tool.performs_compress c z _ rfl rfl) (fun e => Tool.performsD_compress e c z _ rfl rfl) ends_strict out) []

/-- **C114** `warcfilter` (all modes but `-H`, with and without `-i`) -/
theorem C114_filter (c : Codec) (fs : FS) (search : Bytes → Bool) (m : Mode) (invert : Bool) (names : List Bytes) :
    WarcFilter.main c fs search (m.opts invert) names [] =
      (onAnyFiles c fs false (fun _ => filtering m search invert) (fun e _ => filteringDamaged e m search invert) (fun _ => strictTail) names).result [] := by
  unfold WarcFilter.main
  exact forAll_any c fs false _ _ _ _ names (fun name hn out => onArchive_any c fs false (fun _ => filtering m search invert)
    (fun e _ => filteringDamaged e m search invert) (fun _ => strictTail) name _ _ _
    (each_loop _) (Tool.performs_filter c search m invert) (fun e => Tool.performsD_filter e c search m invert) ends_strict out) []

theorem index_loop (name : Bytes) (t : Tool) : Tool.eachEntry true none (WarcIndex.indexRecord name) t =
    Tool.loopOf true (fun e r => Tool.withRecord r (WarcIndex.indexRecord name e.offset)) (fun _ => pure ()) (t.strm.fh.rest.length + 2) t := by
  rw [Tool.eachEntry, Tool.rounds, Tool.forRecords, Tool.entries_loop]
  generalize t.strm.fh.rest.length + 2 = n
  induction n generalizing t with
  | zero => rfl
  | succ n ih =>
    simp only [Tool.loopOf]
    cases hq : readRecord true t.strm with
    | hang => rfl
    | raise e s => rfl
    | ok e s =>
      simp only
      cases hr : e.rcd with
      | none => rfl
      | some r =>
        simp only
        cases hw : Tool.withRecord r (WarcIndex.indexRecord name e.offset) ⟨s, t.out⟩ with
        | hang => rfl
        | raise x t' => rfl
        | ok a t' => exact ih t'

/-- **C114** `warcindex`, behind the heading -/
theorem C114_index (c : Codec) (fs : FS) (names : List Bytes) :
    WarcIndex.main c fs names [] = (onAnyFiles c fs true indexing indexingDamaged (fun _ => quietTail) names).result
      (b! "#WARC filename offset warc-type warc-subject-uri warc-record-id content-type content-length\n") := by
  unfold WarcIndex.main
  simp only [M.bind_apply, M.modify_apply, List.nil_append]
  refine forAll_any c fs true _ _ _ _ names (fun name hn out => onArchive_any c fs true indexing indexingDamaged (fun _ => quietTail) name _
    (fun e r => Tool.withRecord r (WarcIndex.indexRecord name e.offset)) (fun _ => pure ()) (index_loop name) (Tool.performs_index name)
    (fun e => Tool.performsD_index e name) ?_ out) _
  intro s o es out
  exact ⟨s, by simp [quietTail]⟩

/-- **C114** `warcdump` -/
theorem C114_dump (c : Codec) (fs : FS) (names : List Bytes) :
    WarcDump.main c fs names [] = (onAnyFiles c fs true dumping dumpingDamaged dumpTail names).result [] := by
  unfold WarcDump.main
  refine forAll_any c fs true _ _ _ _ names (fun name hn out => onArchive_any c fs true dumping dumpingDamaged dumpTail name _
    (fun e _ => WarcDump.entry name e) (WarcDump.entry name) ?_ (Tool.performs_dump name) (fun e => Tool.performsD_dump e name) ?_ out) _
  · intro t
    rw [WarcDump.dumpArchive, Tool.rounds, Tool.entries_loop]
  · intro s o es out
    have h := dump_tail name ⟨o, none, es⟩ s out rfl
    exact ⟨s, h⟩

/-! ### concrete cases: a compressed file whose second record is cut inside its content (`halfRead`, C113) -/

/-- `warc2warc` writes the first record, and the head of the second -/
theorem halfRead_copy : runDamaged .eofError (copyingDamaged .eofError) strictTail 99 (halfRead ++ b! "a") = ⟨halfRead, .raised .eofError⟩ := by decide +kernel

/-- `warc2warc -Z` writes the first record only -/
theorem halfRead_compress : runDamaged .eofError (compressingDamaged .eofError toy.enc) strictTail 99 (halfRead ++ b! "a") =
    ⟨toy.enc (b! "WARC/1.0\r\nContent-Length: 2\r\n\r\nhi\r\n\r\n"), .raised .eofError⟩ := by decide +kernel

/-- `warcindex` needs the contents, as there is no Content-Type -/
theorem halfRead_index : runDamaged .eofError (indexingDamaged .eofError (b! "f")) quietTail 99 (halfRead ++ b! "a") =
    ⟨b! "f None - - - - 2\n", .raised .eofError⟩ := by decide +kernel

/-- with a Content-Type it lists the incomplete record, too, with the announced length -/
theorem typed_index : runDamaged .eofError (indexingDamaged .eofError (b! "f")) quietTail 99 (b! "WARC/1.0\r\nContent-Type: t\r\nContent-Length: 9\r\n\r\nab") =
    ⟨b! "f None - - - t 9\n", .raised .eofError⟩ := by decide +kernel

/-- `warcdump` writes the block of the first record, and the head of the second one -/
theorem typed_dump : runDamaged .eofError (dumpingDamaged .eofError (b! "f")) (dumpTail (b! "f")) 99
      (b! "WARC/1.0\r\nContent-Type: t\r\nContent-Length: 2\r\n\r\nab\r\n\r\nWARC/1.0\r\nContent-Type: t\r\nContent-Length: 9\r\n\r\nab") =
    ⟨b! "archive record at f:None\nHeaders:\n\tContent-Type:t\n\tContent-Length:2\nContent Headers:\n\tContent-Type : t\n\tContent-Length : 2\nContent:\n\tab\n\t...\n\narchive record at f:None\nHeaders:\n\tContent-Type:t\n\tContent-Length:9\n",
      .raised .eofError⟩ := by decide +kernel

/-- a filter that matches nothing reads the contents -/
theorem halfRead_filter : runDamaged .eofError (filteringDamaged .eofError .whole (fun _ => false) true) strictTail 99 (halfRead ++ b! "a") =
    ⟨b! "WARC/1.0\r\nContent-Length: 2\r\n\r\nhi\r\n\r\n", .raised .eofError⟩ := by decide +kernel

/-- of an incomplete content of 10000 bytes one piece is copied -/
example (x : UInt8) : (⟨none, b! "WARC/1.0", [(b! "Content-Length", b! "20000")], [], List.replicate 10000 x⟩ : Head).copied = List.replicate 8192 x := by
  have h : declaredLength [(b! "Content-Length", b! "20000")] = 20000 := by decide +kernel
  have hl : ¬ (⟨none, b! "WARC/1.0", [(b! "Content-Length", b! "20000")], [], List.replicate 10000 x⟩ : Head).length < 0 := by
    show ¬ declaredLength [(b! "Content-Length", b! "20000")] < 0
    rw [h]; decide
  rw [Head.copied, if_neg hl, List.take_replicate, List.length_replicate]
  have hn : min (10000 / 8192 * 8192) 10000 = 8192 := by decide +kernel
  rw [hn]

/-- the whole program on two files, the first of them damaged: the second one is never opened -/
example (z : Http.Zlib) (fs : FS) (h : fs (b! "a.gz") = some cutTwice) : Warc2Warc.main toy z fs {} [b! "a.gz", b! "b"] [] = .raise .eofError halfRead := by
  rw [C114_copy]
  have hc : Compressed (b! "a.gz") cutTwice := Or.inl ⟨b! "a", rfl⟩
  have hl : (halfRead ++ b! "a").length + 2 = 71 := by decide +kernel
  have hr : runDamaged .eofError (copyingDamaged .eofError) strictTail 71 (halfRead ++ b! "a") = ⟨halfRead, .raised .eofError⟩ := by decide +kernel
  simp only [onAnyFiles, onAnyFile, h, if_pos hc, cutTwice_dec, hl, hr]
  rfl

end Warc
