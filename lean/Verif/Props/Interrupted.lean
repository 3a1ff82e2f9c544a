import Verif.Proofs.Interrupted
import Verif.Props.Stripped
import Verif.Props.ToolDamaged
set_option linter.all false
/-
  C121: what an exception leaves of compressed output.
-/
namespace Warc
open Rx Stream Spec

theorem SameEnd.raised {σ : Type} {R E : σ → σ → Prop} {x y : Res σ Unit} {e : Exc} {b : σ} (hy : y = .raise e b) (h : SameEnd R E x y) :
    ∃ a, x = .raise e a ∧ E a b := by
  cases h with
  | returns a b h => cases hy
  | raises e a b h => cases hy; exact ⟨a, rfl, h⟩
  | forEver => cases hy

theorem packed_nil (c : Codec) : World.Packed c [] [] := ⟨[], rfl, rfl⟩

theorem Packed.unpacks {c : Codec} (hc : Codec.Laws c) {a b : Bytes} (h : World.Packed c a b) : UnpacksTo c a b := by
  obtain ⟨ms, rfl, rfl⟩ := h
  exact hc.members ms

/-- **C121** One record, after complete records `done`: whether writing it compressed returns or raises, what is in the file then decompresses, without an error, to what
is there when the same record is written uncompressed after the same records; and writing ends in the same way. -/
theorem C121_record (c : Codec) (hc : Codec.Laws c) (nl : Bytes) (s : Stream) (r : Rec) (done : List Bytes) :
    SameEnd (fun w v : World => UnpacksTo c w.out v.out) (fun w v => UnpacksTo c w.out v.out)
      (World.writeToGzLeft c.enc nl ⟨s, r, done.flatMap c.enc⟩) (World.writeTo nl ⟨s, r, done.flatten⟩) := by
  have h := World.alike_write c nl ⟨s, r, done.flatMap c.enc⟩ ⟨s, r, done.flatten⟩ rfl ⟨done, rfl, rfl⟩
  cases hx : World.writeToGzLeft c.enc nl ⟨s, r, done.flatMap c.enc⟩ <;> cases hy : World.writeTo nl ⟨s, r, done.flatten⟩ <;> simp only [hx, hy] at h ⊢
  · exact .returns _ _ (Packed.unpacks hc h.2.2)
  · obtain ⟨rfl, -, h⟩ := h
    exact .raises _ _ _ (Packed.unpacks hc h)
  · exact .forEver

/-- **C121** warc2warc: for all files, whatever is in them, damaged or not, `-Z` leaves what decompresses, without an error, to what is left without `-Z`, and ends in the
same way, whether it returns or raises. -/
theorem C121_warc2warc (c : Codec) (hc : Codec.Laws c) (z : Http.Zlib) (fs : FS) (decode wgetFix : Bool) (names : List Bytes) :
    SameEnd (UnpacksTo c) (UnpacksTo c) (Warc2Warc.mainLeft c z fs ⟨true, decode, wgetFix⟩ names []) (Warc2Warc.main c z fs ⟨false, decode, wgetFix⟩ names []) := by
  have hb : Alike (World.Packed c) (World.Packed c) World.key World.out (Warc2Warc.processLeft c z ⟨true, decode, wgetFix⟩)
      (Warc2Warc.process c z ⟨false, decode, wgetFix⟩) := by
    have hw := World.alike_write c CRLF
    have hd := World.alike_decodeRecord (R := World.Packed c) (E := World.Packed c) (fun _ _ h => h) c z ⟨true, decode, wgetFix⟩
    cases decode with
    | false => exact hw
    | true => exact hd.bind fun _ => hw
  have h := alike_files (fun n => alike_archive (fun _ _ h => h) c fs .warc none n (alike_eachAll (fun _ _ h => h) hb)) names [] [] rfl (packed_nil c)
  simp only [Warc2Warc.mainLeft, Warc2Warc.main] at h ⊢
  cases hx : forFiles (fun n => onArchive c fs .warc none n (Tool.each (Warc2Warc.processLeft c z ⟨true, decode, wgetFix⟩))) names [] <;>
    cases hy : forFiles (fun n => onArchive c fs .warc none n (Tool.each (Warc2Warc.process c z ⟨false, decode, wgetFix⟩))) names [] <;>
    simp only [hx, hy, id] at h ⊢
  · exact .returns _ _ (Packed.unpacks hc h.2.2)
  · obtain ⟨rfl, -, h⟩ := h
    exact .raises _ _ _ (Packed.unpacks hc h)
  · exact .forEver

/-- **C121** arc2warc: the same. -/
theorem C121_arc2warc (c : Codec) (hc : Codec.Laws c) (fs : FS) (g : Arc2Warc.Cfg) (names : List Bytes) :
    SameEnd (fun a b => UnpacksTo c a.1 b.1 ∧ a.2 = b.2) (fun a b => UnpacksTo c a.1 b.1 ∧ a.2 = b.2)
      (Arc2Warc.mainLeft c fs g names ([], {})) (Arc2Warc.main c fs g false names ([], {})) := by
  have h := Arc2Warc.alike_main (R := World.Packed c) (E := World.Packed c) (fun _ _ h => h) c fs g false
    (by simpa [Arc2Warc.writeAs] using World.alike_write c CRLF) (by intro a b m h; simpa using h.add m) names ([], {}) ([], {}) rfl (packed_nil c)
  cases hx : Arc2Warc.mainLeft c fs g names ([], {}) <;> cases hy : Arc2Warc.main c fs g false names ([], {}) <;> simp only [hx, hy] at h ⊢
  · exact .returns _ _ ⟨Packed.unpacks hc h.2.2, h.2.1⟩
  · obtain ⟨rfl, h1, h2⟩ := h
    exact .raises _ _ _ ⟨Packed.unpacks hc h2, h1⟩
  · exact .forEver

/-- **C121** And up to that last gzip member this is what the other properties say about `-Z`: the runs end in the same way, with the same output if they return. -/
theorem C121_last_member (c : Codec) (z : Http.Zlib) (fs : FS) (decode wgetFix : Bool) (g : Arc2Warc.Cfg) (names : List Bytes) :
    SameEnd Eq (OneMore c) (Warc2Warc.mainLeft c z fs ⟨true, decode, wgetFix⟩ names []) (Warc2Warc.main c z fs ⟨true, decode, wgetFix⟩ names []) ∧
    SameEnd Eq (fun a b => OneMore c a.1 b.1 ∧ a.2 = b.2) (Arc2Warc.mainLeft c fs g names ([], {})) (Arc2Warc.main c fs g true names ([], {})) := by
  have hRE : ∀ a b : Bytes, a = b → OneMore c a b := fun a b h => Or.inl h
  constructor
  · have hb : Alike Eq (OneMore c) World.key World.out (Warc2Warc.processLeft c z ⟨true, decode, wgetFix⟩) (Warc2Warc.process c z ⟨true, decode, wgetFix⟩) := by
      have hw := World.alike_writeGz c CRLF
      have hd := World.alike_decodeRecord hRE c z ⟨true, decode, wgetFix⟩
      cases decode with
      | false => exact hw
      | true => exact hd.bind fun _ => hw
    have h := alike_files (fun n => alike_archive hRE c fs .warc none n (alike_eachAll hRE hb)) names [] [] rfl rfl
    simp only [Warc2Warc.mainLeft, Warc2Warc.main] at h ⊢
    cases hx : forFiles (fun n => onArchive c fs .warc none n (Tool.each (Warc2Warc.processLeft c z ⟨true, decode, wgetFix⟩))) names [] <;>
      cases hy : forFiles (fun n => onArchive c fs .warc none n (Tool.each (Warc2Warc.process c z ⟨true, decode, wgetFix⟩))) names [] <;>
      simp only [hx, hy, id] at h ⊢
    · exact .returns _ _ h.2.2
    · obtain ⟨rfl, -, h⟩ := h
      exact .raises _ _ _ h
    · exact .forEver
  · have h := Arc2Warc.alike_main (R := Eq) (E := OneMore c) hRE c fs g true
      (by simpa [Arc2Warc.writeAs] using World.alike_writeGz c CRLF) (by intro a b m h; exact Or.inr ⟨m, by simp [h]⟩) names ([], {}) ([], {}) rfl rfl
    cases hx : Arc2Warc.mainLeft c fs g names ([], {}) <;> cases hy : Arc2Warc.main c fs g true names ([], {}) <;> simp only [hx, hy] at h ⊢
    · exact .returns _ _ (Prod.ext h.2.2 h.2.1)
    · obtain ⟨rfl, h1, h2⟩ := h
      exact .raises _ _ _ ⟨h2, h1⟩
    · exact .forEver

/-! ### a concrete case: `warc2warc -Z` on a compressed file of two records which is damaged in the second record (C113) -/

def cutGz : FS := fun n => if n = b! "a.gz" then some cutTwice else none

def noZlib : Http.Zlib := ⟨fun _ => none, fun _ => none⟩

def firstRecord : Bytes := b! "WARC/1.0\r\nContent-Length: 2\r\n\r\nhi\r\n\r\n"
def firstMember : Bytes := toy.enc firstRecord

/-- without the finalisation: only the first record -/
theorem cutGz_before : Warc2Warc.main toy noZlib cutGz { gzip := true } [b! "a.gz"] [] = .raise .eofError firstMember := by
  rw [C114_compress]
  have h : cutGz (b! "a.gz") = some cutTwice := by simp [cutGz]
  have hc : Compressed (b! "a.gz") cutTwice := Or.inl ⟨b! "a", rfl⟩
  have hl : (halfRead ++ b! "a").length + 2 = 71 := by decide +kernel
  have hr : runDamaged .eofError (compressingDamaged .eofError toy.enc) strictTail 71 (halfRead ++ b! "a") = ⟨firstMember, .raised .eofError⟩ := by decide +kernel
  simp only [onAnyFiles, onAnyFile, h, if_pos hc, cutTwice_dec, hl, hr]
  rfl

theorem cutGz_plain : Warc2Warc.main toy noZlib cutGz {} [b! "a.gz"] [] = .raise .eofError halfRead := by
  rw [C114_copy]
  have h : cutGz (b! "a.gz") = some cutTwice := by simp [cutGz]
  have hc : Compressed (b! "a.gz") cutTwice := Or.inl ⟨b! "a", rfl⟩
  have hl : (halfRead ++ b! "a").length + 2 = 71 := by decide +kernel
  have hr : runDamaged .eofError (copyingDamaged .eofError) strictTail 71 (halfRead ++ b! "a") = ⟨halfRead, .raised .eofError⟩ := by decide +kernel
  simp only [onAnyFiles, onAnyFile, h, if_pos hc, cutTwice_dec, hl, hr]
  rfl

/-- with it there is a second member, complete, although its record is not: the file decompresses to the first record and the head of the second -/
example : ∃ out p, Warc2Warc.mainLeft toy noZlib cutGz { gzip := true } [b! "a.gz"] [] = .raise .eofError out ∧ toy.dec out = (halfRead, none) ∧
    out = firstMember ++ toy.enc p := by
  obtain ⟨out, h1, h3⟩ := SameEnd.raised cutGz_plain (C121_warc2warc toy toy_laws noZlib cutGz false false [b! "a.gz"])
  obtain ⟨out', h2, h4⟩ := SameEnd.raised cutGz_before (C121_last_member toy noZlib cutGz false false plainCfg [b! "a.gz"]).1
  rw [h1] at h2
  obtain rfl : out = out' := (Res.raise.inj h2).2
  rcases h4 with h4 | ⟨p, h4⟩
  · exfalso
    rw [h4] at h3
    have hd : toy.dec firstMember = (firstRecord, none) := by
      have := toy_laws.members [firstRecord]
      rw [firstMember]
      simpa only [List.flatMap_cons, List.flatMap_nil, List.append_nil, List.flatten_cons, List.flatten_nil] using this
    rw [UnpacksTo, hd] at h3
    have hn : firstRecord ≠ halfRead := by decide +kernel
    exact hn (Prod.mk.inj h3).1
  · exact ⟨out, p, h1, h3, h4⟩

/-- arc2warc -Z on a file that ends in the middle of a header line -/
theorem cut_left : ∃ a b q, Arc2Warc.main toy cutFS plainCfg false [b! "a.arc"] ([], {}) = .raise a b ∧ b.1.length = 893 ∧
    Arc2Warc.mainLeft toy cutFS plainCfg [b! "a.arc"] ([], {}) = .raise a q ∧ UnpacksTo toy q.1 b.1 := by
  have h := C121_arc2warc toy toy_laws cutFS plainCfg [b! "a.arc"]
  have hl := cut_stopped
  generalize Arc2Warc.main toy cutFS plainCfg false [b! "a.arc"] ([], {}) = x at h hl ⊢
  cases x with
  | hang => cases hl
  | ok u z => simp [outcome] at hl
  | raise ex z =>
    obtain ⟨q, h1, h2⟩ := SameEnd.raised rfl h
    exact ⟨ex, z, q, rfl, by simpa [outcome] using hl, h1, h2.1⟩

end Warc
