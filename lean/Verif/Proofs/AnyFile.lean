import Verif.Proofs.AnyRecord
import Verif.Proofs.Arc
import Verif.Props.Valid
/-
  Loops over the records of any file that can be read to its end.
-/
set_option linter.all false
namespace Warc
open Rx Stream Spec

/-- code that copies any record returned by the parser, consuming its payload -/
def Tool.Copies (body : M World Unit) (f : R → Bytes) : Prop :=
  ∀ (s : Stream) (r : Rec) (out : Bytes) (n : Nat), Sane r → s.eoc = some (n : Int) → n ≤ s.fh.rest.length →
    ∃ r', body ⟨s, r, out⟩ =
      .ok () ⟨{ s.adv n with eoc := some 0 }, r', out ++ f ⟨r.version, r.headers, s.fh.rest.take n⟩⟩

theorem Tool.copies_writeTo : Tool.Copies (World.writeTo CRLF) R.bytes := by
  intro s r out n hr he hn
  have h := World.writeTo_stream ⟨s, r, out⟩ n hr.cls hr.cfile hr.valid he (Or.inl hn)
  have hl : (s.fh.rest.take n).length = n := by simp; omega
  simp only [hl, Nat.sub_self] at h
  exact ⟨_, h⟩

theorem Tool.copies_writeToGz (c : Codec) : Tool.Copies (World.writeToGz c.enc CRLF) (fun r => c.enc r.bytes) := by
  intro s r out n hr he hn
  obtain ⟨r', h⟩ := Tool.copies_writeTo s r [] n hr he hn
  refine ⟨r', ?_⟩
  simp only [World.writeToGz, h, List.nil_append]

/-- reading the content of any record: complete, or the scan will not end normally -/
theorem content_sane (s : Stream) (r : Rec) (n : Nat) (hr : Sane r) (he : s.eoc = some (n : Int)) :
    (n ≤ s.fh.rest.length ∧ ∃ r', World.content ⟨s, r, []⟩ =
      .ok (firstValue (b! "Content-Type") r.headers, some (s.fh.rest.take n)) ⟨{ s.adv n with eoc := some 0 }, r', []⟩) ∨
    (s.fh.rest.length < n ∧ ∀ c w, World.content ⟨s, r, []⟩ = .ok c w → ∀ offs, ∃ ex t, readRecord offs w.strm = .raise ex t) := by
  by_cases hn : n ≤ s.fh.rest.length
  · left
    obtain ⟨r', h⟩ := content_fresh s r n hr.content hr.cfile he hn
    rw [hr.cls] at h
    exact ⟨hn, r', h⟩
  · right
    refine ⟨by omega, ?_⟩
    intro c w hc offs
    cases hf : s.fh.fault with
    | none =>
      have hop := op_run (.read none) s n he (Or.inr hf)
      simp only [ReadOp.run, ReadOp.result, Option.map_none] at hop
      simp only [World.content, hr.content, World.cfileRead, hr.cfile, World.onStream, hop, World.clearCfile, Res.ok.injEq] at hc
      rw [← hc.2]
      have hl : (s.fh.rest.take n).length = s.fh.rest.length := by simp; omega
      simp only [hl]
      obtain ⟨ex, m, h, _⟩ := readRecord_short offs (n - s.fh.rest.length)
        { s.adv s.fh.rest.length with eoc := some ((n - s.fh.rest.length : Nat) : Int) } rfl (by
          simp only [adv_fh, File.advance_rest, List.length_drop]; omega)
      exact ⟨ex, _, h⟩
    | some ex =>
      exfalso
      have : World.content ⟨s, r, []⟩ = .raise ex (World.clearCfile ⟨{ s with fh := s.fh.advance s.fh.rest.length }, r, []⟩) := by
        have hlt : s.fh.rest.length < n := by omega
        simp [World.content, hr.content, World.cfileRead, hr.cfile, World.onStream, Stream.read, M.bind_apply, M.get_apply,
          he, limitOf, rawRead, onFile, File.read, File.deliver, hf, hlt]
      rw [this] at hc
      cases hc

theorem collect_done_inv (offs : Bool) (fuel : Nat) (s : Stream) (gs : List Got) (l : Entry) (hp : s.parser = .warc)
    (hn : ∀ g ∈ gs, 0 ≤ declaredLength g.headers)
    (h : collect offs (fuel + 1) s = ⟨gs, some l, .done⟩) :
    (gs = [] ∧ l.rcd = none ∧ ∃ s', readRecord offs s = .ok l s') ∨
    (∃ e r s1 n g gs', gs = g :: gs' ∧ readRecord offs s = .ok e s1 ∧ e.rcd = some r ∧ Sane r ∧ s1.eoc = some ((n : Nat) : Int) ∧
      declaredLength r.headers = (n : Int) ∧
      n ≤ s1.fh.rest.length ∧ s1.fh.rest.length < s.fh.rest.length ∧ s1.parser = .warc ∧ (offs = false → e.offset = none) ∧
      g = ⟨e.offset, r.version, r.headers, r.errors, (firstValue (b! "Content-Type") r.headers, some (s1.fh.rest.take n))⟩ ∧
      collect offs fuel { s1.adv n with eoc := some 0 } = ⟨gs', some l, .done⟩) := by
  rw [collect] at h
  cases hq : readRecord offs s with
  | hang => simp [hq] at h
  | raise e s1 => simp [hq] at h
  | ok e s1 =>
    obtain ⟨off, rcd, errs⟩ := e
    cases rcd with
    | none =>
      simp only [hq, Collected.mk.injEq, Option.some.injEq, and_true] at h
      left
      exact ⟨h.1.symm, by rw [← h.2], s1, by rw [← h.2]⟩
    | some r =>
      right
      simp only [hq] at h
      obtain ⟨hsane, heoc, herr, hpar, hki, hfa, hoffn⟩ := readRecord_sane offs s s1 _ r hp hq rfl
      obtain ⟨hprog, _⟩ := readRecord_progress offs s s1 _ r hp hq rfl
      cases hc : World.content ⟨s1, r, []⟩ with
      | hang => simp [hc] at h
      | raise ex w => simp [hc] at h
      | ok c w =>
        simp only [hc, Collected.mk.injEq] at h
        obtain ⟨h1, h2, h3⟩ := h
        have hnn : 0 ≤ declaredLength r.headers := hn ⟨off, r.version, r.headers, r.errors, c⟩ (by rw [← h1]; simp)
        obtain ⟨n, hnn⟩ := Int.eq_ofNat_of_zero_le hnn
        rw [hnn] at heoc
        rcases content_sane s1 r n hsane heoc with ⟨hle, r', hcc⟩ | ⟨hlt, hbad⟩
        · rw [hcc] at hc
          simp only [Res.ok.injEq] at hc
          obtain ⟨rfl, rfl⟩ := hc
          refine ⟨⟨off, some r, errs⟩, r, s1, n, _, _, h1.symm, rfl, rfl, hsane, heoc, hnn, hle, hprog, hpar, hoffn, rfl, ?_⟩
          simp only at h2 h3 ⊢
          rw [← h2, ← h3]
        · obtain ⟨ex, t, hraise⟩ := hbad c w hc offs
          cases fuel with
          | zero => simp [collect] at h3
          | succ fuel => simp [collect, hraise] at h3

/-- the loop over any file that can be read to its end, with code that copies records -/
theorem forEach_any (body : M World Unit) (f : R → Bytes) (hb : Tool.Copies body f) (fuel k : Nat) (s : Stream) (out : Bytes)
    (gs : List Got) (l : Entry) (hp : s.parser = .warc) (hn : ∀ g ∈ gs, 0 ≤ declaredLength g.headers) (hl : l.errors = [])
    (h : collect false fuel s = ⟨gs, some l, .done⟩) (hk : s.fh.rest.length + 1 ≤ k) :
    ∃ s', Tool.forEach body k ⟨s, out⟩ = .ok () ⟨s', out ++ gs.flatMap fun g => f g.record⟩ := by
  induction fuel generalizing s out gs k with
  | zero => simp [collect] at h
  | succ fuel ih =>
    obtain ⟨k, rfl⟩ : ∃ j, k = j + 1 := ⟨k - 1, by omega⟩
    rcases collect_done_inv false fuel s gs l hp hn h with ⟨rfl, hnone, s', hq⟩ |
      ⟨e, r, s1, n, g, gs', rfl, hq, her, hsane, heoc, hd, hle, hprog, hpar, hoffn, hg, hrec⟩
    · refine ⟨s', ?_⟩
      simp only [Tool.forEach, M.bind_apply, Tool.onStream, hq, hnone, hl, if_true, M.pure_apply, List.flatMap_nil, List.append_nil]
    · obtain ⟨r', hbody⟩ := hb s1 r out n hsane heoc hle
      obtain ⟨s', hs'⟩ := ih k { s1.adv n with eoc := some 0 } (out ++ f ⟨r.version, r.headers, s1.fh.rest.take n⟩) gs' hpar
        (fun x hx => hn x (by simp [hx])) hrec (by
          simp only [adv_fh, File.advance_rest, List.length_drop]; omega)
      refine ⟨s', ?_⟩
      simp only [Tool.forEach, M.bind_apply, Tool.onStream, hq, her, Tool.withRecord, hbody]
      rw [hs', hg]
      simp [Got.record]

/-- every record of a readable file: its payload has the declared length, version and header names are proper -/
theorem collect_sane (offs : Bool) (fuel : Nat) (s : Stream) (gs : List Got) (l : Entry) (hp : s.parser = .warc)
    (hn : ∀ g ∈ gs, 0 ≤ declaredLength g.headers) (h : collect offs fuel s = ⟨gs, some l, .done⟩) :
    ∀ g ∈ gs, VersionOk g.version ∧ (∀ h ∈ g.headers, 58 ∉ h.1 ∧ 10 ∉ h.1 ∧ strip h.1 = h.1 ∧ 10 ∉ h.2) ∧
      declaredLength g.headers = g.record.body.length ∧
      g.content = (firstValue (b! "Content-Type") g.headers, some g.record.body) ∧
      (g.errors = [] → ∀ h ∈ g.headers, ValueOk h ∧ ∀ c, h.2.getLast? = some c → isWs c = false) ∧
      (offs = false → g.offset = none) := by
  induction fuel generalizing s gs with
  | zero => simp [collect] at h
  | succ fuel ih =>
    rcases collect_done_inv offs fuel s gs l hp hn h with ⟨rfl, hnone, s', hq⟩ |
      ⟨e, r, s1, n, g, gs', rfl, hq, her, hsane, heoc, hd, hle, hprog, hpar, hoffn, hg, hrec⟩
    · simp
    · intro x hx
      rcases List.mem_cons.1 hx with rfl | hx
      · subst hg
        refine ⟨hsane.version, hsane.names, ?_, rfl, hsane.clean, hoffn⟩
        simp only [Got.record, Option.getD_some, List.length_take, hd]
        omega
      · exact ih { s1.adv n with eoc := some 0 } gs' hpar (fun y hy => hn y (by simp [hy])) hrec x hx

/-- a tool that copies the records of readable files -/
theorem forFiles_any (c : Codec) (fs : FS) (files : List (Bytes × List Got)) (h : ∀ f ∈ files, Readable c fs f.1 f.2)
    (hn : ∀ f ∈ files, ∀ g ∈ f.2, 0 ≤ declaredLength g.headers)
    (body : M World Unit) (f : R → Bytes) (hb : Tool.Copies body f) (out : Bytes) :
    forFiles (fun name => onArchive c fs .warc none name (Tool.each body)) (files.map Prod.fst) out =
      .ok () (out ++ (files.flatMap Prod.snd).flatMap fun g => f g.record) := by
  have := forFiles_ok (fun name => onArchive c fs .warc none name (Tool.each body)) Prod.fst
    (fun x => x.2.flatMap fun g => f g.record) files out ?_
  · rw [this, List.flatMap_assoc]
  · intro x hx out
    obtain ⟨s, rounds, ho, hc⟩ := h x hx
    obtain ⟨s', he⟩ := forEach_any body f hb rounds (Tool.rounds ⟨s, out⟩) s out x.2 ⟨none, none, []⟩
      (openName_warc c fs x.1 s none ho).1 (hn x hx) rfl hc (by simp [Tool.rounds])
    simp only [onArchive, ho, Tool.each, he]

end Warc
