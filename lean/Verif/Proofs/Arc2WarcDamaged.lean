import Verif.Proofs.Arc2WarcAny
import Verif.Proofs.ArcDamaged
import Verif.Proofs.ToolDamaged
import Verif.Spec.Arc2WarcDamaged
set_option linter.all false
/-
  arc2warc on damaged data.
-/
namespace Warc
open Rx Stream Spec
namespace Arc2Warc.Any
open Arc2Warc

theorem contains_damaged {e : Exc} (s : Stream) (f : Located) (hc : f.cls ≠ .warc) (hb : Bad e s) (hneg : s.fh.strictNeg = true) (he : s.eoc = f.length) :
    Contains s f (contentOfDamaged e f.length s.fh.rest) := by
  intro out
  have hgt : f.rcd.getHeader f.rcd.cls.contentTypeName = firstValue (b! "Content-type") f.headers := by
    have hname : f.cls.contentTypeName = b! "Content-type" := by
      cases hh : f.cls with
      | warc => exact absurd hh hc
      | arc => rfl
      | arcHeader => rfl
    simp [Rec.getHeader, lookupHeader_eq, Spec.Located.rcd, hname]
  have hcn : f.rcd.content = none := rfl
  have hcf : f.rcd.cfile = .stream := rfl
  have hh : f.rcd.headers = f.headers := rfl
  have fails : (∃ t, Stream.read none s = .raise e t) → ∃ s' r', World.content ⟨s, f.rcd, out⟩ = .raise e ⟨s', r', out⟩ := by
    rintro ⟨t, hr⟩
    simp only [World.content, hcn, World.cfileRead, hcf, World.onStream, hr, World.clearCfile]
    exact ⟨_, _, rfl⟩
  unfold contentOfDamaged
  cases hl : f.length with
  | none =>
    rw [hl] at he
    simp only
    apply fails
    simp only [Stream.read, M.bind_apply, M.get_apply, he, limitOf, rawRead, onFile, File.read, File.deliver, hb.fault]
    exact ⟨_, rfl⟩
  | some n =>
    rw [hl] at he
    simp only
    by_cases h : n < -1
    · rw [if_pos h]
      have hr : Stream.read none s = .raise .valueError s := by
        have h0 : ¬ (0 : Int) ≤ n := by omega
        have h1 : ¬ (n = -1 ∨ s.fh.strictNeg = false) := by rw [hneg]; simp; omega
        simp only [Stream.read, M.bind_apply, M.get_apply, he, limitOf, rawRead, onFile, File.read, if_neg h0, if_neg h1]
        rw [← he]
      simp only [World.content, hcn, World.cfileRead, hcf, World.onStream, hr, World.clearCfile]
      exact ⟨_, _, rfl⟩
    · rw [if_neg h]
      by_cases hw : 0 ≤ n ∧ n.toNat ≤ s.fh.rest.length
      · rw [if_pos hw]
        obtain ⟨m, rfl⟩ : ∃ m : Nat, n = (m : Int) := ⟨_, (Int.toNat_of_nonneg hw.1).symm⟩
        simp only [Int.toNat_natCast] at hw ⊢
        have hop := op_run (.read none) s m he (Or.inl (by omega))
        simp only [ReadOp.run, ReadOp.result, Option.map_none] at hop
        have hst : ({ s.adv (s.fh.rest.take m).length with eoc := some ((m - (s.fh.rest.take m).length : Nat) : Int) } : Stream) =
            { s.adv (s.fh.rest.take m).length with eoc := some ((m : Int) - ((s.fh.rest.take m).length : Int)) } := by
          have hle : (s.fh.rest.take m).length ≤ m := by rw [List.length_take]; omega
          rw [Int.ofNat_sub hle]
        rw [hst] at hop
        simp only [World.content, hcn, World.cfileRead, hcf, World.onStream, hop, World.clearCfile, hgt, readRec, hh, Option.map_some]
      · rw [if_neg hw]
        simp only
        apply fails
        by_cases h1 : n = -1
        · subst h1
          have h0 : ¬ (0 : Int) ≤ -1 := by omega
          simp only [Stream.read, M.bind_apply, M.get_apply, he, limitOf, rawRead, onFile, File.read, if_neg h0, true_or, if_true, File.deliver, hb.fault]
          exact ⟨_, rfl⟩
        · have h0 : (0 : Int) ≤ n := by omega
          have hlt : s.fh.rest.length < n.toNat := by
            have : ¬ n.toNat ≤ s.fh.rest.length := fun hx => hw ⟨h0, hx⟩
            omega
          have h5 : (s.fh.rest.take n.toNat).length < n.toNat := by rw [List.length_take]; omega
          simp only [Stream.read, M.bind_apply, M.get_apply, he, limitOf, rawRead, onFile, File.read, if_pos h0, File.deliver, hb.fault]
          rw [decide_eq_true hlt]
          exact ⟨_, rfl⟩

/-- `r` is what `v` says, and the content was read completely -/
def DidD (s : Stream) (f : Located) (out : Bytes) (r : Res XW Unit) : Conv → Prop
  | .never => r = .hang
  | .stops text exc => ∃ s' r' st', r = .raise exc (⟨s', r', out ++ text⟩, st')
  | .goes text st' => ∃ (n : Nat) (r' : Rec), f.length = some (n : Int) ∧ n ≤ s.fh.rest.length ∧ r = .ok () (⟨{ s.adv n with eoc := some 0 }, r', out ++ text⟩, st')

theorem DidC.didD {e : Exc} {s : Stream} {f : Located} {out : Bytes} {r : Res XW Unit} {v : Conv} (h : DidC s f out (contentOfDamaged e f.length s.fh.rest) r v) :
    DidD s f out r v := by
  cases v with
  | never => exact h
  | stops text exc => exact h
  | goes text st' =>
    obtain ⟨p, r', h1, h2⟩ := h
    unfold contentOfDamaged at h1
    cases hl : f.length with
    | none => rw [hl] at h1; simp at h1
    | some n =>
      rw [hl] at h1 h2
      simp only at h1
      by_cases h3 : n < -1
      · rw [if_pos h3] at h1; simp at h1
      · rw [if_neg h3] at h1
        by_cases h4 : 0 ≤ n ∧ n.toNat ≤ s.fh.rest.length
        · rw [if_pos h4] at h1
          simp only [Except.ok.injEq] at h1
          have hp : p.length = n.toNat := by rw [← h1, List.length_take]; omega
          refine ⟨n.toNat, r', by rw [hl]; congr 1; omega, h4.2, ?_⟩
          rw [h2, hp]
          have : (Option.map (fun x => x - (n.toNat : Int)) (some n)) = some 0 := by simp; omega
          rw [this]
        · rw [if_neg h4] at h1; simp at h1

theorem handle_warc_damaged (e : Exc) (c : Codec) (g : Cfg) (gzip : Bool) (st : St) (s : Stream) (f : Located) (out : Bytes) (hcls : f.cls = .warc)
    (hlen : f.length = some (declaredLength f.headers)) (hb : Bad e s) (hneg : s.fh.strictNeg = true) (he : s.eoc = f.length) :
    DidD s f out (handle c g gzip (⟨s, f.rcd, out⟩, st)) (convertedWarcDamaged e c gzip st f.version f.headers s.fh.rest) := by
  have hbare : Bare f.rcd := ⟨hcls, rfl, rfl, rfl⟩
  have hbd : Tool.BehindD e s f.headers := ⟨hb, hneg, by rw [he, hlen]⟩
  have hc' : f.rcd.cls = .warc := hcls
  have hw := Tool.writeTo_fullD e s f.rcd out f.headers none [] hbd hbare rfl
  have hw0 := Tool.writeTo_fullD e s f.rcd [] f.headers none [] hbd hbare rfl
  have hv : f.rcd.version = f.version := rfl
  rw [hv] at hw hw0
  simp only [handle, M.bind_apply, M.get_apply, if_pos hc', onWorld, writeAs]
  unfold convertedWarcDamaged copyingDamaged compressingDamaged
  by_cases hwh : (⟨none, f.version, f.headers, [], s.fh.rest⟩ : Head).Whole
  · rw [if_pos hwh] at hw hw0
    obtain ⟨h1, h2⟩ := id hwh
    simp only [Head.length] at h1 h2
    have hlt : (s.fh.rest.take (declaredLength f.headers).toNat).length = (declaredLength f.headers).toNat := by rw [List.length_take]; omega
    have hu : Tool.used s f.headers (declaredLength f.headers).toNat = { s.adv (declaredLength f.headers).toNat with eoc := some 0 } := by
      have : declaredLength f.headers - ((declaredLength f.headers).toNat : Int) = 0 := by omega
      simp only [Tool.used, this]
    rw [hlt, hu] at hw hw0
    obtain ⟨r1, hw⟩ := hw
    obtain ⟨r0, hw0⟩ := hw0
    cases gzip with
    | false =>
      simp only [Bool.false_eq_true, if_false, if_pos hwh]
      exact ⟨(declaredLength f.headers).toNat, r1, by rw [hlen]; congr 1; omega, h2, by rw [hw]; simp [Head.length]⟩
    | true =>
      simp only [if_true, World.writeToGz, if_pos hwh]
      exact ⟨(declaredLength f.headers).toNat, r0, by rw [hlen]; congr 1; omega, h2, by rw [hw0]; simp [Head.length]⟩
  · rw [if_neg hwh] at hw hw0
    obtain ⟨s1, r1, hw⟩ := hw
    obtain ⟨s0, r0, hw0⟩ := hw0
    cases gzip with
    | false =>
      simp only [Bool.false_eq_true, if_false, if_neg hwh]
      exact ⟨s1, r1, st, by rw [hw]; rfl⟩
    | true =>
      simp only [if_true, World.writeToGz, if_neg hwh]
      exact ⟨s0, r0, st, by rw [hw0]; simp only [List.append_nil]; rfl⟩

theorem handle_damaged (e : Exc) (c : Codec) (g : Cfg) (gzip : Bool) (st : St) (s : Stream) (f : Located) (out : Bytes)
    (hlen : f.cls = .warc → f.length = some (declaredLength f.headers)) (hb : Bad e s) (hneg : s.fh.strictNeg = true) (he : s.eoc = f.length) :
    DidD s f out (handle c g gzip (⟨s, f.rcd, out⟩, st)) (convertedDamaged e c g gzip st f s.fh.rest) := by
  unfold convertedDamaged
  cases hc : f.cls with
  | warc => exact handle_warc_damaged e c g gzip st s f out hc (hlen hc) hb hneg he
  | arc => exact (handle_arc c g gzip st s f out hc _ (contains_damaged s f (by rw [hc]; simp) hb hneg he)).didD
  | arcHeader => exact (handle_header c g gzip st s f out hc _ (contains_damaged s f (by rw [hc]; simp) hb hneg he)).didD

/-! ### a whole file -/

theorem loop_damaged (e : Exc) (c : Codec) (g : Cfg) (gzip : Bool) (rounds : Nat) (s : Stream) (a : ArcSt) (out : Bytes) (st : St) (hp : s.parser.arcSt? = some a)
    (hmix : s.parser.isMixed = true) (hn : ∀ n ∈ a.headers, 10 ∉ n) (hk : s.kind ≠ .gzipFile) (he : s.eoc = none) (hb : Bad e s) (hneg : s.fh.strictNeg = true)
    (hr : s.fh.rest.length < rounds) :
    Shows out (loop c g gzip rounds (⟨s, out⟩, st)) (convertDamaged e c g gzip rounds st a.headers s.fh.rest) := by
  induction rounds generalizing s a out st with
  | zero => omega
  | succ rounds ih =>
    obtain ⟨hx, hrec⟩ := readRecord_arc_damaged false s a hp hn hb hk he
    rw [loop, convertDamaged]
    rw [hmix] at hx hrec
    cases hm : nextInDamaged true a.headers s.fh.rest with
    | none => rw [hm] at hx; simp only [DescribesInDamaged] at hx ⊢; obtain ⟨s', hx⟩ := hx; rw [hx]; exact ⟨s', st, by simp⟩
    | some m =>
      rw [hm] at hx hrec
      simp only [DescribesInDamaged] at hx
      cases m with
      | stuck => simp only [Spec.Meant.Describes] at hx ⊢; rw [hx]; rfl
      | raises x => simp only [Spec.Meant.Describes] at hx ⊢; obtain ⟨s', hx⟩ := hx; rw [hx]; exact ⟨s', st, by simp⟩
      | nothing p es size =>
        simp only [Spec.Meant.Describes] at hx ⊢; rw [hx]
        unfold strictTail
        by_cases hes : es = []
        · simp only [if_pos hes]; exact ⟨s.adv size, by simp⟩
        · simp only [if_neg hes]; exact ⟨s.adv size, st, by simp⟩
      | record f =>
        simp only [Spec.Meant.Describes] at hx ⊢
        obtain ⟨ver, hx⟩ := hx
        obtain ⟨hni, hb1⟩ := hrec f rfl
        rw [hx]
        simp only
        obtain ⟨hsz1, hsz2, hnames, hct⟩ := nextIn_size hn hni
        generalize hs1 : ({ s.adv f.size with eoc := f.length, parser := s.parser.withArc ⟨ver, f.names⟩ } : Stream) = s1
        have hrest : s1.fh.rest = s.fh.rest.drop f.size := by subst hs1; simp
        have hk1 : s1.kind = s.kind := by subst hs1; rfl
        have hp1 : s1.parser.arcSt? = some ⟨ver, f.names⟩ := by subst hs1; exact withArc_arcSt _ a _ hp
        have hm1 : s1.parser.isMixed = true := by subst hs1; rw [← hmix]; exact withArc_isMixed _ _
        have hbb : Bad e s1 := by subst hs1; exact ⟨hb1.fault, hb1.pos⟩
        have hneg1 : s1.fh.strictNeg = true := by subst hs1; exact hneg
        have he1 : s1.eoc = f.length := by subst hs1; rfl
        clear hs1
        have hd := handle_damaged e c g gzip st s1 f out (nextIn_warc hni) hbb hneg1 he1
        rw [← hrest]
        cases ha : convertedDamaged e c g gzip st f s1.fh.rest with
        | never => rw [ha] at hd; rw [show _ = _ from hd]; rfl
        | stops text exc =>
          rw [ha] at hd
          obtain ⟨s', r', st', hd⟩ := hd
          rw [hd]
          exact ⟨s', st', rfl⟩
        | goes text st' =>
          rw [ha] at hd
          obtain ⟨n, r', hl, hnl, hd⟩ := hd
          rw [hd]
          simp only
          apply shows_after
          generalize ht : ({ s1.adv n with eoc := some 0 } : Stream) = t
          generalize hu : ({ t.adv 0 with eoc := none } : Stream) = u
          have hread : readRecord false t = readRecord false u := by
            have := readRecord_skip false 0 t (by subst ht; rfl) (by omega)
            rw [this, hu]
          cases rounds with
          | zero => omega
          | succ m =>
            rw [loop_congr c g gzip m t u _ st' hread]
            have hu1 : u.fh.rest = s1.fh.rest.drop n := by subst hu; subst ht; simp
            have hub : Bad e u := by
              have := Tool.bad_more hbb n hnl
              subst hu; subst ht
              exact ⟨this.fault, by simpa using this.pos⟩
            have hlen : (f.length.getD 0).toNat = n := by rw [hl]; simp
            rw [hlen, ← hu1]
            exact ih u ⟨ver, f.names⟩ (out ++ text) st' (by subst hu; subst ht; exact hp1) (by subst hu; subst ht; exact hm1) hnames
              (by subst hu; subst ht; exact fun h => hk (hk1 ▸ h)) (by subst hu; rfl) hub (by subst hu; subst ht; exact hneg1)
              (by rw [hu1, List.length_drop, hrest, List.length_drop]; omega)

theorem open_mixed_any (c : Codec) (fs : FS) (name stored : Bytes) (hfs : fs name = some stored) :
    openName c fs .mixed none name = .ok
      (if Compressed name stored then ⟨{ data := (c.dec stored).1, pos := 0, strictNeg := true, fault := (c.dec stored).2 }, none, .gzipRecord, .mixed ⟨none, []⟩⟩
       else ⟨File.openFile stored, none, .plain, .mixed ⟨none, []⟩⟩) := by
  have hf : (File.openFile stored).fault = none := rfl
  have hrest : (File.openFile stored).rest = stored := by simp [File.openFile, File.rest]
  by_cases hc : Compressed name stored
  · rw [if_pos hc]
    have hg : gzipFileOf c (File.openFile stored) = { data := (c.dec stored).1, pos := 0, strictNeg := true, fault := (c.dec stored).2 } := by
      simp [gzipFileOf, hrest]
    simp only [openName, hfs]
    by_cases hn : b! ".gz" <:+ name
    · have hng : nameGz name = true := by rw [nameGz]; exact (endsWith_iff _ _).2 hn
      rw [hng, openArchive_named c .mixed, hg]; rfl
    · have hb : (stored.take 2 == [0x1f, 0x8b]) = true := by simpa using hc.resolve_left hn
      have his := Detect.isGzipFile_apply (File.openFile stored) hf
      rw [hrest, hb] at his
      cases nameGz name <;> (simp [openArchive, openRecordStream, his, hg, RecClass.makeParser]; rfl)
  · have h := open_mixed c fs name stored hfs (fun h => absurd h hc)
    rw [if_neg hc] at h ⊢; exact h

/-- any files -/
theorem main_all (c : Codec) (fs : FS) (g : Cfg) (gzip : Bool) (names : List Bytes) (out : Bytes) (st : St) :
    match (convertAnyFiles c fs g gzip st names).1.stop with
    | .done => main c fs g gzip names (out, st) = .ok () (out ++ (convertAnyFiles c fs g gzip st names).1.text, (convertAnyFiles c fs g gzip st names).2)
    | .raised e => ∃ st', main c fs g gzip names (out, st) = .raise e (out ++ (convertAnyFiles c fs g gzip st names).1.text, st')
    | .hangs => main c fs g gzip names (out, st) = .hang := by
  induction names generalizing out st with
  | nil => simp [convertAnyFiles, main]
  | cons name names ih =>
    have one : match (convertAnyFile c fs g gzip st name).1.stop with
        | .done => main c fs g gzip (name :: names) (out, st) = main c fs g gzip names (out ++ (convertAnyFile c fs g gzip st name).1.text, (convertAnyFile c fs g gzip st name).2)
        | .raised e => ∃ st', main c fs g gzip (name :: names) (out, st) = .raise e (out ++ (convertAnyFile c fs g gzip st name).1.text, st')
        | .hangs => main c fs g gzip (name :: names) (out, st) = .hang := by
      unfold convertAnyFile
      cases hfs : fs name with
      | none => simp only; exact ⟨st, by simp [main, openName, hfs]⟩
      | some stored =>
        have ho := open_mixed_any c fs name stored hfs
        have finish : ∀ (s : Stream) (o : Output × St), openName c fs .mixed none name = .ok s → Shows out (loop c g gzip (s.fh.rest.length + 2) (⟨s, out⟩, st)) o →
            match o.1.stop with
            | .done => main c fs g gzip (name :: names) (out, st) = main c fs g gzip names (out ++ o.1.text, o.2)
            | .raised e => ∃ st', main c fs g gzip (name :: names) (out, st) = .raise e (out ++ o.1.text, st')
            | .hangs => main c fs g gzip (name :: names) (out, st) = .hang := by
          intro s o ho h
          simp only [main, ho]
          unfold Shows at h
          cases hs : o.1.stop with
          | done => rw [hs] at h; obtain ⟨s', h⟩ := h; simp only [h]
          | raised e => rw [hs] at h; obtain ⟨s', st', h⟩ := h; exact ⟨st', by simp only [h]⟩
          | hangs => rw [hs] at h; simp only at h; simp only [h]
        by_cases hc : Compressed name stored
        · rw [if_pos hc] at ho
          simp only [if_pos hc]
          refine finish _ _ ho ?_
          cases hd : (c.dec stored).2 with
          | none =>
            have e2 : ({ data := (c.dec stored).1, pos := 0, strictNeg := true, fault := none } : File).rest = (c.dec stored).1 := by simp [File.rest]
            have h := loop_any c g gzip ((c.dec stored).1.length + 2)
              ⟨{ data := (c.dec stored).1, pos := 0, strictNeg := true, fault := none }, none, .gzipRecord, .mixed ⟨none, []⟩⟩ ⟨none, []⟩ out st rfl rfl (by simp) (by simp) rfl rfl rfl (by simp [e2])
            simp only [e2] at h ⊢
            exact h
          | some e =>
            have e2 : ({ data := (c.dec stored).1, pos := 0, strictNeg := true, fault := some e } : File).rest = (c.dec stored).1 := by simp [File.rest]
            have h := loop_damaged e c g gzip ((c.dec stored).1.length + 2)
              ⟨{ data := (c.dec stored).1, pos := 0, strictNeg := true, fault := some e }, none, .gzipRecord, .mixed ⟨none, []⟩⟩ ⟨none, []⟩ out st rfl rfl (by simp) (by simp) rfl
              ⟨rfl, Nat.zero_le _⟩ rfl (by simp [e2])
            simp only [e2] at h ⊢
            exact h
        · rw [if_neg hc] at ho
          simp only [if_neg hc]
          refine finish _ _ ho ?_
          have e2 : (File.openFile stored).rest = stored := by simp [File.openFile, File.rest]
          have h := loop_any c g gzip (stored.length + 2)
            ⟨File.openFile stored, none, .plain, .mixed ⟨none, []⟩⟩ ⟨none, []⟩ out st rfl rfl (by simp) (by simp) rfl rfl rfl (by simp [e2])
          simp only [e2] at h ⊢
          exact h
    rw [convertAnyFiles]
    generalize convertAnyFile c fs g gzip st name = a at one ⊢
    cases hs : a.1.stop with
    | done =>
      rw [hs] at one
      simp only [if_true]
      have := ih (out ++ a.1.text) a.2
      rw [← one] at this
      unfold Output.after
      simp only
      cases hb : (convertAnyFiles c fs g gzip a.2 names).1.stop with
      | done => rw [hb] at this; simp only at this ⊢; rw [this, List.append_assoc]
      | raised e => rw [hb] at this; simp only at this ⊢; obtain ⟨st', h⟩ := this; exact ⟨st', by rw [h, List.append_assoc]⟩
      | hangs => rw [hb] at this; exact this
    | raised e => rw [hs] at one; simp only [reduceCtorEq, if_false, hs]; exact one
    | hangs => rw [hs] at one; simp only [reduceCtorEq, if_false, hs]; exact one

end Arc2Warc.Any
end Warc
