import Verif.Proofs.GrammarDamaged
import Verif.Proofs.ToolActs
import Verif.Spec.ToolDamaged
set_option linter.all false
namespace Warc
open Rx Stream Spec
namespace Tool

/-- a stream right behind the head of a record in damaged data -/
structure BehindD (e : Exc) (s : Stream) (hs : List Header) : Prop where
  bad : Bad e s
  strictNeg : s.fh.strictNeg = true
  eoc : s.eoc = some (declaredLength hs)

/-- what the code does with each record of damaged data is `act` -/
def PerformsD (e : Exc) (act : Head → Done) (step : Entry → Rec → M Tool Unit) : Prop :=
  ∀ (s : Stream) (v : Bytes) (hs : List Header) (es : List Err) (o : Option Nat) (out : Bytes), BehindD e s hs →
    Did s hs out (step ⟨o, some { parsed v hs with errors := es }, []⟩ { parsed v hs with errors := es } ⟨s, out⟩) (act ⟨o, v, hs, es, s.fh.rest⟩)

theorem bad_more {e : Exc} {s : Stream} (h : Bad e s) (k : Nat) (hk : k ≤ s.fh.rest.length) : Bad e (s.adv k) := by
  refine ⟨h.fault, ?_⟩
  have h2 := h.pos
  simp only [Stream.adv, File.advance, File.rest, List.length_drop] at *
  omega

theorem loopOf_damaged (e : Exc) (offs : Bool) (act : Head → Done) (tail) (step) (fin) (hstep : PerformsD e act step) (hfin : Ends tail fin)
    (rounds : Nat) (s : Stream) (out : Bytes) (hp : s.parser = .warc) (hk : s.kind = .gzipRecord) (he : s.eoc = none)
    (hb : Bad e s) (hneg : s.fh.strictNeg = true) (hr : s.fh.rest.length < rounds) :
    Shows out (loopOf offs step fin rounds ⟨s, out⟩) (runDamaged e act tail rounds s.fh.rest) := by
  induction rounds generalizing s out with
  | zero => omega
  | succ rounds ih =>
    have hx := readRecord_damaged offs s hb hp (by rw [hk]; simp) he
    have hrep : ∀ p, reported s.kind offs p = none := by intro p; rw [hk]; rfl
    simp only [hrep] at hx
    rw [loopOf, runDamaged]
    cases hd : nextDamaged s.fh.rest with
    | none => rw [hd] at hx; simp only at hx ⊢; obtain ⟨s', hx⟩ := hx; rw [hx]; exact ⟨s', by simp⟩
    | some n =>
    cases n with
    | stuck => rw [hd] at hx; simp only at hx ⊢; rw [hx]; rfl
    | unknown => rw [hd] at hx; simp only at hx ⊢; obtain ⟨s', hx⟩ := hx; rw [hx]; exact ⟨s', by simp⟩
    | none es size => rw [hd] at hx; simp only at hx ⊢; rw [hx.1]; exact hfin _ _ _ _
    | record start v hs es size =>
      rw [hd] at hx; simp only at hx ⊢
      obtain ⟨hx, hb1, hn⟩ := hx
      rw [hx]
      simp only
      obtain ⟨hsz1, hsz2⟩ := next_size hn
      have hrest : ({ s.adv size with eoc := some (declaredLength hs) } : Stream).fh.rest = s.fh.rest.drop size := by simp
      have hb2 : Bad e ({ s.adv size with eoc := some (declaredLength hs) } : Stream) := ⟨hb1.fault, hb1.pos⟩
      have hd := hstep ({ s.adv size with eoc := some (declaredLength hs) } : Stream) v hs es none out ⟨hb2, hneg, rfl⟩
      rw [hrest] at hd
      cases ha : act ⟨none, v, hs, es, s.fh.rest.drop size⟩ with
      | never => rw [ha] at hd; rw [show _ = _ from hd]; rfl
      | stops text exc =>
        rw [ha] at hd
        obtain ⟨s', hd⟩ := hd
        rw [hd]
        exact ⟨s', rfl⟩
      | goes text took =>
        rw [ha] at hd
        obtain ⟨k, hd, hk1, hk2, hk3⟩ := hd
        have hbk := bad_more hb2 k hk1
        rw [hrest] at hk1 hk3
        rw [hd]
        simp only
        apply shows_after
        generalize ht : ({ ({ s.adv size with eoc := some (declaredLength hs) } : Stream).adv k with eoc := some (declaredLength hs - k) } : Stream) = t
        have ht1 : t.fh.rest = (s.fh.rest.drop size).drop k := by subst ht; simp
        have htb : Bad e t := by subst ht; exact ⟨hbk.fault, hbk.pos⟩
        have htl : t.fh.rest.length = (s.fh.rest.drop size).length - k := by rw [ht1, List.length_drop]
        by_cases hsh : (s.fh.rest.drop size).length < (declaredLength hs).toNat
        · rw [if_pos hsh]
          have hkk := hk2 (by omega)
          have hte : t.eoc = some (((declaredLength hs).toNat - k : Nat) : Int) := by subst ht; simp only [Option.some.injEq]; omega
          obtain ⟨u, hu⟩ := readRecord_short_exc offs ((declaredLength hs).toNat - k) t hte (by omega)
          rw [htb.fault] at hu
          cases rounds with
          | zero => omega
          | succ n =>
            simp only [loopOf, hu]
            exact ⟨u, by simp⟩
        · rw [if_neg hsh]
          generalize hsk : Head.skipped ⟨none, v, hs, es, s.fh.rest.drop size⟩ took = sk
          have hsk' : (0 ≤ declaredLength hs → sk = (declaredLength hs).toNat) ∧ (declaredLength hs < 0 → sk = k) := by
            rw [← hsk]
            unfold Head.skipped Head.length
            simp only
            constructor
            · intro h; rw [if_pos h]
            · intro h; rw [if_neg (by omega), hk3 h]
          generalize hu : ({ t.adv (sk - k) with eoc := none } : Stream) = u
          have hkle : k ≤ sk := by
            by_cases h0 : 0 ≤ declaredLength hs
            · have := hk2 h0; have := hsk'.1 h0; omega
            · have := hsk'.2 (by omega); omega
          have hskle : sk ≤ (s.fh.rest.drop size).length := by
            by_cases h0 : 0 ≤ declaredLength hs
            · have := hsk'.1 h0; omega
            · have := hsk'.2 (by omega); omega
          have hread : readRecord offs t = readRecord offs u := by
            by_cases h0 : 0 ≤ declaredLength hs
            · have hte : t.eoc = some ((sk - k : Nat) : Int) := by
                have := hsk'.1 h0
                have := hk2 h0
                subst ht; simp only [Option.some.injEq]; omega
              rw [readRecord_skip offs (sk - k) t hte (by omega), hu]
            · have hte : t.eoc = some (declaredLength hs - k) := by subst ht; rfl
              have h1 := hsk'.2 (by omega)
              rw [readRecord_neg offs _ t hte (by omega), ← hu, h1, Nat.sub_self, adv_zero]
          rw [loopOf_congr offs step fin rounds t u _ hread]
          have hu1 : u.fh.rest = (s.fh.rest.drop size).drop sk := by
            subst hu; simp only [adv_fh, File.advance_rest, ht1, List.drop_drop]; congr 1; omega
          have hub : Bad e u := by
            have := bad_more htb (sk - k) (by omega)
            subst hu; exact ⟨this.fault, this.pos⟩
          have := ih u (out ++ text) (by subst hu; subst ht; exact hp) (by subst hu; subst ht; exact hk) (by subst hu; rfl)
            hub (by subst hu; subst ht; exact hneg) (by rw [hu1, List.length_drop, List.length_drop]; omega)
          rw [hu1] at this
          exact this

/-- what `record.content` does right behind the head of a record in damaged data -/
theorem content_fullD (e : Exc) (s : Stream) (r : Rec) (out : Bytes) (hs : List Header) (o : Option Nat) (v : Bytes) (es : List Err) (hb : BehindD e s hs) (hr : Bare r) (hh : r.headers = hs) :
    match (⟨o, v, hs, es, s.fh.rest⟩ : Head).payloadDamaged e with
      | .error x => ∃ s', World.content ⟨s, r, out⟩ = .raise x ⟨s', { r with cfile := .none, cfileValid := false }, out⟩
      | .ok p => World.content ⟨s, r, out⟩ = .ok (firstValue (b! "Content-Type") hs, some p) ⟨used s hs p.length, fetched r p, out⟩ := by
  subst hh
  have hgt : r.getHeader r.cls.contentTypeName = firstValue (b! "Content-Type") r.headers := by
    simp [Rec.getHeader, lookupHeader_eq, hr.cls, Cls.contentTypeName, WH.CONTENT_TYPE]
  have he := hb.eoc
  unfold Head.payloadDamaged
  have hwdef : (⟨o, v, r.headers, es, s.fh.rest⟩ : Head).Whole ↔ (0 ≤ declaredLength r.headers ∧ (declaredLength r.headers).toNat ≤ s.fh.rest.length) := Iff.rfl
  have hld : (⟨o, v, r.headers, es, s.fh.rest⟩ : Head).length = declaredLength r.headers := rfl
  rw [hld]
  simp only
  by_cases h : declaredLength r.headers < -1
  · rw [if_pos h]
    have hrd : Stream.read none s = .raise .valueError s := by
      have h0 : ¬ (0 : Int) ≤ declaredLength r.headers := by omega
      have h1 : ¬ (declaredLength r.headers = -1 ∨ s.fh.strictNeg = false) := by rw [hb.strictNeg]; simp; omega
      simp only [Stream.read, M.bind_apply, M.get_apply, he, limitOf, rawRead, onFile, File.read, if_neg h0, if_neg h1]
      rw [← he]
    simp only [World.content, hr.content, World.cfileRead, hr.cfile, World.onStream, hrd, World.clearCfile]
    exact ⟨_, rfl⟩
  · rw [if_neg h]
    by_cases h1 : (⟨o, v, r.headers, es, s.fh.rest⟩ : Head).Whole
    · rw [if_pos h1]
      rw [hwdef] at h1
      obtain ⟨n, hn⟩ : ∃ n : Nat, declaredLength r.headers = (n : Int) := ⟨_, (Int.toNat_of_nonneg h1.1).symm⟩
      have ht : (declaredLength r.headers).toNat = n := by rw [hn]; rfl
      rw [hn] at he
      have hop := op_run (.read none) s n he (Or.inl (by omega))
      simp only [ReadOp.run, ReadOp.result, Option.map_none] at hop
      have hst : ({ s.adv (s.fh.rest.take n).length with eoc := some ((n - (s.fh.rest.take n).length : Nat) : Int) } : Stream) =
          used s r.headers (s.fh.rest.take n).length := by
        simp only [used, hn]
        have : (s.fh.rest.take n).length ≤ n := by simp; omega
        congr 2; omega
      rw [hst] at hop
      simp only [World.content, hr.content, World.cfileRead, hr.cfile, World.onStream, hop, World.clearCfile, hgt, fetched, ht]
    · rw [if_neg h1]
      rw [hwdef] at h1
      have hrd : ∃ t, Stream.read none s = .raise e t := by
        by_cases h2 : declaredLength r.headers = -1
        · have h0 : ¬ (0 : Int) ≤ declaredLength r.headers := by omega
          simp only [Stream.read, M.bind_apply, M.get_apply, he, limitOf, rawRead, onFile, File.read, if_neg h0, if_pos (Or.inl h2), File.deliver, hb.bad.fault]
          exact ⟨_, rfl⟩
        · have h0 : (0 : Int) ≤ declaredLength r.headers := by omega
          have h4 : s.fh.rest.length < (declaredLength r.headers).toNat := by
            have : ¬ (declaredLength r.headers).toNat ≤ s.fh.rest.length := fun hx => h1 ⟨h0, hx⟩
            omega
          have h5 : (s.fh.rest.take (declaredLength r.headers).toNat).length < (declaredLength r.headers).toNat := by
            rw [List.length_take]; omega
          simp only [Stream.read, M.bind_apply, M.get_apply, he, limitOf, rawRead, onFile, File.read, if_pos h0, File.deliver, hb.bad.fault]
          rw [decide_eq_true h4]
          exact ⟨_, rfl⟩
      obtain ⟨t, hrd⟩ := hrd
      simp only [World.content, hr.content, World.cfileRead, hr.cfile, World.onStream, hrd, World.clearCfile]
      exact ⟨_, rfl⟩

theorem payload_usedD (e : Exc) (h : Head) (p : Bytes) (hp : h.payloadDamaged e = .ok p) : p.length ≤ h.behind.length ∧ (0 ≤ h.length → (p.length : Int) ≤ h.length) ∧
    (h.length < 0 → p.length = if true then h.behind.length else 0) := by
  unfold Head.payloadDamaged at hp
  by_cases h1 : h.length < -1
  · rw [if_pos h1] at hp; simp at hp
  · rw [if_neg h1] at hp
    by_cases h2 : h.Whole
    · rw [if_pos h2] at hp; simp only [Except.ok.injEq] at hp; subst hp
      obtain ⟨h3, h4⟩ := h2
      refine ⟨by simp; omega, fun h => by simp; omega, fun h => by omega⟩
    · rw [if_neg h2] at hp; simp at hp

theorem did_readD (e : Exc) (s : Stream) (hs : List Header) (out text : Bytes) (o : Option Nat) (v : Bytes) (es : List Err) (p : Bytes) (r : Res Tool Unit)
    (hp : (⟨o, v, hs, es, s.fh.rest⟩ : Head).payloadDamaged e = .ok p) (h : r = .ok () ⟨used s hs p.length, out ++ text⟩) :
    Did s hs out r (.goes text true) := by
  obtain ⟨h1, h2, h3⟩ := payload_usedD e _ _ hp
  exact ⟨p.length, h, h1, h2, h3⟩

theorem used_zeroD (e : Exc) (s : Stream) (hs : List Header) (hb : BehindD e s hs) : used s hs 0 = s := by
  obtain ⟨fh, eoc, kind, parser⟩ := s
  have := hb.eoc
  simp only at this
  subst this
  simp [used, Stream.adv, File.advance_zero]

theorem did_leftD (e : Exc) (s : Stream) (hs : List Header) (hb : BehindD e s hs) (out text : Bytes) (r : Res Tool Unit) (h : r = .ok () ⟨s, out ++ text⟩) :
    Did s hs out r (.goes text false) :=
  ⟨0, by rw [h]; exact congrArg (fun t => Res.ok () (Tool.mk t (out ++ text))) (used_zeroD e s hs hb).symm, Nat.zero_le _, fun h => by omega, fun _ => rfl⟩

/-! ### copying -/

/-- copying an incomplete content: the complete pieces are written -/
theorem copyLoop_pieces (fuel n : Nat) (s : Stream) (r : Rec) (out : Bytes) (e : Exc) (hcf : r.cfile = .stream)
    (he : s.eoc = some (n : Int)) (hlt : s.fh.rest.length < n) (hf : s.fh.fault = some e) (hfuel : s.fh.rest.length < fuel) :
    ∃ s', World.copyLoop fuel ⟨s, r, out⟩ = .raise e ⟨s', r, out ++ s.fh.rest.take (s.fh.rest.length / 8192 * 8192)⟩ := by
  induction fuel generalizing n s out with
  | zero => omega
  | succ fuel ih =>
    by_cases hle : min 8192 n ≤ s.fh.rest.length
    · have h8 : 8192 ≤ s.fh.rest.length := by omega
      have hrd : World.cfileRead (some 8192) ⟨s, r, out⟩ = .ok (s.fh.rest.take 8192) ⟨{ s.adv 8192 with eoc := some ((n - 8192 : Nat) : Int) }, r, out⟩ := by
        have hm : min (8192 : Int) (n : Int) = ((8192 : Nat) : Int) := by omega
        have h3 : (n : Int) - 8192 = ((n - 8192 : Nat) : Int) := by omega
        simp only [World.cfileRead, hcf, World.onStream, Stream.read, M.bind_apply, M.get_apply, he, limitOf]
        simp only [hm]
        rw [rawRead_ok _ _ h8]
        simp [he, h3]
      have hne : s.fh.rest.take 8192 ≠ [] := by
        intro h0
        have := congrArg List.length h0
        rw [List.length_take, Nat.min_eq_left h8] at this
        simp at this
      obtain ⟨s', h1⟩ := ih (n - 8192) { s.adv 8192 with eoc := some ((n - 8192 : Nat) : Int) } (out ++ s.fh.rest.take 8192)
        rfl (by simp only [adv_fh, File.advance_rest, List.length_drop]; omega) hf
        (by simp only [adv_fh, File.advance_rest, List.length_drop]; omega)
      refine ⟨s', ?_⟩
      simp only [World.copyLoop, M.bind_apply, hrd, if_neg hne, World.write_apply]
      rw [h1]
      simp only [adv_fh, File.advance_rest, List.length_drop, List.append_assoc]
      have hq : s.fh.rest.length / 8192 * 8192 = 8192 + (s.fh.rest.length - 8192) / 8192 * 8192 := by omega
      rw [hq, List.take_add]
    · refine ⟨s.adv s.fh.rest.length, ?_⟩
      have hlt' : s.fh.rest.length < min 8192 n := by omega
      have : World.cfileRead (some 8192) ⟨s, r, out⟩ = .raise e ⟨s.adv s.fh.rest.length, r, out⟩ := by
        simp only [World.cfileRead, hcf, World.onStream, Stream.read, M.bind_apply, M.get_apply, he, limitOf]
        have hm : min (8192 : Int) (n : Int) = ((min 8192 n : Nat) : Int) := by omega
        simp only [hm]
        rw [rawRead_short_fault _ _ hlt' e hf]
      have hq : s.fh.rest.length / 8192 * 8192 = 0 := by
        have : s.fh.rest.length / 8192 = 0 := Nat.div_eq_of_lt (by omega)
        rw [this]
      simp only [World.copyLoop, M.bind_apply, this, hq, List.take_zero, List.append_nil]

theorem copyLoop_fullD (e : Exc) (fuel : Nat) (s : Stream) (r : Rec) (out : Bytes) (hs : List Header) (o : Option Nat) (v : Bytes) (es : List Err) (hb : BehindD e s hs)
    (hcf : r.cfile = .stream) (hfuel : s.fh.rest.length + 1 < fuel) :
    if (⟨o, v, hs, es, s.fh.rest⟩ : Head).Whole then
      World.copyLoop fuel ⟨s, r, out⟩ = .ok () ⟨used s hs (s.fh.rest.take (declaredLength hs).toNat).length, r, out ++ s.fh.rest.take (declaredLength hs).toNat⟩
    else ∃ s', World.copyLoop fuel ⟨s, r, out⟩ =
      .raise (if declaredLength hs < -1 then .valueError else e) ⟨s', r, out ++ (⟨o, v, hs, es, s.fh.rest⟩ : Head).copied⟩ := by
  have he := hb.eoc
  unfold Head.copied Head.Whole Head.length
  simp only
  by_cases hw : 0 ≤ declaredLength hs ∧ (declaredLength hs).toNat ≤ s.fh.rest.length
  · rw [if_pos hw]
    obtain ⟨n, hn⟩ : ∃ n : Nat, declaredLength hs = (n : Int) := ⟨_, (Int.toNat_of_nonneg hw.1).symm⟩
    have ht : (declaredLength hs).toNat = n := by rw [hn]; rfl
    rw [hn] at he
    rw [World.copyLoop_stream fuel n ⟨s, r, out⟩ hcf he (Or.inl (by simp only; omega)) (by simpa using hfuel), ht]
    simp only
    have hst : ({ s.adv (s.fh.rest.take n).length with eoc := some ((n - (s.fh.rest.take n).length : Nat) : Int) } : Stream) =
        used s hs (s.fh.rest.take n).length := by
      simp only [used, hn]
      have : (s.fh.rest.take n).length ≤ n := by simp; omega
      congr 2; omega
    rw [hst]
  · rw [if_neg hw]
    obtain ⟨fuel, rfl⟩ : ∃ k, fuel = k + 1 := ⟨fuel - 1, by omega⟩
    by_cases h0 : declaredLength hs < 0
    · rw [if_pos h0]
      have hm : min (8192 : Int) (declaredLength hs) = declaredLength hs := by omega
      have hn0 : ¬ (0 : Int) ≤ declaredLength hs := by omega
      by_cases h : declaredLength hs < -1
      · rw [if_pos h]
        have hrd : Stream.read (some 8192) s = .raise .valueError s := by
          have h1 : ¬ (declaredLength hs = -1 ∨ s.fh.strictNeg = false) := by rw [hb.strictNeg]; simp; omega
          simp only [Stream.read, M.bind_apply, M.get_apply, he, limitOf, hm, rawRead, onFile, File.read, if_neg hn0, if_neg h1]
          rw [← he]
        refine ⟨s, ?_⟩
        simp only [World.copyLoop, M.bind_apply, World.cfileRead, hcf, World.onStream, hrd, List.append_nil]
      · rw [if_neg h]
        have hrd : ∃ t, Stream.read (some 8192) s = .raise e t := by
          simp only [Stream.read, M.bind_apply, M.get_apply, he, limitOf, hm, rawRead, onFile, File.read, if_neg hn0, if_pos (Or.inl (show declaredLength hs = -1 by omega)),
            File.deliver, hb.bad.fault]
          exact ⟨_, rfl⟩
        obtain ⟨t, hrd⟩ := hrd
        refine ⟨t, ?_⟩
        simp only [World.copyLoop, M.bind_apply, World.cfileRead, hcf, World.onStream, hrd, List.append_nil]
    · rw [if_neg h0, if_neg (by omega)]
      have hlt : s.fh.rest.length < (declaredLength hs).toNat := by
        have : ¬ (declaredLength hs).toNat ≤ s.fh.rest.length := fun hx => hw ⟨by omega, hx⟩
        omega
      exact copyLoop_pieces (fuel + 1) (declaredLength hs).toNat s r out e hcf (by rw [he]; congr 1; omega) hlt hb.bad.fault (by omega)

theorem writeTo_fullD (e : Exc) (s : Stream) (r : Rec) (out : Bytes) (hs : List Header) (o : Option Nat) (es : List Err) (hb : BehindD e s hs) (hr : Bare r) (hh : r.headers = hs) :
    if (⟨o, r.version, hs, es, s.fh.rest⟩ : Head).Whole then
      ∃ r', World.writeTo CRLF ⟨s, r, out⟩ = .ok () ⟨used s hs (s.fh.rest.take (declaredLength hs).toNat).length, r',
        out ++ ((⟨o, r.version, hs, es, s.fh.rest⟩ : Head).record (s.fh.rest.take (declaredLength hs).toNat)).bytes⟩
    else ∃ s' r', World.writeTo CRLF ⟨s, r, out⟩ =
      .raise (if declaredLength hs < -1 then .valueError else e) ⟨s', r', out ++ (headBytes r.version hs ++ (⟨o, r.version, hs, es, s.fh.rest⟩ : Head).copied)⟩ := by
  have hhas : World.hasCfile r = true := by simp [World.hasCfile, hr.cfile]
  have hrem : World.cfileRemaining ⟨s, r, out⟩ = s.fh.rest.length := by simp [World.cfileRemaining, hr.cfile]
  have hc := copyLoop_fullD e (s.fh.rest.length + 2) s r (out ++ r.version ++ CRLF ++ r.headers.flatMap headerLine ++ CRLF) hs o r.version es hb hr.cfile (by omega)
  have hkey : World.writeTo CRLF ⟨s, r, out⟩ =
      match World.copyLoop (s.fh.rest.length + 2) ⟨s, r, out ++ r.version ++ CRLF ++ r.headers.flatMap headerLine ++ CRLF⟩ with
      | .ok () w => .ok () (if World.hasCfile w.rcd then { w with out := w.out ++ CRLF ++ CRLF, rcd := { w.rcd with cfileValid := false } }
          else { w with out := w.out ++ CRLF ++ CRLF })
      | .raise e w => .raise e w
      | .hang => .hang := by
    simp only [World.writeTo, hr.cfile, hhas, hr.valid, Bool.not_true, Bool.and_false, Bool.false_eq_true, if_false, World.writeBody, hr.cls,
      M.bind_apply, World.write_apply, World.writeHeaders_file, if_true, hrem]
    cases World.copyLoop (s.fh.rest.length + 2) ⟨s, r, out ++ r.version ++ CRLF ++ r.headers.flatMap headerLine ++ CRLF⟩ <;> rfl
  have hhead : out ++ r.version ++ CRLF ++ r.headers.flatMap headerLine ++ CRLF = out ++ headBytes r.version hs := by
    rw [← hh]; simp [headBytes]
  by_cases hw : (⟨o, r.version, hs, es, s.fh.rest⟩ : Head).Whole
  · rw [if_pos hw] at hc ⊢
    rw [hkey, hc, hhead]
    simp only [hhas, if_true]
    refine ⟨{ r with cfileValid := false }, ?_⟩
    simp only [R.bytes, recordBytes, Head.record, List.append_assoc]
  · rw [if_neg hw] at hc ⊢
    obtain ⟨s', hc⟩ := hc
    refine ⟨s', r, ?_⟩
    rw [hkey, hc, hhead]
    simp only [List.append_assoc]

theorem whole_used (o : Option Nat) (v : Bytes) (es : List Err) (s : Stream) (hs : List Header) (hw : (⟨o, v, hs, es, s.fh.rest⟩ : Head).Whole) :
    (s.fh.rest.take (declaredLength hs).toNat).length ≤ s.fh.rest.length ∧
      (0 ≤ declaredLength hs → ((s.fh.rest.take (declaredLength hs).toNat).length : Int) ≤ declaredLength hs) ∧
      (declaredLength hs < 0 → (s.fh.rest.take (declaredLength hs).toNat).length = if true then s.fh.rest.length else 0) := by
  obtain ⟨h1, h2⟩ := hw
  simp only [Head.length] at h1 h2
  exact ⟨by simp; omega, fun h => by simp; omega, fun h => by omega⟩

theorem did_copyD (e : Exc) (s : Stream) (v : Bytes) (hs : List Header) (es : List Err) (o : Option Nat) (out : Bytes) (hb : BehindD e s hs) (body : M World Unit)
    (h : body ⟨s, { parsed v hs with errors := es }, out⟩ = World.writeTo CRLF ⟨s, { parsed v hs with errors := es }, out⟩) :
    Did s hs out (withRecord { parsed v hs with errors := es } body ⟨s, out⟩) (copyingDamaged e ⟨o, v, hs, es, s.fh.rest⟩) := by
  have hw := writeTo_fullD e s { parsed v hs with errors := es } out hs o es hb (bare_parsed v hs es) rfl
  have hv : ({ parsed v hs with errors := es } : Rec).version = v := rfl
  rw [hv] at hw
  simp only [withRecord, h]
  unfold copyingDamaged
  by_cases hwh : (⟨o, v, hs, es, s.fh.rest⟩ : Head).Whole
  · rw [if_pos hwh] at hw ⊢
    obtain ⟨r', hw⟩ := hw
    obtain ⟨h1, h2, h3⟩ := whole_used _ _ _ _ _ hwh
    refine ⟨(s.fh.rest.take (declaredLength hs).toNat).length, ?_, h1, h2, h3⟩
    rw [hw]; rfl
  · rw [if_neg hwh] at hw ⊢
    obtain ⟨s', r', hw⟩ := hw
    exact ⟨s', by rw [hw]; rfl⟩

/-! ### the tools -/

theorem performsD_copy (e : Exc) (c : Codec) (z : Http.Zlib) :
    PerformsD e (copyingDamaged e) (fun _ r => withRecord r (Warc2Warc.process c z {})) := by
  intro s v hs es o out hb
  refine did_copyD e s v hs es o out hb _ ?_
  simp [Warc2Warc.process, M.bind_apply]

theorem performsD_compress (e : Exc) (c : Codec) (z : Http.Zlib) (o' : Warc2Warc.Opts) (hd : o'.decode = false) (hg : o'.gzip = true) :
    PerformsD e (compressingDamaged e c.enc) (fun _ r => withRecord r (Warc2Warc.process c z o')) := by
  intro s v hs es o out hb
  have hw := writeTo_fullD e s { parsed v hs with errors := es } [] hs o es hb (bare_parsed v hs es) rfl
  have hv : ({ parsed v hs with errors := es } : Rec).version = v := rfl
  rw [hv] at hw
  simp only [withRecord, Warc2Warc.process, hd, hg, M.bind_apply, if_true, Bool.false_eq_true, if_false, M.pure_apply, World.writeToGz]
  unfold compressingDamaged
  by_cases hwh : (⟨o, v, hs, es, s.fh.rest⟩ : Head).Whole
  · rw [if_pos hwh] at hw ⊢
    obtain ⟨r', hw⟩ := hw
    obtain ⟨h1, h2, h3⟩ := whole_used _ _ _ _ _ hwh
    refine ⟨(s.fh.rest.take (declaredLength hs).toNat).length, ?_, h1, h2, h3⟩
    rw [hw]; simp [used, Head.length]
  · rw [if_neg hwh] at hw ⊢
    obtain ⟨s', r', hw⟩ := hw
    exact ⟨s', by rw [hw]; simp only [List.append_nil]; rfl⟩

theorem contentType_fullD (e : Exc) (s : Stream) (r : Rec) (out : Bytes) (hs : List Header) (o : Option Nat) (v : Bytes) (es : List Err) (hb : BehindD e s hs) (hr : Bare r) (hh : r.headers = hs) :
    match firstValue (b! "Content-Type") hs with
      | some t => World.contentType ⟨s, r, out⟩ = .ok (some t) ⟨s, r, out⟩
      | none => match (⟨o, v, hs, es, s.fh.rest⟩ : Head).payloadDamaged e with
        | .error x => ∃ s', World.contentType ⟨s, r, out⟩ = .raise x ⟨s', { r with cfile := .none, cfileValid := false }, out⟩
        | .ok p => World.contentType ⟨s, r, out⟩ = .ok none ⟨used s hs p.length, fetched r p, out⟩ := by
  have hf := content_fullD e s r out hs o v es hb hr hh
  have hgt : r.getHeader r.cls.contentTypeName = firstValue (b! "Content-Type") hs := by
    simp [Rec.getHeader, lookupHeader_eq, hr.cls, Cls.contentTypeName, WH.CONTENT_TYPE, hh]
  cases hct : firstValue (b! "Content-Type") hs with
  | some t => simp only [World.contentType, hr.content, hgt, hct]
  | none =>
    simp only
    cases hp : (⟨o, v, hs, es, s.fh.rest⟩ : Head).payloadDamaged e with
    | error x =>
      rw [hp] at hf
      obtain ⟨s', hf⟩ := hf
      exact ⟨s', by simp only [World.contentType, hr.content, hgt, hct, hf]⟩
    | ok p =>
      rw [hp] at hf
      simp only at hf ⊢
      simp only [World.contentType, hr.content, hgt, hct, hf]

theorem performsD_filter (e : Exc) (c : Codec) (search : Bytes → Bool) (m : Mode) (invert : Bool) :
    PerformsD e (filteringDamaged e m search invert) (fun _ r => withRecord r (WarcFilter.filterRecord c search (m.opts invert))) := by
  intro s v hs es o out hb
  have hurl : ({ parsed v hs with errors := es } : Rec).url = firstValue (b! "WARC-Target-URI") hs := by
    simp [Rec.url, parsed, Rec.getHeader, lookupHeader_eq, WH.URL, Cls.urlName]
  have htype : ({ parsed v hs with errors := es } : Rec).type = firstValue (b! "WARC-Type") hs := by
    simp [Rec.type, parsed, Rec.getHeader, lookupHeader_eq, WH.TYPE]
  have hdate : ({ parsed v hs with errors := es } : Rec).date = firstValue (b! "WARC-Date") hs := by
    simp [Rec.date, parsed, Rec.getHeader, lookupHeader_eq, WH.DATE, Cls.dateName]
  have hhs : ({ parsed v hs with errors := es } : Rec).headers = hs := rfl
  have key : ∀ (b : Bool) (body : M World Unit),
      body ⟨s, { parsed v hs with errors := es }, out⟩ = WarcFilter.writeIf b ⟨s, { parsed v hs with errors := es }, out⟩ →
      Did s hs out (withRecord { parsed v hs with errors := es } body ⟨s, out⟩) (if b then copyingDamaged e ⟨o, v, hs, es, s.fh.rest⟩ else .goes [] false) := by
    intro b body h
    cases b with
    | true =>
      rw [if_pos rfl]
      exact did_copyD e s v hs es o out hb body (by rw [h]; rfl)
    | false =>
      rw [if_neg (by simp)]
      exact did_leftD e s hs hb out [] _ (by simp [withRecord, h, WarcFilter.writeIf])
  unfold filteringDamaged
  cases m with
  | url =>
    rw [if_neg (by simp [Mode.needsContent])]
    refine key _ _ ?_
    simp only [WarcFilter.filterRecord, Mode.opts, M.bind_apply, M.get_apply, if_true, hurl, hit_matched]
    rfl
  | type =>
    rw [if_neg (by simp [Mode.needsContent])]
    refine key _ _ ?_
    simp only [WarcFilter.filterRecord, Mode.opts, M.bind_apply, M.get_apply, if_true, htype, hit_matched, Bool.false_eq_true, if_false]
    rfl
  | date =>
    rw [if_neg (by simp [Mode.needsContent])]
    refine key _ _ ?_
    simp only [WarcFilter.filterRecord, Mode.opts, M.bind_apply, M.get_apply, if_true, hdate, hit_matched, Bool.false_eq_true, if_false]
    rfl
  | contentType =>
    have hct := contentType_fullD e s { parsed v hs with errors := es } out hs o v es hb (bare_parsed v hs es) rfl
    cases hc : firstValue (b! "Content-Type") hs with
    | some t =>
      rw [hc] at hct
      simp only at hct
      rw [if_neg (by simp [Mode.needsContent, hc])]
      refine key _ _ ?_
      simp only [WarcFilter.filterRecord, Mode.opts, M.bind_apply, M.get_apply, if_true, hct, hit_matched, Bool.false_eq_true, if_false, Mode.selects, Head.record, hc]
    | none =>
      rw [hc] at hct
      simp only at hct
      rw [if_pos (by simp [Mode.needsContent, hc])]
      unfold Head.readingDamaged
      cases hp : (⟨o, v, hs, es, s.fh.rest⟩ : Head).payloadDamaged e with
      | error x =>
        rw [hp] at hct
        obtain ⟨s', hct⟩ := hct
        refine did_stops s hs out [] _ _ s' ?_
        simp [withRecord, WarcFilter.filterRecord, Mode.opts, M.bind_apply, M.get_apply, hct]
      | ok p =>
        rw [hp] at hct
        simp only at hct
        refine did_readD e s hs out _ o v es p _ hp ?_
        simp only [withRecord, WarcFilter.filterRecord, Mode.opts, M.bind_apply, M.get_apply, if_true, hct, hit_matched, Bool.false_eq_true, if_false]
        have hsel : Mode.selects .contentType search (Head.record ⟨o, v, hs, es, s.fh.rest⟩ p) = matched search none := by
          simp [Mode.selects, Head.record, hc]
        rw [hsel]
        by_cases hb' : (matched search none != invert) = true
        · rw [hb', WarcFilter.writeIf, if_pos rfl, writeTo_fetched]; rfl
        · have : (matched search none != invert) = false := by simpa using hb'
          rw [this]; simp [WarcFilter.writeIf]
  | whole =>
    rw [if_pos (by simp [Mode.needsContent])]
    have hf := content_fullD e s { parsed v hs with errors := es } out hs o v es hb (bare_parsed v hs es) rfl
    unfold Head.readingDamaged
    cases hp : (⟨o, v, hs, es, s.fh.rest⟩ : Head).payloadDamaged e with
    | error x =>
      rw [hp] at hf
      obtain ⟨s', hf⟩ := hf
      refine did_stops s hs out [] _ _ s' ?_
      simp [withRecord, WarcFilter.filterRecord, Mode.opts, M.bind_apply, M.get_apply, hf]
    | ok p =>
      rw [hp] at hf
      refine did_readD e s hs out _ o v es p _ hp ?_
      have hsel : Mode.selects .whole search (Head.record ⟨o, v, hs, es, s.fh.rest⟩ p) = (WarcFilter.inHeaders search hs || search p) := rfl
      have hx : ∀ a b : Bool, (a ^^ b) = (a != b) := by decide
      have hwi : ∀ b : Bool, WarcFilter.writeIf b ⟨used s hs p.length, fetched { parsed v hs with errors := es } p, out⟩ =
          .ok () ⟨used s hs p.length, fetched { parsed v hs with errors := es } p, out ++ if b then (R.rewritten ⟨v, hs, p⟩).bytes else []⟩ := by
        intro b
        cases b with
        | true => rw [WarcFilter.writeIf, if_pos rfl, writeTo_fetched]; rfl
        | false => simp [WarcFilter.writeIf]
      rw [hsel]
      simp only at hf hwi ⊢
      generalize hrd : ({ parsed v hs with errors := es } : Rec) = r at hf hwi ⊢
      have hphs : r.headers = hs := by rw [← hrd]; rfl
      simp only [withRecord, WarcFilter.filterRecord, Mode.opts, M.bind_apply, M.get_apply, hf, Bool.false_eq_true, if_false, hphs]
      cases WarcFilter.inHeaders search hs with
      | true =>
        simp only [if_true, M.bind_apply, M.pure_apply, hx, hwi, Bool.true_or]
        rfl
      | false =>
        simp only [Bool.false_eq_true, if_false, M.bind_apply, M.pure_apply, hx, hwi, Bool.false_or]
        rfl

theorem performsD_index (e : Exc) (name : Bytes) :
    PerformsD e (indexingDamaged e name) (fun en r => withRecord r (WarcIndex.indexRecord name en.offset)) := by
  intro s v hs es o out hb
  have ht : ({ parsed v hs with errors := es } : Rec).type = firstValue (b! "WARC-Type") hs := by
    simp [Rec.type, parsed, Rec.getHeader, lookupHeader_eq, WH.TYPE]
  have hu : ({ parsed v hs with errors := es } : Rec).url = firstValue (b! "WARC-Target-URI") hs := by
    simp [Rec.url, parsed, Rec.getHeader, lookupHeader_eq, WH.URL, Cls.urlName]
  have hi : ({ parsed v hs with errors := es } : Rec).id = firstValue (b! "WARC-Record-ID") hs := by
    simp [Rec.id, parsed, Rec.getHeader, lookupHeader_eq, WH.ID]
  have hline : ∀ (p : Bytes) (ct : Option Bytes) (n : Int), ct = firstValue (b! "Content-Type") hs → n = shownLength ⟨v, hs, p⟩ →
      join [32] [name, WarcIndex.offsetText o, WarcIndex.orDash (firstValue (b! "WARC-Type") hs),
        WarcIndex.orDash (firstValue (b! "WARC-Target-URI") hs), WarcIndex.orDash (firstValue (b! "WARC-Record-ID") hs),
        WarcIndex.orDash ct, decimalInt n] ++ [10] = indexLine name o ⟨v, hs, p⟩ := by
    intro p ct n hct hn
    rw [hct, hn, orDash_shown, orDash_shown, orDash_shown, orDash_shown, offsetText_eq]
    simp only [join, indexLine, List.append_assoc]
    cases o <;> rfl
  have hgl : ({ parsed v hs with errors := es } : Rec).getHeader ({ parsed v hs with errors := es } : Rec).cls.contentLengthName =
      firstValue (b! "Content-Length") hs := by
    simp [Rec.getHeader, lookupHeader_eq, parsed, Cls.contentLengthName, WH.CONTENT_LENGTH]
  have hnc : ({ parsed v hs with errors := es } : Rec).content = none := rfl
  have hct := contentType_fullD e s { parsed v hs with errors := es } out hs o v es hb (bare_parsed v hs es) rfl
  have hf := content_fullD e s { parsed v hs with errors := es } out hs o v es hb (bare_parsed v hs es) rfl
  have hfl : ∀ p, World.contentLength ⟨used s hs p.length, fetched { parsed v hs with errors := es } p, out⟩ =
          .ok (p.length : Int) ⟨used s hs p.length, fetched { parsed v hs with errors := es } p, out⟩ := fun p => rfl
  simp only
  generalize hrd : ({ parsed v hs with errors := es } : Rec) = r at ht hu hi hgl hnc hct hf hfl ⊢
  unfold indexingDamaged
  simp only
  cases hc : firstValue (b! "Content-Type") hs with
  | some t =>
    rw [hc] at hct
    simp only at hct
    cases hl : firstValue (b! "Content-Length") hs with
    | some x =>
      simp only
      cases hx : pyInt 10 x with
      | none =>
        rw [if_pos (by simp)]
        refine did_stops s hs out [] _ _ s ?_
        simp only [withRecord, WarcIndex.indexRecord, M.bind_apply, M.get_apply, hct, World.contentLength, hnc, hgl, hl, hx]
        simp
      | some n =>
        rw [if_neg (by simp)]
        refine did_leftD e s hs hb out _ _ ?_
        have hn : n = shownLength ⟨v, hs, []⟩ := by simp only [shownLength, hc, hl, hx, Option.getD_some]
        simp only [withRecord, WarcIndex.indexRecord, M.bind_apply, M.get_apply, hct, World.contentLength, hnc, hgl, hl, hx, World.write, M.modify_apply, ht, hu, hi]
        rw [hline [] (some t) n hc.symm hn]
        rfl
    | none =>
      simp only
      unfold Head.readingDamaged
      cases hp : (⟨o, v, hs, es, s.fh.rest⟩ : Head).payloadDamaged e with
      | error y =>
        rw [hp] at hf
        obtain ⟨s', hf⟩ := hf
        refine did_stops s hs out [] _ _ s' ?_
        simp only [withRecord, WarcIndex.indexRecord, M.bind_apply, M.get_apply, hct, World.contentLength, hnc, hgl, hl, World.lenContent, hf]
        simp
      | ok p =>
        rw [hp] at hf
        simp only at hf
        refine did_readD e s hs out _ o v es p _ hp ?_
        have hn : (p.length : Int) = shownLength ⟨v, hs, p⟩ := by simp only [shownLength, hc, hl]
        simp only [withRecord, WarcIndex.indexRecord, M.bind_apply, M.get_apply, hct, World.contentLength, hnc, hgl, hl, World.lenContent, hf, M.pure_apply, World.write, M.modify_apply, ht, hu, hi]
        rw [hline p (some t) _ hc.symm hn]
        rfl
  | none =>
    rw [hc] at hct
    simp only at hct ⊢
    unfold Head.readingDamaged
    cases hp : (⟨o, v, hs, es, s.fh.rest⟩ : Head).payloadDamaged e with
    | error y =>
      rw [hp] at hct
      obtain ⟨s', hct⟩ := hct
      refine did_stops s hs out [] _ _ s' ?_
      simp only [withRecord, WarcIndex.indexRecord, M.bind_apply, M.get_apply, hct]
      simp
    | ok p =>
      rw [hp] at hct
      simp only at hct
      refine did_readD e s hs out _ o v es p _ hp ?_
      have hn : (p.length : Int) = shownLength ⟨v, hs, p⟩ := by simp only [shownLength, hc]
      have hlen := hfl p
      simp only [withRecord, WarcIndex.indexRecord, M.bind_apply, M.get_apply, hct, hlen, World.write, M.modify_apply, ht, hu, hi]
      rw [hline p none _ hc.symm hn]
      rfl

theorem performsD_dump (e : Exc) (name : Bytes) : PerformsD e (dumpingDamaged e name) (fun en _ => WarcDump.entry name en) := by
  intro s v hs es o out hb
  have hd := dump_record name o s { parsed v hs with errors := es } out (bare_parsed v hs es) []
  have hf := content_fullD e s { parsed v hs with errors := es } [] hs o v es hb (bare_parsed v hs es) rfl
  unfold dumpingDamaged
  simp only
  cases hp : (⟨o, v, hs, es, s.fh.rest⟩ : Head).payloadDamaged e with
  | error x =>
    rw [hp] at hf
    obtain ⟨s', hf⟩ := hf
    rw [hf] at hd
    exact ⟨s', hd⟩
  | ok p =>
    rw [hp] at hf
    simp only at hf
    rw [hf] at hd
    simp only at hd ⊢
    have hblock : dumpBlock name ⟨o, ({ parsed v hs with errors := es } : Rec).version, ({ parsed v hs with errors := es } : Rec).headers, ({ parsed v hs with errors := es } : Rec).errors,
        (firstValue (b! "Content-Type") hs, some p)⟩ = dumpBlock name ⟨o, v, hs, es, (none, some p)⟩ := rfl
    rw [hblock] at hd
    cases hq : dumpBlock name ⟨o, v, hs, es, (none, some p)⟩ with
    | mk text ex =>
      rw [hq] at hd
      cases ex with
      | some ex => exact ⟨_, hd⟩
      | none => exact did_readD e s hs out text o v es p _ hp hd

end Tool
end Warc
