import Verif.Proofs.ReadAll
import Verif.Proofs.Convert
import Verif.Proofs.Dump
import Verif.Proofs.ToolRecords
import Verif.Props.Filter
import Verif.Spec.ToolRun
set_option linter.all false
namespace Warc
open Rx Stream Spec

/-! ### the loop over the records of a stream, with what is done at the end -/

namespace Tool

/-- the two kinds of loops in one -/
def loopOf (offs : Bool) (step : Entry → Rec → M Tool Unit) (fin : Entry → M Tool Unit) : Nat → M Tool Unit
  | 0 => M.diverge
  | fuel + 1 => fun t =>
    match readRecord offs t.strm with
    | .hang => .hang
    | .raise e s => .raise e ⟨s, t.out⟩
    | .ok e s =>
      match e.rcd with
      | none => fin e ⟨s, t.out⟩
      | some r =>
        match step e r ⟨s, t.out⟩ with
        | .ok () t' => loopOf offs step fin fuel t'
        | .raise x t' => .raise x t'
        | .hang => .hang

theorem forEach_loop (body : M World Unit) (n : Nat) (t : Tool) :
    forEach body n t = loopOf false (fun _ r => withRecord r body)
      (fun e => if e.errors = [] then pure () else M.throw (.generic "Errors while decoding")) n t := by
  induction n generalizing t with
  | zero => rfl
  | succ n ih =>
    simp only [forEach, loopOf, M.bind_apply, onStream]
    cases hq : readRecord false t.strm with
    | hang => rfl
    | raise e s => rfl
    | ok e s =>
      simp only
      cases hr : e.rcd with
      | none => rfl
      | some r =>
        simp only [M.bind_apply]
        cases hw : withRecord r body ⟨s, t.out⟩ with
        | hang => rfl
        | raise x t' => rfl
        | ok a t' => simp only [ih]

theorem entries_loop (offs : Bool) (body : Entry → M Tool Unit) (n : Nat) (t : Tool) :
    Stream.forRecords onStream offs body n none t = loopOf offs (fun e _ => body e) body n t := by
  induction n generalizing t with
  | zero => rfl
  | succ n ih =>
    simp only [Stream.forRecords, loopOf, M.bind_apply, onStream]
    simp only [if_neg (show ¬ (none : Option Nat) = some 0 by simp), M.bind_apply, onStream]
    cases hq : readRecord offs t.strm with
    | hang => rfl
    | raise e s => rfl
    | ok e s =>
      simp only
      cases hr : e.rcd with
      | none =>
        cases hb : body e ⟨s, t.out⟩ with
        | hang => rfl
        | raise x t' => rfl
        | ok a t' => simp
      | some r =>
        simp only
        cases hb : body e ⟨s, t.out⟩ with
        | hang => rfl
        | raise x t' => rfl
        | ok a t' => simp [ih]

theorem loopOf_congr (offs : Bool) (step fin) (n : Nat) (s s' : Stream) (out : Bytes) (h : readRecord offs s = readRecord offs s') :
    loopOf offs step fin n ⟨s, out⟩ = loopOf offs step fin n ⟨s', out⟩ := by
  cases n with
  | zero => rfl
  | succ n => simp only [loopOf, h]

/-- a stream right behind the head of a record -/
structure Behind (s : Stream) (hs : List Header) : Prop where
  fault : s.fh.fault = none
  strictNeg : s.fh.strictNeg = true
  eoc : s.eoc = some (declaredLength hs)

/-- `r` is what `d` says -/
def Did (s : Stream) (hs : List Header) (out : Bytes) (r : Res Tool Unit) : Done → Prop
  | .never => r = .hang
  | .stops text exc => ∃ s', r = .raise exc ⟨s', out ++ text⟩
  | .goes text took => ∃ k : Nat, r = .ok () ⟨{ s.adv k with eoc := some (declaredLength hs - k) }, out ++ text⟩ ∧ k ≤ s.fh.rest.length ∧
      (0 ≤ declaredLength hs → (k : Int) ≤ declaredLength hs) ∧ (declaredLength hs < 0 → k = if took then s.fh.rest.length else 0)

/-- what the code does with each record is `act` -/
def Performs (act : Head → Done) (step : Entry → Rec → M Tool Unit) : Prop :=
  ∀ (s : Stream) (v : Bytes) (hs : List Header) (es : List Err) (o : Option Nat) (out : Bytes), Behind s hs →
    Did s hs out (step ⟨o, some { parsed v hs with errors := es }, []⟩ { parsed v hs with errors := es } ⟨s, out⟩) (act ⟨o, v, hs, es, s.fh.rest⟩)

/-- the output of a tool on a stream -/
def Shows (out : Bytes) (r : Res Tool Unit) (o : Output) : Prop :=
  match o.stop with
  | .done => ∃ s', r = .ok () ⟨s', out ++ o.text⟩
  | .raised exc => ∃ s', r = .raise exc ⟨s', out ++ o.text⟩
  | .hangs => r = .hang

/-- what the code does at the end is `tail` -/
def Ends (tail : Option Nat → List Err → Output) (fin : Entry → M Tool Unit) : Prop :=
  ∀ (s : Stream) (o : Option Nat) (es : List Err) (out : Bytes), Shows out (fin ⟨o, none, es⟩ ⟨s, out⟩) (tail o es)

theorem shows_after (out text : Bytes) (r : Res Tool Unit) (o : Output) (h : Shows (out ++ text) r o) : Shows out r (Output.after text o) := by
  unfold Shows Output.after at *
  cases hs : o.stop <;> simp only [hs] at h ⊢
  · obtain ⟨s', h⟩ := h; exact ⟨s', by rw [h, List.append_assoc]⟩
  · obtain ⟨s', h⟩ := h; exact ⟨s', by rw [h, List.append_assoc]⟩
  · exact h

theorem loopOf_exact (offs : Bool) (act : Head → Done) (tail) (step) (fin) (hstep : Performs act step) (hfin : Ends tail fin)
    (rounds : Nat) (s : Stream) (out : Bytes) (hp : s.parser = .warc) (hk : s.kind ≠ .gzipFile) (he : s.eoc = none)
    (hf : s.fh.fault = none) (hneg : s.fh.strictNeg = true) (hr : s.fh.rest.length < rounds) :
    Shows out (loopOf offs step fin rounds ⟨s, out⟩) (runOn (reported s.kind offs) act tail rounds s.fh.pos s.fh.rest) := by
  induction rounds generalizing s out with
  | zero => omega
  | succ rounds ih =>
    have hx := readRecord_exact offs s hp hk he hf
    rw [loopOf, runOn]
    cases hn : next s.fh.rest with
    | stuck => rw [hn] at hx; simp only at hx ⊢; rw [hx]; rfl
    | unknown => rw [hn] at hx; simp only at hx ⊢; obtain ⟨s', hx⟩ := hx; rw [hx]; exact ⟨s', by simp⟩
    | none es size => rw [hn] at hx; simp only at hx ⊢; rw [hx]; exact hfin _ _ _ _
    | record start v hs es size =>
      rw [hn] at hx; simp only at hx ⊢; rw [hx]
      simp only
      obtain ⟨hsz1, hsz2⟩ := next_size hn
      have hrest : ({ s.adv size with eoc := some (declaredLength hs) } : Stream).fh.rest = s.fh.rest.drop size := by simp
      have hd := hstep ({ s.adv size with eoc := some (declaredLength hs) } : Stream) v hs es (reported s.kind offs (s.fh.pos + start)) out ⟨hf, hneg, rfl⟩
      rw [hrest] at hd
      cases ha : act ⟨reported s.kind offs (s.fh.pos + start), v, hs, es, s.fh.rest.drop size⟩ with
      | never => rw [ha] at hd; rw [show _ = _ from hd]; rfl
      | stops text exc =>
        rw [ha] at hd
        obtain ⟨s', hd⟩ := hd
        rw [hd]
        exact ⟨s', rfl⟩
      | goes text took =>
        rw [ha] at hd
        obtain ⟨k, hd, hk1, hk2, hk3⟩ := hd
        rw [hrest] at hk1 hk3
        rw [hd]
        simp only
        apply shows_after
        generalize ht : ({ ({ s.adv size with eoc := some (declaredLength hs) } : Stream).adv k with eoc := some (declaredLength hs - k) } : Stream) = t
        have ht1 : t.fh.rest = (s.fh.rest.drop size).drop k := by subst ht; simp
        have ht2 : t.fh.pos = s.fh.pos + size + k := by subst ht; simp [Stream.adv, File.advance]
        have htf : t.fh.fault = none := by subst ht; exact hf
        have htl : t.fh.rest.length = (s.fh.rest.drop size).length - k := by rw [ht1, List.length_drop]
        by_cases hsh : (s.fh.rest.drop size).length < (declaredLength hs).toNat
        · rw [if_pos hsh]
          have hkk := hk2 (by omega)
          have hte : t.eoc = some (((declaredLength hs).toNat - k : Nat) : Int) := by subst ht; simp only [Option.some.injEq]; omega
          obtain ⟨u, hu⟩ := readRecord_short_exc offs ((declaredLength hs).toNat - k) t hte (by omega)
          rw [htf] at hu
          cases rounds with
          | zero => omega
          | succ n =>
            simp only [loopOf, hu]
            exact ⟨u, by simp⟩
        · rw [if_neg hsh]
          generalize hsk : Head.skipped ⟨reported s.kind offs (s.fh.pos + start), v, hs, es, s.fh.rest.drop size⟩ took = sk
          have hsk' : (0 ≤ declaredLength hs → sk = (declaredLength hs).toNat) ∧ (declaredLength hs < 0 → sk = k) := by
            rw [← hsk]
            unfold Head.skipped Head.length
            simp only
            constructor
            · intro h; rw [if_pos h]
            · intro h; rw [if_neg (by omega), hk3 h]
          generalize hu : ({ t.adv (sk - k) with eoc := none } : Stream) = u
          have hkle : k ≤ sk := by
            by_cases h0 : 0 ≤ declaredLength hs
            · have := hk2 h0; have := hsk'.1 h0; omega
            · have := hsk'.2 (by omega); omega
          have hskle : sk ≤ (s.fh.rest.drop size).length := by
            by_cases h0 : 0 ≤ declaredLength hs
            · have := hsk'.1 h0; omega
            · have := hsk'.2 (by omega); omega
          have hread : readRecord offs t = readRecord offs u := by
            by_cases h0 : 0 ≤ declaredLength hs
            · have hte : t.eoc = some ((sk - k : Nat) : Int) := by
                have := hsk'.1 h0
                have := hk2 h0
                subst ht; simp only [Option.some.injEq]; omega
              rw [readRecord_skip offs (sk - k) t hte (by omega), hu]
            · have hte : t.eoc = some (declaredLength hs - k) := by subst ht; rfl
              have h1 := hsk'.2 (by omega)
              rw [readRecord_neg offs _ t hte (by omega), ← hu, h1, Nat.sub_self, adv_zero]
          rw [loopOf_congr offs step fin rounds t u _ hread]
          have hu1 : u.fh.rest = (s.fh.rest.drop size).drop sk := by
            subst hu; simp only [adv_fh, File.advance_rest, ht1, List.drop_drop]; congr 1; omega
          have hu2 : u.fh.pos = s.fh.pos + size + sk := by
            subst hu; simp only [Stream.adv, File.advance, ht2]; omega
          have hu3 : u.kind = s.kind := by subst hu; subst ht; rfl
          have := ih u (out ++ text) (by subst hu; subst ht; exact hp) (by subst hu; subst ht; exact hk) (by subst hu; rfl)
            (by subst hu; exact htf) (by subst hu; subst ht; exact hneg) (by rw [hu1, List.length_drop, List.length_drop]; omega)
          rw [hu1, hu2, hu3] at this
          exact this

end Tool
end Warc
