import Verif.Proofs.AnyFile
import Verif.Spec.Salvage
/-
  Loops over the records of any file, however reading it ends.
-/
set_option linter.all false
namespace Warc
open Rx Stream Spec

/-- What the body of a loop over records does with any record that the parser returns: with its whole payload, with a payload that
ends too early, and when reading the payload raises.  `P` is a condition on the headers, `part` what may be written of the last record. -/
structure Tool.Salvages (P : List Header → Prop) (body : Option Nat → M World Unit) (f : Option Nat → R → Bytes)
    (part : Option Nat → R → Bytes → Prop) : Prop where
  whole : ∀ o s r out n, Sane r → P r.headers → s.eoc = some ((n : Nat) : Int) → n ≤ s.fh.rest.length →
    ∃ t r', body o ⟨s, r, out⟩ = .ok () ⟨t, r', out ++ f o ⟨r.version, r.headers, s.fh.rest.take n⟩⟩ ∧
      ∀ offs, readRecord offs t = readRecord offs s
  short : ∀ o s r out n, Sane r → P r.headers → s.eoc = some ((n : Nat) : Int) → s.fh.rest.length < n → s.fh.fault = none →
    ∃ t r', body o ⟨s, r, out⟩ = .ok () ⟨t, r', out ++ f o ⟨r.version, r.headers, s.fh.rest⟩⟩ ∧
      ∀ offs, ∃ t', readRecord offs t = .raise (.generic "expected more bytes") t'
  fault : ∀ o s r out n ex, Sane r → P r.headers → s.eoc = some ((n : Nat) : Int) → s.fh.rest.length < n → s.fh.fault = some ex →
    ∃ p, part o ⟨r.version, r.headers, s.fh.rest⟩ p ∧
      ((∃ w, body o ⟨s, r, out⟩ = .raise ex w ∧ w.out = out ++ p) ∨
       (∃ t r', body o ⟨s, r, out⟩ = .ok () ⟨t, r', out ++ p⟩ ∧ ∀ offs, ∃ t', readRecord offs t = .raise ex t'))

theorem skipLoop_short_exc (fuel : Nat) (n : Nat) (s : Stream) (he : s.eoc = some (n : Int))
    (h : s.fh.rest.length < n) (hf : s.fh.rest.length < fuel) :
    ∃ t, skipLoop fuel s = .raise (s.fh.fault.getD (.generic "expected more bytes")) t := by
  induction fuel generalizing n s with
  | zero => omega
  | succ fuel ih =>
    simp only [skipLoop, M.bind_apply, M.get_apply, he]
    rw [if_pos (by omega)]
    have hmin : min CHUNK_SIZE (n : Int) = ((min 8192 n : Nat) : Int) := by
      show min (8192 : Int) n = _; omega
    by_cases hle : min 8192 n ≤ s.fh.rest.length
    · simp only [hmin, M.bind_apply, rawRead_ok s _ hle]
      rw [if_neg (by simp; omega)]
      obtain ⟨t, ht⟩ := ih (n - min 8192 n) { s.adv (min 8192 n) with eoc := s.eoc.map (· - ((min 8192 n : Nat) : Int)) }
        (by simp [he]; omega) (by simp; omega) (by simp; omega)
      exact ⟨t, ht⟩
    · have hlt : s.fh.rest.length < min 8192 n := by omega
      cases hfault : s.fh.fault with
      | none =>
        simp only [hmin, M.bind_apply, rawRead_short s _ hlt hfault]
        rw [if_pos (by omega)]
        exact ⟨_, rfl⟩
      | some e =>
        simp only [hmin, M.bind_apply, rawRead_short_fault s _ hlt e hfault]
        exact ⟨_, rfl⟩

/-- the exception for a payload that ends too early -/
theorem readRecord_short_exc (offs : Bool) (n : Nat) (s : Stream) (he : s.eoc = some (n : Int)) (h : s.fh.rest.length < n) :
    ∃ t, readRecord offs s = .raise (s.fh.fault.getD (.generic "expected more bytes")) t := by
  obtain ⟨t, ht⟩ := skipLoop_short_exc (s.fh.rest.length + 2) n s he h (by omega)
  refine ⟨t, ?_⟩
  have : skipToEoc s = .raise (s.fh.fault.getD (.generic "expected more bytes")) t := by
    simp only [skipToEoc, M.bind_apply, M.get_apply, he, ht]
  simp only [readRecord, M.bind_apply, M.get_apply, he, this]

/-- reading the content of any record: whole, too short, or raising -/
theorem content_cases (s : Stream) (r : Rec) (out : Bytes) (n : Nat) (hr : Sane r) (he : s.eoc = some (n : Int)) :
    (n ≤ s.fh.rest.length → World.content ⟨s, r, out⟩ =
      .ok (firstValue (b! "Content-Type") r.headers, some (s.fh.rest.take n))
        ⟨{ s.adv n with eoc := some ((0 : Nat) : Int) }, { r with content := some (firstValue (b! "Content-Type") r.headers, some (s.fh.rest.take n)), cfile := .none, cfileValid := false }, out⟩) ∧
    (s.fh.rest.length < n → s.fh.fault = none → World.content ⟨s, r, out⟩ =
      .ok (firstValue (b! "Content-Type") r.headers, some s.fh.rest)
        ⟨{ s.adv s.fh.rest.length with eoc := some ((n - s.fh.rest.length : Nat) : Int) }, { r with content := some (firstValue (b! "Content-Type") r.headers, some s.fh.rest), cfile := .none, cfileValid := false }, out⟩) ∧
    (s.fh.rest.length < n → ∀ ex, s.fh.fault = some ex → ∃ w, World.content ⟨s, r, out⟩ = .raise ex w ∧ w.out = out) := by
  have hgt : r.getHeader r.cls.contentTypeName = firstValue (b! "Content-Type") r.headers := by
    simp [Rec.getHeader, lookupHeader_eq, hr.cls, Cls.contentTypeName, WH.CONTENT_TYPE]
  refine ⟨fun hn => ?_, fun hn hf => ?_, fun hn ex hf => ?_⟩
  · have hop := op_run (.read none) s n he (Or.inl hn)
    simp only [ReadOp.run, ReadOp.result, Option.map_none] at hop
    have hl : (s.fh.rest.take n).length = n := by simp; omega
    simp only [hl, Nat.sub_self] at hop
    simp only [World.content, hr.content, World.cfileRead, hr.cfile, World.onStream, hop, World.clearCfile, hgt]
  · have hop := op_run (.read none) s n he (Or.inr hf)
    simp only [ReadOp.run, ReadOp.result, Option.map_none] at hop
    have hl : s.fh.rest.take n = s.fh.rest := List.take_of_length_le (by omega)
    simp only [hl] at hop
    simp only [World.content, hr.content, World.cfileRead, hr.cfile, World.onStream, hop, World.clearCfile, hgt]
  · refine ⟨World.clearCfile ⟨{ s with fh := s.fh.advance s.fh.rest.length }, r, out⟩, ?_, rfl⟩
    simp [World.content, hr.content, World.cfileRead, hr.cfile, World.onStream, Stream.read, M.bind_apply, M.get_apply,
      he, limitOf, rawRead, onFile, File.read, File.deliver, hf, hn]

/-- one round of the collecting program and what the loops do in that round -/
theorem salvage_step (offs : Bool) (fuel : Nat) (s : Stream) (hp : s.parser = .warc)
    (hn : ∀ m ∈ met offs (fuel + 1) s, 0 ≤ declaredLength m.headers) :
    (∃ ex t, readRecord offs s = .raise ex t ∧ collect offs (fuel + 1) s = ⟨[], none, .raised ex⟩ ∧ met offs (fuel + 1) s = []) ∨
    (readRecord offs s = .hang ∧ collect offs (fuel + 1) s = ⟨[], none, .hangs⟩) ∨
    (∃ e s', readRecord offs s = .ok e s' ∧ e.rcd = none ∧ collect offs (fuel + 1) s = ⟨[], some e, .done⟩ ∧ met offs (fuel + 1) s = []) ∨
    (∃ e r s1 n, readRecord offs s = .ok e s1 ∧ e.rcd = some r ∧ Sane r ∧ s1.eoc = some ((n : Nat) : Int) ∧
      declaredLength r.headers = (n : Int) ∧ s1.fh.rest.length < s.fh.rest.length ∧ s1.parser = .warc ∧ (offs = false → e.offset = none) ∧
      s1.fh.fault = s.fh.fault ∧ s1.fh.data = s.fh.data ∧
      ((n ≤ s1.fh.rest.length ∧ ∃ q, q = collect offs fuel { s1.adv n with eoc := some ((0 : Nat) : Int) } ∧
          collect offs (fuel + 1) s = { q with records := ⟨e.offset, r.version, r.headers, r.errors,
            (firstValue (b! "Content-Type") r.headers, some (s1.fh.rest.take n))⟩ :: q.records } ∧
          met offs (fuel + 1) s = ⟨r.version, r.headers, s1.fh.rest⟩ :: met offs fuel { s1.adv n with eoc := some ((0 : Nat) : Int) }) ∨
       (s1.fh.rest.length < n ∧ s1.fh.fault = none ∧
          collect offs (fuel + 1) s = ⟨[⟨e.offset, r.version, r.headers, r.errors,
            (firstValue (b! "Content-Type") r.headers, some s1.fh.rest)⟩], none,
              if fuel = 0 then .hangs else .raised (.generic "expected more bytes")⟩ ∧
          met offs (fuel + 1) s = [⟨r.version, r.headers, s1.fh.rest⟩]) ∨
       (s1.fh.rest.length < n ∧ ∃ ex, s1.fh.fault = some ex ∧ collect offs (fuel + 1) s = ⟨[], none, .raised ex⟩ ∧
          met offs (fuel + 1) s = [⟨r.version, r.headers, s1.fh.rest⟩]))) := by
  cases hq : readRecord offs s with
  | hang => right; left; exact ⟨rfl, by simp [collect, hq]⟩
  | raise ex t => left; exact ⟨ex, t, rfl, by simp [collect, hq], by simp [met, hq]⟩
  | ok e s1 =>
    cases hr : e.rcd with
    | none => right; right; left; exact ⟨e, s1, rfl, hr, by simp [collect, hq, hr], by simp [met, hq, hr]⟩
    | some r =>
      right; right; right
      obtain ⟨hsane, heoc, _, hpar, _, hfa, hoffn⟩ := readRecord_sane offs s s1 e r hp hq hr
      obtain ⟨hprog, _⟩ := readRecord_progress offs s s1 e r hp hq hr
      have hnn : 0 ≤ declaredLength r.headers := hn ⟨r.version, r.headers, s1.fh.rest⟩ (by simp [met, hq, hr])
      obtain ⟨n, hd⟩ := Int.eq_ofNat_of_zero_le hnn
      rw [hd] at heoc
      obtain ⟨c1, c2, c3⟩ := content_cases s1 r [] n hsane heoc
      refine ⟨e, r, s1, n, rfl, hr, hsane, heoc, hd, hprog, hpar, hoffn, hfa, (readRecord_same offs hq).2.1, ?_⟩
      by_cases hle : n ≤ s1.fh.rest.length
      · left
        exact ⟨hle, _, rfl, by simp only [collect, hq, hr, c1 hle], by simp only [met, hq, hr, c1 hle]⟩
      · cases hf : s1.fh.fault with
        | none =>
          right; left
          have hq2 := readRecord_short_exc offs (n - s1.fh.rest.length)
            { s1.adv s1.fh.rest.length with eoc := some ((n - s1.fh.rest.length : Nat) : Int) } rfl (by
              simp only [adv_fh, File.advance_rest, List.length_drop]; omega)
          obtain ⟨t, hq2⟩ := hq2
          have hfx : ({ s1.adv s1.fh.rest.length with eoc := some ((n - s1.fh.rest.length : Nat) : Int) } : Stream).fh.fault = none := by
            exact hf
          rw [hfx] at hq2
          refine ⟨by omega, rfl, ?_, ?_⟩
          · cases fuel with
            | zero => simp only [collect, hq, hr, c2 (by omega) hf]; rfl
            | succ fuel => simp only [collect, hq, hr, c2 (by omega) hf, hq2]; rfl
          · cases fuel with
            | zero => simp only [met, hq, hr, c2 (by omega) hf]
            | succ fuel => simp only [met, hq, hr, c2 (by omega) hf, hq2]
        | some ex =>
          right; right
          obtain ⟨w, hw, _⟩ := c3 (by omega) ex hf
          exact ⟨by omega, ex, rfl, by simp only [collect, hq, hr, hw], by simp only [met, hq, hr, hw]⟩

/-- the end of a loop: normally or with an exception -/
def finish {σ : Type} (ex : Option Exc) (x : σ) : Res σ Unit :=
  match ex with
  | none => .ok () x
  | some e => .raise e x

/-- `for record in stream` over any file -/
theorem forEach_salvage (P : List Header → Prop) (body : M World Unit) (f : R → Bytes) (part : R → Bytes → Prop)
    (hb : Tool.Salvages P (fun _ => body) (fun _ => f) (fun _ => part)) (fuel k : Nat) (s t : Stream) (out : Bytes) (q : Collected)
    (hp : s.parser = .warc) (hst : ∀ offs, readRecord offs t = readRecord offs s)
    (hn : ∀ m ∈ met false fuel s, 0 ≤ declaredLength m.headers ∧ P m.headers)
    (h : collect false fuel s = q) (hh : q.fin ≠ .hangs) (hk : s.fh.rest.length + 1 ≤ k) :
    ∃ s' p, Tool.forEach body k ⟨t, out⟩ = finish q.stop ⟨s', out ++ (q.records.flatMap fun g => f g.record) ++ p⟩ ∧
      Leftover part s q.stop ((met false fuel s)[q.records.length]?) p := by
  induction fuel generalizing s t out q k with
  | zero => subst h; exact absurd rfl hh
  | succ fuel ih =>
    obtain ⟨k, rfl⟩ : ∃ j, k = j + 1 := ⟨k - 1, by omega⟩
    have hstep := salvage_step false fuel s hp (fun m hm => (hn m hm).1)
    rw [h] at hstep
    rcases hstep with ⟨ex, u, hq, hc, hm⟩ | ⟨hq, hc⟩ | ⟨e, s', hq, her, hc, hm⟩ |
      ⟨e, r, s1, n, hq, her, hsane, heoc, hd, hprog, hpar, hoffn, hfa, hda, hcase⟩
    · subst hc
      refine ⟨u, [], ?_, Or.inl rfl⟩
      simp only [Tool.forEach, M.bind_apply, Tool.onStream, hst, hq, Collected.stop, finish, List.flatMap_nil, List.append_nil]
    · subst hc; exact absurd rfl hh
    · subst hc
      refine ⟨s', [], ?_, Or.inl rfl⟩
      simp only [Tool.forEach, M.bind_apply, Tool.onStream, hst, hq, her, Collected.stop]
      by_cases he : e.errors = []
      · simp [he, finish]
      · simp [he, finish]
    · rcases hcase with ⟨hle, q', hq', hc, hm⟩ | ⟨hlt, hf, hc, hm⟩ | ⟨hlt, ex, hf, hc, hm⟩
      · have hP : P r.headers := (hn ⟨r.version, r.headers, s1.fh.rest⟩ (by rw [hm]; simp)).2
        obtain ⟨u, r', hbody, hus⟩ := hb.whole none s1 r out n hsane hP heoc hle
        have hus' : ∀ offs, readRecord offs u = readRecord offs { s1.adv n with eoc := some ((0 : Nat) : Int) } := by
          intro offs
          rw [hus, readRecord_neg offs 0 { s1.adv n with eoc := some ((0 : Nat) : Int) } rfl (by omega), readRecord_skip offs n s1 heoc hle]
        have hstop : q.stop = q'.stop := by rw [hc]; rfl
        obtain ⟨s', p, hs', hlo⟩ := ih k { s1.adv n with eoc := some ((0 : Nat) : Int) } u (out ++ f ⟨r.version, r.headers, s1.fh.rest.take n⟩) q'
          hpar hus' (fun m hm' => hn m (by rw [hm]; exact List.mem_cons_of_mem _ hm')) hq'.symm (by rw [hc] at hh; exact hh) (by
            simp only [adv_fh, File.advance_rest, List.length_drop]; omega)
        refine ⟨s', p, ?_, ?_⟩
        · simp only [Tool.forEach, M.bind_apply, Tool.onStream, hst, hq, her, Tool.withRecord, hbody]
          rw [hs', hstop, hc]
          simp [Got.record]
        · rw [hstop, hm, hc]
          rcases hlo with rfl | ⟨ex, r1, k1, k2, k3, k4, k5⟩
          · exact Or.inl rfl
          · exact Or.inr ⟨ex, r1, by rw [← hfa]; exact k1, k2, by simpa using k3, k4, k5⟩
      · have hP : P r.headers := (hn ⟨r.version, r.headers, s1.fh.rest⟩ (by rw [hm]; simp)).2
        obtain ⟨u, r', hbody, hus⟩ := hb.short none s1 r out n hsane hP heoc hlt hf
        obtain ⟨u', hu'⟩ := hus false
        have hfuel : fuel ≠ 0 := by
          intro h0; subst h0; rw [hc] at hh; exact absurd rfl hh
        rw [if_neg hfuel] at hc
        obtain ⟨k, rfl⟩ : ∃ j, k = j + 1 := ⟨k - 1, by omega⟩
        refine ⟨u', [], ?_, Or.inl rfl⟩
        subst hc
        simp only [Tool.forEach, M.bind_apply, Tool.onStream, hst, hq, her, Tool.withRecord, hbody, hu', Collected.stop, finish]
        simp [Got.record]
      · have hP : P r.headers := (hn ⟨r.version, r.headers, s1.fh.rest⟩ (by rw [hm]; simp)).2
        obtain ⟨p, hpart, hbody⟩ := hb.fault none s1 r out n ex hsane hP heoc hlt hf
        subst hc
        have hlo : ∀ {β : Prop}, β → β ∧ Leftover part s (Collected.stop ⟨[], none, .raised ex⟩) ((met false (fuel + 1) s)[0]?) p := by
          intro β hβ
          exact ⟨hβ, Or.inr ⟨ex, ⟨r.version, r.headers, s1.fh.rest⟩, by rw [← hfa, hf], rfl, by rw [hm]; rfl, by rw [hd]; exact Int.ofNat_lt.2 hlt, hpart⟩⟩
        rcases hbody with ⟨w, hw, hwo⟩ | ⟨u, r', hbody, hus⟩
        · refine ⟨w.strm, p, hlo ?_⟩
          simp only [Tool.forEach, M.bind_apply, Tool.onStream, hst, hq, her, Tool.withRecord, hw, hwo, Collected.stop, finish, List.flatMap_nil, List.append_nil]
        · obtain ⟨u', hu'⟩ := hus false
          obtain ⟨k, rfl⟩ : ∃ j, k = j + 1 := ⟨k - 1, by omega⟩
          refine ⟨u', p, hlo ?_⟩
          simp only [Tool.forEach, M.bind_apply, Tool.onStream, hst, hq, her, Tool.withRecord, hbody, hu', Collected.stop, finish, List.flatMap_nil, List.append_nil]

/-- `for offset, record, errors in stream.read_records(limit=None)` over any file -/
theorem forRecords_salvage (P : List Header → Prop) (body : Option Nat → M World Unit) (f : Option Nat → R → Bytes) (part : Option Nat → R → Bytes → Prop)
    (hb : Tool.Salvages P body f part) (offs : Bool) (fuel k : Nat) (s t : Stream) (out : Bytes) (q : Collected)
    (hp : s.parser = .warc) (hst : ∀ offs, readRecord offs t = readRecord offs s)
    (hn : ∀ m ∈ met offs fuel s, 0 ≤ declaredLength m.headers ∧ P m.headers)
    (h : collect offs fuel s = q) (hh : q.fin ≠ .hangs) (hk : s.fh.rest.length + 1 ≤ k) :
    ∃ s' p o, Tool.forRecords offs body k none ⟨t, out⟩ = finish q.exc ⟨s', out ++ (q.records.flatMap fun g => f g.offset g.record) ++ p⟩ ∧
      Leftover (part o) s q.exc ((met offs fuel s)[q.records.length]?) p := by
  induction fuel generalizing s t out q k with
  | zero => subst h; exact absurd rfl hh
  | succ fuel ih =>
    obtain ⟨k, rfl⟩ : ∃ j, k = j + 1 := ⟨k - 1, by omega⟩
    have hstep := salvage_step offs fuel s hp (fun m hm => (hn m hm).1)
    rw [h] at hstep
    rcases hstep with ⟨ex, u, hq, hc, hm⟩ | ⟨hq, hc⟩ | ⟨e, s', hq, her, hc, hm⟩ |
      ⟨e, r, s1, n, hq, her, hsane, heoc, hd, hprog, hpar, hoffn, hfa, hda, hcase⟩
    · subst hc
      refine ⟨u, [], none, ?_, Or.inl rfl⟩
      simp only [Tool.forRecords, Stream.forRecords, reduceCtorEq, if_false, M.bind_apply, Tool.onStream, hst, hq, Collected.exc, finish, List.flatMap_nil, List.append_nil]
    · subst hc; exact absurd rfl hh
    · subst hc
      refine ⟨s', [], none, ?_, Or.inl rfl⟩
      simp only [Tool.forRecords, Stream.forRecords, reduceCtorEq, if_false, M.bind_apply, Tool.onStream, hst, hq, her, Option.isNone_none,
        if_true, M.pure_apply, List.flatMap_nil, List.append_nil, Collected.exc, finish]
    · rcases hcase with ⟨hle, q', hq', hc, hm⟩ | ⟨hlt, hf, hc, hm⟩ | ⟨hlt, ex, hf, hc, hm⟩
      · have hP : P r.headers := (hn ⟨r.version, r.headers, s1.fh.rest⟩ (by rw [hm]; simp)).2
        obtain ⟨u, r', hbody, hus⟩ := hb.whole e.offset s1 r out n hsane hP heoc hle
        have hus' : ∀ offs, readRecord offs u = readRecord offs { s1.adv n with eoc := some ((0 : Nat) : Int) } := by
          intro offs
          rw [hus, readRecord_neg offs 0 { s1.adv n with eoc := some ((0 : Nat) : Int) } rfl (by omega), readRecord_skip offs n s1 heoc hle]
        have hstop : q.exc = q'.exc := by rw [hc]; rfl
        obtain ⟨s', p, o, hs', hlo⟩ := ih k { s1.adv n with eoc := some ((0 : Nat) : Int) } u (out ++ f e.offset ⟨r.version, r.headers, s1.fh.rest.take n⟩) q'
          hpar hus' (fun m hm' => hn m (by rw [hm]; exact List.mem_cons_of_mem _ hm')) hq'.symm (by rw [hc] at hh; exact hh) (by
            simp only [adv_fh, File.advance_rest, List.length_drop]; omega)
        refine ⟨s', p, o, ?_, ?_⟩
        · simp only [Tool.forRecords, Stream.forRecords, reduceCtorEq, if_false, M.bind_apply, Tool.onStream, hst, hq, her, Tool.withRecord, hbody, Option.isNone_some, Bool.false_eq_true, Option.map_none]
          rw [Tool.forRecords] at hs'
          rw [hs', hstop, hc]
          simp [Got.record]
        · rw [hstop, hm, hc]
          rcases hlo with rfl | ⟨ex, r1, k1, k2, k3, k4, k5⟩
          · exact Or.inl rfl
          · exact Or.inr ⟨ex, r1, by rw [← hfa]; exact k1, k2, by simpa using k3, k4, k5⟩
      · have hP : P r.headers := (hn ⟨r.version, r.headers, s1.fh.rest⟩ (by rw [hm]; simp)).2
        obtain ⟨u, r', hbody, hus⟩ := hb.short e.offset s1 r out n hsane hP heoc hlt hf
        obtain ⟨u', hu'⟩ := hus offs
        have hfuel : fuel ≠ 0 := by
          intro h0; subst h0; rw [hc] at hh; exact absurd rfl hh
        rw [if_neg hfuel] at hc
        obtain ⟨k, rfl⟩ : ∃ j, k = j + 1 := ⟨k - 1, by omega⟩
        refine ⟨u', [], none, ?_, Or.inl rfl⟩
        subst hc
        simp only [Tool.forRecords, Stream.forRecords, reduceCtorEq, if_false, M.bind_apply, Tool.onStream, hst, hq, her, Tool.withRecord, hbody, hu', Collected.exc, finish, Option.isNone_some, Bool.false_eq_true, Option.map_none]
        simp [Got.record]
      · have hP : P r.headers := (hn ⟨r.version, r.headers, s1.fh.rest⟩ (by rw [hm]; simp)).2
        obtain ⟨p, hpart, hbody⟩ := hb.fault e.offset s1 r out n ex hsane hP heoc hlt hf
        subst hc
        have hlo : ∀ {β : Prop}, β → β ∧ Leftover (part e.offset) s (Collected.exc ⟨[], none, .raised ex⟩) ((met offs (fuel + 1) s)[0]?) p := by
          intro β hβ
          exact ⟨hβ, Or.inr ⟨ex, ⟨r.version, r.headers, s1.fh.rest⟩, by rw [← hfa, hf], rfl, by rw [hm]; rfl, by rw [hd]; exact Int.ofNat_lt.2 hlt, hpart⟩⟩
        rcases hbody with ⟨w, hw, hwo⟩ | ⟨u, r', hbody, hus⟩
        · refine ⟨w.strm, p, e.offset, hlo ?_⟩
          simp only [Tool.forRecords, Stream.forRecords, reduceCtorEq, if_false, M.bind_apply, Tool.onStream, hst, hq, her, Tool.withRecord, hw, hwo, Collected.exc, finish, List.flatMap_nil, List.append_nil]
        · obtain ⟨u', hu'⟩ := hus offs
          obtain ⟨k, rfl⟩ : ∃ j, k = j + 1 := ⟨k - 1, by omega⟩
          refine ⟨u', p, e.offset, hlo ?_⟩
          simp only [Tool.forRecords, Stream.forRecords, reduceCtorEq, if_false, M.bind_apply, Tool.onStream, hst, hq, her, Tool.withRecord, hbody, hu', Collected.exc, finish, List.flatMap_nil, List.append_nil, Option.isNone_some, Bool.false_eq_true, Option.map_none]

/-- a program that collected all records came across just these -/
theorem met_done (offs : Bool) (fuel : Nat) (s : Stream) (gs : List Got) (l : Option Entry) (h : collect offs fuel s = ⟨gs, l, .done⟩) :
    (met offs fuel s).map (fun m => (m.version, m.headers)) = gs.map fun g => (g.version, g.headers) := by
  induction fuel generalizing s gs with
  | zero => simp [collect] at h
  | succ fuel ih =>
    rw [collect] at h
    cases hq : readRecord offs s with
    | hang => simp [hq] at h
    | raise e s1 => simp [hq] at h
    | ok e s1 =>
      cases hr : e.rcd with
      | none =>
        simp only [hq, hr, Collected.mk.injEq] at h
        simp [met, hq, hr, ← h.1]
      | some r =>
        simp only [hq, hr] at h
        cases hc : World.content ⟨s1, r, []⟩ with
        | hang => simp [hc] at h
        | raise ex w => simp [hc] at h
        | ok c w =>
          simp only [hc, Collected.mk.injEq] at h
          obtain ⟨h1, h2, h3⟩ := h
          have := ih w.strm (collect offs fuel w.strm).records (by
            rw [← h2, ← h3])
          simp only [met, hq, hr, hc, ← h1, List.map_cons, this]

/-- the content that a program got is the beginning of what stands behind the headers, as much as they announce -/
theorem met_content (offs : Bool) (fuel : Nat) (s : Stream) (gs : List Got) (l : Option Entry) (hp : s.parser = .warc)
    (hn : ∀ m ∈ met offs fuel s, 0 ≤ declaredLength m.headers) (h : collect offs fuel s = ⟨gs, l, .done⟩) :
    (met offs fuel s).map (fun m => (⟨m.version, m.headers, m.body.take (declaredLength m.headers).toNat⟩ : R)) = gs.map Got.record := by
  induction fuel generalizing s gs with
  | zero => simp [collect] at h
  | succ fuel ih =>
    have hstep := salvage_step offs fuel s hp hn
    rw [h] at hstep
    rcases hstep with ⟨ex, u, hq, hc, hm⟩ | ⟨hq, hc⟩ | ⟨e, s', hq, her, hc, hm⟩ |
      ⟨e, r, s1, n, hq, her, hsane, heoc, hd, hprog, hpar, hoffn, hfa, hda, hcase⟩
    · cases hc
    · cases hc
    · rw [hm]; simp only [Collected.mk.injEq] at hc; simp [hc.1]
    · rcases hcase with ⟨hle, q', hq', hc, hm⟩ | ⟨hlt, hf, hc, hm⟩ | ⟨hlt, ex, hf, hc, hm⟩
      · simp only [Collected.mk.injEq] at hc
        have := ih { s1.adv n with eoc := some ((0 : Nat) : Int) } q'.records hpar
          (fun m hm' => hn m (by rw [hm]; exact List.mem_cons_of_mem _ hm')) (by rw [← hq', hc.2.1, hc.2.2])
        rw [hm, hc.1, List.map_cons, List.map_cons, this, hd]
        rfl
      · by_cases h0 : fuel = 0
        · rw [if_pos h0] at hc; cases hc
        · rw [if_neg h0] at hc; cases hc
      · cases hc

end Warc
