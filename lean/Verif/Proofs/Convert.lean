import Verif.Spec.Convert
import Verif.Props.Arc2WarcIds
import Verif.Props.Salvage
/-
  Inversion of the conversion of any record.
-/
set_option linter.all false
namespace Warc
open Rx Stream Spec

/-! ### copying a WARC record, with any announced length -/

theorem rawRead_rest (n : Option Int) (s t : Stream) (b : Bytes) (h : rawRead n s = .ok b t) :
    s.fh.rest = b ++ t.fh.rest ∧ t.eoc = s.eoc.map (· - (b.length : Int)) ∧ t.fh = s.fh.advance b.length ∧ t = { s with fh := t.fh, eoc := t.eoc } := by
  simp only [rawRead, M.bind_apply, onFile] at h
  have key : ∀ (o : Bytes) (sh : Bool), o <+: s.fh.rest → ∀ a f, File.deliver o sh s.fh = .ok a f → a = o ∧ f = s.fh.advance o.length := by
    intro o sh _ a f hd
    unfold File.deliver at hd
    cases sh with
    | false => simp only [Res.ok.injEq] at hd; exact ⟨hd.1.symm, hd.2.symm⟩
    | true =>
      cases hf : s.fh.fault with
      | none => simp only [hf, Res.ok.injEq] at hd; exact ⟨hd.1.symm, hd.2.symm⟩
      | some e => simp only [hf] at hd; cases hd
  cases hr : File.read n s.fh with
  | hang => simp [hr] at h
  | raise e f => simp [hr] at h
  | ok a f =>
    simp only [hr, consume, M.bind_apply, M.modify_apply, M.pure_apply, Res.ok.injEq] at h
    obtain ⟨rfl, rfl⟩ := h
    have hp : a <+: s.fh.rest ∧ f = s.fh.advance a.length := by
      cases n with
      | none =>
        simp only [File.read] at hr
        obtain ⟨h1, h2⟩ := key _ _ (List.prefix_refl _) _ _ hr
        subst h1; exact ⟨List.prefix_refl _, h2⟩
      | some k =>
        simp only [File.read] at hr
        by_cases h0 : 0 ≤ k
        · rw [if_pos h0] at hr
          obtain ⟨h1, h2⟩ := key _ _ (List.take_prefix _ _) _ _ hr
          subst h1; exact ⟨List.take_prefix _ _, h2⟩
        · rw [if_neg h0] at hr
          by_cases h1 : k = -1 ∨ s.fh.strictNeg = false
          · rw [if_pos h1] at hr
            obtain ⟨h1, h2⟩ := key _ _ (List.prefix_refl _) _ _ hr
            subst h1; exact ⟨List.prefix_refl _, h2⟩
          · rw [if_neg h1] at hr; cases hr
    obtain ⟨⟨q, hq⟩, rfl⟩ := hp
    refine ⟨?_, rfl, rfl, rfl⟩
    simp only [File.advance_rest, ← hq, List.drop_left]

theorem cfileRead_rest (n : Option Int) (w w' : World) (b : Bytes) (hcf : w.rcd.cfile = .stream) (h : World.cfileRead n w = .ok b w') :
    w.strm.fh.rest = b ++ w'.strm.fh.rest ∧ w'.rcd = w.rcd ∧ w'.out = w.out := by
  simp only [World.cfileRead, hcf, World.onStream, Stream.read, M.bind_apply, M.get_apply] at h
  cases hr : rawRead (limitOf w.strm.eoc n) w.strm with
  | hang => simp [hr] at h
  | raise e t => simp [hr] at h
  | ok a t =>
    simp only [hr, Res.ok.injEq] at h
    obtain ⟨rfl, rfl⟩ := h
    exact ⟨(rawRead_rest _ _ _ _ hr).1, rfl, rfl⟩

/-- what is written of the payload when the copy loop raises -/
theorem copyLoop_raise (fuel : Nat) (w w' : World) (ex : Exc) (hcf : w.rcd.cfile = .stream) (h : World.copyLoop fuel w = .raise ex w') :
    ∃ p, w'.out = w.out ++ p ∧ p <+: w.strm.fh.rest := by
  induction fuel generalizing w with
  | zero => simp [World.copyLoop, M.diverge] at h
  | succ fuel ih =>
    simp only [World.copyLoop, M.bind_apply] at h
    cases hr : World.cfileRead (some 8192) w with
    | hang => simp [hr] at h
    | raise e t =>
      simp only [hr, Res.raise.injEq] at h
      obtain ⟨-, rfl⟩ := h
      refine ⟨[], ?_, by simp⟩
      simp only [World.cfileRead, hcf, World.onStream] at hr
      cases hx : Stream.read (some 8192) w.strm with
      | hang => simp [hx] at hr
      | ok a t => simp [hx] at hr
      | raise e t =>
        simp only [hx, Res.raise.injEq] at hr
        rw [← hr.2]; simp
    | ok b t =>
      obtain ⟨h1, h2, h3⟩ := cfileRead_rest _ _ _ _ hcf hr
      simp only [hr] at h
      by_cases hb : b = []
      · rw [if_pos hb] at h; cases h
      · rw [if_neg hb] at h
        simp only [M.bind_apply, World.write_apply] at h
        obtain ⟨p, h4, h5⟩ := ih { t with out := t.out ++ b } (by simp only [h2, hcf]) h
        refine ⟨b ++ p, ?_, ?_⟩
        · rw [h4]; simp [h3]
        · rw [h1]; exact (List.prefix_append_right_inj b).2 h5

/-- the copy loop with a negative number of bytes left -/
theorem copyLoop_neg (fuel : Nat) (w w' : World) (e : Int) (hcf : w.rcd.cfile = .stream) (he : w.strm.eoc = some e) (hlt : e < 0)
    (h : World.copyLoop fuel w = .ok () w') :
    ∃ b, Stream.read none w.strm = .ok b w'.strm ∧ w'.out = w.out ++ b ∧ w'.rcd = w.rcd := by
  cases fuel with
  | zero => simp [World.copyLoop, M.diverge] at h
  | succ fuel =>
    have hsame : ∀ (s : Stream) (e : Int), s.eoc = some e → e < 0 → Stream.read (some 8192) s = rawRead (some e) s ∧ Stream.read none s = rawRead (some e) s := by
      intro s e he hlt
      have hm : min (8192 : Int) e = e := by omega
      simp only [Stream.read, M.bind_apply, M.get_apply, he, limitOf, hm, and_self]
    obtain ⟨hs1, hs2⟩ := hsame w.strm e he hlt
    simp only [World.copyLoop, M.bind_apply, World.cfileRead, hcf, World.onStream, hs1] at h
    cases hr : rawRead (some e) w.strm with
    | hang => simp [hr] at h
    | raise x t => simp [hr] at h
    | ok b t =>
      simp only [hr] at h
      obtain ⟨h1, h2, h3, -⟩ := rawRead_rest _ _ _ _ hr
      by_cases hb : b = []
      · rw [if_pos hb] at h
        simp only [M.pure_apply, Res.ok.injEq, true_and] at h
        subst h
        exact ⟨b, by rw [hs2, hr], by simp [hb], rfl⟩
      · rw [if_neg hb] at h
        simp only [M.bind_apply, World.write_apply] at h
        have hall : t.fh.rest = [] := by
          have hb' : b = w.strm.fh.rest := by
            simp only [rawRead, M.bind_apply, onFile, File.read, if_neg (show ¬ (0 : Int) ≤ e by omega)] at hr
            by_cases h1 : e = -1 ∨ w.strm.fh.strictNeg = false
            · simp only [if_pos h1, File.deliver] at hr
              cases hf : w.strm.fh.fault with
              | none =>
                simp only [hf, consume, M.bind_apply, M.modify_apply, M.pure_apply, Res.ok.injEq] at hr
                exact hr.1.symm
              | some x => simp [hf] at hr
            · simp [if_neg h1] at hr
          have hl := congrArg List.length h1
          rw [← hb', List.length_append] at hl
          exact List.length_eq_zero_iff.1 (by omega)
        cases fuel with
        | zero => simp [World.copyLoop, M.diverge] at h
        | succ fuel =>
          have he2 : t.eoc = some (e - b.length) := by rw [h2, he]; rfl
          obtain ⟨hs3, -⟩ := hsame t (e - b.length) he2 (by omega)
          simp only [World.copyLoop, M.bind_apply, World.cfileRead, hcf, World.onStream, hs3] at h
          cases hr2 : rawRead (some (e - b.length)) t with
          | hang => simp [hr2] at h
          | raise x t => simp [hr2] at h
          | ok b2 t2 =>
            simp only [hr2] at h
            obtain ⟨g1, g2, g3, g4⟩ := rawRead_rest _ _ _ _ hr2
            have hb2 : b2 = [] := by
              rw [hall] at g1
              exact (List.append_eq_nil_iff.1 g1.symm).1
            subst hb2
            rw [if_pos rfl] at h
            simp only [M.pure_apply, Res.ok.injEq, true_and] at h
            subst h
            refine ⟨b, ?_, rfl, rfl⟩
            rw [hs2, hr, g4, g2, g3]
            obtain ⟨fh, eoc, kind, parser⟩ := t
            cases eoc <;> simp [File.advance]

/-- copying a WARC record that was just read: the content that a reader would get is written -/
theorem writeTo_ok (s : Stream) (r : Rec) (out : Bytes) (w' : World) (e : Int) (hcls : r.cls = .warc) (hcf : r.cfile = .stream)
    (hc : r.content = none) (hv : r.cfileValid = true) (he : s.eoc = some e) (h : World.writeTo CRLF ⟨s, r, out⟩ = .ok () w') :
    ∃ ct body w, World.content ⟨s, r, []⟩ = .ok (ct, some body) w ∧ w'.out = out ++ R.bytes ⟨r.version, r.headers, body⟩ ∧ w'.strm = w.strm := by
  have hcont : ∀ body t, Stream.read none s = .ok body t → ∃ ct w, World.content ⟨s, r, []⟩ = .ok (ct, some body) w ∧ w.strm = t := by
    intro body t hr
    simp only [World.content, hc, World.cfileRead, hcf, World.onStream, hr, World.clearCfile]
    exact ⟨_, _, rfl, rfl⟩
  by_cases hneg : e < 0
  · have hhas : World.hasCfile r = true := by simp [World.hasCfile, hcf]
    have hrem : World.cfileRemaining ⟨s, r, out⟩ = s.fh.rest.length := by simp [World.cfileRemaining, hcf]
    simp only [World.writeTo, hcf, hhas, hv, Bool.not_true, Bool.and_false, Bool.false_eq_true, if_false, World.writeBody, hcls,
      M.bind_apply, World.write_apply, World.writeHeaders_file, if_true, hrem] at h
    cases hq : World.copyLoop (s.fh.rest.length + 2) ⟨s, r, out ++ r.version ++ CRLF ++ r.headers.flatMap headerLine ++ CRLF⟩ with
    | hang => simp only [hq] at h; cases h
    | raise x t => simp only [hq] at h; cases h
    | ok u t =>
      obtain ⟨b, h1, h2, h3⟩ := copyLoop_neg _ _ _ e (by exact hcf) (by exact he) hneg hq
      obtain ⟨ct, w, h4, h5⟩ := hcont b _ h1
      simp only [hq, Res.ok.injEq, true_and] at h
      refine ⟨ct, b, w, h4, ?_, ?_⟩
      · rw [← h]
        split <;> simp [h2, R.bytes, recordBytes, headBytes]
      · rw [← h, h5]
        split <;> rfl
  · obtain ⟨n, rfl⟩ := Int.eq_ofNat_of_zero_le (show 0 ≤ e by omega)
    have hok : n ≤ s.fh.rest.length ∨ s.fh.fault = none := by
      by_cases hn : n ≤ s.fh.rest.length
      · exact Or.inl hn
      · cases hf : s.fh.fault with
        | none => exact Or.inr rfl
        | some ex =>
          exfalso
          have hhas : World.hasCfile r = true := by simp [World.hasCfile, hcf]
          have hrem : World.cfileRemaining ⟨s, r, out⟩ = s.fh.rest.length := by simp [World.cfileRemaining, hcf]
          obtain ⟨w, p, h1, -, -⟩ := copyLoop_fault (s.fh.rest.length + 2) n
            ⟨s, r, out ++ r.version ++ CRLF ++ r.headers.flatMap headerLine ++ CRLF⟩ ex hcf he (by show s.fh.rest.length < n; omega) hf (by show s.fh.rest.length < _; omega)
          simp only [World.writeTo, hcf, hhas, hv, Bool.not_true, Bool.and_false, Bool.false_eq_true, if_false, World.writeBody, hcls,
            M.bind_apply, World.write_apply, World.writeHeaders_file, if_true, hrem, h1] at h
          cases h
    have hw := World.writeTo_stream ⟨s, r, out⟩ n hcls hcf hv he hok
    rw [h] at hw
    have hop := op_run (.read none) s n he hok
    simp only [ReadOp.run, ReadOp.result, Option.map_none] at hop
    obtain ⟨ct, w, h4, h5⟩ := hcont _ _ hop
    simp only [Res.ok.injEq, true_and] at hw
    refine ⟨ct, _, w, h4, ?_, ?_⟩
    · rw [hw]; simp [R.bytes]
    · rw [hw, h5]

/-- what is written of a WARC record when writing it raises -/
theorem writeTo_raise (s : Stream) (r : Rec) (out : Bytes) (w' : World) (ex : Exc) (hcls : r.cls = .warc) (hcf : r.cfile = .stream)
    (hv : r.cfileValid = true) (h : World.writeTo CRLF ⟨s, r, out⟩ = .raise ex w') :
    ∃ p, w'.out = out ++ p ∧ PartOf ⟨r.version, r.headers, s.fh.rest⟩ p := by
  have hhas : World.hasCfile r = true := by simp [World.hasCfile, hcf]
  have hrem : World.cfileRemaining ⟨s, r, out⟩ = s.fh.rest.length := by simp [World.cfileRemaining, hcf]
  simp only [World.writeTo, hcf, hhas, hv, Bool.not_true, Bool.and_false, Bool.false_eq_true, if_false, World.writeBody, hcls,
    M.bind_apply, World.write_apply, World.writeHeaders_file, if_true, hrem] at h
  cases hq : World.copyLoop (s.fh.rest.length + 2) ⟨s, r, out ++ r.version ++ CRLF ++ r.headers.flatMap headerLine ++ CRLF⟩ with
  | hang => simp only [hq] at h; cases h
  | ok u t => simp only [hq] at h; cases h
  | raise x t =>
    obtain ⟨p, h1, q, h2⟩ := copyLoop_raise _ _ _ _ (by exact hcf) hq
    simp only [hq, Res.raise.injEq] at h
    obtain ⟨-, rfl⟩ := h
    refine ⟨headBytes r.version r.headers ++ p, ?_, ?_⟩
    · rw [h1]; simp [headBytes]
    · exact ⟨q, by rw [List.append_assoc, h2]⟩

/-! ### the parts of the conversion -/

namespace Arc2Warc

/-- code that does not touch the output -/
def KeepsOut {α : Type} (x : M XW α) : Prop := ∀ s, (∀ a z, x s = .ok a z → z.1.out = s.1.out) ∧ (∀ e z, x s = .raise e z → z.1.out = s.1.out)

theorem KeepsOut.pure {α : Type} (a : α) : KeepsOut (pure a : M XW α) := by
  intro s; exact ⟨fun _ _ h => by cases h; rfl, fun _ _ h => by cases h⟩

theorem KeepsOut.throw {α : Type} (e : Exc) : KeepsOut (M.throw e : M XW α) := by
  intro s; exact ⟨fun _ _ h => by (cases h), fun _ _ h => by cases h; rfl⟩

theorem KeepsOut.get : KeepsOut (M.get : M XW XW) := by
  intro s; exact ⟨fun _ _ h => by cases h; rfl, fun _ _ h => by cases h⟩

theorem KeepsOut.bind {α β : Type} {x : M XW α} {f : α → M XW β} (hx : KeepsOut x) (hf : ∀ a, KeepsOut (f a)) : KeepsOut (x >>= f) := by
  intro s
  rw [M.bind_apply]
  cases h : x s with
  | hang => exact ⟨fun _ _ h => by (cases h), fun _ _ h => by cases h⟩
  | raise e z =>
    refine ⟨fun _ _ h => by (cases h), fun _ _ h' => ?_⟩
    cases h'
    exact (hx s).2 _ _ h
  | ok a z =>
    have h0 := (hx s).1 _ _ h
    exact ⟨fun b y hy => by rw [← h0]; exact (hf a z).1 _ _ hy, fun e y hy => by rw [← h0]; exact (hf a z).2 _ _ hy⟩

theorem KeepsOut.now (g : Cfg) : KeepsOut (now g) := by
  intro s; exact ⟨fun _ _ h => by cases h; rfl, fun _ _ h => by cases h⟩

theorem KeepsOut.operand (o : Option Bytes) : KeepsOut (operand o) := by
  cases o with
  | none => exact KeepsOut.throw _
  | some b => exact KeepsOut.pure _

theorem KeepsOut.lift {α : Type} (x : Except Exc α) : KeepsOut (lift x) := by
  cases x with
  | error e => exact KeepsOut.throw _
  | ok a => exact KeepsOut.pure _

theorem KeepsOut.ite {α : Type} {p : Prop} [Decidable p] {x y : M XW α} (hx : KeepsOut x) (hy : KeepsOut y) : KeepsOut (if p then x else y) := by
  by_cases h : p
  · rw [if_pos h]; exact hx
  · rw [if_neg h]; exact hy

theorem KeepsOut.content : KeepsOut (onWorld World.content) := by
  have key : ∀ w : World, (∀ a z, World.content w = .ok a z → z.out = w.out) ∧ (∀ e z, World.content w = .raise e z → z.out = w.out) := by
    intro w
    unfold World.content
    cases hc : w.rcd.content with
    | some c => exact ⟨fun _ _ h => by cases h; rfl, fun _ _ h => by cases h⟩
    | none =>
      have hrd : (∀ a z, World.cfileRead none w = .ok a z → z.out = w.out) ∧ (∀ e z, World.cfileRead none w = .raise e z → z.out = w.out) := by
        unfold World.cfileRead
        cases w.rcd.cfile with
        | stream =>
          simp only [World.onStream]
          cases Stream.read none w.strm <;> exact ⟨fun _ _ h => by (cases h <;> rfl), fun _ _ h => by cases h <;> rfl⟩
        | file f =>
          simp only
          cases File.read none f <;> exact ⟨fun _ _ h => by (cases h <;> rfl), fun _ _ h => by cases h <;> rfl⟩
        | none => exact ⟨fun _ _ h => by (cases h), fun _ _ h => by cases h; rfl⟩
        | unset => exact ⟨fun _ _ h => by (cases h), fun _ _ h => by cases h; rfl⟩
      simp only
      cases hr : World.cfileRead none w with
      | hang => exact ⟨fun _ _ h => by (cases h), fun _ _ h => by cases h⟩
      | ok a z => exact ⟨fun _ _ h => by cases h; exact hrd.1 a z hr, fun _ _ h => by cases h⟩
      | raise e z => exact ⟨fun _ _ h => by (cases h), fun _ _ h => by cases h; exact hrd.2 e z hr⟩
  intro s
  unfold onWorld
  cases h : World.content s.1 with
  | hang => exact ⟨fun _ _ h => by (cases h), fun _ _ h => by cases h⟩
  | ok a z => exact ⟨fun _ _ h' => by cases h'; exact (key _).1 _ _ h, fun _ _ h => by cases h⟩
  | raise e z => exact ⟨fun _ _ h => by (cases h), fun _ _ h' => by cases h'; exact (key _).2 _ _ h⟩

theorem KeepsOut.local' {α : Type} (m : Http.Msg) (x : M Http.Msg α) : KeepsOut (onWorld (WarcFilter.local' m x)) := by
  intro s
  unfold onWorld WarcFilter.local'
  cases x m <;> exact ⟨fun _ _ h => by (cases h <;> rfl), fun _ _ h => by cases h <;> rfl⟩

theorem KeepsOut.recordDate (g : Cfg) (d : Option Bytes) : KeepsOut (recordDate g d) := by
  unfold Arc2Warc.recordDate
  split
  · exact KeepsOut.now g
  · split
    · exact KeepsOut.now g
    · split
      · exact KeepsOut.pure _
      · exact KeepsOut.lift _
      · exact KeepsOut.throw _

theorem KeepsOut.isHttpResponse (c : Codec) (b : Bytes) : KeepsOut (isHttpResponse c b) :=
  (KeepsOut.local' _ _).bind fun _ => KeepsOut.pure _

theorem KeepsOut.chooseType (c : Codec) (g : Cfg) (url ctype b : Bytes) : KeepsOut (chooseType c g url ctype b) :=
  (KeepsOut.lift _).bind fun _ => .ite (.pure _) ((KeepsOut.lift _).bind fun _ => .ite (.pure _)
    (.ite ((KeepsOut.isHttpResponse c b).bind fun _ => .ite (.pure _) (.pure _)) (.pure _)))

theorem KeepsOut.metaDate (i : Bytes) (d : Option Bytes) : KeepsOut (metaDate i d) := by
  unfold Arc2Warc.metaDate
  split
  · exact KeepsOut.pure _
  · exact .ite (.pure _) (.ite ((KeepsOut.lift _).bind fun _ => .pure _) ((KeepsOut.lift _).bind fun _ => .pure _))

theorem KeepsOut.raw : KeepsOut raw := by
  refine KeepsOut.get.bind fun s => KeepsOut.bind ?_ fun _ => KeepsOut.pure _
  have : onWorld WarcFilter.contentBytes = (onWorld World.content >>= fun x => match x.2 with | some b => Pure.pure b | none => M.throw .typeError) := by
    funext s
    simp only [onWorld, WarcFilter.contentBytes, M.bind_apply]
    cases World.content s.1 with
    | hang => rfl
    | raise e z => rfl
    | ok a z =>
      obtain ⟨a, b⟩ := a
      cases b <;> rfl
  rw [this]
  refine KeepsOut.content.bind fun x => ?_
  cases x.2 with
  | some b => exact KeepsOut.pure _
  | none => exact KeepsOut.throw _

theorem KeepsOut.convertRecord (c : Codec) (g : Cfg) : KeepsOut (convertRecord c g) := by
  refine KeepsOut.get.bind fun s => (KeepsOut.operand _).bind fun url => (KeepsOut.operand _).bind fun date =>
    (KeepsOut.recordDate g _).bind fun d => KeepsOut.content.bind fun x => ?_
  obtain ⟨ctype, content⟩ := x
  cases ctype with
  | none => exact KeepsOut.throw _
  | some ctype =>
    cases content with
    | none => exact KeepsOut.throw _
    | some content => exact (KeepsOut.chooseType _ _ _ _ _).bind fun x => KeepsOut.pure _

theorem KeepsOut.convertFiledesc (g : Cfg) : KeepsOut (convertFiledesc g) := by
  refine KeepsOut.get.bind fun s => (KeepsOut.now g).bind fun t => (KeepsOut.operand _).bind fun url =>
    (KeepsOut.metaDate _ _).bind fun d => (KeepsOut.operand _).bind fun date => KeepsOut.raw.bind fun text => KeepsOut.bind ?_ fun _ => KeepsOut.pure _
  intro s; exact ⟨fun _ _ h => by cases h; rfl, fun _ _ h => by cases h⟩

theorem KeepsOut.convert (c : Codec) (g : Cfg) : KeepsOut (convert c g) :=
  KeepsOut.get.bind fun s => .ite (KeepsOut.convertFiledesc g) (KeepsOut.convertRecord c g)

theorem anyPrefix_true {ps : List PyStr} {url : Bytes} (h : anyPrefix (lower url) ps = .ok true) : Listed ps url := by
  induction ps with
  | nil => cases h
  | cons p ps ih =>
    cases p with
    | str s => cases h
    | bytes b =>
      rw [anyPrefix] at h
      by_cases hb : startsWith (lower url) b = true
      · exact ⟨[], b, ps, rfl, by simp, List.isPrefixOf_iff_prefix.1 hb⟩
      · rw [if_neg hb] at h
        obtain ⟨before, b', after, rfl, h1, h2⟩ := ih h
        refine ⟨.bytes b :: before, b', after, rfl, ?_, h2⟩
        intro p hp
        rcases List.mem_cons.1 hp with rfl | hp
        · exact ⟨b, rfl⟩
        · exact h1 p hp

theorem anyPrefix_false {ps : List PyStr} {url : Bytes} (h : anyPrefix (lower url) ps = .ok false) : NotListed ps url := by
  induction ps with
  | nil => intro p hp; cases hp
  | cons p ps ih =>
    cases p with
    | str s => cases h
    | bytes b =>
      rw [anyPrefix] at h
      by_cases hb : startsWith (lower url) b = true
      · rw [if_pos hb] at h; cases h
      · rw [if_neg hb] at h
        intro p hp
        rcases List.mem_cons.1 hp with rfl | hp
        · exact ⟨b, rfl, fun hh => hb (List.isPrefixOf_iff_prefix.2 hh)⟩
        · exact ih h p hp

theorem lift_ok {α : Type} {x : Except Exc α} {s z : XW} {a : α} (h : lift x s = .ok a z) : x = .ok a ∧ z = s := by
  cases x with
  | error e => cases h
  | ok b => cases h; exact ⟨rfl, rfl⟩

theorem isHttp_inv {c : Codec} {body : Bytes} {s z : XW} {b : Bool} (h : isHttpResponse c body s = .ok b z) :
    z = s ∧ if b then IsResponse c body else NotResponse c body := by
  simp only [isHttpResponse, M.bind_apply, onWorld, WarcFilter.local', WarcFilter.newResponse] at h
  cases hf : Http.feedResponse c body (Http.Msg.response (.str "") []) with
  | hang => simp [hf] at h
  | raise e m => simp [hf] at h
  | ok l m =>
    simp only [hf, M.pure_apply, Res.ok.injEq] at h
    obtain ⟨h1, rfl⟩ := h
    refine ⟨rfl, ?_⟩
    cases b with
    | true =>
      simp at h1
      exact ⟨m, by rw [hf, h1.2], h1.1⟩
    | false =>
      refine ⟨l, m, hf, ?_⟩
      by_cases hl : l = []
      · right
        simpa [hl] using h1
      · exact Or.inl hl

/-- how the types were chosen -/
theorem chooseType_inv {c : Codec} {g : Cfg} {url ctype body : Bytes} {s z : XW} {t t' : Bytes}
    (h : chooseType c g (lower url) ctype body s = .ok (t, t') z) : z = s ∧ Typed c g url ctype body t t' := by
  obtain ⟨a, y, h1, h⟩ := bind_ok h
  obtain ⟨l1, rfl⟩ := lift_ok h1
  cases a with
  | true => cases h; exact ⟨rfl, .resource (anyPrefix_true l1)⟩
  | false =>
    obtain ⟨a, y, h2, h⟩ := bind_ok (by exact h)
    obtain ⟨l2, rfl⟩ := lift_ok h2
    cases a with
    | true => cases h; exact ⟨rfl, .response (anyPrefix_false l1) (anyPrefix_true l2)⟩
    | false =>
      simp only [Bool.false_eq_true, if_false] at h
      by_cases hs : startsWith (lower url) (b! "http") = true
      · rw [if_pos hs] at h
        obtain ⟨a, y, h3, h⟩ := bind_ok h
        obtain ⟨rfl, l3⟩ := isHttp_inv h3
        cases a with
        | true => cases h; exact ⟨rfl, .http (anyPrefix_false l1) (anyPrefix_false l2) (List.isPrefixOf_iff_prefix.1 hs) l3⟩
        | false => cases h; exact ⟨rfl, .notHttp (anyPrefix_false l1) (anyPrefix_false l2) (List.isPrefixOf_iff_prefix.1 hs) l3⟩
      · rw [if_neg hs] at h
        cases h; exact ⟨rfl, .other (anyPrefix_false l1) (anyPrefix_false l2) (fun hh => hs (List.isPrefixOf_iff_prefix.2 hh))⟩

theorem recordDate_inv {g : Cfg} {date : Bytes} {s z : XW} {d : DateTime} (h : recordDate g (some date) s = .ok d z) :
    z.1 = s.1 ∧ Dated g s.2 date (warcDatetimeStr d) z.2 := by
  unfold recordDate at h
  simp only at h
  by_cases hd : date = []
  · rw [if_pos hd] at h
    cases h
    exact ⟨rfl, .now hd⟩
  · rw [if_neg hd] at h
    cases hf : Strptime.full date with
    | ok t =>
      rw [hf] at h
      cases h
      exact ⟨rfl, .long _ hf hd⟩
    | error e =>
      rw [hf] at h
      cases e with
      | valueError =>
        obtain ⟨h1, rfl⟩ := lift_ok h
        exact ⟨rfl, .short _ hf h1 hd⟩
      | _ => cases h

theorem metaDate_inv {info date : Bytes} {s z : XW} {d : Bytes} (h : metaDate info (some date) s = .ok d z) :
    z = s ∧ MetaDated date info d := by
  unfold metaDate at h
  simp only at h
  by_cases hd : date = []
  · rw [if_pos hd] at h
    cases h
    exact ⟨rfl, .now hd⟩
  · rw [if_neg hd] at h
    by_cases hl : 14 ≤ date.length
    · rw [if_pos hl] at h
      obtain ⟨a, y, h1, k⟩ := bind_ok h
      obtain ⟨l1, rfl⟩ := lift_ok h1
      simp only [M.pure_apply, Res.ok.injEq] at k
      obtain ⟨rfl, rfl⟩ := k
      exact ⟨rfl, .long _ hl l1⟩
    · rw [if_neg hl] at h
      obtain ⟨a, y, h1, k⟩ := bind_ok h
      obtain ⟨l1, rfl⟩ := lift_ok h1
      simp only [M.pure_apply, Res.ok.injEq] at k
      obtain ⟨rfl, rfl⟩ := k
      exact ⟨rfl, .short _ hd (by omega) l1⟩

/-- reading the content does not depend on the output -/
theorem content_out {s : Stream} {r : Rec} {out : Bytes} {x : Option Bytes × Option Bytes} {w : World} (h1 : r.cfile = .stream) (h2 : r.content = none)
    (h : World.content ⟨s, r, out⟩ = .ok x w) : ∃ w0, World.content ⟨s, r, []⟩ = .ok x w0 ∧ w.strm = w0.strm := by
  simp only [World.content, h2, World.cfileRead, h1, World.onStream] at h ⊢
  cases hr : Stream.read none s with
  | hang => simp [hr] at h
  | raise e t => simp [hr] at h
  | ok b t =>
    simp only [hr, Res.ok.injEq] at h ⊢
    obtain ⟨rfl, rfl⟩ := h
    exact ⟨_, ⟨rfl, rfl⟩, rfl⟩

theorem onWorld_ok {α : Type} {x : M World α} {s z : XW} {a : α} (h : onWorld x s = .ok a z) : x s.1 = .ok a z.1 ∧ z.2 = s.2 := by
  unfold onWorld at h
  cases hx : x s.1 with
  | hang => simp [hx] at h
  | raise e w => simp [hx] at h
  | ok b w =>
    simp only [hx, Res.ok.injEq] at h
    obtain ⟨rfl, rfl⟩ := h
    exact ⟨rfl, rfl⟩

/-- a successful conversion of a data record -/
theorem convertRecord_inv {c : Codec} {g : Cfg} {w : World} {st : St} {ns : List New} {z : XW}
    (h : convertRecord c g (w, st) = .ok ns z) :
    ∃ url date wdate ctype body type ctype', w.rcd.url = some url ∧ w.rcd.date = some date ∧ Dated g st date wdate z.2 ∧
      World.content w = .ok (some ctype, some body) z.1 ∧ Typed c g url (arcType ctype) body type ctype' ∧
      ns = [⟨[(WH.ID, some (warcUuid g.sha1 (url ++ date))), (WH.URL, some url), (WH.WARCINFO_ID, st.warcinfoId)] ++
        ipHeader (w.rcd.getHeader AH.IP) ++ [(WH.DATE, some wdate), (WH.TYPE, some type)], ctype', body⟩] := by
  obtain ⟨s0, y0, h0, h⟩ := bind_ok h
  cases h0
  obtain ⟨url, y1, h1, h⟩ := bind_ok h
  obtain ⟨g1, rfl⟩ := operand_ok h1
  obtain ⟨date, y2, h2, h⟩ := bind_ok h
  obtain ⟨g2, rfl⟩ := operand_ok h2
  obtain ⟨d, y3, h3, h⟩ := bind_ok h
  obtain ⟨g3, g3'⟩ := recordDate_inv h3
  obtain ⟨⟨ctype, content⟩, y4, h4, h⟩ := bind_ok h
  obtain ⟨g4, g4'⟩ := onWorld_ok h4
  cases ctype with
  | none => cases h
  | some ctype =>
    cases content with
    | none => cases h
    | some content =>
      obtain ⟨⟨t, t'⟩, y5, h5, h⟩ := bind_ok (by exact h)
      obtain ⟨g5, g5'⟩ := chooseType_inv h5
      cases h
      subst g5
      rw [g3] at g4
      rw [← g4'] at g3'
      exact ⟨url, date, _, ctype, content, t, t', g1, g2, g3', g4, g5', rfl⟩

/-- a successful conversion of a filedesc record -/
theorem convertFiledesc_inv {g : Cfg} {w : World} {st : St} {ns : List New} {z : XW}
    (h : convertFiledesc g (w, st) = .ok ns z) :
    ∃ url date d ct body, w.rcd.url = some url ∧ w.rcd.date = some date ∧ MetaDated date (warcDatetimeStr (g.now st.ticks)) d ∧
      World.content w = .ok (ct, some body) z.1 ∧
      z.2 = ⟨some (warcUuid g.sha1 (url ++ warcDatetimeStr (g.now st.ticks))), st.ticks + 1⟩ ∧
      ns = [⟨[(WH.TYPE, some WT.WARCINFO), (WH.ID, some (warcUuid g.sha1 (url ++ warcDatetimeStr (g.now st.ticks)))),
          (WH.DATE, some (warcDatetimeStr (g.now st.ticks)))] ++ filenameHeader g.outputFilename, b! "application/warc-fields", g.warcinfoFields⟩,
        ⟨[(WH.TYPE, some WT.METADATA), (WH.CONCURRENT_TO, some (warcUuid g.sha1 (url ++ warcDatetimeStr (g.now st.ticks)))),
          (WH.ID, some (warcUuid g.sha1 (url ++ date ++ b! "-meta"))), (WH.URL, some (withoutScheme url)),
          (WH.DATE, some d), (WH.WARCINFO_ID, some (warcUuid g.sha1 (url ++ warcDatetimeStr (g.now st.ticks))))], b! "application/arc",
          w.rcd.rawHeaders.flatten ++ body⟩] := by
  obtain ⟨s0, y0, h0, h⟩ := bind_ok (x := M.get) h
  cases h0
  obtain ⟨t, y1, h1, h⟩ := bind_ok (x := now g) h
  cases h1
  obtain ⟨url, y1, h1, h⟩ := bind_ok (x := operand w.rcd.url) h
  obtain ⟨g1, rfl⟩ := operand_ok h1
  obtain ⟨d, y2, h2, h⟩ := bind_ok (x := metaDate _ w.rcd.date) h
  obtain ⟨date, y3, h3, k⟩ := bind_ok (x := operand w.rcd.date) h
  obtain ⟨g3, hy⟩ := operand_ok h3
  rw [g3] at h2
  obtain ⟨g2, g2'⟩ := metaDate_inv h2
  obtain ⟨text, y4, h4, h⟩ := bind_ok (x := raw) k
  obtain ⟨u, y5, h5, h⟩ := bind_ok (x := M.modify _) h
  cases h5
  cases h
  subst hy
  subst g2
  obtain ⟨s0, y0, h0, h4⟩ := bind_ok (x := M.get) h4
  cases h0
  obtain ⟨body, y6, h6, h4⟩ := bind_ok (x := onWorld WarcFilter.contentBytes) h4
  obtain ⟨g6, g6'⟩ := onWorld_ok h6
  cases h4
  simp only [WarcFilter.contentBytes, M.bind_apply] at g6
  have hws : (if startsWith url (b! "filedesc://") then url.drop 11 else url) = withoutScheme url := by
    unfold withoutScheme
    by_cases h : startsWith url (b! "filedesc://") = true
    · rw [if_pos h, if_pos (List.isPrefixOf_iff_prefix.1 h)]
    · rw [if_neg h, if_neg (fun hh => h (List.isPrefixOf_iff_prefix.2 hh))]
  cases hc : World.content w with
  | hang => simp [hc] at g6
  | raise e v => simp [hc] at g6
  | ok x v =>
    obtain ⟨ct, b⟩ := x
    cases b with
    | none => simp [hc] at g6
    | some b =>
      simp only [hc, M.pure_apply, Res.ok.injEq] at g6
      obtain ⟨rfl, rfl⟩ := g6
      refine ⟨url, date, d, ct, b, g1, g3, g2', rfl, ?_, ?_⟩
      · simp only [g6']
      · rw [← hws]

theorem writeNew_inv (c : Codec) (gzip : Bool) (n : New) (w : World) (st : St) :
    (∃ hs, allBytes n.headers = some hs ∧ writeNew c gzip n (w, st) = .ok () ({ w with out := w.out ++ written c gzip [n.R hs] }, st)) ∨
    (allBytes n.headers = none ∧ writeNew c gzip n (w, st) = .raise .typeError (if gzip then w else { w with out := w.out ++ partialHead n.headers }, st)) := by
  cases h : allBytes n.headers with
  | some hs => exact Or.inl ⟨hs, rfl, writeNew_ok c gzip n hs h w st⟩
  | none =>
    refine Or.inr ⟨rfl, ?_⟩
    simp only [writeNew, onWorld, h]

/-- the piece that a reader notes for a record with the given content -/
def piece (r : Rec) (x : Option Bytes × Option Bytes) : Piece := ⟨r.cls, r.version, r.headers, r.rawHeaders.flatten, x⟩

theorem allBytes_none_data {id url d t : Bytes} {info : Option Bytes} {hs : List Header}
    (h : allBytes ([(WH.ID, some id), (WH.URL, some url), (WH.WARCINFO_ID, info)] ++ ipHeader (firstValue AH.IP hs) ++
      [(WH.DATE, some d), (WH.TYPE, some t)]) = none) : info = none := by
  cases info with
  | none => rfl
  | some i =>
    obtain ⟨x, hx, -⟩ := data_new id url i d t [0] [] hs (by simp)
    rw [hx] at h
    cases h

theorem partialHead_data (id url : Bytes) (rest : List (Bytes × Option Bytes)) :
    partialHead ([(WH.ID, some id), (WH.URL, some url), (WH.WARCINFO_ID, none)] ++ rest) =
      b! "WARC/1.0\r\nWARC-Record-ID: " ++ id ++ b! "\r\nWARC-Target-URI: " ++ url ++ b! "\r\nWARC-Warcinfo-ID: " := by
  simp [partialHead, headerLine, WH.ID, WH.URL, WH.WARCINFO_ID, CRLF]

theorem partialHead_info (id d : Bytes) :
    partialHead [(WH.TYPE, some WT.WARCINFO), (WH.ID, some id), (WH.DATE, some d), (WH.FILENAME, none)] =
      b! "WARC/1.0\r\nWARC-Type: warcinfo\r\nWARC-Record-ID: " ++ id ++ b! "\r\nWARC-Date: " ++ d ++ b! "\r\nWARC-Filename: " := by
  simp [partialHead, headerLine, WH.ID, WH.TYPE, WH.DATE, WH.FILENAME, WT.WARCINFO, CRLF]

/-- What handling any record does. -/
theorem handle_inv (c : Codec) (g : Cfg) (gzip : Bool) (s : Stream) (r : Rec) (out : Bytes) (st : St) (ha : Announces r s) :
    (∀ u z, handle c g gzip (⟨s, r, out⟩, st) = .ok u z →
      ∃ x w rs, World.content ⟨s, r, []⟩ = .ok x w ∧ Becomes c g st (piece r x) rs z.2 ∧ z.1.out = out ++ written c gzip rs ∧ z.1.strm = w.strm) ∧
    (∀ e z, handle c g gzip (⟨s, r, out⟩, st) = .raise e z → ∃ p, z.1.out = out ++ p ∧ Begun g gzip (some ⟨r.version, r.headers, s.fh.rest⟩) p) := by
  obtain ⟨he, hcf, hct, hv⟩ := ha
  by_cases hc : r.cls = .warc
  · have heoc : ∃ e, s.eoc = some e := by
      rw [he, payloadLength, hc]; exact ⟨_, rfl⟩
    obtain ⟨e, heoc⟩ := heoc
    have hh : handle c g gzip (⟨s, r, out⟩, st) = onWorld (writeAs c gzip) (⟨s, r, out⟩, st) := by
      simp only [handle, M.bind_apply, M.get_apply, if_pos hc]
    rw [hh]
    cases gzip with
    | false =>
      constructor
      · intro u z h
        obtain ⟨h1, h2⟩ := onWorld_ok h
        obtain ⟨ct, body, w, h3, h4, h5⟩ := writeTo_ok s r out z.1 e hc hcf hct hv heoc h1
        refine ⟨(ct, some body), w, [⟨r.version, r.headers, body⟩], h3, ?_, ?_, h5⟩
        · rw [h2]; exact .warc (piece r (ct, some body)) body hc rfl
        · rw [h4]; simp [written, piece]
      · intro ex z h
        simp only [onWorld, writeAs, Bool.false_eq_true, if_false] at h
        cases hx : World.writeTo CRLF ⟨s, r, out⟩ with
        | hang => simp [hx] at h
        | ok a w => simp [hx] at h
        | raise e w =>
          simp only [hx, Res.raise.injEq] at h
          obtain ⟨-, rfl⟩ := h
          obtain ⟨p, h1, h2⟩ := writeTo_raise s r out w e hc hcf hv hx
          exact ⟨p, h1, .copied _ p rfl rfl h2⟩
    | true =>
      constructor
      · intro u z h
        obtain ⟨h1, h2⟩ := onWorld_ok h
        simp only [writeAs, if_true, World.writeToGz] at h1
        cases hx : World.writeTo CRLF ⟨s, r, []⟩ with
        | hang => simp [hx] at h1
        | raise e w => simp [hx] at h1
        | ok a w' =>
          simp only [hx, Res.ok.injEq] at h1
          obtain ⟨ct, body, w, h3, h4, h5⟩ := writeTo_ok s r [] w' e hc hcf hct hv heoc hx
          refine ⟨(ct, some body), w, [⟨r.version, r.headers, body⟩], h3, ?_, ?_, ?_⟩
          · rw [h2]; exact .warc (piece r (ct, some body)) body hc rfl
          · rw [← h1.2, h4]; simp [written, piece]
          · rw [← h1.2, ← h5]
      · intro ex z h
        simp only [onWorld, writeAs, if_true, World.writeToGz] at h
        cases hx : World.writeTo CRLF ⟨s, r, []⟩ with
        | hang => simp [hx] at h
        | ok a w => simp [hx] at h
        | raise e w =>
          simp only [hx, Res.raise.injEq] at h
          obtain ⟨-, rfl⟩ := h
          exact ⟨[], by simp, .nothing⟩
  · have hh : handle c g gzip (⟨s, r, out⟩, st) = (convert c g >>= fun ns => writeNews c gzip ns) (⟨s, r, out⟩, st) := by
      simp only [handle, M.bind_apply, M.get_apply, if_neg hc]
    rw [hh, M.bind_apply]
    have hkeep := KeepsOut.convert c g (⟨s, r, out⟩, st)
    cases hcv : convert c g (⟨s, r, out⟩, st) with
    | hang => exact ⟨fun _ _ h => by (cases h), fun _ _ h => by cases h⟩
    | raise e z =>
      refine ⟨fun _ _ h => by (cases h), fun _ _ h => ?_⟩
      cases h
      exact ⟨[], by rw [hkeep.2 _ _ hcv]; simp, .nothing⟩
    | ok ns z =>
      have hout := hkeep.1 _ _ hcv
      obtain ⟨w1, st1⟩ := z
      simp only at hout ⊢
      simp only [convert, M.bind_apply, M.get_apply] at hcv
      cases hcl : r.cls with
      | warc => exact absurd hcl hc
      | arc =>
        have hty : ¬ r.type = some (b! "filedesc") := by
          rw [Rec.type, hcl]
          show ¬ some (b! "response") = some (b! "filedesc")
          decide
        rw [if_neg hty] at hcv
        obtain ⟨url, date, wdate, ctype, body, type, ctype', h1, h2, h3, h4, h5, rfl⟩ := convertRecord_inv hcv
        have hu : firstValue (b! "URL") r.headers = some url := by
          rw [← h1, Rec.url, Rec.getHeader, lookupHeader_eq, hcl]; rfl
        have hd : firstValue (b! "Archive-date") r.headers = some date := by
          rw [← h2, Rec.date, Rec.getHeader, lookupHeader_eq, hcl]; rfl
        have hip : r.getHeader AH.IP = firstValue AH.IP r.headers := by rw [Rec.getHeader, lookupHeader_eq]
        obtain ⟨w0, h6, h7⟩ := content_out hcf hct h4
        simp only [hip, writeNews, M.bind_apply]
        rcases writeNew_inv c gzip ⟨[(WH.ID, some (warcUuid g.sha1 (url ++ date))), (WH.URL, some url), (WH.WARCINFO_ID, st.warcinfoId)] ++
          ipHeader (firstValue AH.IP r.headers) ++ [(WH.DATE, some wdate), (WH.TYPE, some type)], ctype', body⟩ w1 st1 with ⟨hs, ha, hw⟩ | ⟨ha, hw⟩
        · rw [hw]
          refine ⟨fun u z h => ?_, fun e z h => by (cases h)⟩
          cases h
          cases hi : st.warcinfoId with
          | none => rw [hi] at ha; cases ha
          | some infoId =>
            obtain ⟨hs', ha', hR⟩ := data_new (warcUuid g.sha1 (url ++ date)) url infoId wdate type ctype' body r.headers (typed_ne h5 (arcType_ne ctype))
            rw [hi] at ha
            rw [ha] at ha'
            cases ha'
            refine ⟨_, w0, _, h6, .data (piece r (some ctype, some body)) st1 body url date wdate ctype type ctype' infoId hcl hu hd h3 rfl h5 hi, ?_, h7⟩
            rw [hout]
            simp only [hi, hR, idOf, piece]
        · rw [hw]
          refine ⟨fun u z h => by (cases h), fun e z h => ?_⟩
          cases h
          cases gzip with
          | true => exact ⟨[], by simp [hout], .nothing⟩
          | false =>
            refine ⟨_, by simp only [Bool.false_eq_true, if_false, hout]; rfl, ?_⟩
            rw [allBytes_none_data ha, List.append_assoc, partialHead_data]
            exact .data _ url date rfl rfl hu hd
      | arcHeader =>
        have hty : r.type = some (b! "filedesc") := by rw [Rec.type, hcl]
        rw [if_pos hty] at hcv
        obtain ⟨url, date, wdate, ct, body, h1, h2, h3, h4, h5, rfl⟩ := convertFiledesc_inv hcv
        have hu : firstValue (b! "URL") r.headers = some url := by
          rw [← h1, Rec.url, Rec.getHeader, lookupHeader_eq, hcl]; rfl
        have hd : firstValue (b! "Archive-date") r.headers = some date := by
          rw [← h2, Rec.date, Rec.getHeader, lookupHeader_eq, hcl]; rfl
        obtain ⟨w0, h6, h7⟩ := content_out hcf hct h4
        simp only at h5
        subst h5
        generalize hdd : warcDatetimeStr (g.now st.ticks) = infoDate at *
        generalize hii : warcUuid g.sha1 (url ++ infoDate) = infoId at *
        simp only [writeNews, M.bind_apply]
        have hname : (∃ filename hs, Filename g filename ∧ allBytes ([(WH.TYPE, some WT.WARCINFO), (WH.ID, some infoId), (WH.DATE, some infoDate)] ++ filenameHeader g.outputFilename) = some hs ∧
              New.R ⟨[(WH.TYPE, some WT.WARCINFO), (WH.ID, some infoId), (WH.DATE, some infoDate)] ++
                filenameHeader g.outputFilename, b! "application/warc-fields", g.warcinfoFields⟩ hs = infoRecord infoId infoDate filename g.warcinfoFields) ∨
            (∃ f, given f = true ∧ headerValue f = none ∧ g.outputFilename = some f) := by
          cases hof : g.outputFilename with
          | none => exact Or.inl ⟨none, [(WH.TYPE, WT.WARCINFO), (WH.ID, infoId), (WH.DATE, infoDate)], .none (Or.inl hof), rfl, rfl⟩
          | some f =>
            cases f with
            | bytes f =>
              by_cases hf : f = []
              · subst hf
                exact Or.inl ⟨none, [(WH.TYPE, WT.WARCINFO), (WH.ID, infoId), (WH.DATE, infoDate)], .none (Or.inr (Or.inl hof)), rfl, rfl⟩
              · have hg : given (.bytes f) = true := by simp [given, hf]
                refine Or.inl ⟨some f, [(WH.TYPE, WT.WARCINFO), (WH.ID, infoId), (WH.DATE, infoDate), (WH.FILENAME, f)], .some f hf hof, ?_, ?_⟩
                · simp only [filenameHeader, hg, if_true, headerValue]; rfl
                · simp only [filenameHeader, hg, if_true, headerValue]; rfl
            | str f =>
              by_cases hf : f = ""
              · subst hf
                exact Or.inl ⟨none, [(WH.TYPE, WT.WARCINFO), (WH.ID, infoId), (WH.DATE, infoDate)], .none (Or.inr (Or.inr hof)), rfl, rfl⟩
              · exact Or.inr ⟨.str f, by simp [given, hf], rfl, rfl⟩
        rcases hname with ⟨filename, hs, hfn, ha, hR⟩ | ⟨f, hg, hv, hof⟩
        · rw [writeNew_ok c gzip _ hs ha, hR]
          simp only []
          rw [writeNew_ok c gzip _ [(WH.TYPE, WT.METADATA), (WH.CONCURRENT_TO, infoId), (WH.ID, warcUuid g.sha1 (url ++ date ++ b! "-meta")),
            (WH.URL, withoutScheme url), (WH.DATE, wdate), (WH.WARCINFO_ID, infoId)] rfl]
          refine ⟨fun u z h => ?_, fun e z h => by (cases h)⟩
          cases h
          have hb := Becomes.filedesc (c := c) (g := g) (st := st) (piece r (ct, some body)) body url date wdate filename hcl hu hd (by rw [hdd]; exact h3) rfl hfn
          simp only [idOf, hdd, hii] at hb
          refine ⟨_, w0, _, h6, hb, ?_, h7⟩
          simp only [written, List.flatMap_cons, List.flatMap_nil, List.append_nil, List.append_assoc, hout]
          rfl
        · have hfh : filenameHeader g.outputFilename = [(WH.FILENAME, none)] := by
            simp only [hof, filenameHeader, hg, if_true, hv]
          rw [hfh]
          rcases writeNew_inv c gzip ⟨[(WH.TYPE, some WT.WARCINFO), (WH.ID, some infoId), (WH.DATE, some infoDate)] ++ [(WH.FILENAME, none)],
            b! "application/warc-fields", g.warcinfoFields⟩ w1 ⟨some infoId, st.ticks + 1⟩ with ⟨hs, ha, -⟩ | ⟨-, hw⟩
          · cases ha
          rw [hw]
          refine ⟨fun u z h => by (cases h), fun e z h => ?_⟩
          cases h
          cases gzip with
          | true => exact ⟨[], by simp [hout], .nothing⟩
          | false =>
            refine ⟨_, by simp only [Bool.false_eq_true, if_false, hout]; rfl, ?_⟩
            rw [show [(WH.TYPE, some WT.WARCINFO), (WH.ID, some infoId), (WH.DATE, some infoDate)] ++ [(WH.FILENAME, none)] =
              [(WH.TYPE, some WT.WARCINFO), (WH.ID, some infoId), (WH.DATE, some infoDate), (WH.FILENAME, none)] from rfl, partialHead_info]
            rw [← hii, ← hdd]
            exact .filedesc _ url st.ticks rfl rfl hu

theorem pieces_congr {s t : Stream} (h : readRecord false s = readRecord false t) (k : Nat) : pieces k s = pieces k t := by
  cases k with
  | zero => rfl
  | succ k => simp only [pieces, h]

/-- the loop over the records of a stream in any state -/
theorem loop_inv (c : Codec) (g : Cfg) (gzip : Bool) (fuel : Nat) (s : Stream) (out : Bytes) (st : St) (hcl : CleanNames s.parser) :
    (∀ u z, loop c g gzip fuel (⟨s, out⟩, st) = .ok u z →
      ∃ k ps rs, pieces k s = (ps, true) ∧ BecomesAll c g st ps rs z.2 ∧ z.1.out = out ++ written c gzip rs) ∧
    (∀ e z, loop c g gzip fuel (⟨s, out⟩, st) = .raise e z →
      ∃ k ps rs st1 p, ps <+: (pieces k s).1 ∧ BecomesAll c g st ps rs st1 ∧ z.1.out = out ++ written c gzip rs ++ p ∧
        Begun g gzip (met false k s)[ps.length]? p) := by
  induction fuel generalizing s out st with
  | zero => exact ⟨fun _ _ h => by (cases h), fun _ _ h => by (cases h)⟩
  | succ fuel ih =>
    cases hq : readRecord false s with
    | hang =>
      simp only [loop, hq]
      exact ⟨fun _ _ h => by (cases h), fun _ _ h => by (cases h)⟩
    | raise e t =>
      simp only [loop, hq]
      refine ⟨fun _ _ h => by (cases h), fun _ _ h => ?_⟩
      cases h
      exact ⟨0, [], [], st, [], List.nil_prefix, .nil st, by simp [written], .nothing⟩
    | ok e t =>
      cases hr : e.rcd with
      | none =>
        simp only [loop, hq, hr]
        by_cases he : e.errors = []
        · rw [if_pos he]
          refine ⟨fun _ _ h => ?_, fun _ _ h => by (cases h)⟩
          cases h
          exact ⟨1, [], [], by simp [pieces, hq, hr, he], .nil st, by simp [written]⟩
        · rw [if_neg he]
          refine ⟨fun _ _ h => by (cases h), fun _ _ h => ?_⟩
          cases h
          exact ⟨0, [], [], st, [], List.nil_prefix, .nil st, by simp [written], .nothing⟩
      | some r =>
        have han := (readRecord_announces false s t e r hcl hq hr).1
        have hclt := (tidies_readRecord false).ok hcl hq
        obtain ⟨h1, h2⟩ := handle_inv c g gzip t r out st han
        simp only [loop, hq, hr]
        cases hh : handle c g gzip (⟨t, r, out⟩, st) with
        | hang => exact ⟨fun _ _ h => by (cases h), fun _ _ h => by (cases h)⟩
        | raise e z =>
          refine ⟨fun _ _ h => by (cases h), fun _ _ h => ?_⟩
          cases h
          obtain ⟨p, h3, h4⟩ := h2 _ _ hh
          refine ⟨1, [], [], st, p, List.nil_prefix, .nil st, by simp [written, h3], ?_⟩
          have hm : met false 1 s = [⟨r.version, r.headers, t.fh.rest⟩] := by
            simp only [met, hq, hr]
            cases World.content ⟨t, r, []⟩ <;> rfl
          rw [hm]
          exact h4
        | ok u z =>
          obtain ⟨x, w, rs, h3, h4, h5, h6⟩ := h1 _ _ hh
          have hclw : CleanNames w.strm.parser := by
            simp only [World.content, han.2.2.1, World.cfileRead, han.2.1, World.onStream] at h3
            cases hx : Stream.read none t with
            | hang => simp [hx] at h3
            | raise e y => simp [hx] at h3
            | ok b y =>
              simp only [hx, Res.ok.injEq] at h3
              rw [← h3.2]
              exact (Keeps.read (p := true) _).tidies.ok hclt hx
          have hpc : ∀ k, pieces (k + 1) s = (piece r x :: (pieces k w.strm).1, (pieces k w.strm).2) := by
            intro k
            simp only [pieces, hq, hr, h3, piece]
          simp only [h5, h6]
          obtain ⟨i1, i2⟩ := ih w.strm (out ++ written c gzip rs) z.2 hclw
          refine ⟨fun u y h => ?_, fun e y h => ?_⟩
          · obtain ⟨k, ps, rs', j1, j2, j3⟩ := i1 u y h
            refine ⟨k + 1, piece r x :: ps, rs ++ rs', by rw [hpc, j1], .cons h4 j2, ?_⟩
            rw [j3, written_append, List.append_assoc]
          · obtain ⟨k, ps, rs', st1, p, j1, j2, j3, j4⟩ := i2 e y h
            refine ⟨k + 1, piece r x :: ps, rs ++ rs', st1, p, ?_, .cons h4 j2, ?_, ?_⟩
            · rw [hpc]
              exact (List.prefix_append_right_inj [piece r x]).2 j1
            · rw [j3, written_append]; simp
            · have hm : met false (k + 1) s = ⟨r.version, r.headers, t.fh.rest⟩ :: met false k w.strm := by
                simp only [met, hq, hr, h3]
              rw [hm]
              exact j4

end Arc2Warc

end Warc
