import Verif.Proofs.Hang
/-
  Code that handles one record: it only reads forward, and (HTTP parsing apart) always ends.
-/
set_option linter.all false
namespace Warc
open Rx Stream Spec

/-- code on a larger state that only reads forward -/
def FwdOn {σ α : Type} (π : σ → Stream) (x : M σ α) : Prop := ∀ s, (x s).All fun s' => After (π s) (π s')

/-- code that always ends -/
def Calm {σ α : Type} (x : M σ α) : Prop := ∀ s, x s ≠ .hang

namespace FwdOn
variable {σ α β : Type} {π : σ → Stream}

theorem pure (a : α) : FwdOn π (pure a : M σ α) := fun s => After.refl _
theorem throw (e : Exc) : FwdOn π (M.throw e : M σ α) := fun s => After.refl _
theorem diverge : FwdOn π (M.diverge : M σ α) := fun s => trivial
theorem get : FwdOn π (M.get : M σ σ) := fun s => After.refl _
theorem modify {f : σ → σ} (h : ∀ s, π (f s) = π s) : FwdOn π (M.modify f) := fun s => by
  show After (π s) (π (f s)); rw [h]; exact After.refl _

theorem bind {x : M σ α} {f : α → M σ β} (hx : FwdOn π x) (hf : ∀ a, FwdOn π (f a)) : FwdOn π (x >>= f) := by
  intro s
  have h := hx s
  rw [M.bind_apply]
  cases hq : x s with
  | hang => trivial
  | raise e s1 => rw [hq] at h; exact h
  | ok a s1 =>
    rw [hq] at h
    have h2 := hf a s1
    simp only
    cases hr : f a s1 with
    | hang => trivial
    | raise e s2 => rw [hr] at h2; exact After.trans h h2
    | ok b s2 => rw [hr] at h2; exact After.trans h h2

theorem ite {p : Prop} [Decidable p] {x y : M σ α} (hx : FwdOn π x) (hy : FwdOn π y) : FwdOn π (if p then x else y) := by
  by_cases h : p
  · rw [if_pos h]; exact hx
  · rw [if_neg h]; exact hy

end FwdOn

namespace Calm
variable {σ α β : Type}

theorem pure (a : α) : Calm (pure a : M σ α) := fun s => by simp
theorem throw (e : Exc) : Calm (M.throw e : M σ α) := fun s => by simp
theorem get : Calm (M.get : M σ σ) := fun s => by simp
theorem modify (f : σ → σ) : Calm (M.modify f) := fun s => by simp

theorem bind {x : M σ α} {f : α → M σ β} (hx : Calm x) (hf : ∀ a, Calm (f a)) : Calm (x >>= f) := by
  intro s h
  rw [M.bind_apply] at h
  cases hq : x s with
  | hang => exact hx s hq
  | raise e s1 => rw [hq] at h; cases h
  | ok a s1 => rw [hq] at h; exact hf a s1 h

theorem ite {p : Prop} [Decidable p] {x y : M σ α} (hx : Calm x) (hy : Calm y) : Calm (if p then x else y) := by
  by_cases h : p
  · rw [if_pos h]; exact hx
  · rw [if_neg h]; exact hy

end Calm

/-! ### files and streams -/

theorem calm_deliver (out : Bytes) (short : Bool) : Calm (File.deliver out short) := by
  intro f; unfold File.deliver; split <;> simp

theorem calm_fileRead (n : Option Int) : Calm (File.read n) := by
  intro f
  cases n with
  | none => exact calm_deliver _ _ f
  | some n =>
    simp only [File.read]
    by_cases h : 0 ≤ n
    · rw [if_pos h]; exact calm_deliver _ _ f
    · rw [if_neg h]
      by_cases h : n = -1 ∨ f.strictNeg = false
      · rw [if_pos h]; exact calm_deliver _ _ f
      · rw [if_neg h]; simp

theorem calm_rawRead (n : Option Int) : Calm (rawRead n) := by
  refine Calm.bind ?_ fun r => Calm.bind (Calm.modify _) fun _ => Calm.pure _
  intro s
  simp only [onFile]
  cases h : File.read n s.fh with
  | hang => exact absurd h (calm_fileRead n _)
  | ok a f => simp
  | raise e f => simp

theorem calm_read (n : Option Int) : Calm (Stream.read n) := Calm.bind Calm.get fun s => calm_rawRead _

/-! ### one record -/
namespace World

theorem fwd_onStream {α : Type} {x : M Stream α} (h : Fwd x) : FwdOn World.strm (onStream x) := by
  intro w
  have := h w.strm
  simp only [onStream]
  cases hx : x w.strm with
  | hang => trivial
  | ok a s => rw [hx] at this; exact this
  | raise e s => rw [hx] at this; exact this

theorem calm_onStream {α : Type} {x : M Stream α} (h : Calm x) : Calm (onStream x) := by
  intro w
  simp only [onStream]
  cases hx : x w.strm with
  | hang => exact absurd hx (h _)
  | ok a s => simp
  | raise e s => simp

theorem fwd_cfileRead (n : Option Int) : FwdOn World.strm (cfileRead n) := by
  intro w
  simp only [cfileRead]
  cases hc : w.rcd.cfile with
  | stream => exact fwd_onStream (fwd_read n) w
  | file f =>
    simp only
    cases hr : File.read n f with
    | hang => trivial
    | ok a f' => exact After.refl _
    | raise e f' => exact After.refl _
  | none => exact After.refl _
  | unset => exact After.refl _

theorem calm_cfileRead (n : Option Int) : Calm (cfileRead n) := by
  intro w
  simp only [cfileRead]
  cases hc : w.rcd.cfile with
  | stream => exact calm_onStream (calm_read n) w
  | file f =>
    simp only
    cases hr : File.read n f with
    | hang => exact absurd hr (calm_fileRead n f)
    | ok a f' => simp
    | raise e f' => simp
  | none => simp
  | unset => simp

theorem fwd_content : FwdOn World.strm content := by
  intro w
  simp only [content]
  cases w.rcd.content with
  | some c => exact After.refl _
  | none =>
    simp only
    have h := fwd_cfileRead none w
    cases hr : cfileRead none w with
    | hang => trivial
    | ok a w' => rw [hr] at h; exact h
    | raise e w' => rw [hr] at h; exact h

theorem calm_content : Calm content := by
  intro w
  simp only [content]
  cases w.rcd.content with
  | some c => simp
  | none =>
    simp only
    cases hr : cfileRead none w with
    | hang => exact absurd hr (calm_cfileRead none w)
    | ok a w' => simp
    | raise e w' => simp

theorem fwd_contentType : FwdOn World.strm contentType := by
  intro w
  simp only [contentType]
  cases w.rcd.content with
  | some c => exact After.refl _
  | none =>
    simp only
    cases w.rcd.getHeader w.rcd.cls.contentTypeName with
    | some t => exact After.refl _
    | none =>
      simp only
      have h := fwd_content w
      cases hr : content w with
      | hang => trivial
      | ok a w' => rw [hr] at h; exact h
      | raise e w' => rw [hr] at h; exact h

theorem calm_contentType : Calm contentType := by
  intro w
  simp only [contentType]
  cases w.rcd.content with
  | some c => simp
  | none =>
    simp only
    cases w.rcd.getHeader w.rcd.cls.contentTypeName with
    | some t => simp
    | none =>
      simp only
      cases hr : content w with
      | hang => exact absurd hr (calm_content w)
      | ok a w' => simp
      | raise e w' => simp

theorem fwd_lenContent : FwdOn World.strm lenContent := by
  refine fwd_content.bind fun c => ?_
  cases c.2 with
  | some b => exact FwdOn.pure _
  | none => exact FwdOn.throw _

theorem calm_lenContent : Calm lenContent := by
  refine calm_content.bind fun c => ?_
  cases c.2 with
  | some b => exact Calm.pure _
  | none => exact Calm.throw _

theorem fwd_contentLength : FwdOn World.strm contentLength := by
  intro w
  simp only [contentLength]
  cases w.rcd.content with
  | some c => exact fwd_lenContent w
  | none =>
    simp only
    cases w.rcd.getHeader w.rcd.cls.contentLengthName with
    | some t =>
      simp only
      cases pyInt 10 t with
      | some n => exact After.refl _
      | none => exact After.refl _
    | none => exact fwd_lenContent w

theorem calm_contentLength : Calm contentLength := by
  intro w
  simp only [contentLength]
  cases w.rcd.content with
  | some c => exact calm_lenContent w
  | none =>
    simp only
    cases w.rcd.getHeader w.rcd.cls.contentLengthName with
    | some t =>
      simp only
      cases pyInt 10 t with
      | some n => simp
      | none => simp
    | none => exact calm_lenContent w

theorem fwd_write (b : Bytes) : FwdOn World.strm (write b) := FwdOn.modify fun _ => rfl
theorem calm_write (b : Bytes) : Calm (write b) := Calm.modify _

theorem fwd_writeHeader (nl : Bytes) (h : Header) : FwdOn World.strm (writeHeader nl h) :=
  (fwd_write _).bind fun _ => (fwd_write _).bind fun _ => (fwd_write _).bind fun _ => fwd_write _
theorem calm_writeHeader (nl : Bytes) (h : Header) : Calm (writeHeader nl h) :=
  (calm_write _).bind fun _ => (calm_write _).bind fun _ => (calm_write _).bind fun _ => calm_write _

theorem fwd_writeHeaders (nl : Bytes) (b : Bool) (hs : List Header) : FwdOn World.strm (writeHeaders nl b hs) := by
  induction hs with
  | nil => exact FwdOn.pure _
  | cons h hs ih =>
    exact FwdOn.ite ((fwd_writeHeader _ _).bind fun _ => ih) ih
theorem calm_writeHeaders (nl : Bytes) (b : Bool) (hs : List Header) : Calm (writeHeaders nl b hs) := by
  induction hs with
  | nil => exact Calm.pure _
  | cons h hs ih => exact Calm.ite ((calm_writeHeader _ _).bind fun _ => ih) ih

theorem fwd_copyLoop (fuel : Nat) : FwdOn World.strm (copyLoop fuel) := by
  induction fuel with
  | zero => exact FwdOn.diverge
  | succ fuel ih => exact (fwd_cfileRead _).bind fun b => FwdOn.ite (FwdOn.pure _) ((fwd_write _).bind fun _ => ih)

/-- reading from a file uses up what it returns -/
theorem fileRead_uses (n : Option Int) (f f' : File) (a : Bytes) (h : File.read n f = .ok a f') :
    f'.rest.length + a.length = f.rest.length := by
  have hd : ∀ out b, out.length ≤ f.rest.length → File.deliver out b f = .ok a f' → f'.rest.length + a.length = f.rest.length := by
    intro out b hle hd
    unfold File.deliver at hd
    split at hd
    · simp at hd
    · simp only [Res.ok.injEq] at hd
      obtain ⟨rfl, rfl⟩ := hd
      rw [File.advance_rest]; simp; omega
  cases n with
  | none => exact hd _ _ (by simp) h
  | some n =>
    simp only [File.read] at h
    by_cases h0 : 0 ≤ n
    · rw [if_pos h0] at h; exact hd _ _ (by simp; omega) h
    · rw [if_neg h0] at h
      by_cases h1 : n = -1 ∨ f.strictNeg = false
      · rw [if_pos h1] at h; exact hd _ _ (by simp) h
      · rw [if_neg h1] at h; cases h

theorem cfileRead_uses (n : Option Int) (w w' : World) (a : Bytes) (h : cfileRead n w = .ok a w') :
    cfileRemaining w' + a.length = cfileRemaining w := by
  simp only [cfileRead] at h
  cases hc : w.rcd.cfile with
  | stream =>
    rw [hc] at h
    simp only [onStream, Stream.read, rawRead, M.bind_apply, M.get_apply, onFile] at h
    cases hf : File.read (limitOf w.strm.eoc n) w.strm.fh with
    | hang => rw [hf] at h; cases h
    | raise e f => rw [hf] at h; cases h
    | ok b f =>
      rw [hf] at h
      simp only [consume, M.modify_apply, M.pure_apply, Res.ok.injEq] at h
      obtain ⟨rfl, rfl⟩ := h
      simp only [cfileRemaining, hc]
      exact fileRead_uses _ _ _ _ hf
  | file f =>
    rw [hc] at h
    simp only at h
    cases hf : File.read n f with
    | hang => rw [hf] at h; cases h
    | raise e f => rw [hf] at h; cases h
    | ok b f' =>
      rw [hf] at h
      simp only [Res.ok.injEq] at h
      obtain ⟨rfl, rfl⟩ := h
      simp only [cfileRemaining, hc]
      exact fileRead_uses _ _ _ _ hf
  | none => rw [hc] at h; cases h
  | unset => rw [hc] at h; cases h

theorem copyLoop_no_hang (fuel : Nat) (w : World) (hf : cfileRemaining w < fuel) : copyLoop fuel w ≠ .hang := by
  induction fuel generalizing w with
  | zero => omega
  | succ fuel ih =>
    simp only [copyLoop, M.bind_apply]
    cases hq : cfileRead (some 8192) w with
    | hang => exact absurd hq (calm_cfileRead _ _)
    | raise e w1 => simp
    | ok b w1 =>
      simp only
      by_cases hb : b = []
      · rw [if_pos hb]; simp
      · rw [if_neg hb]
        simp only [M.bind_apply, write, M.modify_apply]
        apply ih
        have := cfileRead_uses _ _ _ _ hq
        have : 0 < b.length := List.length_pos_iff.2 hb
        show cfileRemaining w1 < fuel
        omega

/-- the content as it is written out by `_write_to` -/
theorem fwd_writeBody (nl : Bytes) : FwdOn World.strm (writeBody nl) := by
  intro w
  simp only [writeBody]
  cases w.rcd.cls with
  | warc =>
    simp only
    have : FwdOn World.strm (do
      write w.rcd.version
      write nl
      writeHeaders nl (hasCfile w.rcd) w.rcd.headers
      if hasCfile w.rcd then do
        write nl
        copyLoop (cfileRemaining w + 2)
      else do
        let (ctype, buf) ← content
        match ctype with
        | some t => if t = [] then pure () else writeHeader nl (WH.CONTENT_TYPE, t)
        | none => pure ()
        let buf := buf.getD []
        writeHeader nl (WH.CONTENT_LENGTH, decimal buf.length)
        write nl
        if buf = [] then pure () else write buf
      write nl
      write nl : M World Unit) := by
      refine (fwd_write _).bind fun _ => (fwd_write _).bind fun _ => (fwd_writeHeaders _ _ _).bind fun _ => ?_
      cases hasCfile w.rcd with
      | true => exact (fwd_write _).bind fun _ => (fwd_copyLoop _).bind fun _ => (fwd_write _).bind fun _ => fwd_write _
      | false =>
        refine FwdOn.bind fwd_content fun c => ?_
        obtain ⟨ct, buf⟩ := c
        simp only
        have end1 : FwdOn World.strm (do write nl; write nl : M World Unit) := (fwd_write _).bind fun _ => fwd_write _
        cases ct with
        | none => 
          exact (fwd_writeHeader _ _).bind fun _ => (fwd_write _).bind fun _ => FwdOn.ite end1 ((fwd_write _).bind fun _ => end1)
        | some t =>
          refine FwdOn.ite ?_ ((fwd_writeHeader _ _).bind fun _ => ?_)
          · exact (fwd_writeHeader _ _).bind fun _ => (fwd_write _).bind fun _ => FwdOn.ite end1 ((fwd_write _).bind fun _ => end1)
          · exact (fwd_writeHeader _ _).bind fun _ => (fwd_write _).bind fun _ => FwdOn.ite end1 ((fwd_write _).bind fun _ => end1)
    exact this w
  | arc => exact After.refl _
  | arcHeader => exact After.refl _

/-- writing headers leaves the rest alone -/
theorem writeHeader_run (nl : Bytes) (h : Header) (w : World) : ∃ o, writeHeader nl h w = .ok () { w with out := o } :=
  ⟨_, rfl⟩

theorem writeHeaders_run (nl : Bytes) (b : Bool) (hs : List Header) (w : World) :
    ∃ o, writeHeaders nl b hs w = .ok () { w with out := o } := by
  induction hs generalizing w with
  | nil => exact ⟨w.out, rfl⟩
  | cons h hs ih =>
    simp only [writeHeaders]
    split
    · simp only [M.bind_apply]
      obtain ⟨o, e⟩ := writeHeader_run nl h w
      rw [e]
      exact ih { w with out := o }
    · exact ih w

theorem calm_writeBody (nl : Bytes) : Calm (writeBody nl) := by
  intro w
  simp only [writeBody]
  cases w.rcd.cls with
  | arc => simp
  | arcHeader => simp
  | warc =>
    simp only [M.bind_apply, write, M.modify_apply]
    obtain ⟨o, e⟩ := writeHeaders_run nl (hasCfile w.rcd) w.rcd.headers { w with out := w.out ++ w.rcd.version ++ nl }
    rw [e]
    simp only
    cases hasCfile w.rcd with
    | true =>
      simp only [if_true, M.bind_apply, M.modify_apply]
      cases hq : copyLoop (cfileRemaining w + 2) { w with out := o ++ nl } with
      | hang =>
        refine absurd hq (copyLoop_no_hang _ _ ?_)
        show cfileRemaining w < _
        omega
      | ok a u => simp
      | raise e u => simp
    | false =>
      simp only [Bool.false_eq_true, if_false, M.bind_apply]
      cases hq : content { w with out := o } with
      | hang => exact absurd hq (calm_content _)
      | raise e u => simp
      | ok c u =>
        obtain ⟨ct, buf⟩ := c
        simp only
        have end1 : Calm (do write nl; write nl : M World Unit) := (calm_write _).bind fun _ => calm_write _
        cases ct with
        | none =>
          exact (Calm.bind (calm_writeHeader _ _) fun _ => (calm_write _).bind fun _ => Calm.ite end1 ((calm_write _).bind fun _ => end1)) u
        | some t =>
          exact (Calm.ite (Calm.bind (calm_writeHeader _ _) fun _ => (calm_write _).bind fun _ => Calm.ite end1 ((calm_write _).bind fun _ => end1))
            (Calm.bind (calm_writeHeader _ _) fun _ => Calm.bind (calm_writeHeader _ _) fun _ => (calm_write _).bind fun _ => Calm.ite end1 ((calm_write _).bind fun _ => end1))) u

theorem fwd_writeTo (nl : Bytes) : FwdOn World.strm (writeTo nl) := by
  intro w
  have main : (if hasCfile w.rcd && !w.rcd.cfileValid then
      (.raise (.generic "cannot write record because content_file has already been used") w : Res World Unit)
    else
      match writeBody nl w with
      | .ok () w' =>
        .ok () (if hasCfile w'.rcd then { w' with rcd := { w'.rcd with cfileValid := false } } else w')
      | .raise e w' => .raise e w'
      | .hang => .hang).All fun w' => After w.strm w'.strm := by
    split
    · exact After.refl _
    · have h := fwd_writeBody nl w
      cases hq : writeBody nl w with
      | hang => trivial
      | raise e w' => rw [hq] at h; exact h
      | ok a w' =>
        rw [hq] at h
        simp only
        split
        · exact h
        · exact h
  simp only [writeTo]
  cases hc : w.rcd.cfile with
  | unset => exact After.refl _
  | stream => exact main
  | file f => exact main
  | none => exact main

theorem calm_writeTo (nl : Bytes) : Calm (writeTo nl) := by
  intro w
  have main : (if hasCfile w.rcd && !w.rcd.cfileValid then
      (.raise (.generic "cannot write record because content_file has already been used") w : Res World Unit)
    else
      match writeBody nl w with
      | .ok () w' =>
        .ok () (if hasCfile w'.rcd then { w' with rcd := { w'.rcd with cfileValid := false } } else w')
      | .raise e w' => .raise e w'
      | .hang => .hang) ≠ .hang := by
    split
    · simp
    · cases hq : writeBody nl w with
      | hang => exact absurd hq (calm_writeBody nl w)
      | raise e w' => simp
      | ok a w' => simp
  simp only [writeTo]
  cases hc : w.rcd.cfile with
  | unset => simp
  | stream => exact main
  | file f => exact main
  | none => exact main

theorem fwd_writeToGz (enc : Bytes → Bytes) (nl : Bytes) : FwdOn World.strm (writeToGz enc nl) := by
  intro w
  have h := fwd_writeTo nl { w with out := [] }
  simp only [writeToGz]
  cases hq : writeTo nl { w with out := [] } with
  | hang => trivial
  | raise e w' => rw [hq] at h; exact h
  | ok a w' => rw [hq] at h; exact h

theorem calm_writeToGz (enc : Bytes → Bytes) (nl : Bytes) : Calm (writeToGz enc nl) := by
  intro w
  simp only [writeToGz]
  cases hq : writeTo nl { w with out := [] } with
  | hang => exact absurd hq (calm_writeTo nl _)
  | raise e w' => simp
  | ok a w' => simp

end World

/-! ### the tools -/

theorem fwd_local {α : Type} (m : Http.Msg) (x : M Http.Msg α) : FwdOn World.strm (WarcFilter.local' m x) := by
  intro w
  simp only [WarcFilter.local']
  cases x m with
  | hang => trivial
  | ok a m' => exact After.refl _
  | raise e m' => exact After.refl _

theorem fwd_contentBytes : FwdOn World.strm WarcFilter.contentBytes := by
  refine World.fwd_content.bind fun c => ?_
  obtain ⟨a, b⟩ := c
  cases b with
  | some b => exact FwdOn.pure _
  | none => exact FwdOn.throw _

theorem calm_contentBytes : Calm WarcFilter.contentBytes := by
  refine World.calm_content.bind fun c => ?_
  obtain ⟨a, b⟩ := c
  cases b with
  | some b => exact Calm.pure _
  | none => exact Calm.throw _

theorem fwd_indexRecord (name : Bytes) (off : Option Nat) : FwdOn World.strm (WarcIndex.indexRecord name off) :=
  FwdOn.get.bind fun w => World.fwd_contentType.bind fun ct => World.fwd_contentLength.bind fun n => World.fwd_write _

theorem calm_indexRecord (name : Bytes) (off : Option Nat) : Calm (WarcIndex.indexRecord name off) :=
  Calm.get.bind fun w => World.calm_contentType.bind fun ct => World.calm_contentLength.bind fun n => World.calm_write _

theorem fwd_writeIf (b : Bool) : FwdOn World.strm (WarcFilter.writeIf b) := FwdOn.ite (World.fwd_writeTo _) (FwdOn.pure _)
theorem calm_writeIf (b : Bool) : Calm (WarcFilter.writeIf b) := Calm.ite (World.calm_writeTo _) (Calm.pure _)

theorem fwd_parseHttpResponse (c : Codec) : FwdOn World.strm (WarcFilter.parseHttpResponse c) := by
  refine fwd_contentBytes.bind fun text => FwdOn.bind (fwd_local _ _) fun q => ?_
  obtain ⟨rem, m⟩ := q
  refine FwdOn.ite (FwdOn.throw _) ?_
  cases (m.close.header.headers.filter fun h => lower h.1 == b! "content-type") with
  | nil => exact FwdOn.pure _
  | cons h hs => exact FwdOn.pure _

theorem fwd_filterRecord (c : Codec) (search : Bytes → Bool) (o : WarcFilter.Opts) :
    FwdOn World.strm (WarcFilter.filterRecord c search o) := by
  refine FwdOn.get.bind fun w => FwdOn.ite (fwd_writeIf _) (FwdOn.ite (fwd_writeIf _) (FwdOn.ite
    (World.fwd_contentType.bind fun ct => fwd_writeIf _) (FwdOn.ite (FwdOn.ite (World.fwd_contentType.bind fun ct => ?_) (FwdOn.pure _))
    (FwdOn.ite (fwd_writeIf _) (World.fwd_content.bind fun q => ?_)))))
  · cases ct with
    | none => exact FwdOn.throw _
    | some t => exact FwdOn.ite ((fwd_parseHttpResponse c).bind fun m => fwd_writeIf _) (FwdOn.pure _)
  · obtain ⟨a, buf⟩ := q
    refine FwdOn.ite (fwd_writeIf _) ?_
    cases buf with
    | none => exact (FwdOn.throw _)
    | some b => exact (fwd_writeIf _)

theorem calm_filterRecord (c : Codec) (search : Bytes → Bool) (o : WarcFilter.Opts) (ho : o.httpContentType = false) :
    Calm (WarcFilter.filterRecord c search o) := by
  refine Calm.get.bind fun w => Calm.ite (calm_writeIf _) (Calm.ite (calm_writeIf _) (Calm.ite
    (World.calm_contentType.bind fun ct => calm_writeIf _) ?_))
  rw [ho, if_neg (by decide)]
  refine Calm.ite (calm_writeIf _) (World.calm_content.bind fun q => ?_)
  obtain ⟨a, buf⟩ := q
  refine Calm.ite (calm_writeIf _) ?_
  cases buf with
  | none => exact (Calm.throw _)
  | some b => exact (calm_writeIf _)

theorem fwd_decodeWith (z : Http.Zlib) (m : Http.Msg) (feed : Bytes → M Http.Msg Bytes) (content : Option Bytes) :
    FwdOn World.strm (Warc2Warc.decodeWith z m feed content) := by
  cases content with
  | none => exact FwdOn.throw _
  | some text =>
    refine FwdOn.bind (fwd_local _ _) fun q => ?_
    obtain ⟨l, m⟩ := q
    refine FwdOn.ite ?_ (FwdOn.pure _)
    cases m.close.getDecoded z with
    | error e => exact FwdOn.throw _
    | ok b => exact FwdOn.throw _

theorem fwd_decodeRecord (c : Codec) (z : Http.Zlib) (o : Warc2Warc.Opts) : FwdOn World.strm (Warc2Warc.decodeRecord c z o) := by
  refine FwdOn.get.bind fun w => FwdOn.ite (World.fwd_content.bind fun q => ?_) (FwdOn.pure _)
  exact FwdOn.ite (fwd_decodeWith _ _ _ _) (FwdOn.ite (fwd_decodeWith _ _ _ _) (FwdOn.pure _))

theorem fwd_process (c : Codec) (z : Http.Zlib) (o : Warc2Warc.Opts) : FwdOn World.strm (Warc2Warc.process c z o) :=
  FwdOn.ite ((fwd_decodeRecord c z o).bind fun _ => FwdOn.ite (World.fwd_writeToGz _ _) (World.fwd_writeTo _))
    (FwdOn.ite (World.fwd_writeToGz _ _) (World.fwd_writeTo _))

theorem calm_process (c : Codec) (z : Http.Zlib) (o : Warc2Warc.Opts) (ho : o.decode = false) : Calm (Warc2Warc.process c z o) := by
  unfold Warc2Warc.process
  rw [ho, if_neg (by decide)]
  exact Calm.ite (World.calm_writeToGz _ _) (World.calm_writeTo _)

end Warc
