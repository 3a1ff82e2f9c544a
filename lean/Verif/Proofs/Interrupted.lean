import Verif.Spec.Interrupted
import Verif.Proofs.Rx
/-
  Two runs that differ only in what they have written so far (property C121).
-/
set_option linter.all false
namespace Warc
open Rx Stream Spec

/-- what the two computations do depends on the part `key` of the state only, and what they have written is related by `R`, and by `E` when they raise -/
def Alike (R E : Bytes → Bytes → Prop) {σ κ α : Type} (key : σ → κ) (out : σ → Bytes) (x y : M σ α) : Prop :=
  ∀ s t, key s = key t → R (out s) (out t) →
    match x s, y t with
    | .ok a s', .ok b t' => a = b ∧ key s' = key t' ∧ R (out s') (out t')
    | .raise e s', .raise f t' => e = f ∧ key s' = key t' ∧ E (out s') (out t')
    | .hang, .hang => True
    | _, _ => False

section
variable {R E : Bytes → Bytes → Prop} {σ κ α β : Type} {key : σ → κ} {out : σ → Bytes}

theorem Alike.pure (a : α) : Alike R E key out (Pure.pure a : M σ α) (Pure.pure a) := fun s t h hr => ⟨rfl, h, hr⟩

theorem Alike.throw (hRE : ∀ a b, R a b → E a b) (e : Exc) : Alike R E key out (M.throw e : M σ α) (M.throw e) := fun s t h hr => ⟨rfl, h, hRE _ _ hr⟩

theorem Alike.diverge : Alike R E key out (M.diverge : M σ α) M.diverge := fun s t h hr => trivial

theorem Alike.bind {x y : M σ α} {f g : α → M σ β} (hx : Alike R E key out x y) (hf : ∀ a, Alike R E key out (f a) (g a)) :
    Alike R E key out (x >>= f) (y >>= g) := by
  intro s t h hr
  have h1 := hx s t h hr
  simp only [M.bind_apply]
  cases hxs : x s with
  | hang => cases hyt : y t with
    | hang => trivial
    | ok b t' => simp [hxs, hyt] at h1
    | raise f t' => simp [hxs, hyt] at h1
  | raise e s' => cases hyt : y t with
    | hang => simp [hxs, hyt] at h1
    | ok b t' => simp [hxs, hyt] at h1
    | raise f t' => simpa [hxs, hyt] using h1
  | ok a s' => cases hyt : y t with
    | hang => simp [hxs, hyt] at h1
    | raise f t' => simp [hxs, hyt] at h1
    | ok b t' =>
      simp only [hxs, hyt] at h1
      obtain ⟨rfl, h2, h3⟩ := h1
      exact hf a s' t' h2 h3

theorem Alike.ite {p : Prop} [Decidable p] {x x' y y' : M σ α} (h1 : Alike R E key out x y) (h2 : Alike R E key out x' y') :
    Alike R E key out (if p then x else x') (if p then y else y') := by
  by_cases hp : p
  · rw [if_pos hp, if_pos hp]; exact h1
  · rw [if_neg hp, if_neg hp]; exact h2

/-- reading the state and going on with what does not depend on the output -/
theorem Alike.getWith {f g : σ → M σ α} (h : ∀ s t, key s = key t → R (out s) (out t) → ∃ x y, f s = x ∧ g t = y ∧ Alike R E key out x y) :
    Alike R E key out (M.get >>= f) (M.get >>= g) := by
  intro s t hk hr
  obtain ⟨x, y, hx, hy, hs⟩ := h s t hk hr
  have := hs s t hk hr
  simp only [M.bind_apply, M.get]
  rw [hx, hy]
  exact this
end

namespace World

/-- everything of the world but the output -/
def key (w : World) : Stream × Rec := (w.strm, w.rcd)

/-- the world with `o` in front of what has been written -/
def pre (o : Bytes) (w : World) : World := { w with out := o ++ w.out }

def preR {α : Type} (o : Bytes) : Res World α → Res World α
  | .ok a w => .ok a (pre o w)
  | .raise e w => .raise e (pre o w)
  | .hang => .hang

/-- what is done does not depend on what has been written, and more is written behind it -/
def Adds {α : Type} (x : M World α) : Prop := ∀ o w, x (pre o w) = preR o (x w)

theorem Adds.pure {α : Type} (a : α) : Adds (Pure.pure a : M World α) := fun o w => rfl
theorem Adds.throw {α : Type} (e : Exc) : Adds (M.throw e : M World α) := fun o w => rfl
theorem Adds.diverge {α : Type} : Adds (M.diverge : M World α) := fun o w => rfl

theorem Adds.bind {α β : Type} {x : M World α} {f : α → M World β} (hx : Adds x) (hf : ∀ a, Adds (f a)) : Adds (x >>= f) := by
  intro o w
  simp only [M.bind_apply, hx o w]
  cases x w with
  | ok a w' => exact hf a o w'
  | raise e w' => rfl
  | hang => rfl

theorem Adds.ite {α : Type} {p : Prop} [Decidable p] {x y : M World α} (h1 : Adds x) (h2 : Adds y) : Adds (if p then x else y) := by
  by_cases hp : p
  · rw [if_pos hp]; exact h1
  · rw [if_neg hp]; exact h2

theorem adds_write (b : Bytes) : Adds (write b) := by
  intro o w
  simp [write, M.modify, pre, preR]

theorem adds_onStream {α : Type} (x : M Stream α) : Adds (onStream x) := by
  intro o w
  simp only [onStream, pre]
  cases x w.strm <;> rfl

theorem adds_cfileRead (n : Option Int) : Adds (cfileRead n) := by
  intro o w
  obtain ⟨s, r, out⟩ := w
  simp only [cfileRead, pre]
  cases hc : r.cfile with
  | stream => simpa [pre] using adds_onStream (Stream.read n) o ⟨s, r, out⟩
  | file f => simp only []; cases File.read n f <;> rfl
  | none => rfl
  | unset => rfl

theorem adds_content : Adds content := by
  intro o w
  have h := adds_cfileRead none o w
  simp only [content]
  have hr : (pre o w).rcd = w.rcd := rfl
  rw [hr]
  cases hc : w.rcd.content with
  | some c => rfl
  | none =>
    simp only [h]
    cases cfileRead none w <;> rfl

theorem adds_writeHeader (nl : Bytes) (h : Header) : Adds (writeHeader nl h) :=
  (adds_write _).bind fun _ => (adds_write _).bind fun _ => (adds_write _).bind fun _ => adds_write _

theorem adds_writeHeaders (nl : Bytes) (b : Bool) (hs : List Header) : Adds (writeHeaders nl b hs) := by
  induction hs with
  | nil => exact Adds.pure _
  | cons h hs ih =>
    by_cases hp : (b || !(h.1 == WH.CONTENT_TYPE || h.1 == WH.CONTENT_LENGTH)) = true
    · simp only [writeHeaders, hp, if_true]
      exact (adds_writeHeader nl h).bind fun _ => ih
    · simp only [writeHeaders, hp, if_false]
      exact ih

theorem adds_copyLoop (n : Nat) : Adds (copyLoop n) := by
  induction n with
  | zero => exact Adds.diverge
  | succ n ih =>
    simp only [copyLoop]
    exact (adds_cfileRead _).bind fun buf => Adds.ite (Adds.pure _) ((adds_write _).bind fun _ => ih)

theorem adds_writeBody (nl : Bytes) : Adds (writeBody nl) := by
  intro o w
  have hr : (pre o w).rcd = w.rcd := rfl
  have hrem : cfileRemaining (pre o w) = cfileRemaining w := rfl
  simp only [writeBody, hr, hrem]
  cases w.rcd.cls with
  | warc =>
    simp only []
    have hh : ∀ b : Bool, b = hasCfile w.rcd → Adds (do
      write w.rcd.version
      write nl
      writeHeaders nl b w.rcd.headers
      if b then do
        write nl
        copyLoop (cfileRemaining w + 2)
      else do
        let (ctype, buf) ← content
        match ctype with
        | some t => if t = [] then Pure.pure () else writeHeader nl (WH.CONTENT_TYPE, t)
        | none => Pure.pure ()
        let buf := buf.getD []
        writeHeader nl (WH.CONTENT_LENGTH, decimal buf.length)
        write nl
        if buf = [] then Pure.pure () else write buf
      write nl
      write nl : M World Unit) := by
      intro b _
      have e1 : Adds (do write nl; write nl : M World Unit) := (adds_write _).bind fun _ => adds_write _
      have e2 : ∀ buf : Option Bytes, Adds (do
          writeHeader nl (WH.CONTENT_LENGTH, decimal (buf.getD []).length)
          write nl
          if buf.getD [] = [] then Pure.pure () else write (buf.getD [])
          write nl
          write nl : M World Unit) := fun buf =>
        (adds_writeHeader _ _).bind fun _ => (adds_write _).bind fun _ => Adds.ite e1 ((adds_write _).bind fun _ => e1)
      refine (adds_write _).bind fun _ => (adds_write _).bind fun _ => (adds_writeHeaders _ _ _).bind fun _ => ?_
      cases b with
      | true => exact (adds_write _).bind fun _ => (adds_copyLoop _).bind fun _ => e1
      | false =>
        refine Adds.bind adds_content fun q => ?_
        obtain ⟨ct, buf⟩ := q
        cases ct with
        | none => exact e2 buf
        | some t => exact Adds.ite (e2 buf) ((adds_writeHeader _ _).bind fun _ => e2 buf)
    exact hh _ rfl o w
  | _ => rfl

theorem adds_writeTo (nl : Bytes) : Adds (writeTo nl) := by
  intro o w
  have hr : (pre o w).rcd = w.rcd := rfl
  have hb := adds_writeBody nl o w
  have main : (if hasCfile w.rcd && !w.rcd.cfileValid then
      (.raise (.generic "cannot write record because content_file has already been used") (pre o w) : Res World Unit)
    else
      match writeBody nl (pre o w) with
      | .ok () w' => .ok () (if hasCfile w'.rcd then { w' with rcd := { w'.rcd with cfileValid := false } } else w')
      | .raise e w' => .raise e w'
      | .hang => .hang) =
    preR o (if hasCfile w.rcd && !w.rcd.cfileValid then
      (.raise (.generic "cannot write record because content_file has already been used") w : Res World Unit)
    else
      match writeBody nl w with
      | .ok () w' => .ok () (if hasCfile w'.rcd then { w' with rcd := { w'.rcd with cfileValid := false } } else w')
      | .raise e w' => .raise e w'
      | .hang => .hang) := by
    by_cases hv : (hasCfile w.rcd && !w.rcd.cfileValid) = true
    · rw [if_pos hv, if_pos hv]; rfl
    · rw [if_neg hv, if_neg hv, hb]
      cases writeBody nl w with
      | hang => rfl
      | raise e w' => rfl
      | ok u w' =>
        simp only [preR, pre]
        by_cases hh : hasCfile w'.rcd = true
        · simp [hh]
        · simp [hh]
  simp only [writeTo, hr]
  cases hc : w.rcd.cfile with
  | unset => rfl
  | _ => exact main

theorem pre_nil (w : World) : pre w.out { w with out := [] } = w := by simp [pre]


/-! ### writing one record -/

/-- plain output next to compressed output that unpacks to it, member by member -/
def Packed (c : Codec) (a b : Bytes) : Prop := ∃ ms : List Bytes, a = ms.flatMap c.enc ∧ b = ms.flatten

theorem Packed.add {c : Codec} {a b : Bytes} (h : Packed c a b) (m : Bytes) : Packed c (a ++ c.enc m) (b ++ m) := by
  obtain ⟨ms, rfl, rfl⟩ := h
  exact ⟨ms ++ [m], by simp, by simp⟩

/-- writing that raises before there is anything to write to has written nothing -/
theorem writeTo_unopened (nl : Bytes) (w w' : World) (e : Exc) (ho : opensGz w.rcd = false) (h : writeTo nl w = .raise e w') : w' = w := by
  simp only [writeTo] at h
  simp only [opensGz] at ho
  cases hc : w.rcd.cfile with
  | unset => simp only [hc, Res.raise.injEq] at h; exact h.2.symm
  | none => simp [hc, hasCfile] at ho
  | stream =>
    simp only [hc] at h ho
    have hv : (hasCfile w.rcd && !w.rcd.cfileValid) = true := by simpa using ho
    rw [if_pos hv] at h
    simp only [Res.raise.injEq] at h; exact h.2.symm
  | file f =>
    simp only [hc] at h ho
    have hv : (hasCfile w.rcd && !w.rcd.cfileValid) = true := by simpa using ho
    rw [if_pos hv] at h
    simp only [Res.raise.injEq] at h; exact h.2.symm

theorem alike_write (c : Codec) (nl : Bytes) : Alike (Packed c) (Packed c) key World.out (writeToGzLeft c.enc nl) (writeTo nl) := by
  intro w v hk hp
  obtain ⟨s, r, og⟩ := w
  obtain ⟨s', r', op⟩ := v
  simp only [key, Prod.mk.injEq] at hk
  obtain ⟨rfl, rfl⟩ := hk
  have ha : writeTo nl ⟨s, r, op⟩ = preR op (writeTo nl ⟨s, r, []⟩) := by
    have := adds_writeTo nl op ⟨s, r, []⟩
    simpa [pre] using this
  rw [ha]
  simp only [writeToGzLeft]
  cases hq : writeTo nl ⟨s, r, []⟩ with
  | hang => simp [preR]
  | ok u w' =>
    simp only [preR, pre, key]
    exact ⟨trivial, trivial, Packed.add hp _⟩
  | raise e w' =>
    simp only [preR, pre, key]
    refine ⟨trivial, trivial, ?_⟩
    cases ho : opensGz r with
    | true => simp only [if_true]; exact Packed.add hp _
    | false =>
      have := writeTo_unopened nl _ _ _ ho hq
      subst this
      simpa using hp

/-- against the model without the finalisation -/
theorem alike_writeGz (c : Codec) (nl : Bytes) : Alike Eq (OneMore c) key World.out (writeToGzLeft c.enc nl) (writeToGz c.enc nl) := by
  intro w v hk hp
  obtain ⟨s, r, og⟩ := w
  obtain ⟨s', r', op⟩ := v
  simp only [key, Prod.mk.injEq] at hk hp
  obtain ⟨rfl, rfl⟩ := hk
  subst hp
  simp only [writeToGzLeft, writeToGz]
  cases hq : writeTo nl ⟨s, r, []⟩ with
  | hang => trivial
  | ok u w' => exact ⟨trivial, rfl, rfl⟩
  | raise e w' =>
    refine ⟨rfl, rfl, ?_⟩
    cases ho : opensGz r with
    | true => exact Or.inr ⟨w'.out, rfl⟩
    | false => exact Or.inl rfl

/-! ### what leaves the output alone -/

variable {R E : Bytes → Bytes → Prop}

theorem alike_content (hRE : ∀ a b, R a b → E a b) : Alike R E key World.out content content := by
  intro w v hk hr
  obtain ⟨s, r, og⟩ := w
  obtain ⟨s', r', op⟩ := v
  simp only [key, Prod.mk.injEq] at hk
  obtain ⟨rfl, rfl⟩ := hk
  have hE := hRE _ _ hr
  simp only [content]
  cases hc : r.content with
  | some q => exact ⟨rfl, rfl, hr⟩
  | none =>
    simp only [cfileRead]
    cases hf : r.cfile with
    | none => exact ⟨rfl, rfl, hE⟩
    | unset => exact ⟨rfl, rfl, hE⟩
    | stream =>
      simp only [onStream]
      cases Stream.read none s with
      | hang => trivial
      | ok a t => exact ⟨rfl, rfl, hr⟩
      | raise e t => exact ⟨rfl, rfl, hE⟩
    | file f =>
      simp only []
      cases File.read none f with
      | hang => trivial
      | ok a t => exact ⟨rfl, rfl, hr⟩
      | raise e t => exact ⟨rfl, rfl, hE⟩

theorem alike_contentBytes (hRE : ∀ a b, R a b → E a b) : Alike R E key World.out WarcFilter.contentBytes WarcFilter.contentBytes := by
  refine (alike_content hRE).bind fun q => ?_
  obtain ⟨ct, buf⟩ := q
  cases buf with
  | none => exact Alike.throw hRE _
  | some b => exact Alike.pure _

theorem alike_local {α : Type} (hRE : ∀ a b, R a b → E a b) (m : Http.Msg) (x : M Http.Msg α) :
    Alike R E key World.out (WarcFilter.local' m x) (WarcFilter.local' m x) := by
  intro w v hk hr
  simp only [WarcFilter.local']
  cases x m with
  | hang => trivial
  | ok a t => exact ⟨rfl, hk, hr⟩
  | raise e t => exact ⟨rfl, hk, hRE _ _ hr⟩

theorem alike_decodeWith (hRE : ∀ a b, R a b → E a b) (z : Http.Zlib) (m : Http.Msg) (feed : Bytes → M Http.Msg Bytes) (content : Option Bytes) :
    Alike R E key World.out (Warc2Warc.decodeWith z m feed content) (Warc2Warc.decodeWith z m feed content) := by
  cases content with
  | none => exact Alike.throw hRE _
  | some text =>
    refine (alike_local hRE _ _).bind fun q => ?_
    obtain ⟨left, m'⟩ := q
    refine Alike.ite ?_ (Alike.pure _)
    cases m'.close.getDecoded z with
    | error e => exact Alike.throw hRE _
    | ok b => exact Alike.throw hRE _

theorem alike_decodeRecord (hRE : ∀ a b, R a b → E a b) (c : Codec) (z : Http.Zlib) (o : Warc2Warc.Opts) :
    Alike R E key World.out (Warc2Warc.decodeRecord c z o) (Warc2Warc.decodeRecord c z o) := by
  refine Alike.getWith fun s t hk hr => ?_
  obtain ⟨s, r, og⟩ := s
  obtain ⟨s', r', op⟩ := t
  simp only [key, Prod.mk.injEq] at hk
  obtain ⟨rfl, rfl⟩ := hk
  refine ⟨_, _, rfl, rfl, ?_⟩
  refine Alike.ite ?_ (Alike.pure _)
  refine (alike_content hRE).bind fun q => ?_
  obtain ⟨ct, buf⟩ := q
  exact Alike.ite (alike_decodeWith hRE _ _ _ _) (Alike.ite (alike_decodeWith hRE _ _ _ _) (Alike.pure _))

end World

/-! ### loops over files -/

variable {R E : Bytes → Bytes → Prop}

theorem alike_each (hRE : ∀ a b, R a b → E a b) {x y : M World Unit} (h : Alike R E World.key World.out x y) (k : Nat) :
    Alike R E Tool.strm Tool.out (Tool.forEach x k) (Tool.forEach y k) := by
  induction k with
  | zero => exact Alike.diverge
  | succ k ih =>
    simp only [Tool.forEach]
    have h1 : Alike R E Tool.strm Tool.out (Tool.onStream (readRecord false)) (Tool.onStream (readRecord false)) := by
      intro s t hk hr
      simp only [Tool.onStream, hk]
      cases readRecord false t.strm with
      | hang => trivial
      | ok a u => exact ⟨rfl, rfl, hr⟩
      | raise e u => exact ⟨rfl, rfl, hRE _ _ hr⟩
    refine h1.bind fun e => ?_
    cases e.rcd with
    | none => exact Alike.ite (Alike.pure _) (Alike.throw hRE _)
    | some r =>
      refine Alike.bind ?_ fun _ => ih
      intro s t hk hr
      have := h ⟨s.strm, r, s.out⟩ ⟨t.strm, r, t.out⟩ (by simp only [World.key, hk]) hr
      simp only [Tool.withRecord]
      cases hx : x ⟨s.strm, r, s.out⟩ <;> cases hy : y ⟨t.strm, r, t.out⟩ <;> simp only [hx, hy, World.key, Prod.mk.injEq] at this ⊢
      · exact ⟨trivial, this.2.1.1, this.2.2⟩
      · exact ⟨this.1, this.2.1.1, this.2.2⟩

theorem alike_eachAll (hRE : ∀ a b, R a b → E a b) {x y : M World Unit} (h : Alike R E World.key World.out x y) :
    Alike R E Tool.strm Tool.out (Tool.each x) (Tool.each y) := by
  intro s t hk hr
  have := alike_each hRE h (Tool.rounds s) s t hk hr
  simp only [Tool.each, Tool.rounds] at this ⊢
  rw [← hk]
  exact this

theorem alike_archive (hRE : ∀ a b, R a b → E a b) {x y : M Tool Unit} (c : Codec) (fs : FS) (cls : RecClass) (o : Option Nat) (name : Bytes)
    (h : Alike R E Tool.strm Tool.out x y) :
    Alike R E (fun _ => ()) id (onArchive c fs cls o name x) (onArchive c fs cls o name y) := by
  intro s t hk hr
  simp only [onArchive]
  cases openName c fs cls o name with
  | error e => exact ⟨rfl, trivial, hRE _ _ hr⟩
  | ok u =>
    have := h ⟨u, s⟩ ⟨u, t⟩ rfl hr
    simp only []
    cases hx : x ⟨u, s⟩ <;> cases hy : y ⟨u, t⟩ <;> simp only [hx, hy] at this ⊢
    · exact ⟨trivial, trivial, this.2.2⟩
    · exact ⟨this.1, trivial, this.2.2⟩

theorem alike_files {f g : Bytes → M Bytes Unit} (h : ∀ n, Alike R E (fun _ => ()) id (f n) (g n)) (names : List Bytes) :
    Alike R E (fun _ => ()) id (forFiles f names) (forFiles g names) := by
  induction names with
  | nil => exact Alike.pure _
  | cons n ns ih => exact (h n).bind fun _ => ih

/-! ### arc2warc -/
namespace Arc2Warc

def xkey (s : XW) : (Stream × Rec) × St := (World.key s.1, s.2)
def xout (s : XW) : Bytes := s.1.out

theorem alike_onWorld {α : Type} {x y : M World α} (h : Alike R E World.key World.out x y) : Alike R E xkey xout (onWorld x) (onWorld y) := by
  intro s t hk hr
  simp only [xkey, Prod.mk.injEq] at hk
  have := h s.1 t.1 hk.1 hr
  simp only [onWorld]
  cases hx : x s.1 <;> cases hy : y t.1 <;> simp only [hx, hy] at this ⊢
  · exact ⟨this.1, by simp only [xkey, this.2.1, hk.2], this.2.2⟩
  · exact ⟨this.1, by simp only [xkey, this.2.1, hk.2], this.2.2⟩

theorem alike_now (g : Cfg) : Alike R E xkey xout (now g) (now g) := by
  intro s t hk hr
  simp only [xkey, Prod.mk.injEq] at hk
  simp only [now, hk.2]
  exact ⟨trivial, by simp only [xkey, hk.1], hr⟩

theorem alike_operand (hRE : ∀ a b, R a b → E a b) (o : Option Bytes) : Alike R E xkey xout (operand o) (operand o) := by
  cases o with
  | none => exact Alike.throw hRE _
  | some b => exact Alike.pure _

theorem alike_lift {α : Type} (hRE : ∀ a b, R a b → E a b) (q : Except Exc α) : Alike R E xkey xout (lift q) (lift q) := by
  cases q with
  | error e => exact Alike.throw hRE _
  | ok a => exact Alike.pure _

/-- reading the record or the state of the transformer -/
theorem alike_get {α : Type} {f g : XW → M XW α} (h : ∀ s r (o o' : Bytes) st, Alike R E xkey xout (f (⟨s, r, o⟩, st)) (g (⟨s, r, o'⟩, st))) :
    Alike R E xkey xout (M.get >>= f) (M.get >>= g) := by
  refine Alike.getWith fun s t hk hr => ⟨_, _, rfl, rfl, ?_⟩
  obtain ⟨⟨s, r, o⟩, st⟩ := s
  obtain ⟨⟨s', r', o'⟩, st'⟩ := t
  simp only [xkey, World.key, Prod.mk.injEq] at hk
  obtain ⟨⟨rfl, rfl⟩, rfl⟩ := hk
  exact h _ _ _ _ _

theorem alike_raw (hRE : ∀ a b, R a b → E a b) : Alike R E xkey xout raw raw :=
  alike_get fun s r o o' st => (alike_onWorld (World.alike_contentBytes hRE)).bind fun b => Alike.pure _

theorem alike_metaDate (hRE : ∀ a b, R a b → E a b) (i : Bytes) (d : Option Bytes) : Alike R E xkey xout (metaDate i d) (metaDate i d) := by
  cases d with
  | none => exact Alike.pure _
  | some d =>
    exact Alike.ite (Alike.pure _) (Alike.ite ((alike_lift hRE _).bind fun _ => Alike.pure _) ((alike_lift hRE _).bind fun _ => Alike.pure _))

theorem alike_convertFiledesc (hRE : ∀ a b, R a b → E a b) (g : Cfg) : Alike R E xkey xout (convertFiledesc g) (convertFiledesc g) := by
  refine alike_get fun s r o o' st => ?_
  refine (alike_now g).bind fun d => (alike_operand hRE _).bind fun url => (alike_metaDate hRE _ _).bind fun md => (alike_operand hRE _).bind fun date => ?_
  refine (alike_raw hRE).bind fun text => Alike.bind ?_ fun _ => Alike.pure _
  intro s t hk hr
  simp only [xkey, Prod.mk.injEq] at hk
  exact ⟨rfl, by simp only [xkey, hk.1, hk.2], hr⟩

theorem alike_isHttp (hRE : ∀ a b, R a b → E a b) (c : Codec) (content : Bytes) : Alike R E xkey xout (isHttpResponse c content) (isHttpResponse c content) :=
  (alike_onWorld (World.alike_local hRE _ _)).bind fun q => Alike.pure _

theorem alike_chooseType (hRE : ∀ a b, R a b → E a b) (c : Codec) (g : Cfg) (url ctype content : Bytes) :
    Alike R E xkey xout (chooseType c g url ctype content) (chooseType c g url ctype content) := by
  refine (alike_lift hRE _).bind fun a => Alike.ite (Alike.pure _) ?_
  refine (alike_lift hRE _).bind fun a => Alike.ite (Alike.pure _) (Alike.ite ?_ (Alike.pure _))
  exact (alike_isHttp hRE c content).bind fun b => Alike.ite (Alike.pure _) (Alike.pure _)

theorem alike_recordDate (hRE : ∀ a b, R a b → E a b) (g : Cfg) (d : Option Bytes) : Alike R E xkey xout (recordDate g d) (recordDate g d) := by
  cases d with
  | none => exact alike_now g
  | some d =>
    refine Alike.ite (alike_now g) ?_
    cases Strptime.full d with
    | ok t => exact Alike.pure _
    | error e => cases e with
      | valueError => exact alike_lift hRE _
      | _ => exact Alike.throw hRE _

theorem alike_convertRecord (hRE : ∀ a b, R a b → E a b) (c : Codec) (g : Cfg) : Alike R E xkey xout (convertRecord c g) (convertRecord c g) := by
  refine alike_get fun s r o o' st => ?_
  refine (alike_operand hRE _).bind fun url => (alike_operand hRE _).bind fun date => (alike_recordDate hRE g _).bind fun d => ?_
  refine (alike_onWorld (World.alike_content hRE)).bind fun q => ?_
  obtain ⟨ct, body⟩ := q
  cases ct with
  | none => exact Alike.throw hRE _
  | some ct =>
    cases body with
    | none => exact Alike.throw hRE _
    | some body => exact (alike_chooseType hRE c g _ _ _).bind fun q => Alike.pure _

theorem alike_convert (hRE : ∀ a b, R a b → E a b) (c : Codec) (g : Cfg) : Alike R E xkey xout (convert c g) (convert c g) :=
  alike_get fun s r o o' st => Alike.ite (alike_convertFiledesc hRE g) (alike_convertRecord hRE c g)

/-- writing a new record, given how records are written and what is left of one with a value that is not bytes -/
theorem alike_writeNew (hRE : ∀ a b, R a b → E a b) (c : Codec) (gzip : Bool) (n : New)
    (h : Alike R E World.key World.out (World.writeToGzLeft c.enc CRLF) (writeAs c gzip))
    (hp : ∀ a b m, R a b → E (a ++ c.enc m) (if gzip then b else b ++ m)) :
    Alike R E xkey xout (writeNewLeft c n) (writeNew c gzip n) := by
  refine alike_onWorld fun s t hk hr => ?_
  obtain ⟨s, r, o⟩ := s
  obtain ⟨s', r', o'⟩ := t
  simp only [World.key, Prod.mk.injEq] at hk
  obtain ⟨rfl, rfl⟩ := hk
  cases allBytes n.headers with
  | none =>
    have := hp o o' (partialHead n.headers) hr
    refine ⟨rfl, ?_, ?_⟩
    · cases gzip <;> rfl
    · cases gzip
      · simpa using this
      · simpa using this
  | some hs =>
    have := h ⟨s, Rec.mkWarc (b! "WARC/1.0") hs (some n.ctype) (some n.content), o⟩ ⟨s, Rec.mkWarc (b! "WARC/1.0") hs (some n.ctype) (some n.content), o'⟩ rfl hr
    simp only []
    cases hx : World.writeToGzLeft c.enc CRLF ⟨s, Rec.mkWarc (b! "WARC/1.0") hs (some n.ctype) (some n.content), o⟩ <;>
      cases hy : writeAs c gzip ⟨s, Rec.mkWarc (b! "WARC/1.0") hs (some n.ctype) (some n.content), o'⟩ <;>
      simp only [hx, hy, World.key, Prod.mk.injEq] at this ⊢
    · exact ⟨trivial, ⟨this.2.1.1, trivial⟩, this.2.2⟩
    · exact ⟨this.1, ⟨this.2.1.1, trivial⟩, this.2.2⟩

theorem alike_writeNews (c : Codec) (gzip : Bool) (ns : List New) (h : ∀ n, Alike R E xkey xout (writeNewLeft c n) (writeNew c gzip n)) :
    Alike R E xkey xout (writeNewsLeft c ns) (writeNews c gzip ns) := by
  induction ns with
  | nil => exact Alike.pure _
  | cons n ns ih => exact (h n).bind fun _ => ih

theorem alike_handle (hRE : ∀ a b, R a b → E a b) (c : Codec) (g : Cfg) (gzip : Bool)
    (h : Alike R E World.key World.out (World.writeToGzLeft c.enc CRLF) (writeAs c gzip))
    (hp : ∀ a b m, R a b → E (a ++ c.enc m) (if gzip then b else b ++ m)) :
    Alike R E xkey xout (handleLeft c g) (handle c g gzip) :=
  alike_get fun s r o o' st => Alike.ite (alike_onWorld h) ((alike_convert hRE c g).bind fun ns => alike_writeNews c gzip ns fun n => alike_writeNew hRE c gzip n h hp)

theorem alike_loop (hRE : ∀ a b, R a b → E a b) (c : Codec) (g : Cfg) (gzip : Bool)
    (h : Alike R E World.key World.out (World.writeToGzLeft c.enc CRLF) (writeAs c gzip))
    (hp : ∀ a b m, R a b → E (a ++ c.enc m) (if gzip then b else b ++ m)) (k : Nat) :
    Alike R E (fun s : Tool × St => (s.1.strm, s.2)) (fun s => s.1.out) (loopLeft c g k) (loop c g gzip k) := by
  induction k with
  | zero => exact Alike.diverge
  | succ k ih =>
    intro s t hk hr
    obtain ⟨⟨s, o⟩, st⟩ := s
    obtain ⟨⟨s', o'⟩, st'⟩ := t
    simp only [Prod.mk.injEq] at hk hr
    obtain ⟨rfl, rfl⟩ := hk
    have hE := hRE _ _ hr
    simp only [loopLeft, loop]
    cases readRecord false s with
    | hang => trivial
    | raise e u => exact ⟨rfl, rfl, hE⟩
    | ok e u =>
      simp only []
      cases e.rcd with
      | none =>
        by_cases he : e.errors = []
        · simp only [he, if_true]; exact ⟨trivial, trivial, hr⟩
        · simp only [he, if_false]; exact ⟨trivial, trivial, hE⟩
      | some r =>
        have := alike_handle hRE c g gzip h hp (⟨u, r, o⟩, st) (⟨u, r, o'⟩, st) rfl hr
        simp only []
        cases hx : handleLeft c g (⟨u, r, o⟩, st) <;> cases hy : handle c g gzip (⟨u, r, o'⟩, st) <;>
          simp only [hx, hy, xkey, World.key, xout, Prod.mk.injEq] at this ⊢
        · rename_i _ w1 _ w2
          have hh := ih (⟨w1.1.strm, w1.1.out⟩, w1.2) (⟨w2.1.strm, w2.1.out⟩, w2.2) (by simp only [this.2.1.1.1, this.2.1.2]) this.2.2
          simpa using hh
        · exact ⟨this.1, ⟨this.2.1.1.1, this.2.1.2⟩, this.2.2⟩

theorem alike_main (hRE : ∀ a b, R a b → E a b) (c : Codec) (fs : FS) (g : Cfg) (gzip : Bool)
    (h : Alike R E World.key World.out (World.writeToGzLeft c.enc CRLF) (writeAs c gzip))
    (hp : ∀ a b m, R a b → E (a ++ c.enc m) (if gzip then b else b ++ m)) (names : List Bytes) :
    Alike R E (Prod.snd : Bytes × St → St) Prod.fst (mainLeft c fs g names) (main c fs g gzip names) := by
  induction names with
  | nil => exact Alike.pure _
  | cons name names ih =>
    intro s t hk hr
    obtain ⟨o, st⟩ := s
    obtain ⟨o', st'⟩ := t
    simp only at hk hr
    subst hk
    simp only [mainLeft, main]
    cases openName c fs .mixed none name with
    | error e => exact ⟨rfl, rfl, hRE _ _ hr⟩
    | ok u =>
      have := alike_loop hRE c g gzip h hp (u.fh.rest.length + 2) (⟨u, o⟩, st) (⟨u, o'⟩, st) rfl hr
      simp only []
      cases hx : loopLeft c g (u.fh.rest.length + 2) (⟨u, o⟩, st) <;> cases hy : loop c g gzip (u.fh.rest.length + 2) (⟨u, o'⟩, st) <;>
        simp only [hx, hy, Prod.mk.injEq] at this ⊢
      · rename_i _ w1 _ w2
        have hh := ih (w1.1.out, w1.2) (w2.1.out, w2.2) this.2.1.2 this.2.2
        simpa using hh
      · exact ⟨this.1, this.2.1.2, this.2.2⟩

end Arc2Warc
end Warc
