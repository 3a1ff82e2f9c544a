import Verif.Model.Open
/-
  Reading never changes the kind of a stream nor the contents of its file.
-/
set_option linter.all false
namespace Warc
open Rx Stream

/-- the parts of a stream that no reading operation changes; with the flag, the parser too -/
def SameSrc (p : Bool) (s s' : Stream) : Prop :=
  s'.kind = s.kind ∧ s'.fh.data = s.fh.data ∧ s'.fh.fault = s.fh.fault ∧ s'.fh.strictNeg = s.fh.strictNeg ∧
  (p = true → s'.parser = s.parser)

theorem SameSrc.refl {p} (s : Stream) : SameSrc p s s := ⟨rfl, rfl, rfl, rfl, fun _ => rfl⟩

theorem SameSrc.trans {p} {a b c : Stream} (h : SameSrc p a b) (k : SameSrc p b c) : SameSrc p a c :=
  ⟨k.1.trans h.1, k.2.1.trans h.2.1, k.2.2.1.trans h.2.2.1, k.2.2.2.1.trans h.2.2.2.1,
   fun hp => (k.2.2.2.2 hp).trans (h.2.2.2.2 hp)⟩

/-- a computation that keeps them, whatever its outcome -/
def Keeps {α : Type} (p : Bool) (x : M Stream α) : Prop :=
  ∀ s, match x s with
    | .ok _ s' => SameSrc p s s'
    | .raise _ s' => SameSrc p s s'
    | .hang => True

theorem Keeps.pure {p : Bool} {α : Type} (a : α) : Keeps p (Pure.pure a : M Stream α) := fun s => SameSrc.refl s

theorem Keeps.throw {p : Bool} {α : Type} (e : Exc) : Keeps p (M.throw e : M Stream α) := fun s => SameSrc.refl s

theorem Keeps.diverge {p : Bool} {α : Type} : Keeps p (M.diverge : M Stream α) := fun s => trivial

theorem Keeps.get {p : Bool} : Keeps p (M.get : M Stream Stream) := fun s => SameSrc.refl s

theorem Keeps.bind {p : Bool} {α β : Type} {x : M Stream α} {f : α → M Stream β} (hx : Keeps p x) (hf : ∀ a, Keeps p (f a)) :
    Keeps p (x >>= f) := by
  intro s
  have h := hx s
  simp only [M.bind_apply]
  cases hxs : x s with
  | hang => trivial
  | raise e s' => simpa only [hxs] using h
  | ok a s' =>
    simp only [hxs] at h ⊢
    have h2 := hf a s'
    cases hfs : f a s' with
    | hang => trivial
    | raise e s'' => simp only [hfs] at h2; exact h.trans h2
    | ok b s'' => simp only [hfs] at h2; exact h.trans h2

theorem Keeps.modify {p : Bool} {g : Stream → Stream} (h : ∀ s, SameSrc p s (g s)) : Keeps p (M.modify g) := fun s => h s

/-- a file operation that keeps the contents -/
def FKeeps {α : Type} (x : M File α) : Prop :=
  ∀ f, match x f with
    | .ok _ f' => f'.data = f.data ∧ f'.fault = f.fault ∧ f'.strictNeg = f.strictNeg
    | .raise _ f' => f'.data = f.data ∧ f'.fault = f.fault ∧ f'.strictNeg = f.strictNeg
    | .hang => True

theorem FKeeps.deliver (o : Bytes) (b : Bool) : FKeeps (File.deliver o b) := by
  intro f
  unfold File.deliver
  split
  · rename_i h
    split at h
    · simp at h
    · simp only [Res.ok.injEq] at h; rw [← h.2]; exact ⟨rfl, rfl, rfl⟩
  · rename_i h
    split at h
    · simp only [Res.raise.injEq] at h; rw [← h.2]; exact ⟨rfl, rfl, rfl⟩
    · simp at h
  · trivial

theorem FKeeps.read (n : Option Int) : FKeeps (File.read n) := by
  intro f
  unfold File.read
  cases n with
  | none => exact FKeeps.deliver _ _ f
  | some n =>
    by_cases h0 : 0 ≤ n
    · simp only [if_pos h0]; exact FKeeps.deliver _ _ f
    · by_cases h1 : n = -1 ∨ f.strictNeg = false
      · simp only [if_neg h0, if_pos h1]; exact FKeeps.deliver _ _ f
      · simp only [if_neg h0, if_neg h1]; simp

theorem FKeeps.readline (n : Option Int) : FKeeps (File.readline n) := by
  intro f
  unfold File.readline
  cases n with
  | none => exact FKeeps.deliver _ _ f
  | some n =>
    by_cases h0 : 0 ≤ n
    · simp only [if_pos h0]; exact FKeeps.deliver _ _ f
    · simp only [if_neg h0]; exact FKeeps.deliver _ _ f

theorem Keeps.onFile {p : Bool} {α : Type} {x : M File α} (h : FKeeps x) : Keeps p (Stream.onFile x) := by
  intro s
  have := h s.fh
  unfold Stream.onFile
  cases hx : x s.fh with
  | hang => trivial
  | raise e f => simp only [hx] at this ⊢; exact ⟨rfl, this.1, this.2.1, this.2.2, fun _ => rfl⟩
  | ok a f => simp only [hx] at this ⊢; exact ⟨rfl, this.1, this.2.1, this.2.2, fun _ => rfl⟩

theorem Keeps.consume {p : Bool} (n : Nat) : Keeps p (Stream.consume n) := Keeps.modify fun s => ⟨rfl, rfl, rfl, rfl, fun _ => rfl⟩

theorem Keeps.rawRead {p : Bool} (n) : Keeps p (Stream.rawRead n) :=
  .bind (.onFile (.read n)) fun _ => .bind (.consume _) fun _ => .pure _

theorem Keeps.read {p : Bool} (n) : Keeps p (Stream.read n) := .bind .get fun _ => .rawRead _

theorem Keeps.readline {p : Bool} (n) : Keeps p (Stream.readline n) :=
  .bind .get fun _ => .bind (.onFile (.readline _)) fun _ => .bind (.consume _) fun _ => .pure _

theorem Keeps.skipLoop {p : Bool} (fuel : Nat) : Keeps p (Stream.skipLoop fuel) := by
  induction fuel with
  | zero => exact .diverge
  | succ fuel ih =>
    unfold Stream.skipLoop
    refine .bind .get fun s => ?_
    cases s.eoc with
    | none => exact .throw _
    | some e =>
      by_cases h : 0 < e
      · simp only [if_pos h]
        refine .bind (.rawRead _) fun b => ?_
        split
        · exact .throw _
        · exact ih
      · simp only [if_neg h]; exact .pure _

theorem Keeps.skipToEoc {p : Bool} : Keeps p Stream.skipToEoc := by
  refine .bind .get fun s => ?_
  cases s.eoc with
  | none => exact .throw _
  | some e => exact .skipLoop _

theorem Keeps.blankLoop {p : Bool} (offs : Bool) (fuel : Nat) : Keeps p (Stream.blankLoop offs fuel) := by
  induction fuel with
  | zero => exact .diverge
  | succ fuel ih =>
    unfold Stream.blankLoop
    refine .bind .get fun s => .bind (.onFile (.readline _)) fun l => ?_
    split
    · exact ih
    · exact .pure _

theorem Keeps.versionLoop {p : Bool} (fuel : Nat) (l es off) : Keeps p (WarcParser.versionLoop fuel l es off) := by
  induction fuel generalizing l es off with
  | zero => exact .diverge
  | succ fuel ih =>
    unfold WarcParser.versionLoop
    split
    · exact .pure _
    · split
      · exact .pure _
      · simp only
        split
        · exact .bind (.readline _) fun _ => ih _ _ _
        · split
          · exact .pure _
          · exact .bind (.readline _) fun _ => ih _ _ _

theorem Keeps.followLoop {p : Bool} (fuel : Nat) (l v es) : Keeps p (WarcParser.followLoop fuel l v es) := by
  induction fuel generalizing l v es with
  | zero => exact .diverge
  | succ fuel ih =>
    unfold WarcParser.followLoop
    split
    · exact .pure _
    · exact .bind (.readline _) fun _ => ih _ _ _

theorem Keeps.headerLoop {p : Bool} (fuel : Nat) (l st) : Keeps p (WarcParser.headerLoop fuel l st) := by
  induction fuel generalizing l st with
  | zero => exact .diverge
  | succ fuel ih =>
    unfold WarcParser.headerLoop
    split
    · exact .pure _
    · split
      · exact ih _ _
      · exact .bind .get fun _ => .bind (.readline _) fun _ => .bind (.followLoop _ _ _ _) fun _ => ih _ _

theorem Keeps.warcParse {p : Bool} (off l) : Keeps p (WarcParser.parse off l) := by
  refine .bind .get fun s => .bind (.versionLoop _ _ _ _) fun v => ?_
  cases v with
  | eof es off => exact .pure _
  | giveUp es off => exact .pure _
  | found mt es off =>
    simp only
    split
    · exact .throw _
    · exact .bind .get fun _ => .bind (.readline _) fun _ => .bind (.headerLoop _ _ _) fun _ =>
        .bind (.modify fun s => ⟨rfl, rfl, rfl, rfl, fun _ => rfl⟩) fun _ => .pure _

theorem Keeps.skipBlank {p : Bool} (fuel : Nat) (l) : Keeps p (ArcParser.skipBlank fuel l) := by
  induction fuel generalizing l with
  | zero => exact .diverge
  | succ fuel ih =>
    unfold ArcParser.skipBlank
    split
    · split
      · exact .pure _
      · exact .bind (.readline _) fun _ => ih _
    · exact .pure _

theorem Keeps.arcParse (st : ArcSt) (set : ArcSt → M Stream Unit) (hset : ∀ st, Keeps false (set st)) (off l) :
    Keeps false (ArcParser.parse st set off l) := by
  refine .bind .get fun s => .bind (.skipBlank _ _) fun l => ?_
  cases l with
  | none => exact .pure _
  | some l =>
    simp only
    split
    · refine .bind (.readline _) fun vl => .bind (.readline _) fun nl => ?_
      split
      · exact .throw _
      · refine .bind (hset _) fun _ => ?_
        split
        · exact .throw _
        · split
          · exact .throw _
          · exact .bind (.modify fun s => ⟨rfl, rfl, rfl, rfl, fun h => by simp at h⟩) fun _ => .pure _
    · split
      · exact .throw _
      · split
        · exact .throw _
        · exact .bind (.modify fun s => ⟨rfl, rfl, rfl, rfl, fun h => by simp at h⟩) fun _ => .pure _

theorem Keeps.mixedParse (st : ArcSt) (set : ArcSt → M Stream Unit) (hset : ∀ st, Keeps false (set st)) (off)
    (fuel : Nat) (l) : Keeps false (MixedParser.parse st set off fuel l) := by
  induction fuel generalizing l with
  | zero => exact .diverge
  | succ fuel ih =>
    unfold MixedParser.parse
    split
    · exact .pure _
    · split
      · exact .warcParse _ _
      · split
        · exact .arcParse _ _ hset _ _
        · exact .bind (.readline _) fun _ => ih _

theorem Keeps.setParser (g : Stream → Parser) : Keeps false (M.modify fun s : Stream => { s with parser := g s }) :=
  .modify fun s => ⟨rfl, rfl, rfl, rfl, fun h => by simp at h⟩

theorem Keeps.parseWith (off l) : Keeps false (Stream.parseWith off l) := by
  unfold Stream.parseWith
  apply Keeps.bind Keeps.get
  intro s
  cases s.parser with
  | warc => exact Keeps.warcParse off l
  | arc st => 
    apply Keeps.arcParse
    intro st'; exact Keeps.setParser fun _ => .arc st'
  | mixed st =>
    apply Keeps.mixedParse
    intro st'; exact Keeps.setParser fun _ => .mixed st'

theorem Keeps.readRecord (offs : Bool) : Keeps false (Stream.readRecord offs) := by
  refine .bind .get fun s => ?_
  have hmod : Keeps false (M.modify fun s : Stream => { s with eoc := none }) := .modify fun s => ⟨rfl, rfl, rfl, rfl, fun h => by simp at h⟩
  have htail : ∀ s : Stream, Keeps false (match s.kind with
        | Kind.plain => do
          let (offset, line) ← Stream.blankLoop offs (List.length s.fh.rest + 2)
          let (r, errors, offset) ← Stream.parseWith offset line
          Pure.pure (⟨offset, r, errors⟩ : Entry)
        | Kind.gzipRecord => do
          let (_, line) ← Stream.blankLoop false (List.length s.fh.rest + 2)
          let (r, errors, _) ← Stream.parseWith none line
          Pure.pure (⟨none, r, errors⟩ : Entry)
        | Kind.gzipFile => do
          let (_, line) ← Stream.blankLoop false (List.length s.fh.rest + 2)
          let _ ← Stream.parseWith none line
          M.throw Exc.nameError) := by
    intro s
    cases s.kind with
    | plain => exact .bind (.blankLoop _ _) fun _ => .bind (.parseWith _ _) fun _ => .pure _
    | gzipRecord => exact .bind (.blankLoop _ _) fun _ => .bind (.parseWith _ _) fun _ => .pure _
    | gzipFile => exact .bind (.blankLoop _ _) fun _ => .bind (.parseWith _ _) fun _ => .throw _
  cases s.eoc with
  | none => exact .bind hmod fun _ => .bind .get fun s => htail s
  | some e => exact .bind .skipToEoc fun _ => .bind hmod fun _ => .bind .get fun s => htail s

theorem readRecord_same (offs : Bool) {s s' : Stream} {e} (h : Stream.readRecord offs s = .ok e s') : SameSrc false s s' := by
  have := Keeps.readRecord offs s
  rw [h] at this; exact this

end Warc
