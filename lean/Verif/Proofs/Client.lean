import Verif.Model.HttpClient
import Verif.Proofs.Ends
import Verif.Proofs.Reads
/-
  The HTTP client of the standard library: it always ends.
-/
set_option linter.all false
namespace Warc
open Rx Stream Spec
namespace HttpClient
open World (cfileRemaining cfileRead)

/-- code that always ends and never puts anything back -/
structure Uses {α : Type} (x : M World α) (used : α → Nat) : Prop where
  calm : Calm x
  uses : ∀ w w' a, x w = .ok a w' → cfileRemaining w' + used a ≤ cfileRemaining w

namespace Uses
variable {α β : Type}

theorem pure (a : α) {u : α → Nat} (hu : u a = 0) : Uses (pure a : M World α) u :=
  ⟨Calm.pure a, by intro w w' b h; simp only [M.pure_apply, Res.ok.injEq] at h; obtain ⟨rfl, rfl⟩ := h; omega⟩
theorem throw (e : Exc) {u : α → Nat} : Uses (M.throw e : M World α) u :=
  ⟨Calm.throw e, by intro w w' b h; cases h⟩
theorem get : Uses (M.get : M World World) (fun _ => 0) :=
  ⟨Calm.get, by intro w w' b h; cases h; simp⟩
theorem weaken {x : M World α} {u v : α → Nat} (h : Uses x u) (hv : ∀ a, v a ≤ u a) : Uses x v :=
  ⟨h.calm, fun w w' a ha => by have := h.uses w w' a ha; have := hv a; omega⟩
theorem bind {x : M World α} {f : α → M World β} {u : α → Nat} {v : β → Nat} (hx : Uses x u)
    (hf : ∀ a, Uses (f a) (fun b => v b - u a)) : Uses (x >>= f) v := by
  refine ⟨hx.calm.bind fun a => (hf a).calm, ?_⟩
  intro w w' b h
  rw [M.bind_apply] at h
  cases hq : x w with
  | hang => rw [hq] at h; cases h
  | raise e w1 => rw [hq] at h; cases h
  | ok a w1 =>
    rw [hq] at h
    have h1 := hx.uses _ _ _ hq
    have h2 := (hf a).uses _ _ _ h
    omega
theorem ite {p : Prop} [Decidable p] {x y : M World α} {u : α → Nat} (hx : p → Uses x u) (hy : ¬ p → Uses y u) :
    Uses (if p then x else y) u := by
  by_cases h : p
  · rw [if_pos h]; exact hx h
  · rw [if_neg h]; exact hy h

end Uses

theorem fileReadline_uses (n : Option Int) (f f' : File) (a : Bytes) (h : File.readline n f = .ok a f') :
    f'.rest.length + a.length = f.rest.length := by
  have hp : (File.firstLine f.rest).length ≤ f.rest.length := File.firstLine_length_le _
  have key : ∀ out b, out.length ≤ f.rest.length → File.deliver out b f = .ok a f' → f'.rest.length + a.length = f.rest.length := by
    intro out b ho hd
    unfold File.deliver at hd
    split at hd
    · cases hd
    · simp only [Res.ok.injEq] at hd
      obtain ⟨rfl, rfl⟩ := hd
      simp only [File.rest, File.advance, List.length_drop] at ho ⊢
      omega
  unfold File.readline at h
  simp only at h
  split at h
  · split at h
    · exact key _ _ (by simp; omega) h
    · exact key _ _ hp h
  · exact key _ _ hp h

theorem fpReadline_uses (n : Int) : Uses (fpReadline n) List.length := by
  constructor
  · intro w
    simp only [fpReadline]
    cases hc : w.rcd.cfile with
    | stream =>
      simp only [World.onStream]
      cases hq : Stream.readline (some n) w.strm with
      | hang => exact absurd hq (readline_no_hang _ _)
      | ok a s => simp
      | raise e s => simp
    | file f =>
      simp only
      cases hr : File.readline (some n) f with
      | hang =>
        simp only [File.readline] at hr
        split at hr <;> · unfold File.deliver at hr; split at hr <;> cases hr
      | ok a f' => simp
      | raise e f' => simp
    | none => simp
    | unset => simp
  · intro w w' a h
    simp only [fpReadline] at h
    cases hc : w.rcd.cfile with
    | stream =>
      simp only [hc, World.onStream] at h
      cases hq : Stream.readline (some n) w.strm with
      | hang => simp [hq] at h
      | raise e s => simp [hq] at h
      | ok b s =>
        simp only [hq, Res.ok.injEq] at h
        obtain ⟨rfl, rfl⟩ := h
        obtain ⟨h1, h2⟩ := readline_shape hq
        have := h2.length_le
        simp only [cfileRemaining, hc, h1]
        simp only [File.rest, File.advance, List.length_drop] at this ⊢
        omega
    | file f =>
      simp only [hc] at h
      cases hr : File.readline (some n) f with
      | hang => simp [hr] at h
      | raise e f' => simp [hr] at h
      | ok b f' =>
        simp only [hr, Res.ok.injEq] at h
        obtain ⟨rfl, rfl⟩ := h
        simp only [cfileRemaining, hc]
        have := fileReadline_uses _ _ _ _ hr
        omega
    | none => simp [hc] at h
    | unset => simp [hc] at h

theorem readLine_uses : Uses readLine List.length := by
  unfold readLine
  exact (fpReadline_uses _).bind fun a => .ite (fun _ => .throw _) (fun _ => .pure a (by simp))

theorem readHeaders_uses (k : Nat) : Uses (readHeaders k) (fun _ => 0) := by
  induction k with
  | zero => exact readLine_uses.bind fun a => .throw _
  | succ k ih =>
    exact readLine_uses.bind fun a => .ite (fun _ => .pure _ (by simp)) (fun _ => (ih.bind (v := fun _ => 0) fun ls => .pure _ rfl).weaken (by simp))

theorem readStatus_uses : Uses readStatus (fun _ => 1) := by
  unfold readStatus
  refine readLine_uses.bind fun a => .ite (fun _ => .throw _) (fun ha => ?_)
  have hpos : 0 < a.length := List.length_pos_iff.2 ha
  split
  · refine .ite (fun _ => ?_) (fun _ => .throw _)
    split
    · exact .ite (fun _ => .throw _) (fun _ => .pure _ (by omega))
    · exact .throw _
  · exact .throw _

theorem skipInterim_ends (fuel : Nat) (w : World) (hf : cfileRemaining w < fuel) : skipInterim fuel w ≠ .hang := by
  induction fuel generalizing w with
  | zero => omega
  | succ fuel ih =>
    simp only [skipInterim, M.bind_apply]
    cases hq : readStatus w with
    | hang => exact absurd hq (readStatus_uses.calm _)
    | raise e w1 => simp
    | ok a w1 =>
      have h1 := readStatus_uses.uses _ _ _ hq
      simp only
      split
      · simp only [M.bind_apply]
        cases hr : readHeaders MAXHEADERS w1 with
        | hang => exact absurd hr ((readHeaders_uses _).calm _)
        | raise e w2 => simp
        | ok ls w2 =>
          have h2 := (readHeaders_uses _).uses _ _ _ hr
          exact ih w2 (by omega)
      · simp

theorem skipInterim_less (fuel : Nat) (w w' : World) (a : Bytes × Int) (h : skipInterim fuel w = .ok a w') :
    cfileRemaining w' ≤ cfileRemaining w := by
  induction fuel generalizing w with
  | zero => cases h
  | succ fuel ih =>
    simp only [skipInterim, M.bind_apply] at h
    cases hq : readStatus w with
    | hang => simp [hq] at h
    | raise e w1 => simp [hq] at h
    | ok b w1 =>
      have h1 := readStatus_uses.uses _ _ _ hq
      simp only [hq] at h
      split at h
      · simp only [M.bind_apply] at h
        cases hr : readHeaders MAXHEADERS w1 with
        | hang => simp [hr] at h
        | raise e w2 => simp [hr] at h
        | ok ls w2 =>
          simp only [hr] at h
          have h2 := (readHeaders_uses _).uses _ _ _ hr
          have := ih w2 h
          omega
      · cases h; omega

/-- a loop that is given enough fuel for the file at hand -/
theorem uses_fuel {α : Type} {x : Nat → M World α} {u : α → Nat} (h : ∀ fuel w, cfileRemaining w + 1 < fuel → x fuel w ≠ .hang)
    (hu : ∀ fuel w w' a, x fuel w = .ok a w' → cfileRemaining w' + u a ≤ cfileRemaining w) :
    Uses (do let w ← M.get; x (cfileRemaining w + 2)) u := by
  constructor
  · intro w
    simp only [M.bind_apply, M.get_apply]
    exact h _ _ (by omega)
  · intro w w' a hh
    simp only [M.bind_apply, M.get_apply] at hh
    exact hu _ _ _ _ hh

theorem begin_uses : Uses begin (fun _ => 0) := by
  have : begin = ((do let w ← M.get; skipInterim (cfileRemaining w + 2)) >>= fun s =>
    if s.1 = b! "HTTP/1.0" ∨ s.1 = b! "HTTP/0.9" ∨ startsWith s.1 (b! "HTTP/1.") then do
      let lines ← readHeaders MAXHEADERS
      pure (respOf s.2 (parseFields lines.flatten))
    else M.throw (.httpException "unknown protocol")) := rfl
  rw [this]
  refine (uses_fuel (u := fun _ => 0) (fun f w h => skipInterim_ends f w (by omega)) (fun f w w' a h => skipInterim_less f w w' a h)).bind fun s => ?_
  refine Uses.weaken (u := fun _ => 0) ?_ (by simp)
  exact .ite (fun _ => (readHeaders_uses _).bind (v := fun _ => 0) fun ls => .pure _ rfl) (fun _ => .throw _)

theorem cfileRead_uses' (n : Option Int) : Uses (cfileRead n) List.length :=
  ⟨World.calm_cfileRead n, fun w w' a h => by have := World.cfileRead_uses n w w' a h; omega⟩

theorem safeRead_uses (n : Int) : Uses (safeRead n) List.length := by
  unfold safeRead
  exact (cfileRead_uses' _).bind fun a => .ite (fun _ => .throw _) (fun _ => .pure a (by simp))

theorem nextChunkSize_uses : Uses nextChunkSize (fun _ => 1) := by
  unfold nextChunkSize
  refine readLine_uses.bind fun a => ?_
  split
  · rename_i n hn
    have hpos : 0 < a.length := by
      cases a with
      | nil =>
        have h0 : pyInt 16 (([] : Bytes).takeWhile (· ≠ 59)) = none := by decide
        rw [h0] at hn; cases hn
      | cons c a => simp
    exact .pure _ (by omega)
  · exact .throw _

theorem discardTrailer_ends (fuel : Nat) (w : World) (hf : cfileRemaining w < fuel) : discardTrailer fuel w ≠ .hang := by
  induction fuel generalizing w with
  | zero => omega
  | succ fuel ih =>
    simp only [discardTrailer, M.bind_apply]
    cases hq : readLine w with
    | hang => exact absurd hq (readLine_uses.calm _)
    | raise e w1 => simp
    | ok a w1 =>
      have h1 := readLine_uses.uses _ _ _ hq
      simp only
      split
      · simp
      · rename_i hb
        have : 0 < a.length := by
          cases a with
          | nil => simp [blank] at hb
          | cons c a => simp
        exact ih w1 (by omega)

theorem discardTrailer_less (fuel : Nat) (w w' : World) (a : Unit) (h : discardTrailer fuel w = .ok a w') :
    cfileRemaining w' ≤ cfileRemaining w := by
  induction fuel generalizing w with
  | zero => cases h
  | succ fuel ih =>
    simp only [discardTrailer, M.bind_apply] at h
    cases hq : readLine w with
    | hang => simp [hq] at h
    | raise e w1 => simp [hq] at h
    | ok b w1 =>
      have h1 := readLine_uses.uses _ _ _ hq
      simp only [hq] at h
      split at h
      · cases h; omega
      · have := ih w1 h; omega

theorem newChunk_uses (r : Resp) : Uses (newChunk r) (fun _ => 1) := by
  unfold newChunk
  refine nextChunkSize_uses.bind fun n => .ite (fun _ => ?_) (fun _ => .pure _ (by simp))
  have : Uses (do let w ← M.get; discardTrailer (cfileRemaining w + 2) : M World Unit) (fun _ => 0) :=
    uses_fuel (fun f w h => discardTrailer_ends f w (by omega)) (fun f w w' a h => discardTrailer_less f w w' a h)
  have h2 := this.bind (f := fun _ => (pure (none, { r with opened := false, chunkLeft := none }) : M World (Option Int × Resp)))
    (v := fun _ => 0) (fun _ => .pure _ rfl)
  exact h2.weaken (by simp)

/-- nothing left of a chunk -/
def Between (r : Resp) : Prop := r.chunkLeft = none ∨ r.chunkLeft = some 0

theorem getChunkLeft_uses (r : Resp) : Uses (getChunkLeft r) (fun _ => 0) := by
  unfold getChunkLeft
  split
  · exact .ite (fun _ => .pure _ rfl) (fun _ => (safeRead_uses 2).bind fun _ => (newChunk_uses r).weaken (by simp))
  · exact (newChunk_uses r).weaken (by simp)

theorem getChunkLeft_between (r : Resp) (h : Between r) : Uses (getChunkLeft r) (fun _ => 1) := by
  unfold getChunkLeft
  rcases h with h | h
  · simp only [h]; exact newChunk_uses r
  · simp only [h]
    exact .ite (fun h => absurd rfl h) (fun _ => (safeRead_uses 2).bind fun _ => (newChunk_uses r).weaken (by simp))

theorem readChunked_ends (fuel : Nat) (amt : Int) (value : Bytes) (r : Resp) (w : World)
    (hf : cfileRemaining w + 1 < fuel ∨ Between r ∧ cfileRemaining w < fuel) : readChunked fuel amt value r w ≠ .hang := by
  induction fuel generalizing amt value r w with
  | zero => omega
  | succ fuel ih =>
    simp only [readChunked, M.bind_apply]
    cases hq : getChunkLeft r w with
    | hang => exact absurd hq ((getChunkLeft_uses r).calm _)
    | raise e w1 => simp
    | ok g w1 =>
      have h1 : cfileRemaining w1 < fuel := by
        rcases hf with hf | ⟨hb, hf⟩
        · have := (getChunkLeft_uses r).uses _ _ _ hq; omega
        · have := (getChunkLeft_between r hb).uses _ _ _ hq; omega
      simp only
      cases hg : g.1 with
      | none => simp
      | some n =>
        simp only
        split
        · simp only [M.bind_apply]
          cases hr : safeRead amt w1 with
          | hang => exact absurd hr ((safeRead_uses _).calm _)
          | raise e w2 => simp
          | ok d w2 => simp
        · simp only [M.bind_apply]
          cases hr : safeRead n w1 with
          | hang => exact absurd hr ((safeRead_uses _).calm _)
          | raise e w2 => simp
          | ok d w2 =>
            have := (safeRead_uses _).uses _ _ _ hr
            exact ih _ _ _ w2 (Or.inr ⟨Or.inr rfl, by omega⟩)

theorem readChunked_less (fuel : Nat) (amt : Int) (value : Bytes) (r : Resp) (w w' : World) (a : Bytes × Resp)
    (h : readChunked fuel amt value r w = .ok a w') : cfileRemaining w' + a.1.length ≤ cfileRemaining w + value.length := by
  induction fuel generalizing amt value r w with
  | zero => cases h
  | succ fuel ih =>
    simp only [readChunked, M.bind_apply] at h
    cases hq : getChunkLeft r w with
    | hang => simp [hq] at h
    | raise e w1 => simp [hq] at h
    | ok g w1 =>
      have h1 := (getChunkLeft_uses r).uses _ _ _ hq
      simp only [hq] at h
      cases hg : g.1 with
      | none =>
        simp only [hg, M.pure_apply, Res.ok.injEq] at h
        obtain ⟨rfl, rfl⟩ := h
        simp only; omega
      | some n =>
        simp only [hg] at h
        split at h
        · simp only [M.bind_apply] at h
          cases hr : safeRead amt w1 with
          | hang => simp [hr] at h
          | raise e w2 => simp [hr] at h
          | ok d w2 =>
            have h2 := (safeRead_uses _).uses _ _ _ hr
            simp only [hr, M.pure_apply, Res.ok.injEq] at h
            obtain ⟨rfl, rfl⟩ := h
            simp only [List.length_append]; omega
        · simp only [M.bind_apply] at h
          cases hr : safeRead n w1 with
          | hang => simp [hr] at h
          | raise e w2 => simp [hr] at h
          | ok d w2 =>
            have h2 := (safeRead_uses _).uses _ _ _ hr
            simp only [hr] at h
            have := ih _ _ _ w2 h
            simp only [List.length_append] at this
            omega

theorem read_uses (amt : Int) (r : Resp) : Uses (read amt r) (fun b => b.1.length) := by
  unfold read
  refine .ite (fun _ => .pure _ rfl) (fun _ => .ite (fun _ => ?_) (fun _ => ?_))
  · exact uses_fuel (x := fun f => readChunked f amt [] r) (fun f w h => readChunked_ends f _ _ _ w (Or.inl h))
      (fun f w w' a h => by have := readChunked_less f _ _ _ _ _ _ h; simpa using this)
  · refine (cfileRead_uses' _).bind fun s => .ite (fun _ => .pure _ (by simp)) (fun _ => ?_)
    split
    · exact .pure _ (by simp)
    · exact .pure _ (by simp)

theorem copy_ends (fuel : Nat) (r : Resp) (w : World) (hf : cfileRemaining w < fuel) : copy fuel r w ≠ .hang := by
  induction fuel generalizing r w with
  | zero => omega
  | succ fuel ih =>
    simp only [copy, M.bind_apply]
    cases hq : read 8192 r w with
    | hang => exact absurd hq ((read_uses _ _).calm _)
    | raise e w1 => simp
    | ok b w1 =>
      have h1 := (read_uses _ _).uses _ _ _ hq
      simp only
      split
      · simp
      · rename_i hb
        have : 0 < b.1.length := List.length_pos_iff.2 hb
        simp only [M.bind_apply, World.write, M.modify_apply]
        exact ih b.2 _ (by show cfileRemaining w1 < fuel; omega)

/-- the client always ends -/
theorem calm_dump : Calm dump := by
  unfold dump
  refine begin_uses.calm.bind fun r => ?_
  intro w
  simp only [M.bind_apply, M.get_apply]
  exact copy_ends _ _ _ (by omega)

end HttpClient
end Warc
