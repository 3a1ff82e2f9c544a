import Verif.Proofs.ClientBody
/-
  The HTTP client sees nothing but the payload of the record.
-/
set_option linter.all false
namespace Warc
open Rx Stream Spec Http
namespace HttpClient
open World (cfileRemaining cfileRead)

/-- `x` raises and writes nothing -/
def Stops {α : Type} (x : M World α) (b : Bytes) : Prop := ∀ w, At w b → ∃ e w', x w = .raise e w' ∧ w'.out = w.out

/-- what `x` does is settled by the bytes in front of it; it consumes at least `u` of them -/
def Settled {α : Type} (x : M World α) (b : Bytes) (u : α → Nat) : Prop :=
  (∃ a b', Reads x b a b' ∧ b'.length + u a ≤ b.length ∧ b' <:+ b) ∨ Stops x b

namespace Settled
variable {α β : Type}

theorem pure (a : α) (b : Bytes) {u : α → Nat} (hu : u a = 0) : Settled (pure a : M World α) b u := Or.inl ⟨a, b, .pure a b, by omega, List.suffix_refl b⟩
theorem throw (e : Exc) (b : Bytes) {u : α → Nat} : Settled (M.throw e : M World α) b u := Or.inr fun w h => ⟨e, w, rfl, rfl⟩
theorem bind {x : M World α} {f : α → M World β} {b : Bytes} {u : α → Nat} {v : β → Nat} (hx : Settled x b u)
    (hf : ∀ a b', b'.length + u a ≤ b.length → Settled (f a) b' (fun y => v y - u a)) : Settled (x >>= f) b v := by
  rcases hx with ⟨a, b', h1, h2, h3⟩ | h1
  · rcases hf a b' h2 with ⟨y, b'', k1, k2, k3⟩ | k1
    · exact Or.inl ⟨y, b'', h1.bind k1, by simp only at k2; omega, k3.trans h3⟩
    · refine Or.inr fun w hw => ?_
      obtain ⟨w1, e1, e2, e3⟩ := h1 w hw
      obtain ⟨e, w2, e4, e5⟩ := k1 w1 e2
      exact ⟨e, w2, by rw [M.bind_apply, e1]; exact e4, by rw [e5, e3]⟩
  · refine Or.inr fun w hw => ?_
    obtain ⟨e, w1, e1, e2⟩ := h1 w hw
    exact ⟨e, w1, by rw [M.bind_apply, e1], e2⟩
theorem weaken {x : M World α} {b : Bytes} {u v : α → Nat} (h : Settled x b u) (hv : ∀ a, v a ≤ u a) : Settled x b v := by
  rcases h with ⟨a, b', h1, h2, h3⟩ | h
  · exact Or.inl ⟨a, b', h1, by have := hv a; omega, h3⟩
  · exact Or.inr h
theorem ite {p : Prop} [Decidable p] {x y : M World α} {b : Bytes} {u : α → Nat} (hx : p → Settled x b u) (hy : ¬ p → Settled y b u) :
    Settled (if p then x else y) b u := by
  by_cases h : p
  · rw [if_pos h]; exact hx h
  · rw [if_neg h]; exact hy h

end Settled

theorem cfileRead_settled (n : Int) (hn : 0 ≤ n) (b : Bytes) : Settled (cfileRead (some n)) b List.length := by
  obtain ⟨k, rfl⟩ := Int.eq_ofNat_of_zero_le hn
  exact Or.inl ⟨_, _, read_at k b, by simp only [List.length_drop, List.length_take]; omega, List.drop_suffix _ _⟩

theorem fpReadline_settled (n : Nat) (b : Bytes) : Settled (fpReadline (n : Int)) b List.length := by
  refine Or.inl ⟨_, _, fpReadline_at n b, ?_, List.drop_suffix _ _⟩
  have : ((lineOf b).take n).length ≤ b.length := by
    have := result_length_le (.readline (some n)) b
    exact this
  simp only [List.length_drop]; omega

theorem readLine_settled (b : Bytes) : Settled readLine b List.length := by
  unfold readLine
  exact (fpReadline_settled (MAXLINE + 1) b).bind fun a b' _ => .ite (fun _ => .throw _ _) (fun _ => .pure a b' (by simp))

theorem readHeaders_settled (k : Nat) (b : Bytes) : Settled (readHeaders k) b (fun _ => 0) := by
  induction k generalizing b with
  | zero => exact (readLine_settled b).bind fun a b' _ => .throw _ _
  | succ k ih =>
    exact (readLine_settled b).bind fun a b' _ => .ite (fun _ => .pure _ _ (by simp))
      (fun _ => ((ih b').bind (v := fun _ => 0) fun ls b'' _ => .pure _ _ rfl).weaken (by simp))

theorem readStatus_settled (b : Bytes) : Settled readStatus b (fun _ => 1) := by
  unfold readStatus
  refine (readLine_settled b).bind fun a b' _ => .ite (fun _ => .throw _ _) (fun ha => ?_)
  have hpos : 0 < a.length := List.length_pos_iff.2 ha
  split
  · refine .ite (fun _ => ?_) (fun _ => .throw _ _)
    split
    · exact .ite (fun _ => .throw _ _) (fun _ => .pure _ _ (by omega))
    · exact .throw _ _
  · exact .throw _ _

/-- the same for code whose fuel depends on the file: any fuel above `b.length + 1` gives the same -/
def SettledBy {α : Type} (x : Nat → M World α) (b : Bytes) (u : α → Nat) : Prop :=
  (∃ a b', (∀ fuel, b.length + 1 < fuel → Reads (x fuel) b a b') ∧ b'.length + u a ≤ b.length ∧ b' <:+ b) ∨ ∀ fuel, b.length + 1 < fuel → Stops (x fuel) b

theorem SettledBy.run {α : Type} {x : Nat → M World α} {b : Bytes} {u : α → Nat} (h : SettledBy x b u) :
    Settled (do let w ← M.get; x (cfileRemaining w + 2)) b u := by
  rcases h with ⟨a, b', h1, h2, h3⟩ | h
  · refine Or.inl ⟨a, b', fun w hw => ?_, h2, h3⟩
    exact h1 (cfileRemaining w + 2) (by have := hw.remaining; omega) w hw
  · refine Or.inr fun w hw => ?_
    exact h (cfileRemaining w + 2) (by have := hw.remaining; omega) w hw

theorem skipInterim_settled (b : Bytes) : SettledBy skipInterim b (fun _ => 0) := by
  suffices h : ∀ n b, b.length ≤ n → ((∃ a b', (∀ fuel, b.length < fuel → Reads (skipInterim fuel) b a b') ∧ b'.length ≤ b.length ∧ b' <:+ b) ∨
      ∀ fuel, b.length < fuel → Stops (skipInterim fuel) b) by
    rcases h _ b (Nat.le_refl _) with ⟨a, b', h1, h2, h3⟩ | h1
    · exact Or.inl ⟨a, b', fun f hf => h1 f (by omega), by simpa using h2, h3⟩
    · exact Or.inr fun f hf => h1 f (by omega)
  intro n
  induction n with
  | zero =>
    intro b hb
    have : b = [] := List.length_eq_zero_iff.1 (by omega)
    subst this
    rcases readStatus_settled [] with ⟨a, b', h1, h2⟩ | h1
    · simp at h2
    · refine Or.inr fun f hf => ?_
      obtain ⟨f, rfl⟩ : ∃ k, f = k + 1 := ⟨f - 1, by simp at hf; omega⟩
      intro w hw
      obtain ⟨e, w1, e1, e2⟩ := h1 w hw
      exact ⟨e, w1, by simp only [skipInterim, M.bind_apply, e1], e2⟩
  | succ n ih =>
    intro b hb
    rcases readStatus_settled b with ⟨s, b1, h1, h2, h3⟩ | h1
    · by_cases hs : s.2 = 100
      · rcases readHeaders_settled MAXHEADERS b1 with ⟨ls, b2, k1, k2, k3⟩ | k1
        · simp only at h2 k2
          have hstep : ∀ f, skipInterim (f + 1) = (readStatus >>= fun s => if s.2 = 100 then (readHeaders MAXHEADERS >>= fun _ => skipInterim f) else pure s) := fun f => rfl
          rcases ih b2 (by omega) with ⟨a, b', l1, l2, l3⟩ | l1
          · refine Or.inl ⟨a, b', fun f hf => ?_, by omega, (l3.trans k3).trans h3⟩
            obtain ⟨f, rfl⟩ : ∃ k, f = k + 1 := ⟨f - 1, by omega⟩
            rw [hstep]
            refine h1.bind ?_
            rw [if_pos hs]
            exact k1.bind (l1 f (by omega))
          · refine Or.inr fun f hf => ?_
            obtain ⟨f, rfl⟩ : ∃ k, f = k + 1 := ⟨f - 1, by omega⟩
            intro w hw
            obtain ⟨w1, e1, e2, e3⟩ := h1 w hw
            obtain ⟨w2, e4, e5, e6⟩ := k1 w1 e2
            obtain ⟨e, w3, e7, e8⟩ := l1 f (by omega) w2 e5
            refine ⟨e, w3, ?_, by rw [e8, e6, e3]⟩
            rw [hstep, M.bind_apply, e1]; simp only [if_pos hs, M.bind_apply, e4]; exact e7
        · refine Or.inr fun f hf => ?_
          obtain ⟨f, rfl⟩ : ∃ k, f = k + 1 := ⟨f - 1, by omega⟩
          intro w hw
          obtain ⟨w1, e1, e2, e3⟩ := h1 w hw
          obtain ⟨e, w2, e4, e5⟩ := k1 w1 e2
          refine ⟨e, w2, ?_, by rw [e5, e3]⟩
          simp only [skipInterim, M.bind_apply, e1, if_pos hs, e4]
      · refine Or.inl ⟨s, b1, fun f hf => ?_, by simp at h2; omega, h3⟩
        obtain ⟨f, rfl⟩ : ∃ k, f = k + 1 := ⟨f - 1, by omega⟩
        refine h1.bind ?_
        rw [if_neg hs]
        exact .pure _ _
    · refine Or.inr fun f hf => ?_
      obtain ⟨f, rfl⟩ : ∃ k, f = k + 1 := ⟨f - 1, by omega⟩
      intro w hw
      obtain ⟨e, w1, e1, e2⟩ := h1 w hw
      exact ⟨e, w1, by simp only [skipInterim, M.bind_apply, e1], e2⟩

theorem begin_settled (b : Bytes) : Settled begin b (fun _ => 0) := by
  have : begin = ((do let w ← M.get; skipInterim (cfileRemaining w + 2)) >>= fun s =>
    if s.1 = b! "HTTP/1.0" ∨ s.1 = b! "HTTP/0.9" ∨ startsWith s.1 (b! "HTTP/1.") then do
      let lines ← readHeaders MAXHEADERS
      pure (respOf s.2 (parseFields lines.flatten))
    else M.throw (.httpException "unknown protocol")) := rfl
  rw [this]
  refine (skipInterim_settled b).run.bind fun s b1 _ => ?_
  refine Settled.weaken (u := fun _ => 0) ?_ (by simp)
  exact .ite (fun _ => (readHeaders_settled _ _).bind (v := fun _ => 0) fun ls b2 _ => .pure _ _ rfl) (fun _ => .throw _ _)

theorem discardTrailer_settled (b : Bytes) : SettledBy discardTrailer b (fun _ => 0) := by
  suffices h : ∀ n b, b.length ≤ n → ((∃ a b', (∀ fuel, b.length < fuel → Reads (discardTrailer fuel) b a b') ∧ b'.length ≤ b.length ∧ b' <:+ b) ∨
      ∀ fuel, b.length < fuel → Stops (discardTrailer fuel) b) by
    rcases h _ b (Nat.le_refl _) with ⟨a, b', h1, h2, h3⟩ | h1
    · exact Or.inl ⟨a, b', fun f hf => h1 f (by omega), by simpa using h2, h3⟩
    · exact Or.inr fun f hf => h1 f (by omega)
  intro n
  induction n with
  | zero =>
    intro b hb
    have : b = [] := List.length_eq_zero_iff.1 (by omega)
    subst this
    refine Or.inl ⟨(), [], fun f hf => ?_, Nat.le_refl _, List.suffix_refl _⟩
    obtain ⟨f, rfl⟩ : ∃ k, f = k + 1 := ⟨f - 1, by simp at hf; omega⟩
    exact readLine_end.bind (by rw [if_pos (by decide)]; exact .pure _ _)
  | succ n ih =>
    intro b hb
    rcases readLine_settled b with ⟨l, b1, h1, h2, h3⟩ | h1
    · by_cases hbl : blank l = true
      · refine Or.inl ⟨(), b1, fun f hf => ?_, by omega, h3⟩
        obtain ⟨f, rfl⟩ : ∃ k, f = k + 1 := ⟨f - 1, by omega⟩
        exact h1.bind (by rw [if_pos hbl]; exact .pure _ _)
      · have hpos : 0 < l.length := by
          cases l with
          | nil => simp [blank] at hbl
          | cons c a => simp
        rcases ih b1 (by omega) with ⟨a, b', l1, l2, l3⟩ | l1
        · refine Or.inl ⟨a, b', fun f hf => ?_, by omega, l3.trans h3⟩
          obtain ⟨f, rfl⟩ : ∃ k, f = k + 1 := ⟨f - 1, by omega⟩
          exact h1.bind (by rw [if_neg hbl]; exact l1 f (by omega))
        · refine Or.inr fun f hf => ?_
          obtain ⟨f, rfl⟩ : ∃ k, f = k + 1 := ⟨f - 1, by omega⟩
          intro w hw
          obtain ⟨w1, e1, e2, e3⟩ := h1 w hw
          obtain ⟨e, w2, e4, e5⟩ := l1 f (by omega) w1 e2
          refine ⟨e, w2, ?_, by rw [e5, e3]⟩
          simp only [discardTrailer, M.bind_apply, e1, if_neg hbl]; exact e4
    · refine Or.inr fun f hf => ?_
      obtain ⟨f, rfl⟩ : ∃ k, f = k + 1 := ⟨f - 1, by omega⟩
      intro w hw
      obtain ⟨e, w1, e1, e2⟩ := h1 w hw
      exact ⟨e, w1, by simp only [discardTrailer, M.bind_apply, e1], e2⟩

theorem safeRead_settled (n : Int) (hn : 0 ≤ n) (b : Bytes) : Settled (safeRead n) b List.length := by
  unfold safeRead
  exact (cfileRead_settled n hn b).bind fun a b' _ => .ite (fun _ => .throw _ _) (fun _ => .pure a b' (by simp))

/-- what is read is what comes next -/
theorem safeRead_takes (n : Int) (hn : 0 ≤ n) (b : Bytes) : (∃ a b', Reads (safeRead n) b a b' ∧ a ++ b' = b) ∨ Stops (safeRead n) b := by
  obtain ⟨k, rfl⟩ := Int.eq_ofNat_of_zero_le hn
  by_cases h : k ≤ b.length
  · exact Or.inl ⟨_, _, safeRead_at k b h, List.take_append_drop k b⟩
  · right
    intro w hw
    obtain ⟨w1, e1, e2, e3⟩ := read_at k b w hw
    refine ⟨.httpException "incomplete read", w1, ?_, e3⟩
    simp only [safeRead, M.bind_apply, e1]
    rw [if_pos (by simp only [List.length_take]; omega)]; rfl

theorem nextChunkSize_settled (b : Bytes) : Settled nextChunkSize b (fun _ => 1) := by
  unfold nextChunkSize
  refine (readLine_settled b).bind fun a b' _ => ?_
  split
  · rename_i n hn
    have hpos : 0 < a.length := by
      cases a with
      | nil =>
        have h0 : pyInt 16 (([] : Bytes).takeWhile (· ≠ 59)) = none := by decide
        rw [h0] at hn; cases hn
      | cons c a => simp
    exact .pure _ _ (by omega)
  · exact .throw _ _

theorem newChunk_settled (r : Resp) (b : Bytes) : Settled (newChunk r) b (fun _ => 1) := by
  unfold newChunk
  refine (nextChunkSize_settled b).bind fun n b1 _ => .ite (fun _ => ?_) (fun _ => .pure _ _ (by simp))
  have h2 := (discardTrailer_settled b1).run.bind (f := fun _ => (pure (none, { r with opened := false, chunkLeft := none }) : M World (Option Int × Resp)))
    (v := fun _ => 0) (fun _ b2 _ => .pure _ _ rfl)
  exact h2.weaken (by simp)

theorem getChunkLeft_settled (r : Resp) (b : Bytes) : Settled (getChunkLeft r) b (fun _ => 0) := by
  unfold getChunkLeft
  split
  · exact .ite (fun _ => .pure _ _ rfl) (fun _ => (safeRead_settled 2 (by omega) b).bind fun _ b1 _ => (newChunk_settled r b1).weaken (by simp))
  · exact (newChunk_settled r b).weaken (by simp)

theorem getChunkLeft_fewer (r : Resp) (h : Between r) (b : Bytes) : Settled (getChunkLeft r) b (fun _ => 1) := by
  unfold getChunkLeft
  rcases h with h | h
  · simp only [h]; exact newChunk_settled r b
  · simp only [h]
    exact .ite (fun h => absurd rfl h) (fun _ => (safeRead_settled 2 (by omega) b).bind fun _ b1 _ => (newChunk_settled r b1).weaken (by simp))

/-! ### a negative chunk size -/

theorem file_negative (n : Int) (hn : n < 0) (f : File) :
    (∃ f', File.read (some n) f = .ok f.rest f' ∧ f'.rest = []) ∨ ∃ e f', File.read (some n) f = .raise e f' := by
  simp only [File.read]
  rw [if_neg (by omega)]
  by_cases h : n = -1 ∨ f.strictNeg = false
  · rw [if_pos h]
    unfold File.deliver
    cases hf : f.fault with
    | none => exact Or.inl ⟨_, rfl, by simp [File.rest, File.advance]; omega⟩
    | some e => exact Or.inr ⟨_, _, rfl⟩
  · rw [if_neg h]; exact Or.inr ⟨_, _, rfl⟩

theorem file_end (n : Int) (f : File) (h : f.rest = []) :
    (∃ f', File.read (some n) f = .ok [] f') ∨ ∃ e f', File.read (some n) f = .raise e f' := by
  simp only [File.read]
  by_cases h0 : 0 ≤ n
  · rw [if_pos h0, h]
    unfold File.deliver
    simp only [List.take_nil]
    cases hf : f.fault with
    | none => simp
    | some e =>
      cases decide (([] : Bytes).length < n.toNat) with
      | true => exact Or.inr ⟨_, _, rfl⟩
      | false => exact Or.inl ⟨_, rfl⟩
  · rcases file_negative n (by omega) f with ⟨f', h1, h2⟩ | h1
    · left; refine ⟨f', ?_⟩
      rw [h] at h1
      simpa only [File.read] using h1
    · right; simpa only [File.read] using h1

/-- after a negative chunk size nothing comes but an exception -/
theorem negative_stops (n : Int) (hn : n < 0) (b : Bytes) (fuel : Nat) (amt : Int) (value : Bytes → Bytes) (r : Resp) (hr : r.chunkLeft = some 0) :
    Stops (safeRead n >>= fun d => readChunked (fuel + 1) amt (value d) r) b := by
  intro w hw
  have hread : cfileRead (some n) w = World.onStream (Stream.read (some n)) w := by simp only [cfileRead, hw.cfile]
  have hlim : limitOf w.strm.eoc (some n) = some n := by
    simp only [hw.eoc, limitOf]
    congr 1
    omega
  rcases file_negative n hn w.strm.fh with ⟨f', h1, h2⟩ | ⟨e, f', h1⟩
  · have e1 : cfileRead (some n) w = .ok w.strm.fh.rest
        { w with strm := { w.strm with fh := f', eoc := w.strm.eoc.map (· - (w.strm.fh.rest.length : Int)) } } := by
      rw [hread]
      simp only [World.onStream, Stream.read, M.bind_apply, M.get_apply, hlim, Stream.rawRead, Stream.onFile, h1, Stream.consume, M.modify_apply, M.pure_apply]
    have e2 : safeRead n w = .ok w.strm.fh.rest
        { w with strm := { w.strm with fh := f', eoc := w.strm.eoc.map (· - (w.strm.fh.rest.length : Int)) } } := by
      simp only [safeRead, M.bind_apply, e1]
      rw [if_neg (by omega)]; rfl
    generalize hw1 : ({ w with strm := { w.strm with fh := f', eoc := w.strm.eoc.map (· - (w.strm.fh.rest.length : Int)) } } : World) = w1 at e2
    have hc1 : w1.rcd.cfile = .stream := by rw [← hw1]; exact hw.cfile
    have hf1 : w1.strm.fh = f' := by rw [← hw1]
    have ho1 : w1.out = w.out := by rw [← hw1]
    have hread1 : cfileRead (some 2) w1 = World.onStream (Stream.read (some 2)) w1 := by simp only [cfileRead, hc1]
    have key : ∃ e w2, safeRead 2 w1 = .raise e w2 ∧ w2.out = w.out := by
      obtain ⟨k, hk⟩ : ∃ k, limitOf w1.strm.eoc (some 2) = some k := by
        rw [← hw1]; simp only [hw.eoc, limitOf, Option.map_some]; exact ⟨_, rfl⟩
      rcases file_end k w1.strm.fh (by rw [hf1]; exact h2) with ⟨f2, q⟩ | ⟨e, f2, q⟩
      · have e3 : ∃ w2, cfileRead (some 2) w1 = .ok [] w2 ∧ w2.out = w1.out := by
          rw [hread1]
          simp only [World.onStream, Stream.read, M.bind_apply, M.get_apply, hk, Stream.rawRead, Stream.onFile, q, Stream.consume, M.modify_apply, M.pure_apply]
          exact ⟨_, rfl, rfl⟩
        obtain ⟨w2, e3, e4⟩ := e3
        refine ⟨.httpException "incomplete read", w2, ?_, by rw [e4, ho1]⟩
        simp only [safeRead, M.bind_apply, e3]
        rw [if_pos (by simp)]; rfl
      · have e3 : ∃ w2, cfileRead (some 2) w1 = .raise e w2 ∧ w2.out = w1.out := by
          rw [hread1]
          simp only [World.onStream, Stream.read, M.bind_apply, M.get_apply, hk, Stream.rawRead, Stream.onFile, q]
          exact ⟨_, rfl, rfl⟩
        obtain ⟨w2, e3, e4⟩ := e3
        exact ⟨e, w2, by simp only [safeRead, M.bind_apply, e3], by rw [e4, ho1]⟩
    obtain ⟨e, w2, k1, k2⟩ := key
    refine ⟨e, w2, ?_, k2⟩
    simp only [M.bind_apply, e2, readChunked, getChunkLeft, hr]
    rw [if_neg (by simp)]
    simp only [M.bind_apply, k1]
  · refine ⟨e, { w with strm := { w.strm with fh := f' } }, ?_, rfl⟩
    simp only [M.bind_apply, safeRead, hread, World.onStream, Stream.read, M.get_apply, hlim, Stream.rawRead, Stream.onFile, h1]

/-! ### `read` -/

/-- with fuel above `m` the outcome of the chunk loop is settled -/
def Good (m : Nat) (b : Bytes) (amt : Int) (value : Bytes) (r : Resp) : Prop :=
  (∃ (a : Bytes × Resp) (b' : Bytes), (∀ fuel, m < fuel → Reads (readChunked fuel amt value r) b a b') ∧ ∃ e, a.1 = value ++ e ∧ (e ++ b').Sublist b) ∨
    ∀ fuel, m < fuel → Stops (readChunked fuel amt value r) b

theorem stops_of {α β : Type} {x : M World α} {f : α → M World β} {b b' : Bytes} {a : α} (hx : Reads x b a b') (hf : Stops (f a) b') : Stops (x >>= f) b := by
  intro w hw
  obtain ⟨w1, e1, e2, e3⟩ := hx w hw
  obtain ⟨e, w2, e4, e5⟩ := hf w1 e2
  exact ⟨e, w2, by rw [M.bind_apply, e1]; exact e4, by rw [e5, e3]⟩
theorem stops_first {α β : Type} {x : M World α} {f : α → M World β} {b : Bytes} (hx : Stops x b) : Stops (x >>= f) b := by
  intro w hw
  obtain ⟨e, w1, e1, e2⟩ := hx w hw
  exact ⟨e, w1, by rw [M.bind_apply, e1], e2⟩

/-- one round of the chunk loop, once the chunk is known -/
def afterChunk (fuel : Nat) (amt : Int) (value : Bytes) (g : Option Int × Resp) : M World (Bytes × Resp) :=
  match g.1 with
  | none => pure (value, g.2)
  | some n =>
    if amt ≤ n then do
      let data ← safeRead amt
      pure (value ++ data, { g.2 with chunkLeft := some (n - amt) })
    else do
      let data ← safeRead n
      readChunked fuel (amt - n) (value ++ data) { g.2 with chunkLeft := some 0 }

theorem readChunked_succ (fuel : Nat) (amt : Int) (value : Bytes) (r : Resp) :
    readChunked (fuel + 1) amt value r = getChunkLeft r >>= afterChunk fuel amt value := rfl

theorem good_step (u : Nat) (b : Bytes) (amt : Int) (hamt : 0 < amt) (value : Bytes) (r : Resp) (hs : Settled (getChunkLeft r) b (fun _ => u)) (hu : u ≤ 1)
    (H : ∀ b1 amt1 value1 r1, 0 < amt1 → Between r1 → b1.length + u ≤ b.length → Good b1.length b1 amt1 value1 r1) :
    Good (b.length + 1 - u) b amt value r := by
  rcases hs with ⟨g, b1, h1, h2, h3⟩ | h1
  · simp only at h2
    -- the rest of the round
    suffices h : (∃ (a : Bytes × Resp) (b' : Bytes), (∀ fuel, b.length - u < fuel → Reads (afterChunk fuel amt value g) b1 a b') ∧ ∃ e, a.1 = value ++ e ∧ (e ++ b').Sublist b1) ∨
        ∀ fuel, b.length - u < fuel → Stops (afterChunk fuel amt value g) b1 by
      rcases h with ⟨a, b', k1, e, k2, k3⟩ | k1
      · refine Or.inl ⟨a, b', fun f hf => ?_, e, k2, k3.trans h3.sublist⟩
        obtain ⟨f, rfl⟩ : ∃ k, f = k + 1 := ⟨f - 1, by omega⟩
        rw [readChunked_succ]
        exact h1.bind (k1 f (by omega))
      · refine Or.inr fun f hf => ?_
        obtain ⟨f, rfl⟩ : ∃ k, f = k + 1 := ⟨f - 1, by omega⟩
        rw [readChunked_succ]
        exact stops_of h1 (k1 f (by omega))
    cases hg : g.1 with
    | none =>
      refine Or.inl ⟨(value, g.2), b1, fun f hf => ?_, [], by simp, List.Sublist.refl _⟩
      simp only [afterChunk, hg]
      exact .pure _ _
    | some n =>
      by_cases ha : amt ≤ n
      · rcases safeRead_takes amt (by omega) b1 with ⟨d, b2, k1, k2⟩ | k1
        · refine Or.inl ⟨(value ++ d, { g.2 with chunkLeft := some (n - amt) }), b2, fun f hf => ?_, d, rfl, by rw [k2]; exact List.Sublist.refl _⟩
          simp only [afterChunk, hg, if_pos ha]
          exact k1.bind (.pure _ _)
        · refine Or.inr fun f hf => ?_
          simp only [afterChunk, hg, if_pos ha]
          exact stops_first k1
      · by_cases hn : 0 ≤ n
        · rcases safeRead_takes n hn b1 with ⟨d, b2, k1, k2⟩ | k1
          · have hlen : d.length + b2.length = b1.length := by rw [← k2]; simp
            rcases H b2 (amt - n) (value ++ d) { g.2 with chunkLeft := some 0 } (by omega) (Or.inr rfl) (by omega) with ⟨a, b', l1, e, l2, l3⟩ | l1
            · refine Or.inl ⟨a, b', fun f hf => ?_, d ++ e, by rw [l2, List.append_assoc], by
                rw [List.append_assoc, ← k2]; exact List.Sublist.append (List.Sublist.refl d) l3⟩
              simp only [afterChunk, hg, if_neg ha]
              exact k1.bind (l1 f (by omega))
            · refine Or.inr fun f hf => ?_
              simp only [afterChunk, hg, if_neg ha]
              exact stops_of k1 (l1 f (by omega))
          · refine Or.inr fun f hf => ?_
            simp only [afterChunk, hg, if_neg ha]
            exact stops_first k1
        · refine Or.inr fun f hf => ?_
          obtain ⟨f, rfl⟩ : ∃ k, f = k + 1 := ⟨f - 1, by omega⟩
          simp only [afterChunk, hg, if_neg ha]
          exact negative_stops n (by omega) b1 f (amt - n) (fun d => value ++ d) _ rfl
  · refine Or.inr fun f hf => ?_
    obtain ⟨f, rfl⟩ : ∃ k, f = k + 1 := ⟨f - 1, by omega⟩
    rw [readChunked_succ]
    exact stops_first h1

theorem good_between (N : Nat) (b : Bytes) (hN : b.length ≤ N) (amt : Int) (hamt : 0 < amt) (value : Bytes) (r : Resp) (hr : Between r) :
    Good b.length b amt value r := by
  induction N generalizing b amt value r with
  | zero =>
    exact good_step 1 b amt hamt value r (getChunkLeft_fewer r hr b) (Nat.le_refl _) (fun b1 _ _ _ _ _ h => absurd h (by omega))
  | succ N ih =>
    exact good_step 1 b amt hamt value r (getChunkLeft_fewer r hr b) (Nat.le_refl _)
      (fun b1 amt1 v1 r1 q1 q2 h => ih b1 (by omega) amt1 q1 v1 r1 q2)

theorem good_any (b : Bytes) (amt : Int) (hamt : 0 < amt) (value : Bytes) (r : Resp) : Good (b.length + 1) b amt value r :=
  good_step 0 b amt hamt value r (getChunkLeft_settled r b) (by omega) (fun b1 amt1 v1 r1 q1 q2 _ => good_between _ b1 (Nat.le_refl _) amt1 q1 v1 r1 q2)

/-- no negative length -/
def Fine (r : Resp) : Prop := ∀ n, r.length = some n → 0 ≤ n

theorem clip_nonneg {r : Resp} (h : Fine r) (amt : Int) (ha : 0 ≤ amt) : 0 ≤ clip amt r.length := by
  cases hl : r.length with
  | none => exact ha
  | some n =>
    have := h n hl
    simp only [clip]; split <;> omega

/-- `read`: what it gives comes from what is in front, in the same order -/
theorem read_settled (amt : Int) (hamt : 0 < amt) (r : Resp) (hr : Fine r) (b : Bytes) :
    (∃ a b', Reads (read amt r) b a b' ∧ (a.1 ++ b').Sublist b) ∨ Stops (read amt r) b := by
  unfold read
  by_cases ho : r.opened = false
  · rw [if_pos ho]
    exact Or.inl ⟨_, _, .pure _ _, List.Sublist.refl _⟩
  · rw [if_neg ho]
    by_cases hc : r.chunked = true
    · rw [if_pos hc]
      rcases good_any b amt hamt [] r with ⟨a, b', h1, e, h2, h3⟩ | h1
      · left
        refine ⟨a, b', fun w hw => ?_, by rw [h2]; exact h3⟩
        exact h1 (cfileRemaining w + 2) (by have := hw.remaining; omega) w hw
      · right
        intro w hw
        exact h1 (cfileRemaining w + 2) (by have := hw.remaining; omega) w hw
    · rw [if_neg hc]
      obtain ⟨k, hk⟩ := Int.eq_ofNat_of_zero_le (clip_nonneg hr amt (by omega))
      have h := read_at k b
      have hsub : (b.take k ++ b.drop k).Sublist b := by rw [List.take_append_drop]; exact List.Sublist.refl _
      left
      simp only [hk]
      by_cases hs : b.take k = [] ∧ (k : Int) ≠ 0
      · exact ⟨(b.take k, { r with opened := false }), b.drop k, h.bind (by rw [if_pos hs]; exact .pure _ _), hsub⟩
      · cases hl : r.length with
        | none =>
          refine ⟨(b.take k, r), b.drop k, h.bind ?_, hsub⟩
          rw [if_neg hs]
          exact .pure _ _
        | some n =>
          refine ⟨(b.take k, { r with length := some (n - (b.take k).length), opened := decide (n - ((b.take k).length : Int) ≠ 0) }), b.drop k, h.bind ?_, hsub⟩
          rw [if_neg hs]
          exact .pure _ _

theorem newChunk_length {r : Resp} {w w' : World} {g : Option Int × Resp} (h : newChunk r w = .ok g w') : g.2.length = r.length := by
  simp only [newChunk, M.bind_apply] at h
  cases hq : nextChunkSize w with
  | hang => simp [hq] at h
  | raise e w1 => simp [hq] at h
  | ok n w1 =>
    simp only [hq] at h
    by_cases h0 : n = 0
    · simp only [if_pos h0, M.bind_apply, M.get_apply] at h
      cases hd : discardTrailer (cfileRemaining w1 + 2) w1 with
      | hang => simp [hd] at h
      | raise e w2 => simp [hd] at h
      | ok u w2 =>
        simp only [hd, M.pure_apply, Res.ok.injEq] at h
        obtain ⟨rfl, rfl⟩ := h; rfl
    · simp only [if_neg h0, M.pure_apply, Res.ok.injEq] at h
      obtain ⟨rfl, rfl⟩ := h; rfl

theorem getChunkLeft_length {r : Resp} {w w' : World} {g : Option Int × Resp} (h : getChunkLeft r w = .ok g w') : g.2.length = r.length := by
  unfold getChunkLeft at h
  cases hc : r.chunkLeft with
  | none => simp only [hc] at h; exact newChunk_length h
  | some n =>
    simp only [hc] at h
    by_cases h0 : n ≠ 0
    · simp only [if_pos h0, M.pure_apply, Res.ok.injEq] at h
      obtain ⟨rfl, rfl⟩ := h; rfl
    · simp only [if_neg h0, M.bind_apply] at h
      cases hd : safeRead 2 w with
      | hang => simp [hd] at h
      | raise e w2 => simp [hd] at h
      | ok u w2 => simp only [hd] at h; exact newChunk_length h

theorem readChunked_length (fuel : Nat) {amt : Int} {value : Bytes} {r : Resp} {w w' : World} {a : Bytes × Resp}
    (h : readChunked fuel amt value r w = .ok a w') : a.2.length = r.length := by
  induction fuel generalizing amt value r w with
  | zero => cases h
  | succ fuel ih =>
    rw [readChunked_succ, M.bind_apply] at h
    cases hq : getChunkLeft r w with
    | hang => simp [hq] at h
    | raise e w1 => simp [hq] at h
    | ok g w1 =>
      simp only [hq, afterChunk] at h
      rw [← getChunkLeft_length hq]
      cases hg : g.1 with
      | none =>
        simp only [hg, M.pure_apply, Res.ok.injEq] at h
        obtain ⟨rfl, rfl⟩ := h; rfl
      | some n =>
        simp only [hg] at h
        by_cases ha : amt ≤ n
        · simp only [if_pos ha, M.bind_apply] at h
          cases hd : safeRead amt w1 with
          | hang => simp [hd] at h
          | raise e w2 => simp [hd] at h
          | ok u w2 =>
            simp only [hd, M.pure_apply, Res.ok.injEq] at h
            obtain ⟨rfl, rfl⟩ := h; rfl
        · simp only [if_neg ha, M.bind_apply] at h
          cases hd : safeRead n w1 with
          | hang => simp [hd] at h
          | raise e w2 => simp [hd] at h
          | ok u w2 =>
            simp only [hd] at h
            have := ih h; exact this

theorem read_fine {amt : Int} (hamt : 0 ≤ amt) {r : Resp} (hr : Fine r) {b : Bytes} {w w' : World} (hw : At w b) {a : Bytes × Resp} (h : read amt r w = .ok a w') :
    Fine a.2 := by
  unfold read at h
  by_cases ho : r.opened = false
  · simp only [if_pos ho, M.pure_apply, Res.ok.injEq] at h
    obtain ⟨rfl, rfl⟩ := h; exact hr
  · rw [if_neg ho] at h
    by_cases hc : r.chunked = true
    · rw [if_pos hc] at h
      have := readChunked_length _ h
      intro n hn; exact hr n (by rw [← this]; exact hn)
    · rw [if_neg hc] at h
      have h0 := clip_nonneg hr amt hamt
      obtain ⟨k, hk⟩ := Int.eq_ofNat_of_zero_le h0
      obtain ⟨w1, e1, e2, e3⟩ := read_at k b w hw
      simp only [M.bind_apply, hk, e1] at h
      by_cases hs : List.take k b = [] ∧ (k : Int) ≠ 0
      · rw [if_pos hs] at h
        simp only [M.pure_apply, Res.ok.injEq] at h
        obtain ⟨rfl, rfl⟩ := h; exact hr
      · rw [if_neg hs] at h
        cases hl : r.length with
        | none =>
          simp only [hl, M.pure_apply, Res.ok.injEq] at h
          obtain ⟨rfl, rfl⟩ := h; exact hr
        | some n =>
          simp only [hl, M.pure_apply, Res.ok.injEq] at h
          obtain ⟨rfl, rfl⟩ := h
          intro m hm
          simp only [Option.some.injEq] at hm
          have := hr n hl
          have hkn : (k : Int) ≤ n := by rw [← hk, hl]; simp only [clip]; split <;> omega
          have hle : (List.take k b).length ≤ k := by simp; omega
          omega

theorem respOf_fine (status : Int) (hs : List Header) : Fine (respOf status hs) := by
  intro n hn
  simp only [respOf] at hn
  by_cases h1 : status = 204 ∨ status = 304 ∨ (100 ≤ status ∧ status < 200)
  · rw [if_pos h1] at hn
    simp only [Option.some.injEq] at hn; omega
  · rw [if_neg h1] at hn
    cases h2 : get hs (b! "content-length") with
    | none => simp only [h2] at hn; cases hn
    | some t =>
      simp only [h2] at hn
      have key : ∀ (p : Prop) [Decidable p], (if p then (match intText t with | some n => if n < 0 then none else some n | none => none) else (none : Option Int)) = some n → 0 ≤ n := by
        intro p _ hh
        by_cases hp : p
        · rw [if_pos hp] at hh
          cases h3 : intText t with
          | none => simp [h3] at hh
          | some m =>
            simp only [h3] at hh
            by_cases h4 : m < 0
            · rw [if_pos h4] at hh; cases hh
            · rw [if_neg h4] at hh
              simp only [Option.some.injEq] at hh; omega
        · rw [if_neg hp] at hh; cases hh
      exact key _ hn

theorem begin_fine {w w' : World} {r : Resp} (h : begin w = .ok r w') : Fine r := by
  simp only [begin, M.bind_apply, M.get_apply] at h
  cases hq : skipInterim (cfileRemaining w + 2) w with
  | hang => simp [hq] at h
  | raise e w1 => simp [hq] at h
  | ok s w1 =>
    simp only [hq] at h
    by_cases hv : s.1 = b! "HTTP/1.0" ∨ s.1 = b! "HTTP/0.9" ∨ startsWith s.1 (b! "HTTP/1.") = true
    · simp only [if_pos hv, M.bind_apply] at h
      cases hd : readHeaders MAXHEADERS w1 with
      | hang => simp [hd] at h
      | raise e w2 => simp [hd] at h
      | ok u w2 =>
        simp only [hd, M.pure_apply, Res.ok.injEq] at h
        obtain ⟨rfl, rfl⟩ := h
        exact respOf_fine _ _
    · simp only [if_neg hv] at h
      cases h

/-! ### the copy loop -/

/-- `x` raises after writing `d` -/
def Breaks (x : M World Unit) (b d : Bytes) : Prop := ∀ w, At w b → ∃ e w', x w = .raise e w' ∧ w'.out = w.out ++ d

theorem copy_settled (N : Nat) (b : Bytes) (hN : b.length ≤ N) (r : Resp) (hr : Fine r) :
    ∃ d, d.Sublist b ∧ ((∀ fuel, b.length < fuel → Writes (copy fuel r) b d) ∨ ∀ fuel, b.length < fuel → Breaks (copy fuel r) b d) := by
  induction N generalizing b r with
  | zero =>
    rcases read_settled 8192 (by omega) r hr b with ⟨a, b', h1, h2⟩ | h1
    · have h2 := h2.length_le
      simp only [List.length_append] at h2
      have : a.1 = [] := List.length_eq_zero_iff.1 (by omega)
      refine ⟨[], List.nil_sublist _, Or.inl fun f hf => ?_⟩
      obtain ⟨f, rfl⟩ : ∃ k, f = k + 1 := ⟨f - 1, by omega⟩
      refine copy_over f (r' := a.2) (b' := b') ?_
      rw [← this]; exact h1
    · refine ⟨[], List.nil_sublist _, Or.inr fun f hf => ?_⟩
      obtain ⟨f, rfl⟩ : ∃ k, f = k + 1 := ⟨f - 1, by omega⟩
      intro w hw
      obtain ⟨e, w1, e1, e2⟩ := h1 w hw
      exact ⟨e, w1, by simp only [copy, M.bind_apply, e1], by simp [e2]⟩
  | succ N ih =>
    rcases read_settled 8192 (by omega) r hr b with ⟨a, b', h1, h2⟩ | h1
    · have h4 := h2.length_le
      simp only [List.length_append] at h4
      by_cases hd : a.1 = []
      · refine ⟨[], List.nil_sublist _, Or.inl fun f hf => ?_⟩
        obtain ⟨f, rfl⟩ : ∃ k, f = k + 1 := ⟨f - 1, by omega⟩
        refine copy_over f (r' := a.2) (b' := b') ?_
        rw [← hd]; exact h1
      · have hpos : 0 < a.1.length := List.length_pos_iff.2 hd
        by_cases hw : ∃ w, At w b
        · obtain ⟨w0, hw0⟩ := hw
          obtain ⟨w1, e1, _, _⟩ := h1 w0 hw0
          have hf := read_fine (by omega) hr hw0 e1
          obtain ⟨d, hsub, h | h⟩ := ih b' (by omega) a.2 hf
          · refine ⟨a.1 ++ d, (List.Sublist.append (List.Sublist.refl _) hsub).trans h2, Or.inl fun f hf => ?_⟩
            obtain ⟨f, rfl⟩ : ∃ k, f = k + 1 := ⟨f - 1, by omega⟩
            exact copy_more f h1 hd (h f (by omega))
          · refine ⟨a.1 ++ d, (List.Sublist.append (List.Sublist.refl _) hsub).trans h2, Or.inr fun f hf => ?_⟩
            obtain ⟨f, rfl⟩ : ∃ k, f = k + 1 := ⟨f - 1, by omega⟩
            intro w hw
            obtain ⟨w1, e1, e2, e3⟩ := h1 w hw
            obtain ⟨e, w2, e4, e5⟩ := h f (by omega) _ (e2.write a.1)
            refine ⟨e, w2, ?_, by rw [e5]; simp [e3]⟩
            simp only [copy, M.bind_apply, e1, if_neg hd, World.write, M.modify_apply]
            exact e4
        · exact ⟨[], List.nil_sublist _, Or.inl fun f hf w hw' => absurd ⟨w, hw'⟩ hw⟩
    · refine ⟨[], List.nil_sublist _, Or.inr fun f hf => ?_⟩
      obtain ⟨f, rfl⟩ : ∃ k, f = k + 1 := ⟨f - 1, by omega⟩
      intro w hw
      obtain ⟨e, w1, e1, e2⟩ := h1 w hw
      exact ⟨e, w1, by simp only [copy, M.bind_apply, e1], by simp [e2]⟩

/-- what the client does with a payload is settled by the payload -/
theorem dump_settled (b : Bytes) : ∃ d, d.Sublist b ∧ (Writes dump b d ∨ Breaks dump b d) := by
  rcases begin_settled b with ⟨r, b1, h1, h2, h3⟩ | h1
  · by_cases hw : ∃ w, At w b
    · obtain ⟨w0, hw0⟩ := hw
      obtain ⟨w1, e1, _, _⟩ := h1 w0 hw0
      obtain ⟨d, hsub, h | h⟩ := copy_settled _ b1 (Nat.le_refl _) r (begin_fine e1)
      · refine ⟨d, hsub.trans h3.sublist, Or.inl fun w hw => ?_⟩
        obtain ⟨w1, e1, e2, e3⟩ := h1 w hw
        obtain ⟨w2, k1, k2⟩ := h (cfileRemaining w1 + 2) (by have := e2.remaining; omega) w1 e2
        refine ⟨w2, ?_, by rw [k2, e3]⟩
        simp only [dump, M.bind_apply, e1, M.get_apply]
        exact k1
      · refine ⟨d, hsub.trans h3.sublist, Or.inr fun w hw => ?_⟩
        obtain ⟨w1, e1, e2, e3⟩ := h1 w hw
        obtain ⟨e, w2, k1, k2⟩ := h (cfileRemaining w1 + 2) (by have := e2.remaining; omega) w1 e2
        refine ⟨e, w2, ?_, by rw [k2, e3]⟩
        simp only [dump, M.bind_apply, e1, M.get_apply]
        exact k1
    · exact ⟨[], List.nil_sublist _, Or.inl fun w hw' => absurd ⟨w, hw'⟩ hw⟩
  · refine ⟨[], List.nil_sublist _, Or.inr fun w hw => ?_⟩
    obtain ⟨e, w1, e1, e2⟩ := h1 w hw
    exact ⟨e, w1, by simp only [dump, M.bind_apply, e1], by simp [e2]⟩

end HttpClient
end Warc
