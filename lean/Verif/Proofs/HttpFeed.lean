import Verif.Proofs.HttpSplit
import Verif.Spec.Http
/-
  `feed` as a whole: what it keeps and how it splits.
-/
set_option linter.all false
namespace Warc.Http

/-- the state afterwards, whether the code returned or raised -/
def Post {σ α : Type} (r : Res σ α) (P : σ → Prop) : Prop :=
  match r with
  | .ok _ s => P s
  | .raise _ s => P s
  | .hang => True

theorem Post.mono {σ α : Type} {r : Res σ α} {P Q : σ → Prop} (h : Post r P) (hpq : ∀ s, P s → Q s) : Post r Q := by
  cases r with
  | ok a s => exact hpq s h
  | raise e s => exact hpq s h
  | hang => trivial

theorem Post.bind {σ α β : Type} {x : M σ α} {f : α → M σ β} {s : σ} {P Q : σ → Prop} (hx : Post (x s) P)
    (hf : ∀ a s, P s → Post (f a s) Q) (hpq : ∀ s, P s → Q s) : Post ((x >>= f) s) Q := by
  rw [M.bind_apply]
  cases h : x s with
  | ok a s' => rw [h] at hx; exact hf a s' hx
  | raise e s' => rw [h] at hx; exact hpq s' hx
  | hang => trivial

/-! ### headers -/

/-- only the trailers are different -/
def SameButTrailers (h h' : Hdr) : Prop := h' = { h with trailers := h'.trailers }

theorem SameButTrailers.refl (h : Hdr) : SameButTrailers h h := rfl
theorem SameButTrailers.trans {a b c : Hdr} (h1 : SameButTrailers a b) (h2 : SameButTrailers b c) : SameButTrailers a c := by
  unfold SameButTrailers at *
  rw [h2, h1]

theorem addTrailerLine_same (line : Bytes) (h : Hdr) : Post (addTrailerLine line h) (SameButTrailers h) := by
  simp only [addTrailerLine, M.bind_apply, M.get_apply]
  split
  · cases h.trailers.getLast? <;> simp [Post, SameButTrailers]
  · split
    · simp [Post, SameButTrailers]
    · cases splitOnce 58 line <;> simp [Post, SameButTrailers]

theorem addTrailerLine_hang (line : Bytes) (h : Hdr) : addTrailerLine line h ≠ .hang := by
  simp only [addTrailerLine, M.bind_apply, M.get_apply]
  split
  · cases h.trailers.getLast? <;> simp
  · split
    · simp
    · cases splitOnce 58 line <;> simp

theorem onHeader_post {α : Type} {x : M Hdr α} {m : Msg} {P : Hdr → Prop} (h : Post (x m.header) P) :
    Post (onHeader x m) (fun m' => P m'.header ∧ m' = { m with header := m'.header }) := by
  unfold onHeader
  cases hx : x m.header with
  | ok a s => rw [hx] at h; exact ⟨h, rfl⟩
  | raise e s => rw [hx] at h; exact ⟨h, rfl⟩
  | hang => trivial

/-! ### induction over the chunk loop -/

/-- the state in which the chunk reader is called -/
structure Ctx (cr : ChunkSt) (m : Msg) : Prop where
  inv : LineInv m
  mode : m.mode = .body
  reader : m.reader = some (.chunk cr)
  open_ : cr.mode ≠ .end_
  started : cr.mode ≠ .start → cr.start = false

/-- one case for each thing the chunk reader does -/
structure CFCases (P : ChunkSt → Msg → Bytes → Res Msg Bytes → Prop) : Prop where
  nil : ∀ {cr m}, Ctx cr m → P cr m [] (.ok [] m)
  startNone : ∀ {cr m t}, Ctx cr m → cr.mode = .start → 10 ∉ t → t ≠ [] → P cr m t (.ok [] (setR { cr with start := false } (ext m t)))
  startBroken : ∀ {cr m u rest}, Ctx cr m → cr.mode = .start → 10 ∉ u → chunkSize (pend m ++ u ++ [10]) = none → cr.start = true →
    P cr m (u ++ 10 :: rest) (.raise .brokenChunks (undo m (u ++ [10])))
  startBad : ∀ {cr m u rest}, Ctx cr m → cr.mode = .start → 10 ∉ u → chunkSize (pend m ++ u ++ [10]) = none → cr.start = false →
    P cr m (u ++ 10 :: rest) (.raise .valueError (took m (u ++ [10])))
  startLine : ∀ {cr m u rest k r}, Ctx cr m → cr.mode = .start → 10 ∉ u → chunkSize (pend m ++ u ++ [10]) = some k →
    P (afterSize k) (setR (afterSize k) (addChunk (took m (u ++ [10])) k)) rest r → P cr m (u ++ 10 :: rest) r
  neg : ∀ {cr m t}, Ctx cr m → cr.mode = .chunk → t ≠ [] → cr.remaining < 0 → P cr m t .hang
  part : ∀ {cr m t}, Ctx cr m → cr.mode = .chunk → t ≠ [] → (t.length : Int) < cr.remaining →
    P cr m t (.ok [] (setR { cr with remaining := cr.remaining - t.length } (took m t)))
  full : ∀ {cr m t1 t2 r}, Ctx cr m → cr.mode = .chunk → cr.remaining = t1.length → 0 < t1.length →
    P { cr with remaining := 0 } (setR { cr with remaining := 0 } (took m t1)) t2 r → P cr m (t1 ++ t2) r
  eocNone : ∀ {cr m t}, Ctx cr m → cr.mode = .chunk → cr.remaining = 0 → t ≠ [] → 10 ∉ t → P cr m t (.ok [] (setR cr (ext m t)))
  eocLine : ∀ {cr m u rest r}, Ctx cr m → cr.mode = .chunk → cr.remaining = 0 → 10 ∉ u →
    P { cr with mode := .start } (setR { cr with mode := .start } (took m (u ++ [10]))) rest r → P cr m (u ++ 10 :: rest) r
  trailerNone : ∀ {cr m t}, Ctx cr m → cr.mode = .trailer → t ≠ [] → 10 ∉ t → P cr m t (.ok [] (setR cr (ext m t)))
  trailerRaise : ∀ {cr m u rest e h'}, Ctx cr m → cr.mode = .trailer → 10 ∉ u →
    addTrailerLine (pend m ++ u ++ [10]) m.header = .raise e h' → P cr m (u ++ 10 :: rest) (.raise e { took m (u ++ [10]) with header := h' })
  trailerEnd : ∀ {cr m u rest h'}, Ctx cr m → cr.mode = .trailer → 10 ∉ u → isNewline (pend m ++ u ++ [10]) = true →
    addTrailerLine (pend m ++ u ++ [10]) m.header = .ok () h' →
    P cr m (u ++ 10 :: rest) (.ok rest { setR { cr with mode := .end_ } { took m (u ++ [10]) with header := h' } with mode := .end_ })
  trailerLine : ∀ {cr m u rest h' r}, Ctx cr m → cr.mode = .trailer → 10 ∉ u → isNewline (pend m ++ u ++ [10]) = false →
    addTrailerLine (pend m ++ u ++ [10]) m.header = .ok () h' →
    P cr (setR cr { took m (u ++ [10]) with header := h' }) rest r → P cr m (u ++ 10 :: rest) r

theorem CFCases.run {P : ChunkSt → Msg → Bytes → Res Msg Bytes → Prop} (H : CFCases P) (cr : ChunkSt) (t : Bytes) (m : Msg) (hx : Ctx cr m) :
    P cr m t (CF cr t m) := by
  match hn : t.length with
  | n =>
  induction n using Nat.strongRecOn generalizing t cr m with
  | _ n ih =>
    by_cases ht : t = []
    · subst ht; rw [CF_nil]; exact H.nil hx
    have hpos : 0 < t.length := List.length_pos_iff.2 ht
    cases hc : cr.mode with
    | end_ => exact absurd hc hx.open_
    | start =>
      rcases line_cases t with h | ⟨u, rest, h, rfl⟩
      · rw [CF_start_none hx.inv hc ht h]; exact H.startNone hx hc h ht
      · rw [CF_start_line hx.inv hc rest h]
        cases hs : chunkSize (pend m ++ u ++ [10]) with
        | none =>
          cases hst : cr.start with
          | true => simpa using H.startBroken hx hc h hs hst
          | false => simpa using H.startBad hx hc h hs hst
        | some k =>
          exact H.startLine hx hc h hs (ih rest.length (by rw [← hn]; simp; omega) _ rest _
            ⟨((LineInv.took _ _).addChunk _).setR _, hx.mode, rfl, (afterSize_mode k).2, fun _ => rfl⟩ rfl)
    | chunk =>
      rcases Int.lt_trichotomy cr.remaining 0 with h | h | h
      · rw [CF_neg hc ht h]; exact H.neg hx hc ht h
      · rcases line_cases t with h1 | ⟨u, rest, h1, rfl⟩
        · rw [CF_eoc_none hx.inv hc h ht h1]; exact H.eocNone hx hc h ht h1
        · rw [CF_eoc_line hx.inv hc h rest h1]
          exact H.eocLine hx hc h h1 (ih rest.length (by rw [← hn]; simp; omega) _ rest _
            ⟨(LineInv.took _ _).setR _, hx.mode, rfl, by simp, by simp⟩ rfl)
      · by_cases hl : (t.length : Int) < cr.remaining
        · rw [CF_part hc ht hl]; exact H.part hx hc ht hl
        · obtain ⟨t1, t2, rfl, h1, h2⟩ := length_split t cr.remaining h (by omega)
          rw [CF_full hc t1 _ h1 h2]
          exact H.full hx hc h1 h2 (ih t2.length (by rw [← hn]; simp; omega) _ t2 _
            ⟨(LineInv.took _ _).setR _, hx.mode, rfl, by simp [hc], hx.started⟩ rfl)
    | trailer =>
      rcases line_cases t with h | ⟨u, rest, h, rfl⟩
      · rw [CF_trailer_none hx.inv hc ht h]; exact H.trailerNone hx hc ht h
      · rw [CF_trailer_line hx.inv hc rest h]
        cases hh : addTrailerLine (pend m ++ u ++ [10]) m.header with
        | hang => exact absurd hh (addTrailerLine_hang _ _)
        | raise e h' => simp only [onHeader, took_header, hh]; exact H.trailerRaise hx hc h hh
        | ok x h' =>
          simp only [onHeader, took_header, hh]
          by_cases hnl : isNewline (pend m ++ u ++ [10]) = true
          · simp only [hnl, if_true]; exact H.trailerEnd hx hc h hnl hh
          · simp only [hnl, Bool.false_eq_true, if_false]
            exact H.trailerLine hx hc h (by simpa using hnl) hh (ih rest.length (by rw [← hn]; simp; omega) _ rest _
              ⟨(LineInv.took m (u ++ [10])).congr rfl rfl, hx.mode, rfl, hx.open_, hx.started⟩ rfl)

theorem CF_header (cr : ChunkSt) (t : Bytes) (m : Msg) (hx : Ctx cr m) :
    Post (CF cr t m) (fun m' => SameButTrailers m.header m'.header) := by
  apply CFCases.run (P := fun cr m t r => Post r (fun m' => SameButTrailers m.header m'.header)) _ cr t m hx
  constructor
  case nil => intros; exact .refl _
  case startNone => intros; exact .refl _
  case startBroken => intros; exact .refl _
  case startBad => intros; exact .refl _
  case startLine => intros; assumption
  case neg => intros; trivial
  case part => intros; exact .refl _
  case full => intros; assumption
  case eocNone => intros; exact .refl _
  case eocLine => intros; assumption
  case trailerNone => intros; exact .refl _
  case trailerRaise =>
    intro cr m u rest e h' _ _ _ hh
    have := addTrailerLine_same (pend m ++ u ++ [10]) m.header
    rw [hh] at this; exact this
  case trailerEnd =>
    intro cr m u rest h' _ _ _ _ hh
    have := addTrailerLine_same (pend m ++ u ++ [10]) m.header
    rw [hh] at this; exact this
  case trailerLine =>
    intro cr m u rest h' r _ _ _ _ hh hr
    have := addTrailerLine_same (pend m ++ u ++ [10]) m.header
    rw [hh] at this
    exact hr.mono fun s hs => SameButTrailers.trans this hs

/-- what holds after the chunk reader has returned -/
structure ChunkDone (l : Bytes) (m : Msg) : Prop where
  inv : LineInv m
  more : m.mode = .body → l = [] ∧ ∃ cr, Ctx cr m
  mode : m.mode = .body ∨ m.mode = .end_

theorem CF_done (cr : ChunkSt) (t : Bytes) (m : Msg) (hx : Ctx cr m) :
    match CF cr t m with
    | .ok l m' => ChunkDone l m'
    | _ => True := by
  apply CFCases.run (P := fun cr m t r => match r with
    | .ok l m' => ChunkDone l m'
    | _ => True) _ cr t m hx
  have ctx : ∀ {cr m}, Ctx cr m → ChunkDone [] m := fun hx => ⟨hx.inv, fun _ => ⟨rfl, _, hx⟩, Or.inl hx.mode⟩
  constructor
  case nil => intro cr m hx; exact ctx hx
  case startNone => intro cr m t hx hc h ht; exact ctx ⟨(hx.inv.ext h).setR _, hx.mode, rfl, by simp [hc], by simp⟩
  case startBroken => intros; trivial
  case startBad => intros; trivial
  case startLine => intros; assumption
  case neg => intros; trivial
  case part => intro cr m t hx hc ht h; exact ctx ⟨(LineInv.took _ _).setR _, hx.mode, rfl, by simp [hc], hx.started⟩
  case full => intros; assumption
  case eocNone => intro cr m t hx hc h0 ht h; exact ctx ⟨(hx.inv.ext h).setR _, hx.mode, rfl, hx.open_, hx.started⟩
  case eocLine => intros; assumption
  case trailerNone => intro cr m t hx hc ht h; exact ctx ⟨(hx.inv.ext h).setR _, hx.mode, rfl, hx.open_, hx.started⟩
  case trailerRaise => intros; trivial
  case trailerEnd =>
    intro cr m u rest h' hx hc hu hnl hh
    exact ⟨(LineInv.took m (u ++ [10])).congr rfl rfl, by simp, by simp⟩
  case trailerLine => intros; assumption

/-! ### the body -/

/-- what holds between calls of `feed` -/
structure Inv (m : Msg) : Prop where
  line : LineInv m
  chunk : m.mode = .body → ∀ cr, m.reader = some (.chunk cr) → cr.mode ≠ .end_ ∧ m.header.mode = .chunked ∧ (cr.mode ≠ .start → cr.start = false)
  zip : m.mode = .body → ∀ z n, m.reader = some (.zip z n) → gzipBody m.header = true

theorem Inv.ctx {m : Msg} (h : Inv m) (hm : m.mode = .body) {cr : ChunkSt} (hr : m.reader = some (.chunk cr)) : Ctx cr m :=
  ⟨h.line, hm, hr, (h.chunk hm cr hr).1, (h.chunk hm cr hr).2.2⟩

theorem stageBody_nil (m : Msg) : stageBody [] m = .ok [] m := by simp [stageBody]
theorem stageBody_skip (t : Bytes) {m : Msg} (h : m.mode ≠ .body) : stageBody t m = .ok t m := by simp [stageBody, h]

theorem stageBody_close {t : Bytes} {m : Msg} (ht : t ≠ []) (hm : m.mode = .body) (hr : m.reader = none) : stageBody t m = closeFeed t m := by
  simp [stageBody, ht, hm, hr]

theorem lengthFeed_ne_broken (rem : Int) (t : Bytes) (m m' : Msg) : lengthFeed rem t m ≠ .raise .brokenChunks m' := by
  simp only [lengthFeed, M.bind_apply]
  by_cases h : 0 < rem <;> simp [h, feedLength]

theorem stageBody_length {t : Bytes} {m : Msg} {rem : Int} (ht : t ≠ []) (hm : m.mode = .body) (hr : m.reader = some (.length rem)) :
    stageBody t m = lengthFeed rem t m := by
  simp only [stageBody, ht, hm, hr, ne_eq, not_false_eq_true, and_self, if_true, readerFeed, M.bind_apply, M.get_apply]
  split
  · rename_i h; exact absurd h (lengthFeed_ne_broken _ _ _ _)
  · rfl

theorem zipFeed_ok (z : Option Bytes) (rem : Int) (t : Bytes) (m : Msg) :
    ∃ l m', zipFeed z rem t m = .ok l m' ∧ m'.header = m.header := by
  simp only [zipFeed, M.bind_apply]
  by_cases h : 0 < rem
  · simp only [h, if_true, feedLength, M.modify_apply, M.pure_apply]; exact ⟨_, _, rfl, rfl⟩
  · simp only [h, if_false, M.modify_apply, M.pure_apply]; exact ⟨_, _, rfl, rfl⟩

theorem stageBody_zip {t : Bytes} {m : Msg} {z : Option Bytes} {rem : Int} (ht : t ≠ []) (hm : m.mode = .body) (hr : m.reader = some (.zip z rem)) :
    stageBody t m = zipFeed z rem t m := by
  simp only [stageBody, ht, hm, hr, ne_eq, not_false_eq_true, and_self, if_true, readerFeed, M.bind_apply, M.get_apply]
  obtain ⟨l, m', h, _⟩ := zipFeed_ok z rem t m
  rw [h]

theorem lengthFeed_done {rem : Int} {t : Bytes} {m : Msg} (h : rem ≤ 0) :
    lengthFeed rem t m = .ok t { m with reader := some (.length rem), mode := .end_ } := by
  simp [lengthFeed, show ¬ 0 < rem by omega, h]

theorem lengthFeed_part {rem : Int} {t : Bytes} {m : Msg} (h : (t.length : Int) < rem) :
    lengthFeed rem t m = .ok [] { took m t with reader := some (.length (rem - t.length)) } := by
  simp [lengthFeed, show 0 < rem by omega, feedLength_part h, show ¬ (rem - (t.length : Int) ≤ 0) by omega]

theorem lengthFeed_full {m : Msg} (t1 t2 : Bytes) (h0 : 0 < t1.length) :
    lengthFeed t1.length (t1 ++ t2) m = .ok t2 { took m t1 with reader := some (.length 0), mode := .end_ } := by
  simp only [lengthFeed, M.bind_apply, show (0 : Int) < t1.length by omega, if_true, feedLength_full, M.modify_apply, M.pure_apply]
  simp

theorem stageBody_chunk {t : Bytes} {m : Msg} {cr : ChunkSt} (ht : t ≠ []) (hx : Ctx cr m) :
    stageBody t m = match CF cr t m with
      | .raise .brokenChunks m' => closeFeed t { m' with reader := none, bodyChunks := [(m'.offset, 0)] }
      | res => res := by
  simp only [stageBody, ht, hx.mode, hx.reader, ne_eq, not_false_eq_true, and_self, if_true, readerFeed, M.bind_apply, M.get_apply,
    CF_eq _ _ _ _ hx.inv hx.open_ (show t.length + 2 ≤ feedFuel m t by simp [feedFuel])]
  cases CF cr t m with
  | raise e _ => cases e <;> rfl
  | ok l m' => rfl
  | hang => rfl

/-- the header is the same after the body, but for the trailers -/
theorem stageBody_header (t : Bytes) (m : Msg) (hi : Inv m) : Post (stageBody t m) (fun m' => SameButTrailers m.header m'.header) := by
  by_cases ht : t = []
  · subst ht; rw [stageBody_nil]; exact .refl _
  by_cases hm : m.mode = .body
  · cases hr : m.reader with
    | none =>
      rw [stageBody_close ht hm hr]
      unfold closeFeed
      split <;> exact .refl _
    | some r =>
      cases r with
      | length n =>
        rw [stageBody_length ht hm hr]
        simp only [lengthFeed, M.bind_apply]
        by_cases h : 0 < n <;> simp [h, feedLength, Post, SameButTrailers]
      | zip z n =>
        rw [stageBody_zip ht hm hr]
        obtain ⟨l, m', h, h2⟩ := zipFeed_ok z n t m
        rw [h]
        simp [Post, h2, SameButTrailers]
      | chunk cr =>
        have hx := hi.ctx hm hr
        have hh := CF_header cr t m hx
        rw [stageBody_chunk ht hx]
        cases hc : CF cr t m with
        | hang => trivial
        | ok l m' => rw [hc] at hh; exact hh
        | raise e m' =>
          rw [hc] at hh
          cases e <;> exact hh
  · rw [stageBody_skip t hm]; exact .refl _

theorem gzipBody_same {h h' : Hdr} (hs : SameButTrailers h h') : gzipBody h' = gzipBody h := by
  rw [hs]; rfl

theorem hasBody_same {h h' : Hdr} (hs : SameButTrailers h h') : h'.hasBody = h.hasBody := by
  rw [hs]; rfl

theorem undo_offset (m : Msg) (u : Bytes) : (undo m u).buffer = m.buffer ∧ (undo m u).offset = m.buffer.length := ⟨rfl, rfl⟩

/-- the body stage keeps the invariant -/
theorem stageBody_inv {t l : Bytes} {m m' : Msg} (hi : Inv m) (h : stageBody t m = .ok l m') :
    Inv m' ∧ (m'.mode = .body → l = []) ∧ (m'.mode = m.mode ∨ m'.mode = .end_) := by
  by_cases ht : t = []
  · subst ht; rw [stageBody_nil] at h; cases h; exact ⟨hi, fun _ => rfl, Or.inl rfl⟩
  by_cases hm : m.mode = .body
  · cases hr : m.reader with
    | none =>
      rw [stageBody_close ht hm hr] at h
      unfold closeFeed at h
      split at h
      · cases h
        refine ⟨⟨⟨?_, ?_⟩, ?_, ?_⟩, fun _ => rfl, Or.inl rfl⟩
        · simp
        · simp [pend]
        · intro _ cr hc; rw [hr] at hc; exact absurd hc (by simp)
        · intro _ z n hc; rw [hr] at hc; exact absurd hc (by simp)
      · cases h
    | some r =>
      cases r with
      | length n =>
        rw [stageBody_length ht hm hr] at h
        rcases (show n ≤ 0 ∨ 0 < n by omega) with h0 | h0
        · rw [lengthFeed_done h0] at h
          cases h
          exact ⟨⟨hi.line.congr rfl rfl, by simp, by simp⟩, by simp, by simp⟩
        · by_cases hl : (t.length : Int) < n
          · rw [lengthFeed_part hl] at h
            cases h
            refine ⟨⟨(LineInv.took m t).congr rfl rfl, ?_, ?_⟩, by simp, Or.inl rfl⟩
            · intro _ cr hc; exact absurd hc (by simp)
            · intro _ z n hc; exact absurd hc (by simp)
          · obtain ⟨t1, t2, rfl, h1, h2⟩ := length_split t n h0 (by omega)
            subst h1
            rw [lengthFeed_full t1 t2 h2] at h
            cases h
            exact ⟨⟨(LineInv.took m t1).congr rfl rfl, by simp, by simp⟩, by simp, by simp⟩
      | zip z n =>
        rw [stageBody_zip ht hm hr] at h
        have hz := hi.zip hm z n hr
        simp only [zipFeed, M.bind_apply] at h
        by_cases h0 : 0 < n
        · simp only [h0, if_true, feedLength, M.modify_apply, M.pure_apply] at h
          cases h
          refine ⟨⟨⟨by simp, by simp [pend]⟩, ?_, ?_⟩, ?_, ?_⟩
          · intro _ cr hc; exact absurd hc (by simp)
          · intro _ z n hc; exact hz
          · intro hb
            simp only at hb
            split at hb
            · simp at hb
            · rename_i hgt
              simp at hgt ⊢
              have : (sliceTo (z.getD t) n) = z.getD t := by
                unfold sliceTo at hgt ⊢
                rw [if_pos (by omega)] at hgt ⊢
                rw [List.take_of_length_le]
                simp at hgt; omega
              rw [this]; simp
          · simp only; split <;> simp
        · simp only [h0, if_false, M.modify_apply, M.pure_apply] at h
          cases h
          simp only [show n ≤ 0 by omega, if_true]
          exact ⟨⟨hi.line.congr rfl rfl, by simp, by simp⟩, by simp, by simp⟩
      | chunk cr =>
        have hx := hi.ctx hm hr
        rw [stageBody_chunk ht hx] at h
        have hd := CF_done cr t m hx
        have hh := CF_header cr t m hx
        cases hc : CF cr t m with
        | hang => rw [hc] at h; cases h
        | ok l2 m2 =>
          rw [hc] at h hd hh
          simp only at h
          cases h
          refine ⟨⟨hd.inv, ?_, ?_⟩, fun h => (hd.more h).1, ?_⟩
          · intro hb cr' hc'
            obtain ⟨_, cr2, hx2⟩ := hd.more hb
            rw [hx2.reader] at hc'
            cases hc'
            refine ⟨hx2.open_, ?_, hx2.started⟩
            have : SameButTrailers m.header m'.header := hh
            rw [this]
            exact (hi.chunk hm cr hr).2.1
          · intro hb z n hz
            obtain ⟨_, cr2, hx2⟩ := hd.more hb
            rw [hx2.reader] at hz; cases hz
          · rw [hm]; exact hd.mode
        | raise e m2 =>
          rw [hc] at h
          cases e <;> simp only at h <;> first | (exact absurd h (by simp)) | skip
          simp only [closeFeed] at h
          cases h
          refine ⟨⟨⟨by simp, by simp [pend]⟩, ?_, ?_⟩, fun _ => rfl, ?_⟩
          · intro _ cr hc; exact absurd hc (by simp)
          · intro _ z n hc; exact absurd hc (by simp)
          · left
            have : match CF cr t m with
              | .raise e m' => m'.mode = m.mode
              | _ => True := by
              apply CFCases.run (P := fun cr m t r => match r with
                | .raise e m' => m'.mode = m.mode
                | _ => True) _ cr t m hx
              constructor <;> intros <;> first | trivial | assumption | rfl
            rw [hc] at this
            exact this
  · rw [stageBody_skip t hm] at h
    cases h
    exact ⟨hi, fun hb => absurd hb hm, Or.inl rfl⟩

theorem stageBody_split (a b : Bytes) (m : Msg) (hi : Inv m) (hg : gzipBody m.header = false)
    (hf : ∀ l m', stageBody (a ++ b) m = .ok l m' → ¬ fellBack m') :
    stageBody (a ++ b) m = andThen (stageBody a m) (stageBody b) := by
  by_cases ha : a = []
  · subst ha; rw [stageBody_nil, andThen_ok_nil]; rfl
  by_cases hb : b = []
  · subst hb
    simp only [List.append_nil, andThen, stageBody_nil]
    cases stageBody a m <;> rfl
  have hab : a ++ b ≠ [] := by simp [ha]
  by_cases hm : m.mode = .body
  · cases hr : m.reader with
    | none =>
      rw [stageBody_close hab hm hr, stageBody_close ha hm hr]
      unfold closeFeed
      split
      · rename_i o n hc
        rw [andThen_ok_nil, stageBody_close hb (by exact hm) (by exact hr)]
        simp [closeFeed]; omega
      · rfl
    | some r =>
      cases r with
      | length n =>
        rw [stageBody_length hab hm hr, stageBody_length ha hm hr]
        rcases (show n ≤ 0 ∨ 0 < n by omega) with h0 | h0
        · rw [lengthFeed_done h0, lengthFeed_done h0, andThen, stageBody_skip _ (by simp)]
        · by_cases hl : (a.length : Int) < n
          · rw [lengthFeed_part hl, andThen_ok_nil, stageBody_length hb (by exact hm) (by exact rfl)]
            by_cases hl2 : ((a ++ b).length : Int) < n
            · rw [lengthFeed_part hl2, lengthFeed_part (by simp at hl2 ⊢; omega)]
              simp [took]; omega
            · obtain ⟨t1, t2, ht, h1, h2⟩ := length_split (a ++ b) n h0 (by omega)
              obtain ⟨b1, rfl⟩ : ∃ b1, t1 = a ++ b1 := by
                have := List.prefix_append t1 t2
                rw [← ht] at this
                exact (List.prefix_of_prefix_length_le (List.prefix_append a b) this (by omega)).imp fun _ h => h.symm
              have hb2 : b = b1 ++ t2 := by simpa using ht
              subst hb2
              subst h1
              have e : (((a ++ b1).length : Nat) : Int) - (a.length : Int) = (b1.length : Nat) := by simp; omega
              rw [e, ← List.append_assoc, lengthFeed_full (a ++ b1) t2 h2, lengthFeed_full b1 t2 (by simp at hl; omega)]
              simp [took]
          · obtain ⟨t1, t2, rfl, h1, h2⟩ := length_split a n h0 (by omega)
            subst h1
            rw [List.append_assoc, lengthFeed_full t1 _ h2, lengthFeed_full t1 _ h2, andThen, stageBody_skip _ (by simp)]
      | zip z n =>
        have := hi.zip hm z n hr
        rw [hg] at this; cases this
      | chunk cr =>
        have hx := hi.ctx hm hr
        have hnb : ∀ m', CF cr (a ++ b) m ≠ .raise .brokenChunks m' := by
          intro m' hc
          have hs := stageBody_chunk hab hx
          rw [hc] at hs
          simp only [closeFeed] at hs
          have hh := CF_header cr (a ++ b) m hx
          have hmode : match CF cr (a ++ b) m with
              | .raise e m' => m'.mode = m.mode
              | _ => True := by
              apply CFCases.run (P := fun cr m t r => match r with
                | .raise e m' => m'.mode = m.mode
                | _ => True) _ cr (a ++ b) m hx
              constructor <;> intros <;> first | trivial | assumption | rfl
          rw [hc] at hh hmode
          refine hf _ _ hs ⟨by rw [← hm]; exact hmode, rfl, ?_⟩
          have : SameButTrailers m.header m'.header := hh
          simp only
          rw [this]; exact (hi.chunk hm cr hr).2.1
        have hsp := CF_split a b cr m hx.inv hm hr hx.open_ hnb
        rw [stageBody_chunk hab hx, stageBody_chunk ha hx]
        have hd := CF_done cr a m hx
        have hwhole : (match CF cr (a ++ b) m with
            | .raise .brokenChunks m' => closeFeed (a ++ b) { m' with reader := none, bodyChunks := [(m'.offset, 0)] }
            | res => res) = CF cr (a ++ b) m := by
          cases hc : CF cr (a ++ b) m with
          | ok _ _ => rfl
          | hang => rfl
          | raise e m' => cases e <;> first | rfl | exact absurd hc (hnb _)
        rw [hwhole, hsp]
        cases hc : CF cr a m with
        | hang => rfl
        | raise e m1 =>
          rw [hc] at hsp
          cases e <;> first | rfl | exact absurd hsp (hnb _)
        | ok l m1 =>
          rw [hc] at hsp hd
          simp only [andThen] at hsp ⊢
          rcases hd.mode with h1 | h1
          · obtain ⟨rfl, cr1, hx1⟩ := hd.more h1
            rw [stageBody_chunk hb hx1]
            have hBC : BC b m1 = CF cr1 b m1 := by simp [BC, hx1.mode, hx1.reader]
            rw [hBC] at hsp ⊢
            cases hc1 : CF cr1 b m1 with
            | ok _ _ => rfl
            | hang => rfl
            | raise e m' =>
              rw [hc1] at hsp
              cases e <;> first | rfl | exact absurd hsp (hnb _)
          · have hBC : BC b m1 = .ok b m1 := by simp [BC, h1]
            rw [hBC, stageBody_skip b (by rw [h1]; simp)]
  · rw [stageBody_skip _ hm, stageBody_skip _ hm, andThen, stageBody_skip _ hm]

/-! ### no byte is lost -/

/-- the chunk reader puts all text it uses into the buffer; when it gives up it takes everything back -/
theorem CF_conserve (cr : ChunkSt) (t : Bytes) (m : Msg) (hx : Ctx cr m) :
    match CF cr t m with
    | .ok l m' => m'.buffer ++ l = m.buffer ++ t
    | .raise .brokenChunks m' => m'.buffer = m.buffer ∧ cr.start = true
    | _ => True := by
  apply CFCases.run (P := fun cr m t r => match r with
    | .ok l m' => m'.buffer ++ l = m.buffer ++ t
    | .raise .brokenChunks m' => m'.buffer = m.buffer ∧ cr.start = true
    | _ => True) _ cr t m hx
  constructor
  case nil => intros; rfl
  case startNone => intros; simp [setR, ext]
  case startBroken => intros; exact ⟨rfl, by assumption⟩
  case startBad => intros; trivial
  case startLine =>
    intro cr m u rest k r hx hc hu hs h
    cases r with
    | ok l m' => simp only at h ⊢; rw [h]; simp [setR, addChunk, took]
    | hang => trivial
    | raise e m' => cases e <;> first | trivial | (exact absurd h.2 (by simp [afterSize]))
  case neg => intros; trivial
  case part => intros; simp [setR, took]
  case full =>
    intro cr m t1 t2 r hx hc h1 h2 h
    cases r with
    | ok l m' => simp only at h ⊢; rw [h]; simp [setR, took]
    | hang => trivial
    | raise e m' =>
      cases e <;> first | trivial | skip
      have := hx.started (by simp [hc])
      have h3 : cr.start = true := h.2
      rw [this] at h3; cases h3
  case eocNone => intros; simp [setR, ext]
  case eocLine =>
    intro cr m u rest r hx hc h0 hu h
    cases r with
    | ok l m' => simp only at h ⊢; rw [h]; simp [setR, took]
    | hang => trivial
    | raise e m' =>
      cases e <;> first | trivial | skip
      have := hx.started (by simp [hc])
      have h3 : cr.start = true := h.2
      rw [this] at h3; cases h3
  case trailerNone => intros; simp [setR, ext]
  case trailerRaise =>
    intro cr m u rest e h' hx hc hu hh
    cases e <;> first | trivial | skip
    exfalso
    revert hh
    simp only [addTrailerLine, M.bind_apply, M.get_apply]
    split
    · cases m.header.trailers.getLast? <;> simp
    · split
      · simp
      · cases splitOnce 58 (pend m ++ u ++ [10]) <;> simp
  case trailerEnd => intros; simp [setR, took]
  case trailerLine =>
    intro cr m u rest h' r hx hc hu hnl hh h
    cases r with
    | ok l m' => simp only at h ⊢; rw [h]; simp [setR, took]
    | hang => trivial
    | raise e m' =>
      cases e <;> first | trivial | skip
      have := hx.started (by simp [hc])
      rw [this] at h; exact absurd h.2 (by simp)

theorem stageBody_conserve {t l : Bytes} {m m' : Msg} (hi : Inv m) (hg : gzipBody m.header = false) (h : stageBody t m = .ok l m') :
    m'.buffer ++ l = m.buffer ++ t := by
  by_cases ht : t = []
  · subst ht; rw [stageBody_nil] at h; cases h; rfl
  by_cases hm : m.mode = .body
  · cases hr : m.reader with
    | none =>
      rw [stageBody_close ht hm hr] at h
      unfold closeFeed at h
      split at h
      · cases h; simp
      · cases h
    | some r =>
      cases r with
      | length n =>
        rw [stageBody_length ht hm hr] at h
        rcases (show n ≤ 0 ∨ 0 < n by omega) with h0 | h0
        · rw [lengthFeed_done h0] at h
          cases h; rfl
        · by_cases hl : (t.length : Int) < n
          · rw [lengthFeed_part hl] at h
            cases h; simp [took]
          · obtain ⟨t1, t2, rfl, h1, h2⟩ := length_split t n h0 (by omega)
            subst h1
            rw [lengthFeed_full t1 t2 h2] at h
            cases h; simp [took]
      | zip z n =>
        have hz := hi.zip hm z n hr
        rw [hg] at hz; cases hz
      | chunk cr =>
        have hx := hi.ctx hm hr
        rw [stageBody_chunk ht hx] at h
        have hd := CF_conserve cr t m hx
        cases hc : CF cr t m with
        | hang => rw [hc] at h; cases h
        | ok l2 m2 =>
          rw [hc] at h hd
          cases h
          exact hd
        | raise e m2 =>
          rw [hc] at h hd
          cases e <;> simp only at h <;> first | (exact absurd h (by simp)) | skip
          simp only [closeFeed] at h
          cases h
          simp [hd.1]
  · rw [stageBody_skip t hm] at h
    cases h; rfl

end Warc.Http
