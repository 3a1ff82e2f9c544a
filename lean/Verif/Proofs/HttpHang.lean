import Verif.Proofs.HttpPieces
/-
  Feeding ends, unless a chunk size is negative.
-/
set_option linter.all false
namespace Warc.Http
open Rx

theorem splitOnce_before (sep : Byte) (l : Bytes) :
    (match splitOnce sep l with
    | some (a, _) => a
    | none => l) = l.takeWhile (· ≠ sep) := by
  induction l with
  | nil => rfl
  | cons c l ih =>
    by_cases hc : c = sep
    · subst hc; simp [splitOnce]
    · simp only [splitOnce, beq_iff_eq, hc, if_false]
      cases hs : splitOnce sep l with
      | none => rw [hs] at ih; simp only at ih ⊢; rw [List.takeWhile_cons_of_pos (by simp [hc])]; rw [← ih]
      | some ab => rw [hs] at ih; simp only at ih ⊢; rw [List.takeWhile_cons_of_pos (by simp [hc])]; rw [← ih]

theorem chunkSize_eq (l : Bytes) : chunkSize l = pyInt 16 (l.takeWhile (· ≠ 59)) := by
  unfold chunkSize; rw [← splitOnce_before]; cases splitOnce 59 l <;> rfl

theorem NegativeSize.append {a : Bytes} (h : NegativeSize a) (b : Bytes) : NegativeSize (a ++ b) := by
  obtain ⟨x, l, y, n, rfl, h1, h2, h3, h4⟩ := h
  exact ⟨x, l, y ++ b, n, by simp, h1, h2, h3, h4⟩

/-- lines begin after a newline -/
def AtLine (a : Bytes) : Prop := a = [] ∨ a.getLast? = some 10

/-- what the chunk reader remembers -/
def Sane (cr : ChunkSt) (m : Msg) : Prop :=
  (cr.mode = .chunk → cr.remaining < 0 → NegativeSize m.buffer) ∧ (cr.mode = .start → AtLine (m.buffer.take m.offset))

/-- what holds between calls of `feed` -/
def SaneMsg (m : Msg) : Prop := m.mode = .body → ∀ cr, m.reader = some (.chunk cr) → Sane cr m

theorem CF_sane (cr : ChunkSt) (t : Bytes) (m : Msg) (hx : Ctx cr m) (hs : Sane cr m) :
    match CF cr t m with
    | .ok l m' => SaneMsg m'
    | .raise _ _ => True
    | .hang => NegativeSize (m.buffer ++ t) := by
  revert hs
  apply CFCases.run (P := fun cr m t r => Sane cr m → match r with
    | .ok l m' => SaneMsg m'
    | .raise _ _ => True
    | .hang => NegativeSize (m.buffer ++ t)) _ cr t m hx
  have keep : ∀ {cr : ChunkSt} {m : Msg}, m.reader = some (.chunk cr) → Sane cr m → SaneMsg m := by
    intro cr m h1 h2 _ cr' h3
    rw [h1] at h3; cases h3; exact h2
  constructor
  case nil => intro cr m hx hs; exact keep hx.reader hs
  case startNone =>
    intro cr m t hx hc h ht hs
    refine keep rfl ⟨by simp [hc], fun _ => ?_⟩
    have := hs.2 hc
    simp only [setR_buffer, setR_offset]
    rw [show (ext m t).buffer = m.buffer ++ t from rfl, show (ext m t).offset = m.offset from rfl, List.take_append_of_le_length hx.inv.off]
    exact this
  case startBroken => intros; trivial
  case startBad => intros; trivial
  case startLine =>
    intro cr m u rest k r hx hc hu hk ih hs
    have hb : (setR (afterSize k) (addChunk (took m (u ++ [10])) k)).buffer = m.buffer ++ (u ++ [10]) := rfl
    have hneg : k < 0 → NegativeSize (m.buffer ++ (u ++ [10])) := by
      intro hk0
      refine ⟨m.buffer.take m.offset, pend m ++ u, [], k, ?_, hs.2 hc, ?_, ?_, hk0⟩
      · simp only [pend, ← List.append_assoc, List.take_append_drop]
      · have := hx.inv.pend; simp [this, hu]
      · rw [← chunkSize_eq]; exact hk
    have := ih ⟨fun _ hk0 => by rw [hb]; exact hneg hk0, fun h => absurd h (afterSize_mode k).1⟩
    rw [hb] at this
    simpa using this
  case neg =>
    intro cr m t hx hc ht hn hs
    exact (hs.1 hc hn).append t
  case part =>
    intro cr m t hx hc ht h hs
    refine keep rfl ⟨fun _ h2 => ?_, fun h2 => ?_⟩
    · simp only at h2; omega
    · simp [hc] at h2
  case full =>
    intro cr m t1 t2 r hx hc h h0 ih hs
    have := ih ⟨fun _ h2 => by simp at h2, fun h2 => by simp [hc] at h2⟩
    simpa [took] using this
  case eocNone =>
    intro cr m t hx hc h0 ht h hs
    refine keep rfl ⟨fun _ h2 => ?_, fun h2 => ?_⟩
    · omega
    · simp [hc] at h2
  case eocLine =>
    intro cr m u rest r hx hc h0 hu ih hs
    have := ih ⟨fun h2 => by simp at h2, fun _ => Or.inr (by
      show ((m.buffer ++ (u ++ [10])).take (m.buffer ++ (u ++ [10])).length).getLast? = some 10
      rw [List.take_length, ← List.append_assoc]; simp)⟩
    simpa [took] using this
  case trailerNone =>
    intro cr m t hx hc ht h hs
    exact keep rfl ⟨fun h2 => by simp [hc] at h2, fun h2 => by simp [hc] at h2⟩
  case trailerRaise => intros; trivial
  case trailerEnd =>
    intro cr m u rest h' hx hc hu hnl hh hs h2
    simp at h2
  case trailerLine =>
    intro cr m u rest h' r hx hc hu hnl hh ih hs
    have := ih ⟨fun h2 => by simp [hc] at h2, fun h2 => by simp [hc] at h2⟩
    simpa [took] using this

theorem closeFeed_sane {t : Bytes} {m : Msg} (hr : m.reader = none) :
    match closeFeed t m with
    | .ok l m' => SaneMsg m'
    | .raise _ _ => True
    | .hang => False := by
  unfold closeFeed
  generalize m.bodyChunks = L
  match L with
  | [] => trivial
  | [(a, b)] => simp only; intro _ cr h; simp [hr] at h
  | _ :: _ :: _ => trivial

theorem stageBody_sane {t : Bytes} {m : Msg} (hi : Inv m) (hs : SaneMsg m) :
    match stageBody t m with
    | .ok l m' => SaneMsg m'
    | .raise _ _ => True
    | .hang => NegativeSize (m.buffer ++ t) := by
  by_cases ht : t = []
  · subst ht; rw [stageBody_nil]; exact hs
  by_cases hm : m.mode = .body
  · cases hr : m.reader with
    | none =>
      rw [stageBody_close ht hm hr]
      have := closeFeed_sane (t := t) hr
      cases hc : closeFeed t m with
      | ok l m' => rw [hc] at this; exact this
      | raise e m' => trivial
      | hang => rw [hc] at this; exact this.elim
    | some r =>
      cases r with
      | length n =>
        rw [stageBody_length ht hm hr]
        simp only [lengthFeed, M.bind_apply]
        by_cases h0 : 0 < n
        · simp only [h0, if_true, feedLength, M.modify_apply, M.pure_apply]
          intro _ cr hc; simp at hc
        · simp only [h0, if_false, M.modify_apply, M.pure_apply]
          intro _ cr hc; simp at hc
      | zip z n =>
        rw [stageBody_zip ht hm hr]
        simp only [zipFeed, M.bind_apply]
        by_cases h0 : 0 < n
        · simp only [h0, if_true, feedLength, M.modify_apply, M.pure_apply]
          intro _ cr hc; simp at hc
        · simp only [h0, if_false, M.modify_apply, M.pure_apply]
          intro _ cr hc; simp at hc
      | chunk cr =>
        have hx := hi.ctx hm hr
        rw [stageBody_chunk ht hx]
        have := CF_sane cr t m hx (hs hm cr hr)
        cases hc : CF cr t m with
        | ok l m' => rw [hc] at this; exact this
        | hang => rw [hc] at this; exact this
        | raise e m' =>
          cases e with
          | brokenChunks =>
            simp only
            have := closeFeed_sane (t := t) (m := { m' with reader := none, bodyChunks := [(m'.offset, 0)] }) rfl
            cases hc : closeFeed t { m' with reader := none, bodyChunks := [(m'.offset, 0)] } with
            | ok l m' => rw [hc] at this; exact this
            | raise e m' => trivial
            | hang => rw [hc] at this; exact this.elim
          | _ => trivial
  · rw [stageBody_skip t hm]; exact hs

theorem addHeader_hang (n v : Bytes) (h : Hdr) : addHeader n v h ≠ .hang := by simp [addHeader]

theorem applyHeader_hang (n v : Bytes) (h : Hdr) : applyHeader n v h ≠ .hang := by
  simp only [applyHeader, M.bind_apply, M.get_apply]
  repeat' split
  all_goals first
    | simp; done
    | (cases pyInt 10 v <;> simp)

theorem applyHeaders_hang (hs : List Header) (h : Hdr) : applyHeaders hs h ≠ .hang := by
  induction hs generalizing h with
  | nil => simp [applyHeaders]
  | cons f hs ih =>
    obtain ⟨n, v⟩ := f
    simp only [applyHeaders, M.bind_apply]
    cases ha : applyHeader (lower n) (lower v) h with
    | hang => exact absurd ha (applyHeader_hang _ _ _)
    | raise e h' => simp
    | ok a h' => exact ih h'

theorem addHeaderLine_hang (line : Bytes) (h : Hdr) : addHeaderLine line h ≠ .hang := by
  simp only [addHeaderLine, M.bind_apply, M.get_apply]
  by_cases h1 : isFold line = true
  · simp only [h1, if_true]
    cases h.headers.getLast? with
    | none => simp
    | some kv => simp only [M.bind_apply, M.modify_apply]; exact addHeader_hang _ _ _
  · simp only [h1, Bool.false_eq_true, if_false]
    by_cases h2 : isNewline line = true
    · simp only [h2, if_true]; exact applyHeaders_hang _ _
    · simp only [h2, Bool.false_eq_true, if_false]
      cases splitOnce 58 line with
      | none => simp
      | some ab => exact addHeader_hang _ _ _

theorem setStartLine_hang (line : Bytes) (h : Hdr) : setStartLine line h ≠ .hang := by
  simp only [setStartLine, M.bind_apply, M.get_apply]
  cases hs : h.side with
  | request =>
    simp only [setRequestLine]
    generalize splitMax 32 2 (rstrip line) = L
    match L with
    | [] => simp
    | [_] => simp
    | [_, _] => simp
    | [a, b, c] =>
      simp only [M.bind_apply, M.modify_apply]
      by_cases hc : upper a = b! "CONNECT"
      · simp only [hc, if_true]
        generalize splitAll 58 b = L2
        match L2 with
        | [] => simp
        | [_] => simp
        | [_, _] => simp
        | _ :: _ :: _ :: _ => simp
      · simp only [hc, if_false]
        cases pmatch urlRx b <;> simp
    | _ :: _ :: _ :: _ :: _ => simp
  | response rm =>
    simp only [setStatusLine]
    generalize splitMax 32 2 (rstrip line) = L
    match L with
    | [] => simp
    | [_] => simp
    | a :: b :: c =>
      simp only [M.bind_apply, M.modify_apply]
      cases pyInt 10 b <;> simp

/-- after the headers the buffer ends with a newline -/
theorem FH_sane {t : Bytes} {m : Msg} (hi : LineInv m) (hm : m.mode = .headers) :
    match FH t m with
    | .ok l m' => m'.mode = .body → AtLine (m'.buffer.take m'.offset)
    | .raise _ _ => True
    | .hang => False := by
  match hn : t.length with
  | n =>
  induction n using Nat.strongRecOn generalizing t m with
  | _ n ih =>
    rcases line_cases t with h1 | ⟨u, rest, h1, rfl⟩
    · rw [FH_none hi h1]
      simp [hm]
    · rw [FH_line hi rest h1]
      cases hh : onHeader (addHeaderLine (pend m ++ u ++ [10])) (took m (u ++ [10])) with
      | hang =>
        simp only
        unfold onHeader at hh
        cases ha : addHeaderLine (pend m ++ u ++ [10]) (took m (u ++ [10])).header with
        | ok a h => rw [ha] at hh; cases hh
        | raise e h => rw [ha] at hh; cases hh
        | hang => exact addHeaderLine_hang _ _ ha
      | raise e m1 => trivial
      | ok x m1 =>
        have hk := onHeader_ok hh
        by_cases hnl : isNewline (pend m ++ u ++ [10]) = true
        · simp only [hnl, if_true]
          intro _
          right
          rw [hk]
          show ((m.buffer ++ (u ++ [10])).take (m.buffer ++ (u ++ [10])).length).getLast? = some 10
          rw [List.take_length, ← List.append_assoc]; simp
        · simp only [hnl, Bool.false_eq_true, if_false]
          exact ih rest.length (by rw [← hn]; simp; omega) (onHeader_inv hh (.took _ _)) (by rw [hk]; exact hm) rfl

theorem afterHeaders_sane {c : Codec} {l : Bytes} {m : Msg} (hi : LineInv m) (hm : m.mode = .body) (ha : AtLine (m.buffer.take m.offset)) :
    match afterHeaders c l m with
    | .ok _ m' => SaneMsg m'
    | .raise _ _ => True
    | .hang => NegativeSize (m.buffer ++ l) := by
  have hs := setupBody_spec c l hm
  unfold afterHeaders
  cases hb : setupBody c l m with
  | hang => rw [hb] at hs; exact hs.elim
  | raise e m1 => trivial
  | ok x m1 =>
    rw [hb] at hs
    simp only
    have := stageBody_sane (t := l) (hs.inv hi) (by
      intro hb cr hr
      obtain ⟨rfl, _⟩ := hs.chunk hb cr hr
      refine ⟨by simp, fun _ => ?_⟩
      rw [hs.buffer, hs.offset]; exact ha)
    rw [hs.buffer] at this
    exact this

theorem feed_sane {c : Codec} {t : Bytes} {m : Msg} (hi : Inv m) (hs : SaneMsg m) :
    match feed c t m with
    | .ok _ m' => SaneMsg m'
    | .raise _ _ => True
    | .hang => NegativeSize (m.buffer ++ t) := by
  have heads : ∀ {t : Bytes} {m : Msg}, LineInv m → m.mode = .headers →
    match feed c t m with
    | .ok _ m' => SaneMsg m'
    | .raise _ _ => True
    | .hang => NegativeSize (m.buffer ++ t) := by
    intro t m hi hm
    rw [feed_headers c t hi hm]
    have hf' := FH_sane (t := t) hi hm
    cases hf : FH t m with
    | hang => rw [hf] at hf'; exact hf'.elim
    | raise e m1 => trivial
    | ok l1 m1 =>
      rw [hf] at hf'
      simp only at hf' ⊢
      by_cases hb : m1.mode = .body
      · rw [if_pos hb, ← FH_conserve hi hf]
        exact afterHeaders_sane (FH_inv hi hm hf).1 hb (hf' hb)
      · rw [if_neg hb]
        intro h; exact absurd h hb
  cases hm : m.mode with
  | end_ => rw [feed_end c t (Or.inl hm)]; exact hs
  | incomplete => rw [feed_end c t (Or.inr hm)]; exact hs
  | body => rw [feed_body c t hm]; exact stageBody_sane hi hs
  | headers => exact heads hi.line hm
  | start =>
    rcases line_cases t with h1 | ⟨u, rest, h1, rfl⟩
    · rw [feed_start_none c hi.line hm h1]
      intro h; simp [hm] at h
    · rw [feed_start_line c rest hi.line hm h1]
      by_cases hnl : isNewline (pend m ++ u ++ [10]) = true
      · rw [if_pos hnl]
        intro h; simp [hm] at h
      · rw [if_neg hnl]
        cases hh : onHeader (setStartLine (pend m ++ u ++ [10])) (took m (u ++ [10])) with
        | hang =>
          simp only
          unfold onHeader at hh
          cases ha : setStartLine (pend m ++ u ++ [10]) (took m (u ++ [10])).header with
          | ok a h => rw [ha] at hh; cases hh
          | raise e h => rw [ha] at hh; cases hh
          | hang => exact absurd ha (setStartLine_hang _ _)
        | raise e m1 => trivial
        | ok x m1 =>
          simp only
          have := heads (t := rest) (m := { m1 with mode := .headers }) ((onHeader_inv hh (.took _ _)).congr rfl rfl) rfl
          have hb : m1.buffer = m.buffer ++ (u ++ [10]) := by rw [onHeader_ok hh]; rfl
          simpa [hb] using this

theorem restart_sane (m : Msg) : SaneMsg (restart m) := by
  intro h; simp [restart] at h

/-- what is known of all parsers that have not failed -/
structure Alive (k : Kind) (m : Msg) : Prop where
  inv : Inv m
  sane : SaneMsg m
  side : ∀ rm, k = .response rm → m.header.side = .response rm

theorem Alive.message (k : Kind) (ig : List PyStr) : Alive k (k.message ig) := by
  refine ⟨message_inv k ig, ?_, ?_⟩
  · intro h; cases k <;> cases h
  · rintro rm rfl; rfl

theorem kind_sane {c : Codec} {k : Kind} {t : Bytes} {m : Msg} (h : Alive k m) :
    match k.feed c t m with
    | .ok _ m' => Alive k m'
    | .raise _ _ => True
    | .hang => NegativeSize (m.buffer ++ t) := by
  have h1 := feed_sane (c := c) (t := t) h.inv h.sane
  cases k with
  | request =>
    show match feed c t m with
      | .ok _ m' => Alive .request m'
      | .raise _ _ => True
      | .hang => NegativeSize (m.buffer ++ t)
    cases hf : feed c t m with
    | hang => rw [hf] at h1; exact h1
    | raise e m' => trivial
    | ok l m' => rw [hf] at h1; exact ⟨(feed_inv h.inv hf).1, h1, by simp⟩
  | response rm =>
    show match feedResponse c t m with
      | .ok _ m' => Alive (.response rm) m'
      | .raise _ _ => True
      | .hang => NegativeSize (m.buffer ++ t)
    have hside := h.side rm rfl
    rw [feedResponse_eq]
    cases hf : feed c t m with
    | hang => rw [hf] at h1; exact h1
    | raise e m' => trivial
    | ok l m' =>
      rw [hf] at h1
      simp only at h1 ⊢
      have hi' := (feed_inv h.inv hf).1
      have hsd : m'.header.side = .response rm := by
        have := feed_side (c := c) (t := t) h.inv
        rw [hf] at this
        exact this.trans hside
      by_cases h100 : is100 m' = true
      · simp only [h100, if_true]
        have hg := gzip_100 h100 hsd
        have hcons := feed_conserve h.inv hf hg
        have h2 := feed_sane (c := c) (t := l) (restart_inv hi') (restart_sane m')
        cases hf2 : feed c l (restart m') with
        | hang =>
          rw [hf2] at h2
          simp only at h2 ⊢
          have hb : (restart m').buffer = m'.buffer := rfl
          rw [hb, hcons] at h2
          exact h2
        | raise e m2 => trivial
        | ok l2 m2 =>
          rw [hf2] at h2
          refine ⟨(feed_inv (restart_inv hi') hf2).1, h2, ?_⟩
          intro rm' e
          cases e
          have := feed_side (c := c) (t := l) (restart_inv hi')
          rw [hf2] at this
          refine this.trans ?_
          simp [restart, hsd, Hdr.response]
      · simp only [h100, Bool.false_eq_true, if_false]
        refine ⟨hi', h1, ?_⟩
        intro rm' e; cases e; exact hsd

theorem reached_alive {c : Codec} {k : Kind} {ig : List PyStr} {m : Msg} (h : Reached (k.feed c) (k.message ig) m) : Alive k m := by
  induction h with
  | new => exact .message k ig
  | @feed m m' t l _ hf ih =>
    have := kind_sane (c := c) (t := t) ih
    rw [hf] at this
    exact this

theorem kind_conserve {c : Codec} {k : Kind} {t l : Bytes} {m m' : Msg} (h : Alive k m) (hf : k.feed c t m = .ok l m') (hg : gzipBody m'.header = false) :
    m'.buffer ++ l = m.buffer ++ t := by
  cases k with
  | request => exact feed_conserve h.inv hf hg
  | response rm =>
    have hf' : feedResponse c t m = .ok l m' := hf
    have hside := h.side rm rfl
    rw [feedResponse_eq] at hf'
    cases hf1 : feed c t m with
    | hang => rw [hf1] at hf'; cases hf'
    | raise e m1 => rw [hf1] at hf'; cases hf'
    | ok l1 m1 =>
      rw [hf1] at hf'
      simp only at hf'
      by_cases h100 : is100 m1 = true
      · simp only [h100, if_true] at hf'
        have hi' := (feed_inv h.inv hf1).1
        have hsd : m1.header.side = .response rm := by
          have := feed_side (c := c) (t := t) h.inv
          rw [hf1] at this
          exact this.trans hside
        have h1 := feed_conserve h.inv hf1 (gzip_100 h100 hsd)
        have h2 := feed_conserve (restart_inv hi') hf' hg
        rw [h2, ← h1]
        rfl
      · simp only [h100, Bool.false_eq_true, if_false] at hf'
        cases hf'
        exact feed_conserve h.inv hf1 hg

end Warc.Http
