import Verif.Spec.HttpFd
import Verif.Proofs.HttpCut
import Verif.Proofs.HttpHang
import Verif.Proofs.HttpMsg
/-
  Lemmas for C62: what `feed_predict` asks for is never given back.
-/
set_option linter.all false
namespace Warc.Http
open Rx Stream

theorem closeFeed_rest {t l : Bytes} {m m' : Msg} (h : closeFeed t m = .ok l m') : l = [] := by
  unfold closeFeed at h
  split at h
  · cases h; rfl
  · cases h

theorem afterHeaders_nil {c : Codec} {l : Bytes} {m m' : Msg} (h : afterHeaders c [] m = .ok l m') : l = [] := by
  unfold afterHeaders at h
  cases hs : setupBody c [] m with
  | hang => rw [hs] at h; cases h
  | raise e m1 => rw [hs] at h; cases h
  | ok x m1 => rw [hs] at h; simp only [stageBody_nil] at h; cases h; rfl

theorem FH_line_rest {t l : Bytes} {m m' : Msg} (hi : LineInv m) (ht : Asked .line t) (h : FH t m = .ok l m') : l = [] := by
  rcases ht with ht | ⟨u, hu, rfl⟩
  · rw [FH_none hi ht] at h; cases h; rfl
  · rw [FH_line hi [] hu] at h
    cases hh : onHeader (addHeaderLine (pend m ++ u ++ [10])) (took m (u ++ [10])) with
    | hang => rw [hh] at h; cases h
    | raise e m1 => rw [hh] at h; cases h
    | ok x m1 =>
      rw [hh] at h
      simp only at h
      split at h
      · cases h; rfl
      · rw [FH_nil] at h; cases h; rfl

theorem feed_line_rest {c : Codec} {t l : Bytes} {m m' : Msg} (hi : Inv m) (ht : Asked .line t) (hm : m.mode = .headers)
    (h : feed c t m = .ok l m') : l = [] := by
  rw [feed_headers c t hi.line hm] at h
  cases hf : FH t m with
  | hang => rw [hf] at h; cases h
  | raise e m1 => rw [hf] at h; cases h
  | ok l1 m1 =>
    have := FH_line_rest hi.line ht hf
    subst this
    rw [hf] at h
    simp only at h
    split at h
    · exact afterHeaders_nil h
    · cases h; rfl

/-- what the chunk reader asks for, it takes -/
theorem CF_asked {cr : ChunkSt} {t l : Bytes} {m m' : Msg} (hi : LineInv m) (ht : t ≠ [])
    (hask : Asked (match cr.mode with
      | .start => .line
      | .chunk => if cr.remaining = 0 then .line else .count cr.remaining
      | .trailer => .line
      | .end_ => .nothing) t) (h : CF cr t m = .ok l m') : l = [] := by
  cases hmode : cr.mode with
  | start =>
    rw [hmode] at hask
    rcases hask with h1 | ⟨u, hu, rfl⟩
    · rw [CF_start_none hi hmode ht h1] at h; cases h; rfl
    · rw [CF_start_line hi hmode [] hu] at h
      cases hs : chunkSize (pend m ++ u ++ [10]) with
      | none => rw [hs] at h; simp only at h; split at h <;> cases h
      | some n => rw [hs] at h; simp only [CF_nil] at h; cases h; rfl
  | chunk =>
    rw [hmode] at hask
    simp only at hask
    by_cases h0 : cr.remaining = 0
    · rw [if_pos h0] at hask
      rcases hask with h1 | ⟨u, hu, rfl⟩
      · rw [CF_eoc_none hi hmode h0 ht h1] at h; cases h; rfl
      · rw [CF_eoc_line hi hmode h0 [] hu] at h; simp only [CF_nil] at h; cases h; rfl
    · rw [if_neg h0] at hask
      have hle : (t.length : Int) ≤ cr.remaining := hask
      rcases Int.lt_or_eq_of_le hle with hlt | heq
      · rw [CF_part hmode ht hlt] at h; cases h; rfl
      · have := CF_full (cr := cr) (m := m) hmode t [] heq.symm (List.length_pos_iff.2 ht)
        rw [List.append_nil] at this
        rw [this, CF_nil] at h; cases h; rfl
  | trailer =>
    rw [hmode] at hask
    rcases hask with h1 | ⟨u, hu, rfl⟩
    · rw [CF_trailer_none hi hmode ht h1] at h; cases h; rfl
    · rw [CF_trailer_line hi hmode [] hu] at h
      cases hh : onHeader (addTrailerLine (pend m ++ u ++ [10])) (took m (u ++ [10])) with
      | hang => rw [hh] at h; cases h
      | raise e m1 => rw [hh] at h; cases h
      | ok x m1 =>
        rw [hh] at h
        simp only at h
        split at h
        · cases h; rfl
        · rw [CF_nil] at h; cases h; rfl
  | end_ =>
    rw [hmode] at hask
    exact absurd hask ht

/-- what `feed_predict` asks for is never given back by `feed` -/
theorem feed_asked {c : Codec} {t l : Bytes} {m m' : Msg} (hi : Inv m) (hg : gzipBody m.header = false)
    (hask : Asked m.feedPredict t) (h : feed c t m = .ok l m') : l = [] := by
  by_cases ht : t = []
  · subst ht; rw [feed_nil] at h; cases h; rfl
  cases hm : m.mode with
  | start =>
    simp only [Msg.feedPredict, hm] at hask
    rcases hask with h1 | ⟨u, hu, rfl⟩
    · rw [feed_start_none c hi.line hm h1] at h; cases h; rfl
    · rw [feed_start_line c [] hi.line hm hu] at h
      split at h
      · cases h; rfl
      · cases hh : onHeader (setStartLine (pend m ++ u ++ [10])) (took m (u ++ [10])) with
        | hang => rw [hh] at h; cases h
        | raise e m1 => rw [hh] at h; cases h
        | ok x m1 => rw [hh] at h; simp only [feed_nil] at h; cases h; rfl
  | headers =>
    simp only [Msg.feedPredict, hm] at hask
    exact feed_line_rest hi hask hm h
  | end_ => simp only [Msg.feedPredict, hm] at hask; exact absurd hask ht
  | incomplete => simp only [Msg.feedPredict, hm] at hask; exact absurd hask ht
  | body =>
    rw [feed_body c t hm] at h
    cases hr : m.reader with
    | none => rw [stageBody_close ht hm hr] at h; exact closeFeed_rest h
    | some r =>
      cases r with
      | zip z n => rw [hi.zip hm z n hr] at hg; cases hg
      | length n =>
        simp only [Msg.feedPredict, hm, hr] at hask
        have hle : (t.length : Int) ≤ n := hask
        have hpos := List.length_pos_iff.2 ht
        rw [stageBody_length ht hm hr] at h
        rcases Int.lt_or_eq_of_le hle with hlt | heq
        · rw [lengthFeed_part hlt] at h; cases h; rfl
        · have := lengthFeed_full (m := m) t [] hpos
          rw [List.append_nil] at this
          rw [← heq, this] at h; cases h; rfl
      | chunk cr =>
        simp only [Msg.feedPredict, hm, hr] at hask
        have hx := hi.ctx hm hr
        rw [stageBody_chunk ht hx] at h
        cases hc : CF cr t m with
        | hang => rw [hc] at h; cases h
        | ok l1 m1 => rw [hc] at h; simp only at h; cases h; exact CF_asked hx.inv ht hask hc
        | raise e m1 =>
          rw [hc] at h
          cases e <;> first | exact closeFeed_rest h | cases h

theorem kind_asked {c : Codec} {k : Kind} {t l : Bytes} {m m' : Msg} (ha : Alive k m) (hg : gzipBody m.header = false)
    (hask : Asked m.feedPredict t) (h : k.feed c t m = .ok l m') : l = [] := by
  cases k with
  | request => exact feed_asked ha.inv hg hask h
  | response rm =>
    have h' : feedResponse c t m = .ok l m' := h
    rw [feedResponse_eq] at h'
    cases hf : feed c t m with
    | hang => rw [hf] at h'; cases h'
    | raise e m1 => rw [hf] at h'; cases h'
    | ok l1 m1 =>
      have := feed_asked ha.inv hg hask hf
      subst this
      rw [hf] at h'
      simp only at h'
      split at h'
      · rw [feed_nil] at h'; cases h'; rfl
      · cases h'; rfl

end Warc.Http
