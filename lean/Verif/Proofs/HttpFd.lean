import Verif.Proofs.HttpPredict
import Verif.Proofs.Stream
/-
  Lemmas for C62: the loop that reads what `feed_predict` asks for.
-/
set_option linter.all false
namespace Warc.Http
open Rx Stream

variable {c : Codec} {k : Kind} {ig : List PyStr} {x : Message}

/-- a parser reading a body has a header that says there is one -/
def Bodied (m : Msg) : Prop := m.mode = .body → m.header.hasBody = true

theorem SameButTrailers.hasBody {h h' : Hdr} (e : SameButTrailers h h') : h'.hasBody = h.hasBody := by
  rw [e]; rfl

theorem setupBody_bodied {c : Codec} {t : Bytes} {m m' : Msg} (hm : m.mode = .body) (h : setupBody c t m = .ok () m') : Bodied m' := by
  intro hb
  have hs := setupBody_spec c t hm
  rw [h] at hs
  rw [hs.header]
  cases hh : m.header.hasBody with
  | true => rfl
  | false =>
    rw [setupBody_nobody c t hm hh] at h
    cases h; cases hb

theorem stageBody_bodied {t l : Bytes} {m m' : Msg} (hi : Inv m) (hb : Bodied m) (h : stageBody t m = .ok l m') : Bodied m' := by
  intro h'
  have hh := stageBody_header t m hi
  rw [h] at hh
  have hm : m.mode = .body := by
    by_cases hm : m.mode = .body
    · exact hm
    · rw [stageBody_skip t hm] at h; cases h; exact h'
  rw [SameButTrailers.hasBody hh]
  exact hb hm

theorem feed_headers_bodied {c : Codec} {t l : Bytes} {m m' : Msg} (hi : LineInv m) (hm : m.mode = .headers)
    (h : feed c t m = .ok l m') : Bodied m' := by
  rw [feed_headers c t hi hm] at h
  cases hf : FH t m with
  | hang => rw [hf] at h; cases h
  | raise e m1 => rw [hf] at h; cases h
  | ok l1 m1 =>
    rw [hf] at h
    simp only at h
    split at h
    · rename_i hb
      have hi1 := (FH_inv hi hm hf).1
      unfold afterHeaders at h
      cases hs : setupBody c l1 m1 with
      | hang => rw [hs] at h; cases h
      | raise e m2 => rw [hs] at h; cases h
      | ok u m2 =>
        have hsp := setupBody_spec c l1 hb
        rw [hs] at h hsp
        simp only at h
        exact stageBody_bodied (hsp.inv hi1) (setupBody_bodied hb hs) h
    · rename_i hb
      cases h
      exact fun e => absurd e hb

theorem feed_bodied {c : Codec} {t l : Bytes} {m m' : Msg} (hi : Inv m) (hb : Bodied m) (h : feed c t m = .ok l m') : Bodied m' := by
  cases hm : m.mode with
  | end_ => rw [feed_end c t (Or.inl hm)] at h; cases h; exact hb
  | incomplete => rw [feed_end c t (Or.inr hm)] at h; cases h; exact hb
  | body => rw [feed_body c t hm] at h; exact stageBody_bodied hi hb h
  | headers => exact feed_headers_bodied hi.line hm h
  | start =>
    rcases line_cases t with h1 | ⟨u, rest, h1, rfl⟩
    · rw [feed_start_none c hi.line hm h1] at h; cases h; intro e; simp [hm] at e
    · rw [feed_start_line c rest hi.line hm h1] at h
      by_cases hnl : isNewline (pend m ++ u ++ [10]) = true
      · rw [if_pos hnl] at h; cases h; intro e; simp [took, hm] at e
      · rw [if_neg hnl] at h
        cases hh : onHeader (setStartLine (pend m ++ u ++ [10])) (took m (u ++ [10])) with
        | hang => rw [hh] at h; cases h
        | raise e m1 => rw [hh] at h; cases h
        | ok x m1 =>
          rw [hh] at h
          exact feed_headers_bodied (m := { m1 with mode := .headers }) ((onHeader_inv hh (.took _ _)).congr rfl rfl) rfl h

theorem kind_bodied {c : Codec} {k : Kind} {t l : Bytes} {m m' : Msg} (hi : Inv m) (hb : Bodied m) (h : k.feed c t m = .ok l m') : Bodied m' := by
  cases k with
  | request => exact feed_bodied hi hb h
  | response rm =>
    have h' : feedResponse c t m = .ok l m' := h
    rw [feedResponse_eq] at h'
    cases hf : feed c t m with
    | hang => rw [hf] at h'; cases h'
    | raise e m1 => rw [hf] at h'; cases h'
    | ok l1 m1 =>
      rw [hf] at h'
      simp only at h'
      split at h'
      · exact feed_bodied (restart_inv (feed_inv hi hf).1) (by intro e; cases e) h'
      · cases h'; exact feed_bodied hi hb hf

theorem message_bodied (k : Kind) (ig : List PyStr) : Bodied (k.message ig) := by
  intro e; cases k <;> cases e

/-- the parser in the middle of a message -/
structure Mid (c : Codec) (k : Kind) (ig : List PyStr) (x : Message) (a b : Bytes) (m : Msg) : Prop where
  text : x.text = a ++ b
  state : k.feed c a (k.message ig) = .ok [] m
  alive : Alive k m
  gzip : gzipBody m.header = false
  open_ : m.mode ≠ .end_ ∧ m.mode ≠ .incomplete
  more : ∀ after, (x.payload.ends = false → after = []) → ∃ m', k.feed c (b ++ after) m = .ok after m'
  last : b = [] → m.mode = .body ∧ m.reader = none

theorem alive_of {c : Codec} {k : Kind} {ig : List PyStr} {t l : Bytes} {m : Msg} (h : k.feed c t (k.message ig) = .ok l m) : Alive k m := by
  have := kind_sane (c := c) (t := t) (Alive.message k ig)
  rw [h] at this
  exact this

theorem kind_ended {c : Codec} {t l : Bytes} {m m' : Msg} (hm : m.mode = .end_ ∨ m.mode = .incomplete) (hs : k.Splittable (.ok [] m))
    (h : k.feed c t m = .ok l m') : l = t := by
  cases k with
  | request =>
    have h' : feed c t m = .ok l m' := h
    rw [feed_end c t hm] at h'; cases h'; rfl
  | response rm =>
    have h' : feedResponse c t m = .ok l m' := h
    have hx : is100 m = false := not_is100 (hs.2 _ _ rfl)
    rw [feedResponse_eq, feed_end c t hm] at h'
    simp only [hx, Bool.false_eq_true, if_false] at h'
    cases h'; rfl

theorem mid (hx : x.Ok k ig) (a b : Bytes) (ht : x.text = a ++ b) (hb : b ≠ [] ∨ x.payload.ends = false) :
    ∃ m, Mid c k ig x a b m := by
  obtain ⟨M, h1, h2, h3⟩ := kind_parse c k ig x hx [] (fun _ => rfl)
  rw [List.append_nil, ht] at h1
  obtain ⟨l, m, h4, h5, l2, h6, h7⟩ := kind_prefix c k ig a b [] M h1 h3
  obtain ⟨rfl, rfl⟩ := List.append_eq_nil_iff.1 h7.symm
  have hsp : Splittable (.ok [] m) := by
    cases k with
    | request => exact h5
    | response rm => exact h5.1
  have hopen : m.mode ≠ .end_ ∧ m.mode ≠ .incomplete := by
    by_cases hb0 : b = []
    · have he : x.payload.ends = false := by
        rcases hb with h | h
        · exact absurd hb0 h
        · exact h
      rw [hb0, List.append_nil, h4] at h1
      cases h1
      have := h2.mode
      rw [he] at this
      simp [this]
    · exact ⟨fun e => hb0 (kind_ended (Or.inl e) h5 h6).symm, fun e => hb0 (kind_ended (Or.inr e) h5 h6).symm⟩
  refine ⟨m, ht, h4, alive_of h4, hsp.2.1, hopen, ?_, ?_⟩
  · intro after ha
    obtain ⟨M', g1, g2, g3⟩ := kind_parse c k ig x hx after ha
    rw [ht, List.append_assoc] at g1
    obtain ⟨l', m', g4, g5, l2', g6, g7⟩ := kind_prefix c k ig a (b ++ after) after M' g1 g3
    rw [h4] at g4
    cases g4
    rw [List.nil_append] at g7
    subst g7
    exact ⟨M', g6⟩
  · intro hb0
    have he : x.payload.ends = false := by
      rcases hb with h | h
      · exact absurd hb0 h
      · exact h
    rw [hb0, List.append_nil, h4] at h1
    cases h1
    have := h2.mode
    rw [he] at this
    exact ⟨by simpa using this, h2.reader he⟩

/-- feeding the next piece of a message -/
theorem Mid.step (hx : x.Ok k ig) {a b d : Bytes} {m : Msg} (h : Mid c k ig x a (b ++ d) m) :
    ∃ m', k.feed c b m = .ok [] m' ∧ (d ≠ [] ∨ x.payload.ends = false → Mid c k ig x (a ++ b) d m') ∧
      (d = [] → k.feed c x.text (k.message ig) = .ok [] m') := by
  obtain ⟨M, h1, h2, h3⟩ := kind_parse c k ig x hx [] (fun _ => rfl)
  rw [List.append_nil, h.text, ← List.append_assoc] at h1
  obtain ⟨l, m1, h4, h5, l2, h6, h7⟩ := kind_prefix c k ig (a ++ b) d [] M h1 h3
  obtain ⟨rfl, rfl⟩ := List.append_eq_nil_iff.1 h7.symm
  obtain ⟨l', m', g1, g2, l3, g3, g4⟩ := kind_prefix c k ig a b [] m1 h4 h5
  rw [h.state] at g1
  cases g1
  rw [List.nil_append] at g4
  subst g4
  refine ⟨m1, g3, ?_, ?_⟩
  · intro hd
    obtain ⟨m2, hm2⟩ := mid (c := c) hx (a ++ b) d (by rw [h.text, List.append_assoc]) hd
    have := hm2.state
    rw [h4] at this
    cases this
    exact hm2
  · rintro rfl
    rw [h.text, ← List.append_assoc, List.append_nil]
    exact h4

/-- in the middle of a message something is asked for -/
theorem Mid.asks {a b : Bytes} {m : Msg} (h : Mid c k ig x a b m) :
    m.feedPredict = .line ∨ (∃ n, m.feedPredict = .count n ∧ 0 < n) ∨ m.feedPredict = .all := by
  cases hm : m.mode with
  | start => left; simp [Msg.feedPredict, hm]
  | headers => left; simp [Msg.feedPredict, hm]
  | end_ => exact absurd hm h.open_.1
  | incomplete => exact absurd hm h.open_.2
  | body =>
    cases hr : m.reader with
    | none => right; right; simp [Msg.feedPredict, hm, hr]
    | some r =>
      have hb : b ≠ [] := by
        intro e; rw [(h.last e).2] at hr; cases hr
      obtain ⟨m', hf⟩ := h.more [] (fun _ => rfl)
      rw [List.append_nil] at hf
      have hf' : (∃ m1, stageBody b m = .ok [] m1) := by
        cases k with
        | request =>
          have h' : feed c b m = .ok [] m' := hf
          rw [feed_body c b hm] at h'
          exact ⟨_, h'⟩
        | response rm =>
          have h' : feedResponse c b m = .ok [] m' := hf
          rw [feedResponse_eq, feed_body c b hm] at h'
          cases hs : stageBody b m with
          | hang => rw [hs] at h'; cases h'
          | raise e m1 => rw [hs] at h'; cases h'
          | ok l1 m1 =>
            rw [hs] at h'
            simp only at h'
            split at h'
            · rename_i h100
              exfalso
              have hbod := kind_bodied (message_inv (.response rm) ig) (message_bodied (.response rm) ig) h.state hm
              have hside := h.alive.side rm rfl
              have hh := stageBody_header b m h.alive.inv
              rw [hs] at hh
              have hcode := (is100_mode h100).2
              have hhc : m1.header.code = m.header.code := by rw [hh]
              have hcode' : m.header.code = 100 := by rw [← hhc]; exact hcode
              simp [Hdr.hasBody, hside, hcode', noBodyCode] at hbod
            · cases h'; exact ⟨_, rfl⟩
      obtain ⟨m1, hs⟩ := hf'
      cases r with
      | zip z n => have := h.alive.inv.zip hm z n hr; rw [h.gzip] at this; cases this
      | length n =>
        right; left
        refine ⟨n, by simp [Msg.feedPredict, hm, hr], ?_⟩
        apply Int.not_le.1
        intro hn
        rw [stageBody_length hb hm hr, lengthFeed_done hn] at hs
        cases hs
        exact hb rfl
      | chunk cr =>
        have hx := h.alive.inv.ctx hm hr
        cases hc : cr.mode with
        | start => left; simp [Msg.feedPredict, hm, hr, hc]
        | trailer => left; simp [Msg.feedPredict, hm, hr, hc]
        | end_ => exact absurd hc hx.open_
        | chunk =>
          by_cases h0 : cr.remaining = 0
          · left; simp [Msg.feedPredict, hm, hr, hc, h0]
          · right; left
            refine ⟨cr.remaining, by simp [Msg.feedPredict, hm, hr, hc, h0], ?_⟩
            apply Int.not_le.1
            intro hn
            have hneg : cr.remaining < 0 := by omega
            rw [stageBody_chunk hb hx, CF_neg hc hb hneg] at hs
            cases hs

theorem firstLine_eq {t u d : Bytes} (h : 10 ∉ u) (e : t = u ++ 10 :: d) : File.firstLine t = u ++ [10] := by
  subst e
  exact File.firstLine_append u d h

/-- the piece read next, from what is left and whatever follows it, is a first part of what is left -/
theorem Mid.piece (hx : x.payload.ends = true) {a b : Bytes} {m : Msg} (h : Mid c k ig x a b m) (after : Bytes) :
    ∃ p d, b = p ++ d ∧ p ≠ [] ∧ ∀ fuel, feedFd (k.feed c) true (fuel + 1) (b ++ after, m) =
      match k.feed c p m with
      | .ok unread m' => if unread = [] then feedFd (k.feed c) true fuel (d ++ after, m') else .ok unread (d ++ after, m')
      | .raise e m' => .raise e (d ++ after, m')
      | .hang => .hang := by
  have no : ∀ z : UInt8, ¬ Asked m.feedPredict (b ++ [z]) := by
    intro z hz
    obtain ⟨m', hm'⟩ := h.more [z] (by simp [hx])
    have := kind_asked h.alive h.gzip hz hm'
    cases this
  have key : ∀ p d, b = p ++ d → (b ++ after).drop p.length = d ++ after := by
    rintro p d rfl; simp
  rcases h.asks with hp | ⟨n, hp, hn⟩ | hp
  · have h10 : 10 ∈ b := by
      by_cases h10 : 10 ∈ b
      · exact h10
      · exact absurd (by rw [hp]; exact Or.inr ⟨b, h10, rfl⟩) (no 10)
    rcases line_cases b with h1 | ⟨u, d, h1, h2⟩
    · exact absurd h10 h1
    have hb : b = (u ++ [10]) ++ d := by simp [h2]
    have hfl : File.firstLine (b ++ after) = u ++ [10] := firstLine_eq h1 (d := d ++ after) (by simp [h2])
    refine ⟨u ++ [10], d, hb, by simp, fun fuel => ?_⟩
    simp only [feedFd, hp, hfl, key _ _ hb, if_true]
    rfl
  · have hle : n.toNat ≤ b.length := by
      apply Nat.le_of_not_lt
      intro hlt
      refine no 0 ?_
      rw [hp]
      show ((b ++ [0]).length : Int) ≤ n
      simp; omega
    have hb : b = b.take n.toNat ++ b.drop n.toNat := (List.take_append_drop _ _).symm
    refine ⟨b.take n.toNat, b.drop n.toNat, hb, ?_, fun fuel => ?_⟩
    · intro e
      rw [List.take_eq_nil_iff] at e
      rcases e with e | e
      · omega
      · subst e; simp at hle; omega
    · have ht : (b ++ after).take n.toNat = b.take n.toNat := by
        rw [List.take_append_of_le_length hle]
      simp only [feedFd, hp, ht, key _ _ hb, show n ≠ 0 by omega, show ¬ n < 0 by omega, if_false]
      rfl
  · exact absurd (by rw [hp]; trivial) (no 0)

theorem fd_run (hx : x.Ok k ig) (he : x.payload.ends = true) (after : Bytes) : ∀ (fuel : Nat) (a b : Bytes) (m : Msg),
    Mid c k ig x a b m → b ≠ [] → b.length < fuel →
    ∃ m', feedFd (k.feed c) true fuel (b ++ after, m) = .ok [] (after, m') ∧ k.feed c x.text (k.message ig) = .ok [] m' := by
  intro fuel
  induction fuel with
  | zero => intro a b m _ _ h; omega
  | succ fuel ih =>
    intro a b m h hb hlt
    obtain ⟨p, d, rfl, hp, hrun⟩ := h.piece he after
    obtain ⟨m', h1, h2, h3⟩ := h.step hx
    rw [hrun, h1]
    simp only [if_true]
    by_cases hd : d = []
    · subst hd
      refine ⟨m', ?_, h3 rfl⟩
      obtain ⟨M, g1, g2, g3⟩ := kind_parse c k ig x hx [] (fun _ => rfl)
      rw [List.append_nil, h3 rfl] at g1
      cases g1
      have hmode := g2.mode
      rw [he] at hmode
      have hpos := List.length_pos_iff.2 hp
      simp at hlt
      obtain ⟨f, rfl⟩ : ∃ f, fuel = f + 1 := ⟨fuel - 1, by omega⟩
      simp only [if_true] at hmode
      simp [feedFd, Msg.feedPredict, hmode]
    · have hpos := List.length_pos_iff.2 hp
      simp at hlt
      exact ih (a ++ p) d m' (h2 (Or.inl hd)) hd (by omega)

/-- at the end of the file the loop goes on for ever -/
theorem fd_hang (hx : x.Ok k ig) : ∀ (fuel : Nat) (a f d : Bytes) (m : Msg), (d ≠ [] ∨ x.payload.ends = false) →
    Mid c k ig x a (f ++ d) m → feedFd (k.feed c) true fuel (f, m) = .hang := by
  intro fuel
  induction fuel with
  | zero => intros; rfl
  | succ fuel ih =>
    intro a f d m hd h
    have key : ∀ p f', f = p ++ f' → (match k.feed c p m with
      | .ok unread m' => if unread = [] then feedFd (k.feed c) true fuel (f.drop p.length, m') else .ok unread (f.drop p.length, m')
      | .raise e m' => .raise e (f.drop p.length, m')
      | .hang => .hang) = Res.hang := by
      rintro p f' rfl
      rw [List.append_assoc] at h
      obtain ⟨m', h1, h2, h3⟩ := h.step hx
      rw [h1]
      simp only [if_true, List.drop_left]
      refine ih (a ++ p) f' d m' hd (h2 ?_)
      rcases hd with h | h
      · left; simp [h]
      · exact Or.inr h
    rcases h.asks with hp | ⟨n, hp, hn⟩ | hp
    · simp only [feedFd, hp, if_true]
      rcases line_cases f with h1 | ⟨u, rest, h1, rfl⟩
      · have : File.firstLine f = f := File.firstLine_noLF f h1
        rw [this]
        exact key f [] (by simp)
      · rw [firstLine_eq h1 rfl]
        exact key (u ++ [10]) rest (by simp)
    · simp only [feedFd, hp, show n ≠ 0 by omega, show ¬ n < 0 by omega, if_false]
      exact key _ _ (List.take_append_drop n.toNat f).symm
    · simp only [feedFd, hp]
      exact key f [] (by simp)

theorem mid_start : k.feed c [] (k.message ig) = .ok [] (k.message ig) := by
  cases k with
  | request => exact feed_nil c _
  | response rm =>
    show feedResponse c [] _ = _
    rw [feedResponse_eq, feed_nil]
    rfl

end Warc.Http
