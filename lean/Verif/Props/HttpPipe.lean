import Verif.Spec.HttpPipe
import Verif.Proofs.HttpFd
import Verif.Proofs.HttpDemo
/-
  C75: several messages on one connection.
-/
set_option linter.all false
namespace Warc
open Rx Stream Spec Http

/-- a further piece of a message that does not finish it -/
theorem pipe_more {c : Codec} {k : Http.Kind} {ig : List PyStr} {x : Message} {a p b : Bytes} {m : Msg} (hx : x.Ok k ig)
    (hm : k.feed c a (k.message ig) = .ok [] m) (ht : x.text = a ++ p ++ b) (hb : b ≠ [] ∨ x.payload.ends = false) :
    ∃ m', k.feed c p m = .ok [] m' ∧ k.feed c (a ++ p) (k.message ig) = .ok [] m' ∧ m'.complete = false := by
  obtain ⟨M, h1, h2, h3⟩ := kind_parse c k ig x hx [] (fun _ => rfl)
  rw [List.append_nil, ht] at h1
  obtain ⟨l, m1, h4, h5, l2, h6, h7⟩ := kind_prefix c k ig (a ++ p) b [] M h1 h3
  obtain ⟨rfl, rfl⟩ := List.append_eq_nil_iff.1 h7.symm
  obtain ⟨l, m2, g4, g5, l2, g6, g7⟩ := kind_prefix c k ig a p [] m1 h4 h5
  rw [hm] at g4
  cases g4
  rw [List.nil_append] at g7
  subst g7
  obtain ⟨m3, hmid⟩ := mid (c := c) hx (a ++ p) b ht hb
  have : m3 = m1 := by have := hmid.state; rw [h4] at this; cases this; rfl
  subst this
  refine ⟨m3, g6, h4, ?_⟩
  simp [Msg.complete, hmid.open_.1]

/-- the last piece of a message, with what follows it -/
theorem pipe_last {c : Codec} {k : Http.Kind} {ig : List PyStr} {x : Message} {a p after : Bytes} {m : Msg} (hx : x.Ok k ig) (he : x.payload.ends = true)
    (hm : k.feed c a (k.message ig) = .ok [] m) (ht : a ++ p = x.text ++ after) :
    ∃ m', k.feed c p m = .ok after m' ∧ m'.complete = true ∧ Parsed x m' := by
  obtain ⟨M, h1, h2, h3⟩ := kind_parse c k ig x hx after (by simp [he])
  rw [← ht] at h1
  obtain ⟨l, m1, h4, h5, l2, h6, h7⟩ := kind_prefix c k ig a p after M h1 h3
  rw [hm] at h4
  cases h4
  rw [List.nil_append] at h7
  subst h7
  exact ⟨M, h6, by rw [h2.complete, he], h2.parsed⟩

theorem pipe_new {c : Codec} {k : Http.Kind} {ig : List PyStr} : k.feed c [] (k.message ig) = .ok [] (k.message ig) := by
  cases k with
  | request => exact feed_nil c _
  | response rm =>
    show feedResponse c [] _ = _
    rw [feedResponse_eq, feed_nil]
    rfl

theorem allParsed_append {a b : List (Http.Kind × Message)} {p q : List Msg} (h1 : AllParsed a p) (h2 : AllParsed b q) : AllParsed (a ++ b) (p ++ q) := by
  induction a generalizing p with
  | nil =>
    cases p with
    | nil => exact h2
    | cons m p => exact h1.elim
  | cons x a ih =>
    cases p with
    | nil => exact h1.elim
    | cons m p => exact ⟨h1.1, h1.2.1, ih h1.2.2⟩

/-- finished messages, all of a kind whose end can be seen -/
structure AllDone (xs : List (Http.Kind × Message)) (ms : List Msg) : Prop where
  parsed : AllParsed xs ms
  ends : ∀ x ∈ xs, x.2.payload.ends = true

theorem AllDone.append {a b : List (Http.Kind × Message)} {p q : List Msg} (h1 : AllDone a p) (h2 : AllDone b q) : AllDone (a ++ b) (p ++ q) :=
  ⟨allParsed_append h1.parsed h2.parsed, fun x hx => (List.mem_append.1 hx).elim (h1.ends x) (h2.ends x)⟩

theorem AllDone.nil : AllDone [] [] := ⟨trivial, fun _ h => by cases h⟩

theorem AllDone.cons {x : Http.Kind × Message} {m : Msg} {a : List (Http.Kind × Message)} {p : List Msg} (h1 : m.complete = true) (h2 : Parsed x.2 m) (h3 : x.2.payload.ends = true)
    (h : AllDone a p) : AllDone (x :: a) (m :: p) :=
  ⟨⟨h1, h2, h.parsed⟩, fun y hy => (List.mem_cons.1 hy).elim (fun e => e ▸ h3) (h.ends y)⟩

/-- only the last message may be one that ends with the connection, and nothing follows it -/
def Closed (xs : List (Http.Kind × Message)) (after : Bytes) : Prop :=
  ∀ a x b, xs = a ++ x :: b → x.2.payload.ends = false → b = [] ∧ after = []

/-- Where the program stands: `q` is still to come. -/
structure Standing (c : Codec) (ig : List PyStr) (xs : List (Http.Kind × Message)) (after q : Bytes) (l : Line) : Prop where
  stands : (∃ ds k x xs' m a b, xs = ds ++ (k, x) :: xs' ∧ AllDone ds l.done ∧ l.cur = some (k, m) ∧ l.todo = xs'.map (·.1) ∧ l.over = [] ∧
      x.text = a ++ b ∧ (b ≠ [] ∨ x.payload.ends = false) ∧ k.feed c a (k.message ig) = .ok [] m ∧ q = b ++ (texts xs' ++ after)) ∨
    (AllDone xs l.done ∧ l.cur = none ∧ l.todo = [] ∧ l.over ++ q = after)

/-- two ways to cut the same text -/
theorem cut_cases {a b c d : Bytes} (h : a ++ b = c ++ d) : (∃ e, e ≠ [] ∧ c = a ++ e ∧ b = e ++ d) ∨ (∃ e, a = c ++ e ∧ d = e ++ b) := by
  rcases List.append_eq_append_iff.1 h with ⟨e, h1, h2⟩ | ⟨e, h1, h2⟩
  · by_cases he : e = []
    · subst he; exact .inr ⟨[], by simpa using h1.symm, by simpa using h2.symm⟩
    · exact .inl ⟨e, he, h1, h2⟩
  · exact .inr ⟨e, h1, h2⟩

theorem text_ne (x : Message) : x.text ≠ [] := by
  intro h
  have := congrArg List.length h
  simp [Message.text, headText] at this

theorem pour_standing {c : Codec} {ig : List PyStr} (xs : List (Http.Kind × Message)) (after : Bytes) : ∀ (k : Http.Kind) (x : Message) (m : Msg) (a b p q : Bytes),
    (∀ y ∈ (k, x) :: xs, y.2.Ok y.1 ig) → Closed ((k, x) :: xs) after → k.feed c a (k.message ig) = .ok [] m → x.text = a ++ b → (b ≠ [] ∨ x.payload.ends = false) →
    p ++ q = b ++ (texts xs ++ after) →
    ∃ l, pour c ig k m (xs.map (·.1)) p = some l ∧ Standing c ig ((k, x) :: xs) after q l := by
  -- a piece that does not finish the message
  have inside : ∀ (xs : List (Http.Kind × Message)) (k : Http.Kind) (x : Message) (m : Msg) (a b p q e : Bytes), x.Ok k ig → k.feed c a (k.message ig) = .ok [] m →
      x.text = a ++ b → b = p ++ e → (e ≠ [] ∨ x.payload.ends = false) → q = e ++ (texts xs ++ after) →
      ∃ l, pour c ig k m (xs.map (·.1)) p = some l ∧ Standing c ig ((k, x) :: xs) after q l := by
    intro xs k x m a b p q e hx hm ht hbe he hq
    obtain ⟨m', h1, h2, h3⟩ := pipe_more (p := p) (b := e) hx hm (by rw [ht, hbe]; simp) he
    refine ⟨⟨[], some (k, m'), xs.map (·.1), []⟩, ?_, ⟨.inl ⟨[], k, x, xs, m', a ++ p, e, rfl, .nil, rfl, rfl, rfl, by rw [ht, hbe]; simp, he, h2, hq⟩⟩⟩
    cases xs with
    | nil => simp [pour, h1, h3]
    | cons y xs => simp [pour, h1, h3]
  induction xs with
  | nil =>
    intro k x m a b p q hok hcl hm ht hb hpq
    have hx : x.Ok k ig := hok (k, x) (by simp)
    cases he : x.payload.ends with
    | false =>
      obtain ⟨_, rfl⟩ := hcl [] (k, x) [] rfl he
      exact inside [] k x m a b p q q hx hm ht (by simpa [texts] using hpq.symm) (.inr he) (by simp [texts])
    | true =>
      rcases cut_cases hpq with ⟨e, h1, h2, h3⟩ | ⟨e, h1, h2⟩
      · exact inside [] k x m a b p q e hx hm ht h2 (.inl h1) h3
      · obtain ⟨m', g1, g2, g3⟩ := pipe_last (p := p) (after := e) hx he hm (by rw [ht, h1]; simp)
        refine ⟨⟨[m'], none, [], e⟩, by simp [pour, g1, g2], ⟨.inr ⟨.cons g2 g3 he .nil, rfl, rfl, ?_⟩⟩⟩
        rw [← h2]; simp [texts]
  | cons y xs ih =>
    intro k x m a b p q hok hcl hm ht hb hpq
    have hx : x.Ok k ig := hok (k, x) (by simp)
    cases he : x.payload.ends with
    | false =>
      have := (hcl [] (k, x) (y :: xs) rfl he).1
      cases this
    | true =>
      rcases cut_cases hpq with ⟨e, h1, h2, h3⟩ | ⟨e, h1, h2⟩
      · exact inside (y :: xs) k x m a b p q e hx hm ht h2 (.inl h1) h3
      · obtain ⟨m', g1, g2, g3⟩ := pipe_last (p := p) (after := e) hx he hm (by rw [ht, h1]; simp)
        obtain ⟨k2, y⟩ := y
        obtain ⟨l, i1, ⟨i2⟩⟩ := ih k2 y (k2.message ig) [] y.text e q (fun z hz => hok z (by simp at hz ⊢; exact .inr hz))
          (fun a' x' b' hx' => hcl ((k, x) :: a') x' b' (by rw [hx']; rfl)) pipe_new (by simp) (.inl (text_ne y)) (by rw [← h2]; simp [texts])
        refine ⟨{ l with done := m' :: l.done }, ?_, ⟨?_⟩⟩
        · simp only [List.map_cons, pour, g1, g2, if_true, i1, Option.map_some]
        · rcases i2 with ⟨ds, k3, x3, xs3, m3, a3, b3, j1, j2, j3⟩ | ⟨j1, j2⟩
          · exact .inl ⟨(k, x) :: ds, k3, x3, xs3, m3, a3, b3, by rw [j1]; rfl, AllDone.cons g2 g3 he j2, j3⟩
          · exact .inr ⟨.cons g2 g3 he j1, j2⟩

theorem receive_standing {c : Codec} {ig : List PyStr} {xs : List (Http.Kind × Message)} {after p q : Bytes} {l : Line}
    (hok : ∀ y ∈ xs, y.2.Ok y.1 ig) (hcl : Closed xs after) (h : Standing c ig xs after (p ++ q) l) :
    ∃ l', l.receive c ig p = some l' ∧ Standing c ig xs after q l' := by
  obtain ⟨done, cur, todo, over⟩ := l
  rcases h.stands with ⟨ds, k, x, xs', m, a, b, h1, h2, h3, h4, h5, h6, h7, h8, h9⟩ | ⟨h1, h2, h3, h4⟩
  · simp only at h2 h3 h4 h5
    subst h3; subst h4; subst h5
    obtain ⟨l, i1, ⟨i2⟩⟩ := pour_standing (c := c) xs' after k x m a b p q (fun y hy => hok y (by rw [h1]; exact List.mem_append_right _ hy))
      (fun a' x' b' hx' => hcl (ds ++ a') x' b' (by rw [h1, hx']; simp)) h8 h6 h7 h9
    refine ⟨{ l with done := done ++ l.done, over := [] ++ l.over }, by simp only [Line.receive, i1, Option.map_some], ⟨?_⟩⟩
    rcases i2 with ⟨ds2, k3, x3, xs3, m3, a3, b3, j1, j2, j3, j4, j5, j6⟩ | ⟨j1, j2, j3, j4⟩
    · exact .inl ⟨ds ++ ds2, k3, x3, xs3, m3, a3, b3, by rw [h1, j1]; simp, h2.append j2, j3, j4, by simp [j5], j6⟩
    · exact .inr ⟨by rw [h1]; exact h2.append j1, j2, j3, by simpa using j4⟩
  · simp only at h1 h2 h3 h4
    subst h2; subst h3
    refine ⟨⟨done, none, [], over ++ p⟩, rfl, ⟨.inr ⟨h1, rfl, rfl, by rw [List.append_assoc]; exact h4⟩⟩⟩

theorem receiveAll_standing {c : Codec} {ig : List PyStr} {xs : List (Http.Kind × Message)} {after q : Bytes} (ps : List Bytes) {l : Line}
    (hok : ∀ y ∈ xs, y.2.Ok y.1 ig) (hcl : Closed xs after) (h : Standing c ig xs after (ps.flatten ++ q) l) :
    ∃ l', l.receiveAll c ig ps = some l' ∧ Standing c ig xs after q l' := by
  induction ps generalizing l with
  | nil => exact ⟨l, rfl, h⟩
  | cons p ps ih =>
    obtain ⟨l1, h1, h2⟩ := receive_standing (p := p) (q := ps.flatten ++ q) hok hcl (by simpa using h)
    obtain ⟨l2, h3, h4⟩ := ih h2
    exact ⟨l2, by simp only [Line.receiveAll, h1, Option.bind_some, h3], h4⟩

theorem new_standing {c : Codec} {ig : List PyStr} (xs : List (Http.Kind × Message)) (after : Bytes) :
    Standing c ig xs after (texts xs ++ after) (Line.new ig (xs.map (·.1))) := by
  cases xs with
  | nil => exact ⟨.inr ⟨.nil, rfl, rfl, by simp [texts, Line.new]⟩⟩
  | cons y xs => exact ⟨.inl ⟨[], y.1, y.2, xs, _, [], y.2.text, rfl, .nil, rfl, rfl, rfl, rfl, .inl (text_ne _), pipe_new, by simp [texts]⟩⟩

/-- **C75** Any number of messages on one connection, cut into pieces in any way: feeding each piece to the parser in progress and what it gives back to a new parser
finds exactly these messages, and what follows the last one is left over. -/
theorem C75_pipeline (c : Codec) (ig : List PyStr) (xs : List (Http.Kind × Message)) (hok : ∀ x ∈ xs, x.2.Ok x.1 ig ∧ x.2.payload.ends = true)
    (after : Bytes) (ps : List Bytes) (hps : ps.flatten = texts xs ++ after) :
    ∃ ms, (Line.new ig (xs.map (·.1))).receiveAll c ig ps = some ⟨ms, none, [], after⟩ ∧ AllParsed xs ms := by
  obtain ⟨l, h1, ⟨h2⟩⟩ := receiveAll_standing (c := c) (q := []) ps (fun y hy => (hok y hy).1)
    (fun a x b hx he => by rw [(hok x (by rw [hx]; simp)).2] at he; cases he)
    (by rw [List.append_nil, hps]; exact new_standing xs after)
  rcases h2 with ⟨ds, k, x, xs', m, a, b, g1, g2, g3, g4, g5, g6, g7, g8, g9⟩ | ⟨g1, g2, g3, g4⟩
  · have : b = [] := (List.append_eq_nil_iff.1 g9.symm).1
    rcases g7 with h | h
    · exact absurd this h
    · rw [(hok (k, x) (by rw [g1]; simp)).2] at h; cases h
  · obtain ⟨done, cur, todo, over⟩ := l
    simp only at g1 g2 g3 g4
    subst g2; subst g3
    rw [List.append_nil] at g4
    subst g4
    exact ⟨done, h1, g1.parsed⟩

/-- **C75** At every moment the finished messages are those whose text has arrived completely, and no others; nothing of the others is lost or left over. -/
theorem C75_any_moment (c : Codec) (ig : List PyStr) (xs : List (Http.Kind × Message)) (hok : ∀ x ∈ xs, x.2.Ok x.1 ig ∧ x.2.payload.ends = true)
    (n : Nat) (hn : n < (texts xs).length) (ps : List Bytes) (hps : ps.flatten = (texts xs).take n) :
    ∃ ds x xs' l, xs = ds ++ x :: xs' ∧ (texts ds).length ≤ n ∧ n < (texts ds).length + x.2.text.length ∧
      (Line.new ig (xs.map (·.1))).receiveAll c ig ps = some l ∧ AllParsed ds l.done ∧ l.over = [] ∧ l.todo = xs'.map (·.1) ∧
      ∃ m, l.cur = some (x.1, m) ∧ m.complete = false := by
  obtain ⟨l, h1, ⟨h2⟩⟩ := receiveAll_standing (c := c) (q := (texts xs).drop n) (after := []) ps (fun y hy => (hok y hy).1)
    (fun a x b hx he => by rw [(hok x (by rw [hx]; simp)).2] at he; cases he)
    (by rw [hps, List.take_append_drop]; have := new_standing (c := c) (ig := ig) xs []; rwa [List.append_nil] at this)
  have hlen : ((texts xs).drop n).length = (texts xs).length - n := by simp
  rcases h2 with ⟨ds, k, x, xs', m, a, b, g1, g2, g3, g4, g5, g6, g7, g8, g9⟩ | ⟨g1, g2, g3, g4⟩
  · have hxs : (texts xs).length = (texts ds).length + (a.length + b.length) + (texts xs').length := by
      rw [g1]; simp [texts, g6]; omega
    have hb : b ≠ [] := by
      rcases g7 with h | h
      · exact h
      · rw [(hok (k, x) (by rw [g1]; simp)).2] at h; cases h
    have hbl : 0 < b.length := List.length_pos_iff.2 hb
    rw [g9] at hlen
    simp only [List.append_nil, List.length_append] at hlen
    obtain ⟨m2, hmid⟩ := mid (c := c) (hok (k, x) (by rw [g1]; simp)).1 a b g6 (.inl hb)
    have : m2 = m := by have := hmid.state; rw [g8] at this; cases this; rfl
    subst this
    refine ⟨ds, (k, x), xs', l, g1, by omega, by simp only [g6, List.length_append]; omega, h1, g2.parsed, g5, g4, m2, g3, by simp [Msg.complete, hmid.open_.1]⟩
  · rw [(List.append_eq_nil_iff.1 g4).2] at hlen
    simp at hlen; omega

/-- **C75** If the last message ends with the connection, it takes everything after the others, and is complete after `close()`. -/
theorem C75_close (c : Codec) (ig : List PyStr) (xs : List (Http.Kind × Message)) (hok : ∀ x ∈ xs, x.2.Ok x.1 ig ∧ x.2.payload.ends = true)
    (k : Http.Kind) (y : Message) (hy : y.Ok k ig) (hye : y.payload.ends = false) (ps : List Bytes) (hps : ps.flatten = texts xs ++ y.text) :
    ∃ ms m, (Line.new ig (xs.map (·.1) ++ [k])).receiveAll c ig ps = some ⟨ms, some (k, m), [], []⟩ ∧ AllParsed xs ms ∧
      m.complete = false ∧ m.close.complete = true ∧ Parsed y m.close := by
  obtain ⟨l, h1, ⟨h2⟩⟩ := receiveAll_standing (c := c) (ig := ig) (xs := xs ++ [(k, y)]) (q := []) (after := []) ps
    (fun z hz => by
      rcases List.mem_append.1 hz with h | h
      · exact (hok z h).1
      · simp at h; subst h; exact hy)
    (fun a x b hx he => by
      refine ⟨?_, rfl⟩
      cases b with
      | nil => rfl
      | cons z b =>
        exfalso
        have hx' : xs ++ [(k, y)] = (a ++ [x]) ++ (z :: b) := by rw [hx]; simp
        have : x ∈ xs := by
          have h := congrArg List.dropLast hx
          rw [List.dropLast_concat, List.dropLast_append_of_ne_nil (by simp)] at h
          rw [h]; simp
        rw [(hok x this).2] at he; cases he)
    (by rw [List.append_nil, hps]; have := new_standing (c := c) (ig := ig) (xs ++ [(k, y)]) []; simpa [texts] using this)
  rcases h2 with ⟨ds, k3, x, xs', m, a, b, g1, g2, g3, g4, g5, g6, g7, g8, g9⟩ | ⟨g1, g2, g3, g4⟩
  · have hb : b = [] := (List.append_eq_nil_iff.1 g9.symm).1
    have hxe : x.payload.ends = false := by
      rcases g7 with h | h
      · exact absurd hb h
      · exact h
    have hxs' : xs' = [] := by
      cases xs' with
      | nil => rfl
      | cons z zs =>
        exfalso
        have h := congrArg List.dropLast g1
        rw [List.dropLast_concat, List.dropLast_append_of_ne_nil (by simp)] at h
        have := (hok (k3, x) (by rw [h]; simp)).2
        rw [show x.payload.ends = true from this] at hxe; cases hxe
    subst hxs'
    obtain ⟨e1, e2⟩ := List.append_inj' g1 rfl
    cases e2
    subst e1
    obtain ⟨done, cur, todo, over⟩ := l
    simp only at g2 g3 g4 g5
    subst g3; subst g4; subst g5
    rw [hb, List.append_nil] at g6
    obtain ⟨M, i1, i2, i3⟩ := kind_parse c k ig y hy [] (fun _ => rfl)
    rw [List.append_nil, g6, g8] at i1
    cases i1
    have hp := i2.parsed
    refine ⟨done, m, by simpa using h1, g2.parsed, by rw [i2.complete, hye], by rw [i2.close]; rfl, ?_⟩
    rw [i2.close]
    exact ⟨hp.headers, hp.trailers, hp.request, hp.response, hp.body, hp.text⟩
  · have := g1.ends (k, y) (by simp)
    rw [show y.payload.ends = true from this] at hye; cases hye

/-! ### The hypotheses are met -/

/-- a POST request; then two responses on a connection, to GET (chunked) and to HEAD, and one that ends with the connection -/
example : (∀ x ∈ [(Http.Kind.request, demoPost)], x.2.Ok x.1 [] ∧ x.2.payload.ends = true) ∧
    (∀ x ∈ [(Http.Kind.response (.bytes (b! "GET")), demoChunked), (.response (.bytes (b! "HEAD")), demoHead)], x.2.Ok x.1 [] ∧ x.2.payload.ends = true) ∧
    demoClose.Ok (.response (.bytes (b! "GET"))) [] ∧ demoClose.payload.ends = false := by
  refine ⟨?_, ?_, demoClose_ok _ (by decide), rfl⟩
  · intro x hx; simp at hx; subst hx; exact ⟨demoPost_ok, rfl⟩
  · intro x hx
    simp only [List.mem_cons, List.not_mem_nil, or_false] at hx
    rcases hx with rfl | rfl
    · exact ⟨demoChunked_ok _ (by decide), rfl⟩
    · exact ⟨demoHead_ok, rfl⟩

/-- two requests in three pieces, the second piece going over the border between them -/
example (c : Codec) : ∃ ms, (Line.new [] [.request, .request]).receiveAll c []
      [demoPost.text.take 9, demoPost.text.drop 9 ++ demoPost.text.take 5, demoPost.text.drop 5 ++ b! "rest"] = some ⟨ms, none, [], b! "rest"⟩ ∧
    AllParsed [(.request, demoPost), (.request, demoPost)] ms :=
  C75_pipeline c [] [(.request, demoPost), (.request, demoPost)] (fun x hx => by simp at hx; subst hx; exact ⟨demoPost_ok, rfl⟩) (b! "rest") _ (by
    have h : ∀ n, demoPost.text = demoPost.text.take n ++ demoPost.text.drop n := fun n => (List.take_append_drop n _).symm
    simp only [List.flatten_cons, List.flatten_nil, texts, List.flatMap_cons, List.flatMap_nil, List.append_nil]
    conv => rhs; lhs; congr; rw [h 9]
    conv => rhs; lhs; rhs; rw [h 5]
    simp only [List.append_assoc])

end Warc
