import Verif.Proofs.HttpFd
import Verif.Proofs.HttpDemo
/-
  C62: Reading a message from a file or a connection, as much as the parser asks for.
-/
set_option linter.all false
namespace Warc
open Rx Stream Spec Http

/-- **C62** In every state that calls of `feed` can lead to (no gzip body with Content-Length), what `feed_predict()` asks
for, or a first part of it, is never more than the message: nothing of it is given back. -/
theorem C62_predict (c : Codec) (k : Http.Kind) (ig : List PyStr) (m m' : Msg) (hm : Reached (k.feed c) (k.message ig) m)
    (hg : gzipBody m.header = false) (t l : Bytes) (ht : Asked m.feedPredict t) (h : k.feed c t m = .ok l m') : l = [] := by
  have ha : Alive k m := by
    clear h ht hg
    induction hm with
    | new => exact Alive.message k ig
    | @feed _ _ t1 _ _ hf ih =>
      have := kind_sane (c := c) (k := k) (t := t1) ih
      rw [hf] at this
      exact this
  exact kind_asked ha hg ht h

/-- in the middle of a body of 5 bytes, 3 of which have been read, it asks for two more -/
example (c : Codec) : ∃ m, Reached ((Http.Kind.request).feed c) ((Http.Kind.request).message []) m ∧ gzipBody m.header = false ∧
    m.feedPredict = .count 2 ∧ Asked m.feedPredict (b! "xy") := by
  have h : ∃ m, feed c (b! "POST / HTTP/1.1\r\nContent-Length: 5\r\n\r\nabc") (Msg.request []) = .ok [] m ∧
      gzipBody m.header = false ∧ m.feedPredict = .count 2 :=
    ⟨_, rfl, by decide +kernel, by decide +kernel⟩
  obtain ⟨m, h1, h2, h3⟩ := h
  exact ⟨m, .feed .new h1, h2, h3, by rw [h3]; exact (by decide : ((b! "xy").length : Int) ≤ 2)⟩

/-- **C62** `feed_fd` on an object with a method `readLine`, from which a well-formed message that says where it ends can be read,
followed by anything: the message is read, complete, and not a byte more is taken. -/
theorem C62_reads_one (c : Codec) (k : Http.Kind) (ig : List PyStr) (x : Message) (hx : x.Ok k ig) (he : x.payload.ends = true)
    (after : Bytes) (fuel : Nat) (hf : x.text.length < fuel) :
    ∃ m, feedFd (k.feed c) true fuel (x.text ++ after, k.message ig) = .ok [] (after, m) ∧ m.complete = true ∧ Parsed x m := by
  obtain ⟨M, g1, g2, g3⟩ := kind_parse c k ig x hx [] (fun _ => rfl)
  rw [List.append_nil] at g1
  have hne : x.text ≠ [] := by
    intro e
    rw [e] at g1
    have hmode := g2.mode
    rw [he] at hmode
    have hm1 := mid_start (c := c) (k := k) (ig := ig)
    rw [hm1] at g1
    cases g1
    cases k <;> cases hmode
  obtain ⟨m, hm⟩ := mid (c := c) hx [] x.text rfl (Or.inl hne)
  have h0 : m = k.message ig := by
    have := hm.state
    have hm1 := mid_start (c := c) (k := k) (ig := ig)
    rw [hm1] at this
    cases this
    rfl
  subst h0
  obtain ⟨m', r1, r2⟩ := fd_run hx he after fuel [] x.text _ hm hne hf
  rw [g1] at r2
  cases r2
  exact ⟨M, r1, by rw [g2.complete, he], g2.parsed⟩

example : demoPost.Ok .request [] ∧ demoPost.payload.ends = true := ⟨demoPost_ok, rfl⟩
example (rm : PyStr) (h : rm ≠ .bytes (b! "HEAD")) : demoChunked.Ok (.response rm) [] ∧ demoChunked.payload.ends = true :=
  ⟨demoChunked_ok rm h, rfl⟩

/-- **C62** (defect) When the message is cut short, or its body ends with the connection, `feed_fd` never returns: no number of
rounds is enough. -/
theorem C62_never_returns (c : Codec) (k : Http.Kind) (ig : List PyStr) (x : Message) (hx : x.Ok k ig) (n : Nat)
    (hn : x.payload.ends = false ∨ n < x.text.length) (fuel : Nat) :
    feedFd (k.feed c) true fuel (x.text.take n, k.message ig) = .hang := by
  have hd : x.text.drop n ≠ [] ∨ x.payload.ends = false := by
    rcases hn with h | h
    · exact Or.inr h
    · left
      intro e
      rw [List.drop_eq_nil_iff] at e
      omega
  have ht : x.text = x.text.take n ++ x.text.drop n := (List.take_append_drop _ _).symm
  have hb : x.text ≠ [] ∨ x.payload.ends = false := by
    rcases hd with h | h
    · left; intro e; rw [e] at h; simp at h
    · exact Or.inr h
  obtain ⟨m, hm⟩ := mid (c := c) hx [] x.text rfl hb
  have h0 : m = k.message ig := by
    have := hm.state
    have hm1 := mid_start (c := c) (k := k) (ig := ig)
    rw [hm1] at this
    cases this
    rfl
  subst h0
  rw [ht] at hm
  exact fd_hang hx fuel [] _ _ _ hd (by rw [← List.nil_append (x.text.take n ++ _)]; exact hm)

example : demoClose.Ok (.response (.bytes (b! "GET"))) [] ∧ demoClose.payload.ends = false := ⟨demoClose_ok _ (by decide), rfl⟩
example : demoPost.Ok .request [] ∧ 5 < demoPost.text.length := ⟨demoPost_ok, by decide +kernel⟩

/-- **C62** (defect) On an object without such a method (Python's files and sockets have none) it raises AttributeError before anything is
read. -/
theorem C62_no_readLine (c : Codec) (k : Http.Kind) (ig : List PyStr) (fd : Bytes) (fuel : Nat) :
    feedFd (k.feed c) false (fuel + 1) (fd, k.message ig) = .raise .attributeError (fd, k.message ig) := by
  cases k <;> rfl

end Warc
