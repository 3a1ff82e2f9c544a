import Verif.Proofs.HttpInterim
/-
  What can be seen of a parsed message; parts of messages.
-/
set_option linter.all false
namespace Warc.Http
open Rx

theorem Done.parsed {k : Kind} {ig : List PyStr} {x : Message} {m' : Msg} (hd : Done k ig x (k.message ig) m') : Parsed x m' := by
  obtain ⟨fr, h, hfr, hpl, hh, hhd⟩ := hd.header
  refine ⟨by rw [hhd]; exact hh.headers, by rw [hhd], ?_, ?_, hd.body, ?_⟩
  · intro me t v e
    obtain ⟨h1, h2, _⟩ := hh.request me t v e
    rw [hhd]; exact ⟨h1, h2⟩
  · intro v c p e
    obtain ⟨h1, h2, h3⟩ := hh.code v c p e
    rw [hhd]; exact ⟨h2, h1, h3⟩
  · show m'.buffer = x.text
    rw [hd.buffer]
    cases k <;> rfl

theorem Done.complete {k : Kind} {ig : List PyStr} {x : Message} {m m' : Msg} (hd : Done k ig x m m') : m'.complete = x.payload.ends := by
  unfold Msg.complete
  rw [hd.mode]
  cases x.payload.ends <;> rfl

theorem Done.close {k : Kind} {ig : List PyStr} {x : Message} {m m' : Msg} (hd : Done k ig x m m') : m'.close = { m' with mode := .end_ } := by
  have h := hd.mode
  cases hx : x.payload.ends with
  | true =>
    rw [hx] at h
    simp only [if_true] at h
    unfold Msg.close
    rw [if_neg (by rw [h]; simp), if_neg (by simp [h])]
    cases m'; simp at h; subst h; rfl
  | false =>
    rw [hx] at h
    simp only [Bool.false_eq_true, if_false] at h
    unfold Msg.close
    rw [if_pos ⟨hd.reader hx, h⟩]

theorem close_id {m : Msg} (h : m.mode = .end_) : m.close = m := by
  unfold Msg.close
  rw [if_neg (by rw [h]; simp), if_neg (by simp [h])]

theorem kind_feed_open {c : Codec} {k : Kind} {ig : List PyStr} {t l : Bytes} {m' : Msg} (h : feed c t (k.message ig) = .ok l m') (hm : m'.mode ≠ .end_) :
    k.feed c t (k.message ig) = .ok l m' := by
  cases k with
  | request => exact h
  | response rm =>
    show feedResponse c t _ = _
    rw [feedResponse_eq, h]
    have : is100 m' = false := by simp [is100, Msg.complete, hm]
    simp [this]

theorem arrived_zero (cs : List Chunk) : arrived cs 0 = [] := by
  induction cs with
  | nil => rfl
  | cons d cs ih => simp [arrived, ih]

theorem received_zero (x : Message) (n : Nat) (h : n ≤ (headText x.start x.fields).length) : x.received n = [] := by
  unfold Message.received
  simp only [show n - (headText x.start x.fields).length = 0 by omega]
  cases x.payload <;> simp [arrived_zero]

theorem truncated_body (c : Codec) (k : Kind) (ig : List PyStr) (x : Message) (hx : x.Ok k ig) (he : x.payload.ends = true) (n : Nat)
    (hn : n < x.text.length) {m1 : Msg} (h : k.feed c (x.text.take n) (k.message ig) = .ok [] m1) : m1.close.getBody = x.received n := by
  have htext : x.text = headText x.start x.fields ++ x.payload.text := rfl
  by_cases hcase : n < (headText x.start x.fields).length
  · obtain ⟨m', h1, h2, h3⟩ := cut_head c (Fresh.message k ig) hx.fits hx.start hx.fields n hcase
    have htk : x.text.take n = (headText x.start x.fields).take n := by
      rw [htext, List.take_append_of_le_length (by omega)]
    have hm' : m'.mode ≠ .end_ := by rcases h2 with e | e <;> rw [e] <;> simp
    rw [htk, kind_feed_open h1 hm'] at h
    cases h
    rw [close_nobody h3, received_zero x n (by omega)]
  · obtain ⟨j, rfl⟩ : ∃ j, n = (headText x.start x.fields).length + j := ⟨n - (headText x.start x.fields).length, by omega⟩
    have htk : x.text.take ((headText x.start x.fields).length + j) = headText x.start x.fields ++ x.payload.text.take j := by
      rw [htext, List.take_length_add_append]
    rw [htk] at h
    have hj : j < x.payload.text.length := by rw [htext] at hn; simp at hn; omega
    obtain ⟨fr, hfr, hpl⟩ := hx.framed
    have hrec : x.received ((headText x.start x.fields).length + j) = match x.payload with
        | .chunked b => arrived b.chunks j
        | p => p.data.take j := by
      unfold Message.received
      simp only [Nat.add_sub_cancel_left]
      cases x.payload <;> rfl
    rw [hrec]
    unfold Message.Framed at hpl
    cases hp : x.payload with
    | none => rw [hp] at hj; simp [Payload.text] at hj
    | toEnd b => rw [hp] at he; cases he
    | sized b =>
      rw [hp] at hpl hj h
      obtain ⟨hb, rfl⟩ := hpl
      obtain ⟨m', h1, h2, h3, h4, h5, h6⟩ := cut_length c (Fresh.message k ig) hx.fits hx.start hx.fields (b.take j) b.length
        (by simp [Payload.text] at hj; simp; omega) hfr hb (hx.gzip ⟨b, hp⟩)
      rw [show (Payload.sized b).text = b from rfl, kind_feed_open h1 (by rw [h2]; simp)] at h
      cases h
      exact h4
    | chunked b =>
      rw [hp] at hpl hj h
      obtain ⟨hb, rfl, hbok⟩ := hpl
      obtain ⟨m', h1, h2, h3⟩ := cut_chunked c (Fresh.message k ig) hx.fits hx.start hx.fields hfr hb b hbok j hj
      rw [show (Payload.chunked b).text = b.text from rfl, kind_feed_open h1 (by rw [h3]; simp)] at h
      cases h
      exact h2

end Warc.Http
