import Verif.Proofs.HttpBroken
import Verif.Proofs.HttpInterim
/-
  C99: HTTP bodies that are announced as chunked and are not.
-/
set_option linter.all false
namespace Warc
open Rx Http

/-- **C99** A message that announces a chunked body, but whose body does not begin with a chunk size line.  When the head and the whole first line of the
body come in one call, everything behind the head, in this call and in all later ones, is the body; the message is not complete before `close()`. -/
theorem C99_one_call (c : Codec) (k : Http.Kind) (ig : List PyStr) (x : ChunkHead) (hx : x.Ok k ig) (line : Bytes) (hl : NoSize line) (rest : Bytes)
    (ts : List Bytes) :
    ∃ m, feedAll (k.feed c) ((x.text ++ (line ++ 10 :: rest)) :: ts) (k.message ig) = .ok [] m ∧ x.Open (line ++ 10 :: rest ++ ts.flatten) m := by
  obtain ⟨m0, h1, h2, h3, h4, h5, h6⟩ := chunk_head c hx (line ++ 10 :: rest)
  obtain ⟨m1, g1, g2⟩ := broken_first (k := k) (ig := ig) (x := x) hl rest h2 h3 h4 h5
  obtain ⟨m2, g3, g4⟩ := g2.kind hx c ts
  refine ⟨m2, ?_, g4.open⟩
  rw [feedAll_cons, feed_kind (k := k), h1, g1]
  · simp only [andThen, g3]
    simp
  · intro l m' e hk
    rw [h1, g1] at e
    cases e
    exact hx.code g2.head hk

/-- **C99** The same when the head comes first, in any pieces, and the next call brings the whole first line of the body. -/
theorem C99_head_first (c : Codec) (k : Http.Kind) (ig : List PyStr) (x : ChunkHead) (hx : x.Ok k ig) (line : Bytes) (hl : NoSize line) (rest : Bytes)
    (ps ts : List Bytes) (hps : ps.flatten = x.text) :
    ∃ m, feedAll (k.feed c) (ps ++ (line ++ 10 :: rest) :: ts) (k.message ig) = .ok [] m ∧ x.Open (line ++ 10 :: rest ++ ts.flatten) m := by
  obtain ⟨m0, h1, h2, h3, h4, h5, h6, h7, cr, h8, h9, h10, -⟩ := partial_line c hx [] (by simp) ps (by simpa using hps)
  have hcr := h10 rfl
  subst hcr
  have hx0 := h2.ctx h3 h8
  have hb0 : Between {} m0 := by
    refine ⟨rfl, ?_, ?_⟩
    · have := h2.line
      unfold pend at h7
      have := List.drop_eq_nil_iff.1 h7
      have h0 := h2.line.off
      show m0.offset = m0.buffer.length
      omega
    · intro y hy
      rw [h6] at hy
      cases hy
  obtain ⟨m1, g1, g2⟩ := broken_first (k := k) (ig := ig) (x := x) hl rest hx0 hb0 (by simpa using h5) h4
  obtain ⟨m2, g3, g4⟩ := g2.kind hx c ts
  refine ⟨m2, ?_, g4.open⟩
  rw [feedAll_append, h1]
  simp only [andThen]
  rw [feedAll_cons, feed_kind (k := k), feed_body c _ h3, g1]
  · simp only [andThen, g3]
    simp
  · intro l m' e hk
    rw [feed_body c _ h3, g1] at e
    cases e
    exact hx.code g2.head hk

/-- **C99** (defect) When a call ends inside the first line of the body, the same text is an error: in whatever pieces the head, the beginning of
the line, and the rest come, `feed` raises ValueError. -/
theorem C99_split_line (c : Codec) (k : Http.Kind) (ig : List PyStr) (x : ChunkHead) (hx : x.Ok k ig) (a b : Bytes) (ha : a ≠ [])
    (hl : NoSize (a ++ b)) (rest : Bytes) (ps qs : List Bytes) (hps : ps.flatten = x.text ++ a) (hqs : qs.flatten = b ++ 10 :: rest) :
    ∃ m, feedAll (k.feed c) (ps ++ qs) (k.message ig) = .raise .valueError m := by
  have ha10 : 10 ∉ a := fun h => hl.1 (List.mem_append_left _ h)
  have hb10 : 10 ∉ b := fun h => hl.1 (List.mem_append_right _ h)
  obtain ⟨m0, h1, h2, h3, h4, h5, h6, h7, cr, h8, h9, -, h10⟩ := partial_line c hx a ha10 ps hps
  have hx0 := h2.ctx h3 h8
  have hone : ∃ m, feed c (b ++ 10 :: rest) m0 = .raise .valueError m ∧ m.header = m0.header := by
    rw [feed_body c _ h3, stageBody_chunk (by simp) hx0, CF_start_line hx0.inv h9 rest hb10, h7, chunkSize_eq, hl.2]
    simp only [h10 ha, Bool.false_eq_true, if_false]
    exact ⟨_, rfl, rfl⟩
  obtain ⟨m1, g1, g2⟩ := hone
  have hmode : m0.header.mode = .chunked := h4.framed
  refine ⟨m1, ?_⟩
  rw [feedAll_append, h1]
  simp only [andThen]
  rw [feedAll_kind c qs h2 (.inl h3) (fun hr => hx.code h4 hr), feed_pieces c qs m0 h2, hqs, g1]
  rw [hqs, g1]
  show gzipBody m1.header = false
  rw [g2]
  simp [gzipBody, hmode]

/-- **C99** (defect) A body of this kind without any line feed is not shown: the message has no body and stays incomplete, after `close()` as well. -/
theorem C99_no_line (c : Codec) (k : Http.Kind) (ig : List PyStr) (x : ChunkHead) (hx : x.Ok k ig) (a : Bytes) (ha : 10 ∉ a) (ps : List Bytes)
    (hps : ps.flatten = x.text ++ a) :
    ∃ m, feedAll (k.feed c) ps (k.message ig) = .ok [] m ∧ m.complete = false ∧ m.getBody = [] ∧ m.close.complete = false ∧ m.close.getBody = [] ∧
      m.getMessage = x.text ++ a := by
  obtain ⟨m0, h1, h2, h3, h4, h5, h6, h7, cr, h8, -⟩ := partial_line c hx a ha ps hps
  have hcl : m0.close = { m0 with mode := .incomplete } := by
    unfold Msg.close
    simp [h3, h8, h6]
  refine ⟨m0, h1, by simp [Msg.complete, h3], by simp [getBody_pick, h6, pick], by rw [hcl]; simp [Msg.complete], ?_, h5⟩
  rw [hcl, getBody_pick]
  simp [h6, pick]

/-- **C99** Once a chunk has been read, a line that should be a chunk size and is not is an error, in whatever pieces the text comes. -/
theorem C99_later (c : Codec) (k : Http.Kind) (ig : List PyStr) (x : ChunkHead) (hx : x.Ok k ig) (cs : List Chunk) (hcs : cs ≠ []) (hok : ∀ ch ∈ cs, ch.Ok)
    (line : Bytes) (hl : NoSize line) (rest : Bytes) (ts : List Bytes) (hts : ts.flatten = x.text ++ (cs.flatMap Chunk.text ++ (line ++ 10 :: rest))) :
    ∃ m, feedAll (k.feed c) ts (k.message ig) = .raise .valueError m := by
  obtain ⟨m0, h1, h2, h3, h4, h5, h6⟩ := chunk_head c hx (cs.flatMap Chunk.text ++ (line ++ 10 :: rest))
  have hmode : m0.header.mode = .chunked := h5.framed
  have hcut : cs = cs.dropLast ++ [cs.getLast hcs] := (List.dropLast_concat_getLast hcs).symm
  have hone : ∃ m, feed c (x.text ++ (cs.flatMap Chunk.text ++ (line ++ 10 :: rest))) (k.message ig) = .raise .valueError m ∧ m.header = m0.header := by
    rw [h1, stageBody_chunk (by simp) h2]
    obtain ⟨cr1, m1, g1, g2, g3, g4, g5, g6, g7⟩ := CF_chunks cs.dropLast h3 h2 (fun d hd => hok d (List.dropLast_subset _ hd))
      ((cs.getLast hcs).text ++ (line ++ 10 :: rest))
    have htext : cs.flatMap Chunk.text ++ (line ++ 10 :: rest) =
        cs.dropLast.flatMap Chunk.text ++ ((cs.getLast hcs).text ++ (line ++ 10 :: rest)) := by
      conv => lhs; rw [hcut]
      simp
    have hb2 := gotChunk_between g2 (cs.getLast hcs)
    rw [htext, g1, CF_chunk g2 (hok _ (List.getLast_mem hcs)), CF_start_line hb2.flush.inv hb2.mode rest hl.1, hb2.flush.pend, List.nil_append,
      chunkSize_eq, hl.2]
    simp only [Bool.false_eq_true, if_false]
    exact ⟨_, rfl, g6⟩
  obtain ⟨m1, g1, g2⟩ := hone
  have hk : k.feed c (x.text ++ (cs.flatMap Chunk.text ++ (line ++ 10 :: rest))) (k.message ig) = .raise .valueError m1 := by
    rw [feed_kind (k := k), g1]
    intro l m' e
    rw [g1] at e
    cases e
  refine ⟨m1, ?_⟩
  rw [kind_pieces c k ig ts, hts, hk]
  rw [hts, hk]
  have hsp : Http.Splittable (.raise .valueError m1) := by
    show gzipBody m1.header = false
    rw [g2]
    simp [gzipBody, hmode]
  cases k with
  | request => exact hsp
  | response rm => exact ⟨hsp, fun l m' e => by cases e⟩

/-! ### a case -/

def brokenHead : ChunkHead where
  start := .response (b! "HTTP/1.1") 200 (b! "OK")
  fields := [(b! "Content-Type", b! "text/html"), (b! "Transfer-Encoding", b! "chunked")]

theorem brokenHead_ok (rm : PyStr) (h : rm ≠ .bytes (b! "HEAD")) : brokenHead.Ok (.response rm) [] := by
  refine ⟨trivial, by unfold Http.Start.Ok brokenHead; decide, ?_, by decide, ⟨h, by decide, by decide, by decide⟩⟩
  intro f hf
  simp only [brokenHead, List.mem_cons, List.not_mem_nil, or_false] at hf
  rcases hf with rfl | rfl <;> exact ⟨by decide, by decide, by decide, by decide, by decide⟩

example : brokenHead.Ok (.response (.bytes (b! "GET"))) [] := brokenHead_ok _ (by simp)
example : NoSize (b! "<html>") ∧ NoSize (b! "" ++ b! "\r") := by unfold NoSize; decide
example : ¬ NoSize (b! "a0;name=value\r") := by unfold NoSize; decide

/-- one good chunk, then text -/
example : (⟨b! "3", [], b! "abc"⟩ : Chunk).Ok := ⟨⟨by decide, by decide, by decide, .inl rfl, by decide⟩, by decide⟩

end Warc
