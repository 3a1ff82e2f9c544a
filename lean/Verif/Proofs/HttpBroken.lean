import Verif.Spec.HttpBroken
import Verif.Proofs.HttpZip
/-
  Bodies that are announced as chunked and are not.
-/
set_option linter.all false
namespace Warc.Http
open Rx

variable {k : Kind} {ig : List PyStr} {x : ChunkHead}

theorem ChunkHead.Ok.code (hx : x.Ok k ig) {h : Hdr} (hd : Head k ig x.start x.fields .chunked h) (hk : ∃ rm, k = .response rm) :
    h.code ≠ 100 := by
  obtain ⟨rm, rfl⟩ := hk
  have hb := hx.body
  have hf := hx.fits
  cases hs : x.start with
  | request me t v => rw [hs] at hf; exact absurd hf (by simp [Start.fits])
  | response v cd p =>
    rw [hs] at hb hd
    rw [(hd.code v cd p rfl).1]
    simp only [hasBody] at hb
    omega

/-- the state in which the body begins -/
theorem chunk_head (c : Codec) (hx : x.Ok k ig) (t : Bytes) :
    ∃ m0, feed c (x.text ++ t) (k.message ig) = stageBody t m0 ∧ Ctx {} m0 ∧ Between {} m0 ∧ m0.buffer = x.text ∧
      Head k ig x.start x.fields .chunked m0.header ∧ m0.bodyChunks = [] := by
  have hm := Fresh.message k ig
  have hf := head_feed c k ig x.start x.fields t _ hm hx.fits hx.start hx.fields
  rw [hx.framed] at hf
  obtain ⟨h, hh, hd⟩ := hf
  have hn := (hd.hasBody hx.fits).2 hx.body
  have hmode : h.mode = .chunked := hd.framed
  have hbuf : (k.message ig).buffer = [] := by cases k <;> rfl
  refine ⟨{ atBody (k.message ig) x.text h with reader := some (.chunk {}) }, ?_, ?_, ?_, ?_, hd, hm.chunks⟩
  · rw [show x.text ++ t = headText x.start x.fields ++ t from rfl, hh, afterHeaders, setupBody_chunked c _ rfl hn hmode]
    rfl
  · exact ⟨(atBody_flush (k.message ig) x.text h).inv.congr rfl rfl, rfl, rfl, by simp, by simp⟩
  · refine ⟨rfl, rfl, ?_⟩
    intro y hy
    rw [show ({ atBody (k.message ig) x.text h with reader := some (.chunk {}) } : Msg).bodyChunks = (k.message ig).bodyChunks from rfl, hm.chunks] at hy
    cases hy
  · show (k.message ig).buffer ++ x.text = x.text
    rw [hbuf]; rfl

/-- a body that is taken as it comes -/
structure Taking (k : Kind) (ig : List PyStr) (x : ChunkHead) (b : Bytes) (m : Msg) : Prop where
  mode : m.mode = .body
  reader : m.reader = none
  head : Head k ig x.start x.fields .chunked m.header
  buffer : m.buffer = x.text ++ b
  chunks : m.bodyChunks = [(x.text.length, (b.length : Int))]

theorem Taking.open {b : Bytes} {m : Msg} (h : Taking k ig x b m) : x.Open b m := by
  have hmode : m.header.mode = .chunked := h.head.framed
  have hbody : ∀ m' : Msg, m'.buffer = m.buffer → m'.bodyChunks = m.bodyChunks → m'.getBody = b := by
    intro m' h1 h2
    rw [getBody_pick, h1, h2, h.buffer, h.chunks, pick_last]
  have hc : m.close = { m with mode := .end_ } := by
    unfold Msg.close
    simp [h.mode, h.reader]
  refine ⟨by simp [Msg.complete, h.mode], hbody m rfl rfl, h.buffer, h.head.headers, ?_, ?_, ?_⟩
  · rw [hc]; rfl
  · rw [hc]; exact hbody _ rfl rfl
  · rw [hc]; exact h.buffer

theorem broken_first {line : Bytes} (hl : NoSize line) (rest : Bytes) {m0 : Msg} (hc : Ctx {} m0) (hb : Between {} m0) (hbuf : m0.buffer = x.text)
    (hd : Head k ig x.start x.fields .chunked m0.header) :
    ∃ m, stageBody (line ++ 10 :: rest) m0 = .ok [] m ∧ Taking k ig x (line ++ 10 :: rest) m := by
  rw [stageBody_chunk (by simp) hc, CF_start_line hc.inv hb.mode rest hl.1, hb.flush.pend, List.nil_append, chunkSize_eq, hl.2]
  simp only [if_true]
  refine ⟨_, rfl, hc.mode, rfl, hd, ?_, ?_⟩
  · show (undo m0 (line ++ [10])).buffer ++ _ = _
    rw [(undo_offset _ _).1, hbuf]
  · simp [closeFeed, (undo_offset _ _).2, hbuf]

theorem Taking.more {b : Bytes} {m : Msg} (h : Taking k ig x b m) (c : Codec) (t : Bytes) :
    ∃ m', feed c t m = .ok [] m' ∧ Taking k ig x (b ++ t) m' := by
  rw [feed_body c t h.mode]
  by_cases ht : t = []
  · subst ht
    rw [stageBody_nil]
    exact ⟨m, rfl, by rw [List.append_nil]; exact h⟩
  · rw [stageBody_close ht h.mode h.reader]
    refine ⟨{ m with buffer := m.buffer ++ t, offset := (m.buffer ++ t).length, bodyChunks := [(x.text.length, (b.length : Int) + t.length)] }, ?_, ?_⟩
    · simp [closeFeed, h.chunks]
    · exact ⟨h.mode, h.reader, h.head, by simp [h.buffer], by simp⟩

theorem Taking.kind {b : Bytes} {m : Msg} (hx : x.Ok k ig) (h : Taking k ig x b m) (c : Codec) (ts : List Bytes) :
    ∃ m', feedAll (k.feed c) ts m = .ok [] m' ∧ Taking k ig x (b ++ ts.flatten) m' := by
  induction ts generalizing b m with
  | nil => exact ⟨m, by simp [feedAll], by simpa using h⟩
  | cons t ts ih =>
    obtain ⟨m1, h1, h2⟩ := h.more c t
    obtain ⟨m2, h3, h4⟩ := ih h2
    refine ⟨m2, ?_, by simpa using h4⟩
    rw [feedAll_cons, feed_kind (k := k), h1]
    · simp only [andThen, h3]
      simp
    · intro l m' e hk
      rw [h1] at e
      cases e
      exact hx.code h2.head hk

/-- behind the head the two `feed` do the same -/
theorem feedAll_kind (c : Codec) (ts : List Bytes) {m : Msg} (hi : Inv m) (hm : m.mode = .body ∨ m.mode = .end_)
    (hk : (∃ rm, k = .response rm) → m.header.code ≠ 100) : feedAll (k.feed c) ts m = feedAll (feed c) ts m := by
  induction ts generalizing m with
  | nil => simp [feedAll]
  | cons t ts ih =>
    have hh : ∀ l m', feed c t m = .ok l m' → m'.header.code = m.header.code ∧ (m'.mode = .body ∨ m'.mode = .end_) := by
      intro l m' e
      rcases hm with h | h
      · rw [feed_body c t h] at e
        have hs := stageBody_header t m hi
        rw [e] at hs
        have hs' : SameButTrailers m.header m'.header := hs
        have hmo := (stageBody_inv hi e).2.2
        refine ⟨by rw [hs'], ?_⟩
        rcases hmo with e2 | e2
        · rw [e2]; exact .inl h
        · exact .inr e2
      · rw [feed_end c t (.inl h)] at e
        cases e
        exact ⟨rfl, .inr h⟩
    rw [feedAll_cons, feedAll_cons, feed_kind (k := k) (fun l m' e hr => by rw [(hh l m' e).1]; exact hk hr)]
    cases hf : feed c t m with
    | hang => rfl
    | raise e m' => rfl
    | ok l m' =>
      obtain ⟨h1, h2⟩ := hh l m' hf
      simp only [andThen, ih (feed_inv hi hf).1 h2 (fun hr => by rw [h1]; exact hk hr)]

theorem feedAll_append (f : Bytes → M Msg Bytes) (as bs : List Bytes) (m : Msg) :
    feedAll f (as ++ bs) m = andThen (feedAll f as m) (feedAll f bs) := by
  induction as generalizing m with
  | nil =>
    simp only [List.nil_append, feedAll, M.pure_apply, andThen]
    cases feedAll f bs m <;> rfl
  | cons a as ih =>
    rw [List.cons_append, feedAll_cons, feedAll_cons]
    cases hf : f a m with
    | hang => rfl
    | raise e m' => rfl
    | ok l m' =>
      simp only [andThen, ih]
      cases hg : feedAll f as m' with
      | hang => rfl
      | raise e m2 => rfl
      | ok l2 m2 =>
        simp only
        cases hh : feedAll f bs m2 with
        | hang => rfl
        | raise e m3 => rfl
        | ok l3 m3 => simp

/-- the head and the beginning of a line, in any pieces -/
theorem partial_line (c : Codec) (hx : x.Ok k ig) (a : Bytes) (ha : 10 ∉ a) (ps : List Bytes) (hps : ps.flatten = x.text ++ a) :
    ∃ m, feedAll (k.feed c) ps (k.message ig) = .ok [] m ∧ Inv m ∧ m.mode = .body ∧ Head k ig x.start x.fields .chunked m.header ∧
      m.buffer = x.text ++ a ∧ m.bodyChunks = [] ∧ pend m = a ∧
      ∃ cr, m.reader = some (.chunk cr) ∧ cr.mode = .start ∧ (a = [] → cr = {}) ∧ (a ≠ [] → cr.start = false) := by
  obtain ⟨m0, h1, h2, h3, h4, h5, h6⟩ := chunk_head c hx a
  have hmode : m0.header.mode = .chunked := h5.framed
  have hs : ∃ m, feed c (x.text ++ a) (k.message ig) = .ok [] m ∧ m.mode = .body ∧ m.header = m0.header ∧
      m.buffer = x.text ++ a ∧ m.bodyChunks = [] ∧ pend m = a ∧
      ∃ cr, m.reader = some (.chunk cr) ∧ cr.mode = .start ∧ (a = [] → cr = {}) ∧ (a ≠ [] → cr.start = false) := by
    rw [h1]
    by_cases h0 : a = []
    · subst h0
      rw [stageBody_nil]
      exact ⟨m0, rfl, h2.mode, rfl, by simp [h4], h6, h3.flush.pend, {}, h2.reader, rfl, fun _ => rfl, fun h => absurd rfl h⟩
    · rw [stageBody_chunk h0 h2, CF_start_none h2.inv h3.mode h0 ha]
      refine ⟨_, rfl, h2.mode, rfl, ?_, h6, ?_, _, rfl, rfl, fun h => absurd h h0, fun _ => rfl⟩
      · show m0.buffer ++ a = _
        rw [h4]
      · have hp := h3.flush.pend
        unfold pend at hp ⊢
        show (m0.buffer ++ a).drop m0.offset = a
        have hfl : m0.offset = m0.buffer.length := h3.flush
        rw [hfl]
        simp
  obtain ⟨m, g1, g2, g3, g4, g5, g6, cr, g7, g8, g9, g10⟩ := hs
  have hd : Head k ig x.start x.fields .chunked m.header := by rw [g3]; exact h5
  have hk : k.feed c (x.text ++ a) (k.message ig) = .ok [] m := by
    rw [feed_kind (k := k), g1]
    intro l m' e hr
    rw [g1] at e
    cases e
    exact hx.code hd hr
  refine ⟨m, ?_, (feed_inv (message_inv k ig) g1).1, g2, hd, g4, g5, g6, cr, g7, g8, g9, g10⟩
  rw [kind_pieces c k ig ps, hps, hk]
  rw [hps, hk]
  have hsp : Http.Splittable (.ok [] m) := by
    refine ⟨fun h => (by simp [g2] at h), ?_, ?_⟩
    · simp [gzipBody, show m.header.mode = .chunked by rw [g3]; exact hmode]
    · rintro ⟨_, h, _⟩
      rw [g7] at h
      cases h
  cases k with
  | request => exact hsp
  | response rm =>
    have hn := hx.code hd ⟨rm, rfl⟩
    constructor
    · exact hsp
    · intro l m' e hh
      cases e
      exact hn hh.2

end Warc.Http
