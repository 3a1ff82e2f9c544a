import Verif.Proofs.HttpShift
/-
  Messages that are cut off: what is there of the body.
-/
set_option linter.all false
namespace Warc.Http
open Rx

theorem close_chunks {m : Msg} (hm : m.mode ≠ .end_) {pre : List (Nat × Int)} {o : Nat} {l : Nat} (h : m.bodyChunks = pre ++ [(o, (l : Int))])
    (ho : o ≤ m.buffer.length) (hr : m.reader ≠ none) :
    m.close.getBody = pick m.buffer pre ++ (m.buffer.drop o).take l := by
  unfold Msg.close
  rw [if_neg (by rintro ⟨h1, _⟩; exact hr h1), if_pos hm, h]
  simp only [List.getLast?_append, List.getLast?_singleton, Option.or_some, Option.some_or, List.dropLast_concat]
  rw [getBody_pick]
  simp only [pick_append]
  congr 1
  simp only [pick, List.flatMap_cons, List.flatMap_nil, List.append_nil, slice, sliceTo]
  rw [if_pos (by omega)]
  rw [show ((o : Int) + min (l : Int) ((m.buffer.length : Int) - o)).toNat = o + min l (m.buffer.length - o) by omega]
  rw [List.drop_take]
  rw [show o + min l (m.buffer.length - o) - o = min l (m.buffer.length - o) by omega]
  rw [← List.take_take, show m.buffer.length - o = (m.buffer.drop o).length by simp, List.take_length]

theorem close_within {m : Msg} (hm : m.mode ≠ .end_) (hw : Within m.buffer m.bodyChunks) (hr : m.reader ≠ none) : m.close.getBody = m.getBody := by
  rcases List.eq_nil_or_concat m.bodyChunks with h | ⟨pre, x, h⟩
  · unfold Msg.close
    rw [if_neg (by rintro ⟨h1, _⟩; exact hr h1), if_pos hm, h]
    simp [getBody_pick, h]
  · obtain ⟨o, l⟩ := x
    have hx := hw (o, l) (by rw [h]; simp)
    obtain ⟨k, rfl⟩ : ∃ k : Nat, l = (k : Int) := ⟨l.toNat, by have := hx.1; simp only at this; omega⟩
    simp only at hx
    rw [close_chunks (pre := pre) (o := o) (l := k) hm (by rw [h]; simp) (by omega) hr, getBody_pick, h]
    simp only [List.concat_eq_append, pick_append]
    congr 1
    simp only [pick, List.flatMap_cons, List.flatMap_nil, List.append_nil, slice, sliceTo]
    rw [if_pos (by omega), List.drop_take]
    congr 1; omega

theorem take_noLF {u : Bytes} (h : 10 ∉ u) {n : Nat} {rest : Bytes} (hn : n ≤ u.length) : 10 ∉ (u ++ rest).take n := by
  rw [List.take_append_of_le_length hn]
  intro hx
  exact h (List.mem_of_mem_take hx)

/-- part of the trailers -/
theorem CF_trailers_cut (ts : List Header) (hok : FieldsOk ts) {cr : ChunkSt} (hm : cr.mode = .trailer) (m : Msg) (hfl : Flush m)
    (hr : m.reader = some (.chunk cr)) (n : Nat) (hn : n < (fields ts ++ CRLF).length) :
    ∃ m', CF cr ((fields ts ++ CRLF).take n) m = .ok [] m' ∧ m'.mode = m.mode ∧
      m'.buffer = m.buffer ++ (fields ts ++ CRLF).take n ∧ m'.bodyChunks = m.bodyChunks ∧ m'.reader ≠ none := by
  have short : ∀ (u : Bytes) (t : Bytes), 10 ∉ t → ∀ m : Msg, Flush m → m.reader = some (.chunk cr) →
      ∃ m', CF cr t m = .ok [] m' ∧ m'.mode = m.mode ∧ m'.buffer = m.buffer ++ t ∧ m'.bodyChunks = m.bodyChunks ∧ m'.reader ≠ none := by
    intro u t ht m hfl hr
    by_cases h0 : t = []
    · subst h0; rw [CF_nil]; exact ⟨m, rfl, rfl, by simp, rfl, by rw [hr]; simp⟩
    · rw [CF_trailer_none hfl.inv hm h0 ht]; exact ⟨_, rfl, rfl, rfl, rfl, by simp [setR]⟩
  induction ts generalizing m n with
  | nil =>
    apply short [] _ _ m hfl hr
    have : n ≤ 1 := by simpa [fields] using Nat.le_of_lt_succ hn
    show 10 ∉ (([13] : Bytes) ++ [10]).take n
    exact take_noLF (by decide) this
  | cons f ts ih =>
    have hf : FieldOk f := hok f (by simp)
    obtain ⟨u, hu, hu10, _, hnl, _⟩ := field_line hf
    have htext : fields (f :: ts) ++ CRLF = u ++ 10 :: (fields ts ++ CRLF) := by simp [fields, hu]
    rw [htext] at hn ⊢
    by_cases hcase : n ≤ u.length
    · exact short [] _ (take_noLF hu10 hcase) m hfl hr
    · obtain ⟨j, rfl⟩ : ∃ j, n = u.length + 1 + j := ⟨n - u.length - 1, by omega⟩
      have htk : (u ++ 10 :: (fields ts ++ CRLF)).take (u.length + 1 + j) = u ++ 10 :: (fields ts ++ CRLF).take j := by
        rw [Nat.add_assoc, List.take_append, List.take_of_length_le (by omega), show u.length + (1 + j) - u.length = j + 1 by omega, List.take_succ_cons]
      rw [htk, CF_trailer_line hfl.inv hm _ hu10]
      simp only [hfl.pend, List.nil_append, ← hu, onHeader, took_header, addTrailerLine_field hf, hnl, Bool.false_eq_true, if_false]
      obtain ⟨m', h1, h2, h3, h4, h5⟩ := ih (fun g hg => hok g (by simp [hg]))
        (setR cr { took m (fieldText f) with header := { m.header with trailers := m.header.trailers ++ [f] } }) rfl rfl j (by simp at hn ⊢; omega)
      refine ⟨m', h1, h2, ?_, h4, h5⟩
      rw [h3, hu]; simp [took]

/-- part of a size line -/
theorem CF_size_cut {cr : ChunkSt} {m : Msg} (hb : Between cr m) (hx : Ctx cr m) {s e : Bytes} {k : Nat} (h : SizeOk s e k) (rest : Bytes)
    (n : Nat) (hn : n < (sizeLine s e).length) :
    ∃ m', CF cr ((sizeLine s e ++ rest).take n) m = .ok [] m' ∧ m'.mode = .body ∧ m'.close.getBody = m.getBody ∧ m'.reader ≠ none := by
  obtain ⟨u, hu, hu10, hsz⟩ := sizeLine_spec h
  have hnu : n ≤ u.length := by rw [hu] at hn; simp at hn; omega
  have hno : 10 ∉ (sizeLine s e ++ rest).take n := by
    rw [hu, List.append_assoc]; exact take_noLF hu10 hnu
  by_cases h0 : (sizeLine s e ++ rest).take n = []
  · rw [h0, CF_nil]
    exact ⟨m, rfl, hx.mode, close_within (by rw [hx.mode]; simp) hb.within (by rw [hx.reader]; simp), by rw [hx.reader]; simp⟩
  · rw [CF_start_none hb.flush.inv hb.mode h0 hno]
    refine ⟨_, rfl, hx.mode, ?_, by simp [setR]⟩
    rw [close_within (by show m.mode ≠ _; rw [hx.mode]; simp) (by exact hb.within.append _) (by simp [setR])]
    rw [getBody_pick, getBody_pick]
    exact pick_stable hb.within _

/-- part of a chunked body -/
theorem CF_body_cut (b : ChunkedBody) (hok : b.Ok) (cs : List Chunk) (hcs : ∀ c ∈ cs, c.Ok) {cr : ChunkSt} {m : Msg} (hb : Between cr m) (hx : Ctx cr m) (n : Nat)
    (hn : n < (cs.flatMap Chunk.text ++ (sizeLine b.lastSize b.lastExt ++ (fields b.trailers ++ CRLF))).length) :
    ∃ m', CF cr ((cs.flatMap Chunk.text ++ (sizeLine b.lastSize b.lastExt ++ (fields b.trailers ++ CRLF))).take n) m = .ok [] m' ∧ m'.mode = .body ∧
      m'.close.getBody = m.getBody ++ arrived cs n ∧ m'.reader ≠ none := by
  induction cs generalizing cr m n with
  | nil =>
    simp only [List.flatMap_nil, List.nil_append, arrived, List.append_nil] at hn ⊢
    by_cases hcase : n < (sizeLine b.lastSize b.lastExt).length
    · exact CF_size_cut hb hx hok.2.1 _ n hcase
    · obtain ⟨j, rfl⟩ : ∃ j, n = (sizeLine b.lastSize b.lastExt).length + j := ⟨n - (sizeLine b.lastSize b.lastExt).length, by omega⟩
      rw [List.take_length_add_append, CF_size hb hok.2.1]
      obtain ⟨m', g1, g2, g3, g4, g5⟩ := CF_trailers_cut b.trailers hok.2.2 (cr := afterSize (0 : Nat)) rfl
        (setR (afterSize (0 : Nat)) (addChunk (took m (sizeLine b.lastSize b.lastExt)) (0 : Nat))) rfl rfl j (by simp at hn ⊢; omega)
      have hmode : m'.mode = .body := by rw [g2]; exact hx.mode
      refine ⟨m', g1, hmode, ?_, g5⟩
      rw [close_chunks (pre := m.bodyChunks) (o := (m.buffer ++ sizeLine b.lastSize b.lastExt).length) (l := 0) (by rw [hmode]; simp) (by rw [g4]; rfl)
        (by rw [g3]; simp [took, setR, addChunk]) g5, g3]
      simp only [setR_buffer, addChunk_buffer, took]
      rw [List.append_assoc, pick_stable hb.within]
      simp [getBody_pick]
  | cons c cs ih =>
    have hc : c.Ok := hcs c (by simp)
    have hlen : 0 < c.data.length := List.length_pos_iff.2 hc.2
    simp only [List.flatMap_cons, arrived] at hn ⊢
    by_cases h1 : n < (sizeLine c.size c.ext).length
    · have hz : n - (sizeLine c.size c.ext).length = 0 := by omega
      have hz2 : n - c.text.length = 0 := by simp [Chunk.text]; omega
      have harr : ∀ cs, arrived cs 0 = [] := by
        intro cs
        induction cs with
        | nil => rfl
        | cons d cs ih => simp [arrived, ih]
      rw [hz, hz2, harr, List.take_zero, List.append_nil, List.append_nil]
      have := CF_size_cut hb hx hc.1 (c.data ++ CRLF ++ (cs.flatMap Chunk.text ++ (sizeLine b.lastSize b.lastExt ++ (fields b.trailers ++ CRLF)))) n h1
      simpa [Chunk.text] using this
    · by_cases h2 : n < c.text.length
      · -- inside the chunk
        obtain ⟨j, rfl⟩ : ∃ j, n = (sizeLine c.size c.ext).length + j := ⟨n - (sizeLine c.size c.ext).length, by omega⟩
        have hz2 : (sizeLine c.size c.ext).length + j - c.text.length = 0 := by omega
        have harr : ∀ cs, arrived cs 0 = [] := by
          intro cs
          induction cs with
          | nil => rfl
          | cons d cs ih => simp [arrived, ih]
        rw [hz2, harr, List.append_nil, Nat.add_sub_cancel_left]
        have hj : j < c.data.length + 2 := by simp [Chunk.text] at h2; omega
        rw [show c.text ++ cs.flatMap Chunk.text ++ (sizeLine b.lastSize b.lastExt ++ (fields b.trailers ++ CRLF)) =
          sizeLine c.size c.ext ++ (c.data ++ (CRLF ++ (cs.flatMap Chunk.text ++ (sizeLine b.lastSize b.lastExt ++ (fields b.trailers ++ CRLF))))) by simp [Chunk.text],
          List.take_length_add_append, CF_size hb hc.1]
        have has : afterSize (c.data.length : Int) = { mode := .chunk, start := false, remaining := c.data.length } := by
          unfold afterSize; rw [if_neg (by omega)]
        rw [has]
        -- the body afterwards
        have fin : ∀ m' : Msg, m'.mode = .body → m'.reader ≠ none → ∀ x, m'.buffer = m.buffer ++ sizeLine c.size c.ext ++ x → x.take c.data.length = c.data.take j →
            m'.bodyChunks = m.bodyChunks ++ [((m.buffer ++ sizeLine c.size c.ext).length, (c.data.length : Int))] →
            m'.close.getBody = m.getBody ++ c.data.take j := by
          intro m' e1 e2 x e3 e4 e5
          rw [close_chunks (by rw [e1]; simp) e5 (by rw [e3]; simp) e2, e3, List.append_assoc m.buffer, pick_stable hb.within, ← List.append_assoc, List.drop_left, e4]
          rfl
        by_cases h3 : j < c.data.length
        · rw [List.take_append_of_le_length (by omega)]
          by_cases h0 : j = 0
          · subst h0
            rw [List.take_zero, CF_nil]
            exact ⟨_, rfl, hx.mode, fin _ hx.mode (by simp [setR]) [] (by simp [took, addChunk, setR]) (by simp) rfl, by simp [setR]⟩
          · have hpos : c.data.take j ≠ [] := by
              intro e
              rcases List.take_eq_nil_iff.1 e with e | e
              · exact h0 e
              · exact hc.2 e
            rw [CF_part rfl hpos (by simp; omega)]
            refine ⟨_, rfl, hx.mode, fin _ hx.mode (by simp [setR]) (c.data.take j) (by simp [took, addChunk, setR]) ?_ rfl, by simp [setR]⟩
            rw [List.take_of_length_le (by simp; omega)]
        · obtain ⟨i, rfl⟩ : ∃ i, j = c.data.length + i := ⟨j - c.data.length, by omega⟩
          rw [List.take_length_add_append, CF_full rfl c.data _ rfl hlen]
          have hi : i ≤ 1 := by omega
          have hno : 10 ∉ (CRLF ++ (cs.flatMap Chunk.text ++ (sizeLine b.lastSize b.lastExt ++ (fields b.trailers ++ CRLF)))).take i := by
            show 10 ∉ (([13] : Bytes) ++ (10 :: (cs.flatMap Chunk.text ++ (sizeLine b.lastSize b.lastExt ++ (fields b.trailers ++ CRLF))))).take i
            exact take_noLF (by decide) hi
          generalize (CRLF ++ (cs.flatMap Chunk.text ++ (sizeLine b.lastSize b.lastExt ++ (fields b.trailers ++ CRLF)))).take i = y at hno ⊢
          by_cases h0 : y = []
          · subst h0
            rw [CF_nil]
            exact ⟨_, rfl, hx.mode, fin _ hx.mode (by simp [setR]) c.data (by simp [took, addChunk, setR]) (by rw [List.take_of_length_le (by omega), List.take_of_length_le (by omega)]) rfl, by simp [setR]⟩
          · rw [CF_eoc_none (by exact (LineInv.took _ _).congr rfl rfl) rfl rfl h0 hno]
            exact ⟨_, rfl, hx.mode, fin _ hx.mode (by simp [setR]) (c.data ++ y) (by simp [took, addChunk, setR, ext]) (by rw [List.take_left, List.take_of_length_le (by omega)]) rfl, by simp [setR]⟩
      · -- after the chunk
        obtain ⟨j, rfl⟩ : ∃ j, n = c.text.length + j := ⟨n - c.text.length, by omega⟩
        rw [List.append_assoc, List.take_length_add_append, CF_chunk hb hc, Nat.add_sub_cancel_left]
        obtain ⟨m', g1, g2, g3, g4⟩ := ih (fun d hd => hcs d (by simp [hd])) (gotChunk_between hb c)
          ⟨(show Flush (gotChunk m c) from rfl).inv, hx.mode, rfl, by simp, by simp⟩ j (by simp at hn ⊢; omega)
        refine ⟨m', g1, g2, ?_, g4⟩
        rw [g3, gotChunk_body hb, List.append_assoc]
        congr 2
        rw [List.take_of_length_le (by simp [Chunk.text]; omega)]

variable {k : Kind} {ig : List PyStr} {m : Msg} {st : Start} {hs : List Header}

theorem cut_chunked (c : Codec) (hm : Fresh k ig m) (hf : st.fits k) (hst : st.Ok) (hok : FieldsOk hs) (hfr : framing ig hs = some .chunked)
    (hb : Http.hasBody k st .chunked) (b : ChunkedBody) (hbok : b.Ok) (n : Nat) (hn : n < b.text.length) :
    ∃ m', feed c (headText st hs ++ b.text.take n) m = .ok [] m' ∧ m'.close.getBody = arrived b.chunks n ∧ m'.mode = .body := by
  have := head_feed c k ig st hs (b.text.take n) m hm hf hst hok
  rw [hfr] at this
  obtain ⟨h, hh, hd⟩ := this
  have hn' := (hd.hasBody hf).2 hb
  have hmode : h.mode = .chunked := hd.framed
  rw [hh, afterHeaders, setupBody_chunked c _ rfl hn' hmode]
  simp only
  have hx : Ctx {} { atBody m (headText st hs) h with reader := some (.chunk {}) } :=
    ⟨(atBody_flush m (headText st hs) h).inv.congr rfl rfl, rfl, rfl, by simp, by simp⟩
  have hch : ({ atBody m (headText st hs) h with reader := some (.chunk {}) } : Msg).bodyChunks = [] := hm.chunks
  have hbt : Between {} { atBody m (headText st hs) h with reader := some (.chunk {}) } :=
    ⟨rfl, rfl, by intro x hx; rw [hch] at hx; cases hx⟩
  have hbody : ({ atBody m (headText st hs) h with reader := some (.chunk {}) } : Msg).getBody = [] := by
    rw [getBody_pick, hch]; rfl
  by_cases h0 : b.text.take n = []
  · have hn0 : n = 0 := by
      rcases List.take_eq_nil_iff.1 h0 with e | e
      · exact e
      · rw [e] at hn; simp at hn
    rw [h0, stageBody_nil]
    refine ⟨_, rfl, ?_, rfl⟩
    rw [close_within (by simp [atBody]) hbt.within (by simp), hbody, hn0]
    have harr : ∀ cs, arrived cs 0 = [] := by
      intro cs
      induction cs with
      | nil => rfl
      | cons d cs ih => simp [arrived, ih]
    rw [harr]
  · have htext : b.text = b.chunks.flatMap Chunk.text ++ (sizeLine b.lastSize b.lastExt ++ (fields b.trailers ++ CRLF)) := by simp [ChunkedBody.text]
    rw [htext] at hn
    obtain ⟨m', g1, g2, g3, g4⟩ := CF_body_cut b hbok b.chunks hbok.1 hbt hx n hn
    rw [stageBody_chunk h0 hx, htext, g1]
    exact ⟨m', rfl, by rw [g3, hbody]; rfl, g2⟩

theorem cut_length (c : Codec) (hm : Fresh k ig m) (hf : st.fits k) (hst : st.Ok) (hok : FieldsOk hs) (part : Bytes) (n : Nat) (hn : part.length < n)
    (hfr : framing ig hs = some (.length n))
    (hb : Http.hasBody k st (.length n)) (hg : ¬ gzipField ig hs) :
    ∃ m', feed c (headText st hs ++ part) m = .ok [] m' ∧ m'.mode = .body ∧ m'.close.complete = false ∧
      m'.close.getBody = part ∧ gzipBody m'.header = false ∧ m'.reader ≠ none := by
  have := head_feed c k ig st hs part m hm hf hst hok
  rw [hfr] at this
  obtain ⟨h, hh, hd⟩ := this
  have hn' := (hd.hasBody hf).2 hb
  have hng := hd.notGzip (fun _ _ => hg) hf
  rw [hh, afterHeaders, setupBody_length c _ rfl hn' hd.bodyLength hng]
  have hn0 : ¬ ((n : Int) = 0) := by omega
  simp only [hn0, if_false]
  have fin : ∀ m' : Msg, m'.mode = .body → m'.reader ≠ none → m'.buffer = m.buffer ++ headText st hs ++ part →
      m'.bodyChunks = [] ++ [((m.buffer ++ headText st hs).length, (n : Int))] → m'.close.getBody = part := by
    intro m' e1 e2 e3 e4
    rw [close_chunks (by rw [e1]; simp) e4 (by rw [e3]; simp) e2, e3, List.drop_left, List.take_of_length_le (by omega)]
    rfl
  by_cases h0 : part = []
  · subst h0
    rw [stageBody_nil]
    refine ⟨_, rfl, rfl, close_open (by simp [atBody]) (by simp), fin _ rfl (by simp) (by simp [atBody, took]) rfl, hng, by simp⟩
  · rw [stageBody_length h0 rfl rfl, lengthFeed_part (by omega)]
    refine ⟨_, rfl, rfl, close_open (by simp [atBody, took]) (by simp), fin _ rfl (by simp) (by simp [atBody, took]) rfl, hng, by simp⟩

/-! ### a part of the head -/

theorem FH_cut (hs : List Header) (hok : FieldsOk hs) (m : Msg) (hfl : Flush m) (n : Nat) (hn : n < (fields hs ++ CRLF).length) :
    ∃ m', FH ((fields hs ++ CRLF).take n) m = .ok [] m' ∧ m'.mode = m.mode ∧ m'.bodyChunks = m.bodyChunks := by
  induction hs generalizing m n with
  | nil =>
    have : n ≤ 1 := by simpa [fields] using Nat.le_of_lt_succ hn
    have hno : 10 ∉ (fields [] ++ CRLF).take n := take_noLF (u := [13]) (rest := [10]) (by decide) this
    rw [FH_none hfl.inv hno]
    exact ⟨_, rfl, rfl, rfl⟩
  | cons f hs ih =>
    have hf : FieldOk f := hok f (by simp)
    obtain ⟨u, hu, hu10, _, hnl, _⟩ := field_line hf
    obtain ⟨h1, ha, hb, hc, _⟩ := addHeaderLine_field hf m.header
    have htext : fields (f :: hs) ++ CRLF = u ++ 10 :: (fields hs ++ CRLF) := by simp [fields, hu]
    rw [htext] at hn ⊢
    by_cases hcase : n ≤ u.length
    · rw [FH_none hfl.inv (take_noLF hu10 hcase)]; exact ⟨_, rfl, rfl, rfl⟩
    · obtain ⟨j, rfl⟩ : ∃ j, n = u.length + 1 + j := ⟨n - u.length - 1, by omega⟩
      have htk : (u ++ 10 :: (fields hs ++ CRLF)).take (u.length + 1 + j) = u ++ 10 :: (fields hs ++ CRLF).take j := by
        rw [Nat.add_assoc, List.take_append, List.take_of_length_le (by omega), show u.length + (1 + j) - u.length = j + 1 by omega, List.take_succ_cons]
      rw [htk, FH_line hfl.inv _ hu10]
      simp only [hfl.pend, List.nil_append, ← hu, onHeader, took_header, ha, hnl, Bool.false_eq_true, if_false]
      obtain ⟨m', g1, g2, g3⟩ := ih (fun g hg => hok g (by simp [hg])) { took m (fieldText f) with header := h1 } rfl j (by simp at hn ⊢; omega)
      exact ⟨m', g1, g2, g3⟩

theorem cut_head (c : Codec) (hm : Fresh k ig m) (hf : st.fits k) (hst : st.Ok) (hok : FieldsOk hs) (n : Nat) (hn : n < (headText st hs).length) :
    ∃ m', feed c ((headText st hs).take n) m = .ok [] m' ∧ (m'.mode = .start ∨ m'.mode = .headers) ∧ m'.bodyChunks = [] := by
  obtain ⟨u, hu, hu10, hnl⟩ := Start.line hst
  obtain ⟨h1, hh1, hb1⟩ := start_line k st hf hst ig
  have htext : headText st hs = u ++ 10 :: (fields hs ++ CRLF) := by simp [headText, hu]
  rw [htext] at hn ⊢
  by_cases hcase : n ≤ u.length
  · rw [feed_start_none c hm.flush.inv hm.mode (take_noLF hu10 hcase)]
    exact ⟨_, rfl, Or.inl hm.mode, hm.chunks⟩
  · obtain ⟨j, rfl⟩ : ∃ j, n = u.length + 1 + j := ⟨n - u.length - 1, by omega⟩
    have htk : (u ++ 10 :: (fields hs ++ CRLF)).take (u.length + 1 + j) = u ++ 10 :: (fields hs ++ CRLF).take j := by
      rw [Nat.add_assoc, List.take_append, List.take_of_length_le (by omega), show u.length + (1 + j) - u.length = j + 1 by omega, List.take_succ_cons]
    have hline : pend m ++ u ++ [10] = st.text := by rw [hm.flush.pend, hu]; rfl
    have hon : onHeader (setStartLine st.text) (took m (u ++ [10])) = .ok () { took m st.text with header := h1 } := by
      rw [← hu]
      simp only [onHeader, took_header, hm.header, hh1]
    rw [htk, feed_start_line c _ hm.flush.inv hm.mode hu10, hline, hnl, hon]
    simp only [Bool.false_eq_true, if_false]
    rw [feed_headers c _ (by exact (LineInv.took m st.text).congr rfl rfl) rfl]
    obtain ⟨m', g1, g2, g3⟩ := FH_cut hs hok { took m st.text with header := h1, mode := .headers } rfl j (by simp at hn ⊢; omega)
    rw [g1]
    have hne : m'.mode ≠ .body := by rw [g2]; simp
    simp only [hne, if_false]
    exact ⟨m', rfl, Or.inr g2, by rw [g3]; exact hm.chunks⟩

theorem close_nobody {m : Msg} (h : m.bodyChunks = []) : m.close.getBody = [] := by
  unfold Msg.close
  split
  · simp [Msg.getBody, h]
  · split
    · simp [Msg.getBody, h]
    · simp [Msg.getBody, h]

end Warc.Http
