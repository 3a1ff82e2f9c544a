import Verif.Proofs.ClientText
/-
  The HTTP client: bodies of known length, bodies that end with the record, chunked bodies.
-/
set_option linter.all false
namespace Warc
open Rx Stream Spec Http
namespace HttpClient
open World (cfileRemaining cfileRead)

/-- from `b`, `x` ends and writes `d` -/
def Writes (x : M World Unit) (b d : Bytes) : Prop := ∀ w, At w b → ∃ w', x w = .ok () w' ∧ w'.out = w.out ++ d

/-- from `b`, `x` writes `d` and raises -/
def Fails (x : M World Unit) (b d : Bytes) : Prop := ∀ w, At w b → ∃ w' tag, x w = .raise (.httpException tag) w' ∧ w'.out = w.out ++ d

theorem At.write {w : World} {b : Bytes} (h : At w b) (d : Bytes) : At { w with out := w.out ++ d } b := ⟨h.cfile, h.eoc, h.rest⟩

theorem closed_read (amt : Int) (r : Resp) (h : r.opened = false) (b : Bytes) : Reads (read amt r) b ([], r) b := by
  unfold read; rw [if_pos h]; exact .pure _ _

/-- the read gives nothing: the copy is over -/
theorem copy_over {r r' : Resp} {b b' : Bytes} (fuel : Nat) (h : Reads (read 8192 r) b ([], r') b') : Writes (copy (fuel + 1) r) b [] := by
  intro w hw
  obtain ⟨w1, h1, h2, h3⟩ := h w hw
  refine ⟨w1, ?_, by rw [h3]; simp⟩
  simp only [copy, M.bind_apply, h1, if_pos]; rfl

/-- the read gives something: the copy goes on -/
theorem copy_more {r r' : Resp} {b b' d e : Bytes} (fuel : Nat) (h : Reads (read 8192 r) b (d, r') b') (hd : d ≠ [])
    (k : Writes (copy fuel r') b' e) : Writes (copy (fuel + 1) r) b (d ++ e) := by
  intro w hw
  obtain ⟨w1, h1, h2, h3⟩ := h w hw
  obtain ⟨w2, k1, k2⟩ := k _ (h2.write d)
  refine ⟨w2, ?_, by rw [k2]; simp [h3]⟩
  simp only [copy, M.bind_apply, h1, if_neg hd, World.write, M.modify_apply]
  exact k1

theorem copy_fail {r r' : Resp} {b b' d e : Bytes} (fuel : Nat) (h : Reads (read 8192 r) b (d, r') b') (hd : d ≠ [])
    (k : Fails (copy fuel r') b' e) : Fails (copy (fuel + 1) r) b (d ++ e) := by
  intro w hw
  obtain ⟨w1, h1, h2, h3⟩ := h w hw
  obtain ⟨w2, tag, k1, k2⟩ := k _ (h2.write d)
  refine ⟨w2, tag, ?_, by rw [k2]; simp [h3]⟩
  simp only [copy, M.bind_apply, h1, if_neg hd, World.write, M.modify_apply]
  exact k1

/-- a read when the chunked encoding is not used -/
theorem read_plain (n : Nat) (len : Option Nat) (left : Option Int) (b : Bytes) :
    Reads (read (n : Int) ⟨true, false, left, len.map fun (k : Nat) => (k : Int)⟩) b
      (let m := match len with | some k => min n k | none => n
       let s := b.take m
       if s = [] ∧ m ≠ 0 then (s, ⟨false, false, left, len.map fun (k : Nat) => (k : Int)⟩)
       else match len with
         | some k => (s, ⟨decide (k - s.length ≠ 0), false, left, some ((k - s.length : Nat) : Int)⟩)
         | none => (s, ⟨true, false, left, none⟩))
      (b.drop (match len with | some k => min n k | none => n)) := by
  unfold read
  rw [if_neg (by simp), if_neg (by simp)]
  have hcl : clip (n : Int) (len.map fun (k : Nat) => (k : Int)) = ((match len with | some k => min n k | none => n : Nat) : Int) := by
    cases len with
    | none => rfl
    | some k => simp only [Option.map_some, clip]; split <;> omega
  generalize clip (n : Int) (len.map fun (k : Nat) => (k : Int)) = a at hcl
  subst hcl
  generalize hm : (match len with | some k => min n k | none => n) = m
  refine (read_at m b).bind ?_
  by_cases h : b.take m = [] ∧ m ≠ 0
  · rw [if_pos h, if_pos ⟨h.1, by have := h.2; omega⟩]; exact .pure _ _
  · rw [if_neg h, if_neg (fun hh => h ⟨hh.1, by have := hh.2; omega⟩)]
    cases len with
    | none => exact .pure _ _
    | some k =>
      simp only [Option.map_some]
      have hl : (b.take m).length ≤ k := by simp only at hm; rw [List.length_take]; omega
      have e2 : ((k : Int) - ((b.take m).length : Int)) = ((k - (b.take m).length : Nat) : Int) := by omega
      have e3 : decide (((k - (b.take m).length : Nat) : Int) ≠ 0) = decide (k - (b.take m).length ≠ 0) := by
        rw [decide_eq_decide]; omega
      rw [e2, e3]
      exact .pure _ _

theorem writes_nil_of_closed (fuel : Nat) (r : Resp) (h : r.opened = false) (b : Bytes) : Writes (copy (fuel + 1) r) b [] :=
  copy_over fuel (closed_read 8192 r h b)

/-- a body of known length: what is there of it -/
theorem copy_sized (fuel k : Nat) (left : Option Int) (b : Bytes) (hf : b.length + 1 < fuel) :
    Writes (copy fuel ⟨true, false, left, some (k : Int)⟩) b (b.take k) := by
  induction fuel generalizing k b with
  | zero => omega
  | succ fuel ih =>
    have h := read_plain 8192 (some k) left b
    simp only [Option.map_some] at h
    by_cases h0 : b.take (min 8192 k) = []
    · have hbk : b.take k = [] := by
        rcases List.take_eq_nil_iff.1 h0 with h1 | h1
        · have : k = 0 := by omega
          rw [this]; rfl
        · rw [h1]; simp
      rw [hbk]
      by_cases hm : min 8192 k ≠ 0
      · rw [if_pos ⟨h0, hm⟩, h0] at h
        exact copy_over fuel h
      · rw [if_neg (fun hh => hm hh.2), h0] at h
        exact copy_over fuel h
    · rw [if_neg (fun hh => h0 hh.1)] at h
      have hlen : (b.take (min 8192 k)).length = min (min 8192 k) b.length := List.length_take
      have hpos : 0 < (b.take (min 8192 k)).length := List.length_pos_iff.2 h0
      have hsplit : b.take k = b.take (min 8192 k) ++ (b.drop (min 8192 k)).take (k - min 8192 k) := by
        have e : k = min 8192 k + (k - min 8192 k) := by omega
        conv => lhs; rw [e, List.take_add]
      by_cases hz : k - (b.take (min 8192 k)).length = 0
      · rw [hz] at h
        have hk : k ≤ b.length ∧ k ≤ 8192 := by omega
        have hk2 : k - min 8192 k = 0 := by omega
        rw [hsplit, hk2]
        obtain ⟨f, rfl⟩ : ∃ f, fuel = f + 1 := ⟨fuel - 1, by omega⟩
        have := copy_more (f + 1) h h0 (writes_nil_of_closed f _ (by simp) _)
        simpa using this
      · have hd : decide (k - (b.take (min 8192 k)).length ≠ 0) = true := decide_eq_true hz
        rw [hd] at h
        have hdl : (b.drop (min 8192 k)).length + 1 < fuel := by rw [List.length_drop]; omega
        have k1 := ih (k - (b.take (min 8192 k)).length) (b.drop (min 8192 k)) hdl
        have := copy_more fuel h h0 k1
        have he : (b.drop (min 8192 k)).take (k - (b.take (min 8192 k)).length) = (b.drop (min 8192 k)).take (k - min 8192 k) := by
          by_cases hb : min 8192 k ≤ b.length
          · rw [hlen, Nat.min_eq_left hb]
          · have : b.drop (min 8192 k) = [] := List.drop_of_length_le (by omega)
            rw [this]; simp
        rw [he, ← hsplit] at this
        exact this

/-- a body that ends with the record -/
theorem copy_toEnd (fuel : Nat) (left : Option Int) (b : Bytes) (hf : b.length < fuel) :
    Writes (copy fuel ⟨true, false, left, none⟩) b b := by
  induction fuel generalizing b with
  | zero => omega
  | succ fuel ih =>
    have h := read_plain 8192 none left b
    simp only [Option.map_none] at h
    by_cases h0 : b.take 8192 = []
    · have hb : b = [] := by
        rcases List.take_eq_nil_iff.1 h0 with h1 | h1
        · exact absurd h1 (by decide)
        · exact h1
      subst hb
      rw [if_pos ⟨h0, by decide⟩, h0] at h
      exact copy_over fuel h
    · rw [if_neg (fun hh => h0 hh.1)] at h
      have hpos : 0 < b.length := by
        cases b with
        | nil => simp at h0
        | cons => simp
      have := copy_more fuel h h0 (ih (b.drop 8192) (by rw [List.length_drop]; omega))
      rw [List.take_append_drop] at this
      exact this

/-! ### chunks -/

theorem safeRead_at (n : Nat) (b : Bytes) (h : n ≤ b.length) : Reads (safeRead (n : Int)) b (b.take n) (b.drop n) := by
  unfold safeRead
  refine (read_at n b).bind ?_
  rw [if_neg (by rw [List.length_take, Nat.min_eq_left h]; omega)]
  exact .pure _ _

theorem takeWhile_size (size ext : Bytes) (n : Nat) (h : SizeOk size ext n) (t : Bytes) (ht : ∀ c ∈ t, isWs c = true) :
    pyInt 16 ((size ++ ext ++ t).takeWhile (· ≠ 59)) = some (n : Int) := by
  rcases h.extStart with rfl | ⟨e, rfl⟩
  · have : (size ++ [] ++ t).takeWhile (· ≠ 59) = size ++ t := by
      rw [List.append_nil]
      apply takeWhile_all
      intro hh
      rcases List.mem_append.1 hh with hh | hh
      · exact h.semicolon hh
      · have := ht _ hh; revert this; decide
    rw [this, pyInt_ws_right 16 _ _ ht, h.value]
  · have : (size ++ 59 :: e ++ t).takeWhile (· ≠ 59) = size := by
      rw [List.append_assoc, List.cons_append]; exact takeWhile_ne h.semicolon
    rw [this, h.value]

theorem nextChunkSize_at (size ext : Bytes) (n : Nat) (h : SizeOk size ext n) (hs : (sizeLine size ext).length ≤ 65536) (more : Bytes) :
    Reads nextChunkSize (sizeLine size ext ++ more) (n : Int) more := by
  have e : sizeLine size ext ++ more = (size ++ ext ++ [13]) ++ 10 :: more := by simp [sizeLine]
  have h10 : 10 ∉ size ++ ext ++ [13] := by simp [h.line, h.extLine]
  unfold nextChunkSize
  rw [e]
  refine (readLine_line _ _ h10 (by simp [sizeLine] at hs ⊢; omega)).bind ?_
  have : pyInt 16 ((size ++ ext ++ [13] ++ [10]).takeWhile (· ≠ 59)) = some (n : Int) := by
    rw [List.append_assoc]
    exact takeWhile_size size ext n h _ (by decide)
  simp only [this]
  exact .pure _ _

theorem discard_at (ts : List Header) (h : FieldsOk ts) (hs : ∀ f ∈ ts, (fieldText f).length ≤ 65536) (more : Bytes) (fuel : Nat)
    (hf : ts.length < fuel) : Reads (discardTrailer fuel) (fields ts ++ CRLF ++ more) () more := by
  induction ts generalizing fuel with
  | nil =>
    cases fuel with
    | zero => omega
    | succ fuel =>
      have : fields [] ++ CRLF ++ more = CRLF ++ more := by simp [fields]
      rw [this]
      unfold discardTrailer
      exact (blank_end more).bind (by rw [if_pos (by decide)]; exact .pure _ _)
  | cons f ts ih =>
    cases fuel with
    | zero => omega
    | succ fuel =>
      have hf1 := h f (by simp)
      have hsz := hs f (by simp)
      have e : fields (f :: ts) ++ CRLF ++ more = (f.1 ++ b! ": " ++ f.2 ++ [13]) ++ 10 :: (fields ts ++ CRLF ++ more) := by
        simp [fields, fieldText]
      have h10 : 10 ∉ f.1 ++ b! ": " ++ f.2 ++ [13] := by simp [hf1.nameLine, hf1.valueLine]
      have hb : ¬ blank (f.1 ++ b! ": " ++ f.2 ++ [13] ++ [10]) = true := by
        intro hh
        have hlen : (f.1 ++ b! ": " ++ f.2 ++ [13] ++ [10]).length ≤ 2 := by
          simp only [blank, Bool.or_eq_true, beq_iff_eq] at hh
          rcases hh with (hh | hh) | hh <;> rw [hh] <;> simp
        simp at hlen; omega
      rw [e]
      unfold discardTrailer
      refine (readLine_line _ _ h10 (by simp [fieldText] at hsz ⊢; omega)).bind ?_
      rw [if_neg hb]
      exact ih (fun g hg => h g (by simp [hg])) (fun g hg => hs g (by simp [hg])) fuel (by simpa using hf)

/-- the text of the last chunk and of the trailer -/
def tailText (B : ChunkedBody) : Bytes := sizeLine B.lastSize B.lastExt ++ fields B.trailers ++ CRLF

theorem newChunk_last (B : ChunkedBody) (hok : B.Ok) (hs : B.Short) (r : Resp) (more : Bytes) :
    Reads (newChunk r) (tailText B ++ more) (none, { r with opened := false, chunkLeft := none }) more := by
  have e : tailText B ++ more = sizeLine B.lastSize B.lastExt ++ (fields B.trailers ++ CRLF ++ more) := by simp [tailText]
  rw [e]
  unfold newChunk
  refine (nextChunkSize_at _ _ 0 hok.2.1 hs.2.1 _).bind ?_
  rw [if_pos (by rfl)]
  intro w hw
  have hlen : B.trailers.length < cfileRemaining w + 2 := by
    have h1 := hw.remaining
    have h2 : ∀ ts : List Header, ts.length ≤ (fields ts).length := by
      intro ts
      induction ts with
      | nil => simp
      | cons f ts ih => simp [fields, fieldText] at ih ⊢; omega
    have := h2 B.trailers
    rw [List.length_append, List.length_append] at h1
    omega
  exact Reads.bind (f := fun _ => (pure (none, { r with opened := false, chunkLeft := none }) : M World (Option Int × Resp)))
    (discard_at B.trailers hok.2.2 hs.2.2 more _ hlen) (.pure _ _) w hw

theorem newChunk_chunk (c : Chunk) (hok : c.Ok) (hs : c.Short) (r : Resp) (more : Bytes) :
    Reads (newChunk r) (c.text ++ more) (some (c.data.length : Int), { r with chunkLeft := some (c.data.length : Int) }) (c.data ++ CRLF ++ more) := by
  have e : c.text ++ more = sizeLine c.size c.ext ++ (c.data ++ CRLF ++ more) := by simp [Chunk.text]
  rw [e]
  unfold newChunk
  refine (nextChunkSize_at _ _ _ hok.1 hs _).bind ?_
  have : 0 < c.data.length := List.length_pos_iff.2 hok.2
  rw [if_neg (by omega)]
  exact .pure _ _

/-- the ways to be before the chunks `cs`: at the start, or in the last `d` bytes of a chunk -/
inductive Pending (r : Resp) (d : Bytes) : Bytes → Prop
  | start : r.chunkLeft = none → d = [] → Pending r d []
  | inside : r.chunkLeft = some (d.length : Int) → Pending r d (d ++ CRLF)

theorem getChunkLeft_pending {r : Resp} {t : Bytes} {y : Option Int × Resp} (h : Pending r [] t) {more more' : Bytes}
    (k : Reads (newChunk r) more y more') : Reads (getChunkLeft r) (t ++ more) y more' := by
  unfold getChunkLeft
  cases h with
  | start h _ => simp only [h]; exact k
  | inside h =>
    simp only [h]
    rw [if_neg (by simp)]
    have := safeRead_at 2 ([] ++ CRLF ++ more) (by simp)
    exact this.bind k

/-- a place in a chunked body: `d` is left of a chunk (nothing when between chunks), `cs` are the chunks to come, `tail` follows -/
structure Place (r : Resp) (d : Bytes) (cs : List Chunk) (tail b : Bytes) : Prop where
  pending : ∃ t, Pending r d t ∧ b = t ++ (cs.flatMap Chunk.text ++ tail)
  chunks : ∀ c ∈ cs, c.Ok ∧ c.Short

/-- there is something to read: the rest of a chunk, or the next chunk -/
theorem getChunkLeft_place {r : Resp} {d : Bytes} {cs : List Chunk} {tail b : Bytes} (h : Place r d cs tail b) (hne : d ≠ [] ∨ cs ≠ []) :
    ∃ (e : Bytes) (cs1 : List Chunk) (r1 : Resp), e ≠ [] ∧ Reads (getChunkLeft r) b (some (e.length : Int), r1) (e ++ (CRLF ++ (cs1.flatMap Chunk.text ++ tail))) ∧
      r1 = { r with chunkLeft := some (e.length : Int) } ∧ (∀ c ∈ cs1, c.Ok ∧ c.Short) ∧ d ++ cs.flatMap Chunk.data = e ++ cs1.flatMap Chunk.data ∧
      (d = [] → cs1.length < cs.length) ∧ cs1.length ≤ cs.length := by
  obtain ⟨t, hp, rfl⟩ := h.pending
  by_cases hd : d = []
  · subst hd
    cases cs with
    | nil => simp at hne
    | cons c cs =>
      have hc := h.chunks c (by simp)
      refine ⟨c.data, cs, _, hc.1.2, ?_, rfl, fun x hx => h.chunks x (by simp [hx]), by simp, by simp, by simp⟩
      have hg := getChunkLeft_pending hp (newChunk_chunk c hc.1 hc.2 r (cs.flatMap Chunk.text ++ tail))
      have e : t ++ ((c :: cs).flatMap Chunk.text ++ tail) = t ++ (c.text ++ (cs.flatMap Chunk.text ++ tail)) := by simp
      rw [e, ← List.append_assoc c.data]
      exact hg
  · cases hp with
    | start _ h0 => exact absurd h0 hd
    | inside hl =>
      have hdl : 0 < d.length := List.length_pos_iff.2 hd
      refine ⟨d, cs, r, hd, ?_, ?_, h.chunks, rfl, fun hh => absurd hh hd, Nat.le_refl _⟩
      · unfold getChunkLeft; simp only [hl]; rw [if_pos (by omega), List.append_assoc]; exact .pure _ _
      · cases r; simp only at hl; subst hl; rfl

/-- one read of a chunked body, when there is enough -/
theorem readChunked_enough (tail : Bytes) (fuel amt : Nat) (hamt : 0 < amt) (value d : Bytes) (cs : List Chunk) (r : Resp) (b : Bytes)
    (h : Place r d cs tail b) (hf : cs.length + 1 < fuel ∨ d = [] ∧ cs.length < fuel) (hle : amt ≤ (d ++ cs.flatMap Chunk.data).length) :
    ∃ d' cs' r' b', Reads (readChunked fuel (amt : Int) value r) b (value ++ (d ++ cs.flatMap Chunk.data).take amt, r') b' ∧
      r'.chunked = r.chunked ∧ r'.opened = r.opened ∧ Place r' d' cs' tail b' ∧ cs'.length ≤ cs.length ∧
      d' ++ cs'.flatMap Chunk.data = (d ++ cs.flatMap Chunk.data).drop amt := by
  induction fuel generalizing amt value d cs r b with
  | zero => omega
  | succ fuel ih =>
    have hne : d ≠ [] ∨ cs ≠ [] := by
      by_cases hd : d = []
      · refine Or.inr ?_
        rintro rfl
        subst hd; simp at hle; omega
      · exact Or.inl hd
    obtain ⟨e, cs1, r1, he, hg, hr1, hcs1, hdata, hlt, hcl⟩ := getChunkLeft_place h hne
    rw [hdata] at hle ⊢
    have hel : 0 < e.length := List.length_pos_iff.2 he
    unfold readChunked
    by_cases hae : amt ≤ e.length
    · refine ⟨e.drop amt, cs1, { r1 with chunkLeft := some ((e.length : Int) - amt) }, e.drop amt ++ (CRLF ++ (cs1.flatMap Chunk.text ++ tail)),
        hg.bind ?_, by rw [hr1], by rw [hr1], ⟨⟨e.drop amt ++ CRLF, .inside ?_, by simp⟩, hcs1⟩, hcl, ?_⟩
      · simp only
        rw [if_pos (by omega)]
        have hr := safeRead_at amt (e ++ (CRLF ++ (cs1.flatMap Chunk.text ++ tail))) (by rw [List.length_append]; omega)
        rw [List.take_append_of_le_length hae, List.drop_append_of_le_length hae] at hr
        refine hr.bind ?_
        rw [List.take_append_of_le_length hae]
        exact .pure _ _
      · simp only [List.length_drop]; congr 1; omega
      · rw [List.drop_append_of_le_length hae]
    · have hplace : Place { r1 with chunkLeft := some 0 } [] cs1 tail (CRLF ++ (cs1.flatMap Chunk.text ++ tail)) :=
        ⟨⟨[] ++ CRLF, .inside rfl, by simp⟩, hcs1⟩
      obtain ⟨d', cs', r', b', k1, k2, k3, k4, k5, k6⟩ := ih (amt - e.length) (by omega) (value ++ e) [] cs1 { r1 with chunkLeft := some 0 } _ hplace
        (by
          refine Or.inr ⟨rfl, ?_⟩
          rcases hf with hf | ⟨hd, hf⟩
          · omega
          · have := hlt hd; omega)
        (by rw [List.nil_append]; rw [List.length_append] at hle; omega)
      refine ⟨d', cs', r', b', hg.bind ?_, by rw [k2, hr1], by rw [k3, hr1], k4, by omega, ?_⟩
      · simp only
        rw [if_neg (by omega)]
        have hr := safeRead_at e.length (e ++ (CRLF ++ (cs1.flatMap Chunk.text ++ tail))) (by rw [List.length_append]; omega)
        rw [List.take_left, List.drop_left] at hr
        refine hr.bind ?_
        have e1 : ((amt : Int) - (e.length : Int)) = ((amt - e.length : Nat) : Int) := by omega
        have e2 : value ++ (e ++ cs1.flatMap Chunk.data).take amt = value ++ e ++ ([] ++ cs1.flatMap Chunk.data).take (amt - e.length) := by
          rw [List.take_append, List.take_of_length_le (by omega)]; simp
        rw [e1, e2]
        exact k1
      · rw [k6, List.nil_append, List.drop_append (l₁ := e), List.drop_of_length_le (by omega : e.length ≤ amt), List.nil_append]

/-- what a read does when the data ends before it has enough: it takes all, and then the outcome is that of a new chunk at the tail -/
theorem readChunked_rest (spare : Nat) (tail : Bytes) (fuel amt : Nat) (value d : Bytes) (cs : List Chunk) (r : Resp) (b : Bytes)
    (h : Place r d cs tail b) (hf : cs.length + 1 + spare < fuel ∨ d = [] ∧ cs.length + spare < fuel) (hgt : (d ++ cs.flatMap Chunk.data).length < amt) (w : World)
    (hw : At w b) : ∃ w' r' t fuel', At w' (t ++ tail) ∧ w'.out = w.out ∧ Pending r' [] t ∧ r'.chunked = r.chunked ∧ r'.opened = r.opened ∧ spare ≤ fuel' ∧
      readChunked fuel (amt : Int) value r w = readChunked (fuel' + 1) ((amt - (d ++ cs.flatMap Chunk.data).length : Nat) : Int) (value ++ (d ++ cs.flatMap Chunk.data)) r' w' := by
  induction fuel generalizing amt value d cs r b w with
  | zero => omega
  | succ fuel ih =>
    by_cases hne : d ≠ [] ∨ cs ≠ []
    · obtain ⟨e, cs1, r1, he, hg, hr1, hcs1, hdata, hlt, hcl⟩ := getChunkLeft_place h hne
      rw [hdata] at hgt ⊢
      rw [List.length_append] at hgt
      have hplace : Place { r1 with chunkLeft := some 0 } [] cs1 tail (CRLF ++ (cs1.flatMap Chunk.text ++ tail)) :=
        ⟨⟨[] ++ CRLF, .inside rfl, by simp⟩, hcs1⟩
      obtain ⟨w1, g1, g2, g3⟩ := hg w hw
      have hr := safeRead_at e.length (e ++ (CRLF ++ (cs1.flatMap Chunk.text ++ tail))) (by rw [List.length_append]; omega)
      rw [List.take_left, List.drop_left] at hr
      obtain ⟨w2, q1, q2, q3⟩ := hr w1 g2
      obtain ⟨w', r', t, fuel', k1, k2, k3, k4, k5, k6, k7⟩ := ih (amt - e.length) (value ++ e) [] cs1 { r1 with chunkLeft := some 0 } _ hplace
        (by
          refine Or.inr ⟨rfl, ?_⟩
          rcases hf with hf | ⟨hd, hf⟩
          · omega
          · have := hlt hd; omega)
        (by rw [List.nil_append]; omega) w2 q2
      refine ⟨w', r', t, fuel', k1, by rw [k2, q3, g3], k3, by rw [k4, hr1], by rw [k5, hr1], k6, ?_⟩
      have e1 : ((amt : Int) - (e.length : Int)) = ((amt - e.length : Nat) : Int) := by omega
      rw [readChunked.eq_def]
      simp only [M.bind_apply, g1]
      rw [if_neg (by omega)]
      simp only [M.bind_apply, q1]
      rw [e1, k7]
      simp [Nat.sub_sub]
    · have hd : d = [] := by
        by_cases hd : d = []
        · exact hd
        · exact absurd (Or.inl hd) hne
      have hcs : cs = [] := by
        by_cases hcs : cs = []
        · exact hcs
        · exact absurd (Or.inr hcs) hne
      subst hd hcs
      obtain ⟨t, hp, rfl⟩ := h.pending
      refine ⟨w, r, t, fuel, by simpa using hw, rfl, hp, rfl, rfl, by simp at hf; omega, by simp⟩

theorem flatMap_length (cs : List Chunk) : cs.length ≤ (cs.flatMap Chunk.text).length := by
  induction cs with
  | nil => simp
  | cons c cs ih => simp [Chunk.text, sizeLine] at ih ⊢; omega

theorem place_fuel {r : Resp} {d : Bytes} {cs : List Chunk} {tail b : Bytes} (h : Place r d cs tail b) {w : World} (hw : At w b) :
    cs.length + 1 < cfileRemaining w + 2 := by
  obtain ⟨t, _, rfl⟩ := h.pending
  have h1 := hw.remaining
  have h2 := flatMap_length cs
  simp only [List.length_append] at h1
  omega


theorem read_chunked (amt : Int) (r : Resp) (ho : r.opened = true) (hc : r.chunked = true) (w : World) :
    read amt r w = readChunked (cfileRemaining w + 2) amt [] r w := by
  unfold read
  rw [if_neg (by simp [ho]), if_pos hc]
  rfl

/-- a chunked body that is all there -/
theorem copy_chunked (B : ChunkedBody) (hok : B.Ok) (hs : B.Short) (more : Bytes) (fuel : Nat) (d : Bytes) (cs : List Chunk) (r : Resp) (b : Bytes)
    (h : Place r d cs (tailText B ++ more) b) (ho : r.opened = true) (hc : r.chunked = true) (hf : (d ++ cs.flatMap Chunk.data).length + 1 < fuel) :
    Writes (copy fuel r) b (d ++ cs.flatMap Chunk.data) := by
  induction fuel generalizing d cs r b with
  | zero => omega
  | succ fuel ih =>
    intro w hw
    have hfu := place_fuel h hw
    by_cases hle : 8192 ≤ (d ++ cs.flatMap Chunk.data).length
    · obtain ⟨d', cs', r', b', k1, k2, k3, k4, k5, k6⟩ := readChunked_enough _ _ 8192 (by decide) [] d cs r b h (Or.inl hfu) hle
      obtain ⟨w1, q1, q2, q3⟩ := k1 w hw
      have hne : (d ++ cs.flatMap Chunk.data).take 8192 ≠ [] := by
        intro hh
        have := congrArg List.length hh
        rw [List.length_take, Nat.min_eq_left hle] at this
        exact absurd this (by decide)
      obtain ⟨w2, p1, p2⟩ := ih d' cs' r' b' k4 (by rw [k3, ho]) (by rw [k2, hc]) (by rw [k6, List.length_drop]; omega) _ (q2.write ((d ++ cs.flatMap Chunk.data).take 8192))
      refine ⟨w2, ?_, ?_⟩
      · rw [copy, M.bind_apply, read_chunked _ _ ho hc, show ((8192 : Int)) = ((8192 : Nat) : Int) from rfl, q1]
        simp only [List.nil_append, if_neg hne, M.bind_apply, World.write, M.modify_apply]
        exact p1
      · rw [p2, k6, q3, List.append_assoc, List.take_append_drop]
    · obtain ⟨w', r', t, fuel', k1, k2, k3, k4, k5, k6, k7⟩ := readChunked_rest 0 _ _ 8192 [] d cs r b h (Or.inl hfu) (by omega) w hw
      obtain ⟨w1, q1, q2, q3⟩ := getChunkLeft_pending k3 (newChunk_last B hok hs r' more) w' k1
      have hread : read 8192 r w = .ok (d ++ cs.flatMap Chunk.data, { r' with opened := false, chunkLeft := none }) w1 := by
        rw [read_chunked _ _ ho hc, show ((8192 : Int)) = ((8192 : Nat) : Int) from rfl, k7]
        simp only [readChunked, M.bind_apply, q1, List.nil_append]
        rfl
      by_cases hne : d ++ cs.flatMap Chunk.data = []
      · refine ⟨w1, ?_, by rw [q3, k2, hne]; simp⟩
        rw [copy, M.bind_apply, hread]
        simp only [hne, if_true]
        rfl
      · obtain ⟨fuel, rfl⟩ : ∃ f, fuel = f + 1 := ⟨fuel - 1, by omega⟩
        obtain ⟨w2, p1, p2⟩ := writes_nil_of_closed fuel { r' with opened := false, chunkLeft := none } rfl _ _ (q2.write (d ++ cs.flatMap Chunk.data))
        refine ⟨w2, ?_, ?_⟩
        · rw [copy, M.bind_apply, hread]
          simp only [if_neg hne, M.bind_apply, World.write, M.modify_apply]
          exact p1
        · rw [p2]; simp [q3, k2]

/-! ### chunked bodies that end too early -/

theorem safeRead_short (n : Nat) (b : Bytes) (h : b.length < n) (w : World) (hw : At w b) :
    ∃ w' tag, safeRead (n : Int) w = .raise (.httpException tag) w' ∧ w'.out = w.out := by
  obtain ⟨w1, h1, h2, h3⟩ := read_at n b w hw
  refine ⟨w1, "incomplete read", ?_, h3⟩
  simp only [safeRead, M.bind_apply, h1]
  rw [if_pos (by rw [List.length_take]; omega)]
  rfl

/-- inside a chunk of which `n` bytes are to come, but the text ends within these and the line end after them -/
structure Cut (r : Resp) (n : Nat) (b : Bytes) : Prop where
  left : r.chunkLeft = some (n : Int)
  positive : 0 < n
  short : b.length < n + 2

theorem cut_get {r : Resp} {n : Nat} {b : Bytes} (h : Cut r n b) : getChunkLeft r = pure (some (n : Int), r) := by
  have := h.positive
  unfold getChunkLeft; simp only [h.left]; rw [if_pos (by omega)]

theorem cut_step {r r0 : Resp} {n : Nat} {b : Bytes} (h : Cut r n b) (fuel amt : Nat) (hamt : 0 < amt) (value : Bytes) (w0 w : World)
    (hg : getChunkLeft r0 w0 = .ok (some (n : Int), r) w) (hw : At w b) :
    if amt ≤ (b.take n).length then
      ∃ w' r' b', readChunked (fuel + 2) (amt : Int) value r0 w0 = .ok (value ++ (b.take n).take amt, r') w' ∧ w'.out = w.out ∧ At w' b' ∧
        r'.chunked = r.chunked ∧ r'.opened = r.opened ∧
        ((Cut r' (n - amt) b' ∧ b'.take (n - amt) = (b.take n).drop amt) ∨ (r'.chunkLeft = some 0 ∧ b'.length < 2 ∧ (b.take n).drop amt = []))
    else ∃ w' tag, readChunked (fuel + 2) (amt : Int) value r0 w0 = .raise (.httpException tag) w' ∧ w'.out = w.out := by
  have hpos := h.positive
  have hshort := h.short
  by_cases hle : amt ≤ (b.take n).length
  · rw [if_pos hle]
    rw [List.length_take] at hle
    obtain ⟨w1, q1, q2, q3⟩ := safeRead_at amt b (by omega) w hw
    refine ⟨w1, { r with chunkLeft := some ((n : Int) - amt) }, b.drop amt, ?_, q3, q2, rfl, rfl, ?_⟩
    · rw [readChunked]
      simp only [M.bind_apply, hg]
      rw [if_pos (by omega)]
      simp only [M.bind_apply, q1, M.pure_apply]
      rw [List.take_take, Nat.min_eq_left (by omega)]
    · by_cases hn : n = amt
      · refine Or.inr ⟨?_, by rw [List.length_drop]; omega, ?_⟩
        · simp only; congr 1; omega
        · apply List.drop_of_length_le; rw [List.length_take]; omega
      · refine Or.inl ⟨⟨?_, by omega, by rw [List.length_drop]; omega⟩, ?_⟩
        · simp only; congr 1; omega
        · rw [List.drop_take]
  · rw [if_neg hle]
    rw [List.length_take] at hle
    rw [readChunked]
    simp only [M.bind_apply, hg]
    by_cases han : amt ≤ n
    · rw [if_pos (by omega)]
      obtain ⟨w1, tag, q1, q2⟩ := safeRead_short amt b (by omega) w hw
      exact ⟨w1, tag, by simp only [M.bind_apply, q1], q2⟩
    · rw [if_neg (by omega)]
      by_cases hbn : n ≤ b.length
      · obtain ⟨w1, q1, q2, q3⟩ := safeRead_at n b hbn w hw
        obtain ⟨w2, tag, p1, p2⟩ := safeRead_short 2 (b.drop n) (by rw [List.length_drop]; omega) w1 q2
        refine ⟨w2, tag, ?_, by rw [p2, q3]⟩
        simp only [M.bind_apply, q1]
        rw [readChunked]
        simp only [getChunkLeft]
        rw [if_neg (by simp)]
        simp only [M.bind_apply]
        rw [show (2 : Int) = ((2 : Nat) : Int) from rfl, p1]
      · obtain ⟨w1, tag, q1, q2⟩ := safeRead_short n b (by omega) w hw
        exact ⟨w1, tag, by simp only [M.bind_apply, q1], q2⟩

/-- what a client finds at the end of a chunked body that is cut short: a size line that ends too early and does not say 0; or a chunk of which
something is missing -/
inductive BadTail : Bytes → Bytes → Prop
  | line (t : Bytes) : 10 ∉ t → t.length ≤ 65536 → (pyInt 16 (t.takeWhile (· ≠ 59)) = none ∨ ∃ n : Nat, 0 < n ∧ pyInt 16 (t.takeWhile (· ≠ 59)) = some (n : Int)) →
      BadTail t []
  | data (c : Chunk) (p : Bytes) : c.Ok → c.Short → p.length < c.data.length + 2 → BadTail (sizeLine c.size c.ext ++ p) (p.take c.data.length)

theorem getChunkLeft_fail {r : Resp} {t : Bytes} (h : Pending r [] t) {more : Bytes} {w : World} (hw : At w (t ++ more))
    (k : ∀ w, At w more → ∃ w' tag, newChunk r w = .raise (.httpException tag) w' ∧ w'.out = w.out) :
    ∃ w' tag, getChunkLeft r w = .raise (.httpException tag) w' ∧ w'.out = w.out := by
  unfold getChunkLeft
  cases h with
  | start h _ => simp only [h]; exact k w hw
  | inside h =>
    simp only [h]
    rw [if_neg (by simp)]
    obtain ⟨w1, q1, q2, q3⟩ := safeRead_at 2 ([] ++ CRLF ++ more) (by simp) w hw
    obtain ⟨w2, tag, p1, p2⟩ := k w1 q2
    refine ⟨w2, tag, ?_, by rw [p2, q3]⟩
    rw [M.bind_apply, show (2 : Int) = ((2 : Nat) : Int) from rfl, q1]
    exact p1

/-- a read that begins at a bad tail -/
theorem tail_step {tail D : Bytes} (h : BadTail tail D) {r : Resp} {t : Bytes} (hp : Pending r [] t) (fuel amt : Nat) (hamt : 0 < amt) (value : Bytes) (w : World)
    (hw : At w (t ++ tail)) :
    if amt ≤ D.length then
      ∃ w' r' b', readChunked (fuel + 2) (amt : Int) value r w = .ok (value ++ D.take amt, r') w' ∧ w'.out = w.out ∧ At w' b' ∧
        r'.chunked = r.chunked ∧ r'.opened = r.opened ∧
        ((∃ n, Cut r' n b' ∧ b'.take n = D.drop amt) ∨ (r'.chunkLeft = some 0 ∧ b'.length < 2 ∧ D.drop amt = []))
    else ∃ w' tag, readChunked (fuel + 2) (amt : Int) value r w = .raise (.httpException tag) w' ∧ w'.out = w.out := by
  cases h with
  | line _ h10 hlen hnum =>
    rw [if_neg (by simp; omega)]
    have hline : Reads readLine tail tail [] := readLine_of tail tail [] (by simp) (lineOf_none tail h10) hlen
    rcases hnum with hnum | ⟨n, hn, hnum⟩
    · have hnew : ∀ w, At w tail → ∃ w' tag, newChunk r w = .raise (.httpException tag) w' ∧ w'.out = w.out := by
        intro w hw
        obtain ⟨w1, q1, q2, q3⟩ := hline w hw
        refine ⟨w1, "incomplete read", ?_, q3⟩
        simp only [newChunk, nextChunkSize, M.bind_apply, q1]
        rw [hnum]
        rfl
      obtain ⟨w1, tag, q1, q2⟩ := getChunkLeft_fail hp hw hnew
      exact ⟨w1, tag, by simp only [readChunked, M.bind_apply, q1], q2⟩
    · have hnew : Reads (newChunk r) tail (some (n : Int), { r with chunkLeft := some (n : Int) }) [] := by
        unfold newChunk
        have : Reads nextChunkSize tail (n : Int) [] := by
          unfold nextChunkSize
          refine hline.bind ?_
          rw [hnum]
          exact .pure _ _
        refine this.bind ?_
        rw [if_neg (by omega)]
        exact .pure _ _
      obtain ⟨w1, q1, q2, q3⟩ := getChunkLeft_pending hp hnew w hw
      have := cut_step (r := { r with chunkLeft := some (n : Int) }) (r0 := r) (n := n) (b := []) ⟨rfl, hn, by simp⟩ fuel amt hamt value w w1 q1 q2
      rw [if_neg (by simp; omega)] at this
      rw [← q3]; exact this
  | data c p hok hs hshort =>
    have hpos : 0 < c.data.length := List.length_pos_iff.2 hok.2
    have hnew : Reads (newChunk r) (sizeLine c.size c.ext ++ p) (some (c.data.length : Int), { r with chunkLeft := some (c.data.length : Int) }) p := by
      unfold newChunk
      refine (nextChunkSize_at _ _ _ hok.1 hs _).bind ?_
      rw [if_neg (by omega)]
      exact .pure _ _
    obtain ⟨w1, q1, q2, q3⟩ := getChunkLeft_pending hp hnew w hw
    have := cut_step (r := { r with chunkLeft := some (c.data.length : Int) }) (r0 := r) (n := c.data.length) (b := p) ⟨rfl, hpos, hshort⟩ fuel amt hamt value w w1 q1 q2
    by_cases hle : amt ≤ (p.take c.data.length).length
    · rw [if_pos hle] at this ⊢
      obtain ⟨w', r', b', k1, k2, k3, k4, k5, k6⟩ := this
      refine ⟨w', r', b', k1, by rw [k2, q3], k3, k4, k5, ?_⟩
      rcases k6 with ⟨k6, k7⟩ | k6
      · exact Or.inl ⟨_, k6, k7⟩
      · exact Or.inr k6
    · rw [if_neg hle] at this ⊢
      rw [← q3]; exact this

/-- in a chunked body that is cut short, with the data `D` still to come -/
inductive Bad (r : Resp) (b : Bytes) : Bytes → Prop
  | place (d : Bytes) (cs : List Chunk) (tail D : Bytes) : Place r d cs tail b → BadTail tail D → Bad r b (d ++ cs.flatMap Chunk.data ++ D)
  | cut (n : Nat) : Cut r n b → Bad r b (b.take n)
  | done : r.chunkLeft = some 0 → b.length < 2 → Bad r b []

theorem bad_of {r : Resp} {b D : Bytes} (h : (∃ n, Cut r n b ∧ b.take n = D) ∨ (r.chunkLeft = some 0 ∧ b.length < 2 ∧ D = [])) : Bad r b D := by
  rcases h with ⟨n, h, rfl⟩ | ⟨h1, h2, rfl⟩
  · exact .cut n h
  · exact .done h1 h2

theorem badTail_length {tail D : Bytes} (h : BadTail tail D) (hne : D ≠ []) : 0 < tail.length := by
  cases h with
  | line => exact absurd rfl hne
  | data c p => simp [sizeLine]; omega

theorem bad_read {r : Resp} {b D : Bytes} (h : Bad r b D) (ho : r.opened = true) (hc : r.chunked = true) (w : World) (hw : At w b) :
    if 8192 ≤ D.length then
      ∃ w' r' b', read 8192 r w = .ok (D.take 8192, r') w' ∧ w'.out = w.out ∧ At w' b' ∧ r'.opened = true ∧ r'.chunked = true ∧ Bad r' b' (D.drop 8192)
    else ∃ w' tag, read 8192 r w = .raise (.httpException tag) w' ∧ w'.out = w.out := by
  rw [read_chunked _ _ ho hc, show ((8192 : Int)) = ((8192 : Nat) : Int) from rfl]
  cases h with
  | cut n h =>
    have hg : getChunkLeft r w = .ok (some (n : Int), r) w := by rw [cut_get h]; rfl
    have := cut_step h (cfileRemaining w) 8192 (by decide) [] w w hg hw
    by_cases hle : 8192 ≤ (b.take n).length
    · rw [if_pos hle] at this ⊢
      obtain ⟨w', r', b', k1, k2, k3, k4, k5, k6⟩ := this
      refine ⟨w', r', b', k1, k2, k3, by rw [k5, ho], by rw [k4, hc], bad_of ?_⟩
      rcases k6 with ⟨k6, k7⟩ | k6
      · exact Or.inl ⟨_, k6, k7⟩
      · exact Or.inr k6
    · rw [if_neg hle] at this ⊢
      exact this
  | done h1 h2 =>
    rw [if_neg (by simp)]
    obtain ⟨w2, tag, p1, p2⟩ := safeRead_short 2 b h2 w hw
    refine ⟨w2, tag, ?_, p2⟩
    rw [readChunked]
    simp only [getChunkLeft, h1]
    rw [if_neg (by simp)]
    simp only [M.bind_apply]
    rw [show (2 : Int) = ((2 : Nat) : Int) from rfl, p1]
  | place d cs tail D h ht =>
    have hfu := place_fuel h hw
    by_cases hle0 : 8192 ≤ (d ++ cs.flatMap Chunk.data).length
    · rw [if_pos (by rw [List.length_append]; omega)]
      obtain ⟨d', cs', r', b', k1, k2, k3, k4, k5, k6⟩ := readChunked_enough _ _ 8192 (by decide) [] d cs r b h (Or.inl hfu) hle0
      obtain ⟨w1, q1, q2, q3⟩ := k1 w hw
      refine ⟨w1, r', b', ?_, q3, q2, by rw [k3, ho], by rw [k2, hc], ?_⟩
      · rw [q1, List.take_append_of_le_length hle0]; rfl
      · rw [List.drop_append_of_le_length hle0, ← k6]
        exact .place d' cs' tail D k4 ht
    · have hfu2 : cs.length + 1 + 1 < cfileRemaining w + 2 ∨ d = [] ∧ cs.length + 1 < cfileRemaining w + 2 := by
        by_cases hd : d = []
        · exact Or.inr ⟨hd, hfu⟩
        · refine Or.inl ?_
          obtain ⟨t, hp, rfl⟩ := h.pending
          have h1 := hw.remaining
          have h2 := flatMap_length cs
          have h3 : 0 < d.length := List.length_pos_iff.2 hd
          cases hp with
          | start _ h0 => exact absurd h0 hd
          | inside _ => simp only [List.length_append] at h1; omega
      obtain ⟨w', r', t, fuel', k1, k2, k3, k4, k5, k6, k7⟩ := readChunked_rest 1 _ _ 8192 [] d cs r b h hfu2 (by omega) w hw
      obtain ⟨fuel', rfl⟩ : ∃ f, fuel' = f + 1 := ⟨fuel' - 1, by omega⟩
      have := tail_step ht k3 fuel' (8192 - (d ++ cs.flatMap Chunk.data).length) (by omega) ([] ++ (d ++ cs.flatMap Chunk.data)) w' k1
      rw [k7]
      by_cases hle : 8192 ≤ (d ++ cs.flatMap Chunk.data ++ D).length
      · rw [if_pos hle]
        rw [List.length_append] at hle
        rw [if_pos (by omega)] at this
        obtain ⟨w1, r1, b1, q1, q2, q3, q4, q5, q6⟩ := this
        refine ⟨w1, r1, b1, ?_, by rw [q2, k2], q3, by rw [q5, k5, ho], by rw [q4, k4, hc], ?_⟩
        · rw [q1, List.take_append (l₁ := d ++ cs.flatMap Chunk.data), List.take_of_length_le (by omega : (d ++ cs.flatMap Chunk.data).length ≤ 8192)]
          rfl
        · rw [List.drop_append (l₁ := d ++ cs.flatMap Chunk.data), List.drop_of_length_le (by omega : (d ++ cs.flatMap Chunk.data).length ≤ 8192), List.nil_append]
          exact bad_of q6
      · rw [if_neg hle]
        rw [List.length_append] at hle
        rw [if_neg (by omega)] at this
        obtain ⟨w1, tag, q1, q2⟩ := this
        exact ⟨w1, tag, q1, by rw [q2, k2]⟩

/-- a chunked body that is cut short: whole blocks of 8192 bytes are written, and then there is an exception -/
theorem copy_bad (fuel : Nat) (r : Resp) (b D : Bytes) (h : Bad r b D) (ho : r.opened = true) (hc : r.chunked = true) (hf : D.length < fuel) :
    Fails (copy fuel r) b (D.take (D.length / 8192 * 8192)) := by
  induction fuel generalizing r b D with
  | zero => omega
  | succ fuel ih =>
    intro w hw
    have hr := bad_read h ho hc w hw
    by_cases hle : 8192 ≤ D.length
    · rw [if_pos hle] at hr
      obtain ⟨w', r', b', k1, k2, k3, k4, k5, k6⟩ := hr
      have hne : D.take 8192 ≠ [] := by
        intro hh
        have := congrArg List.length hh
        rw [List.length_take, Nat.min_eq_left hle] at this
        exact absurd this (by decide)
      obtain ⟨w2, tag, p1, p2⟩ := ih r' b' (D.drop 8192) k6 k4 k5 (by rw [List.length_drop]; omega) _ (k3.write (D.take 8192))
      refine ⟨w2, tag, ?_, ?_⟩
      · rw [copy, M.bind_apply, k1]
        simp only [if_neg hne, M.bind_apply, World.write, M.modify_apply]
        exact p1
      · rw [p2]
        have e : D.length / 8192 * 8192 = 8192 + (D.drop 8192).length / 8192 * 8192 := by
          rw [List.length_drop]; omega
        rw [e, List.take_add, ← List.append_assoc]
        simp [k2]
    · rw [if_neg hle] at hr
      obtain ⟨w', tag, k1, k2⟩ := hr
      refine ⟨w', tag, by rw [copy, M.bind_apply, k1], ?_⟩
      have : D.length / 8192 = 0 := by omega
      rw [this, k2]; simp

end HttpClient
end Warc
