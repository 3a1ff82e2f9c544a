import Verif.Proofs.ClientBody
import Verif.Props.Extract
import Verif.Props.Terminates
/-
  C92: warcpayload on HTTP responses.
-/
set_option linter.all false
namespace Warc
open Rx Stream Spec Http
namespace HttpClient
open World (cfileRemaining cfileRead)

theorem get_eq (hs : List Header) (name : Bytes) : get hs name = fieldValue name hs := by
  unfold get fieldValue
  congr 2
  funext h
  by_cases hh : lower h.1 = name
  · simp [hh]
  · simp [hh]

theorem chunked_iff (n : Int) (hs : List Header) : (respOf n hs).chunked = true ↔ FirstChunked hs := by
  unfold FirstChunked
  simp only [respOf, get_eq]
  cases h : fieldValue (b! "transfer-encoding") hs with
  | none => simp
  | some t => simp

theorem resp_eq (n : Nat) (hs : List Header) : respOf (n : Int) hs = ⟨true, (respOf n hs).chunked, none, (respOf n hs).length⟩ := rfl

theorem plainWs_digits (v : Bytes) (h : ∀ d ∈ v, 48 ≤ d ∧ d ≤ 57) : plainWs v = v :=
  (plainWs_id v (fun c hc => ⟨UInt8.le_trans (by decide) (h c hc).1, UInt8.le_trans (h c hc).2 (by decide)⟩)).1

theorem lower_digits (v : Bytes) (h : ∀ d ∈ v, 48 ≤ d ∧ d ≤ 57) : lower v = v := by
  unfold lower
  conv => rhs; rw [← List.map_id v]
  apply List.map_congr_left
  intro d hd
  have := h d hd
  have h2 : ¬ (65 ≤ d ∧ d ≤ 90) := by
    rintro ⟨q, _⟩
    exact absurd (UInt8.le_trans q this.2) (by decide)
  simp only [lowerByte, Bool.and_eq_true, decide_eq_true_eq, if_neg h2, id]

theorem bodied_not {n : Nat} (h : HasBody n) : ¬ ((n : Int) = 204 ∨ (n : Int) = 304 ∨ (100 ≤ (n : Int) ∧ (n : Int) < 200)) := by
  obtain ⟨h1, h2, h3⟩ := h
  omega

theorem length_sized {n k : Nat} {hs : List Header} (hb : HasBody n) (hc : ¬ FirstChunked hs) (hl : FirstLength hs k) :
    respOf (n : Int) hs = ⟨true, false, none, some (k : Int)⟩ := by
  have hch : (respOf n hs).chunked = false := by rw [Bool.eq_false_iff]; exact fun hh => hc ((chunked_iff n hs).1 hh)
  obtain ⟨v, h1, h2, h3, h4⟩ := hl
  have hint : intText v = some (k : Int) := by
    unfold intText
    rw [plainWs_digits v h3, pyInt_digits v (fun d hd => (isDigit_iff d).2 (h3 d hd)) h2]
    rw [← h4]; rfl
  have hlen : (respOf n hs).length = some (k : Int) := by
    have hch' := hch
    simp only [respOf] at hch'
    simp only [respOf, if_neg (bodied_not hb), get_eq, h1]
    simp only [get_eq] at hch'
    rw [hch', if_pos ⟨h2, rfl⟩, hint]
    simp
  rw [resp_eq, hch, hlen]

theorem length_none {n : Nat} {hs : List Header} (hb : HasBody n) (hc : ¬ FirstChunked hs) (hl : NoLength hs) :
    respOf (n : Int) hs = ⟨true, false, none, none⟩ := by
  have hch : (respOf n hs).chunked = false := by rw [Bool.eq_false_iff]; exact fun hh => hc ((chunked_iff n hs).1 hh)
  have hlen : (respOf n hs).length = none := by
    simp only [respOf, if_neg (bodied_not hb), get_eq, show fieldValue (b! "content-length") hs = none from hl]
  rw [resp_eq, hch, hlen]

theorem length_bodyless {n : Nat} {hs : List Header} (hb : Bodyless n) (hc : ¬ FirstChunked hs) :
    respOf (n : Int) hs = ⟨true, false, none, some ((0 : Nat) : Int)⟩ := by
  have hch : (respOf n hs).chunked = false := by rw [Bool.eq_false_iff]; exact fun hh => hc ((chunked_iff n hs).1 hh)
  have hlen : (respOf n hs).length = some ((0 : Nat) : Int) := by
    have : (n : Int) = 204 ∨ (n : Int) = 304 ∨ (100 ≤ (n : Int) ∧ (n : Int) < 200) := by
      rcases hb with hb | hb | hb <;> omega
    simp only [respOf, if_pos this]; rfl
  rw [resp_eq, hch, hlen]

/-! ### from the client to the tool -/

theorem dump_writes {b d : Bytes} {r : Resp} {b0 : Bytes} (hb : Reads begin b0 r b)
    (hc : ∀ fuel, b.length + 1 < fuel → Writes (copy fuel r) b d) : Writes dump b0 d := by
  intro w hw
  obtain ⟨w1, h1, h2, h3⟩ := hb w hw
  obtain ⟨w2, k1, k2⟩ := hc (cfileRemaining w1 + 2) (by have := h2.remaining; omega) w1 h2
  refine ⟨w2, ?_, by rw [k2, h3]⟩
  simp only [dump, M.bind_apply, h1, M.get_apply]
  exact k1

theorem dump_fails {b d : Bytes} {r : Resp} {b0 : Bytes} (hb : Reads begin b0 r b)
    (hc : ∀ fuel, b.length + 1 < fuel → Fails (copy fuel r) b d) : Fails dump b0 d := by
  intro w hw
  obtain ⟨w1, h1, h2, h3⟩ := hb w hw
  obtain ⟨w2, tag, k1, k2⟩ := hc (cfileRemaining w1 + 2) (by have := h2.remaining; omega) w1 h2
  refine ⟨w2, tag, ?_, by rw [k2, h3]⟩
  simp only [dump, M.bind_apply, h1, M.get_apply]
  exact k1

/-- the tool runs the client on the payload of the record -/
theorem tool_run (c : Codec) (hc : Codec.Laws c) (fs : FS) (http : M World Unit) (name : Bytes) (off : Nat) (body : Bytes) (h : HttpAt c fs name off body) (out : Bytes) :
    ∃ w, At w body ∧ w.out = out ∧ WarcPayload.main c fs http name off out =
      (match http w with | .ok () w' => .ok () w'.out | .raise e w' => .raise e w'.out | .hang => .hang) := by
  obtain ⟨r, hat, rfl, htype, t, hct, hpre⟩ := h.record
  obtain ⟨s, h1, h2⟩ := payload_open c hc fs name off r hat
  have hok : r.Ok := by rcases hat with h | h <;> exact h.1
  obtain ⟨s1, o, h3, h4, h5⟩ := first_of s r hok h2
  refine ⟨⟨s1, parsed r.version r.headers, out⟩, ⟨rfl, h4, h5⟩, rfl, ?_⟩
  have ht : (parsed r.version r.headers).type = firstValue (b! "WARC-Type") r.headers := by
    simp [Rec.type, parsed, Rec.getHeader, lookupHeader_eq, WH.TYPE]
  have hd : WarcPayload.dumpPayload http ⟨s1, parsed r.version r.headers, out⟩ = http ⟨s1, parsed r.version r.headers, out⟩ := by
    simp only [WarcPayload.dumpPayload, M.bind_apply, M.get_apply]
    rw [if_pos (by rw [ht]; exact htype)]
    rcases Tool.contentType_read s1 r out h4 h5 with ⟨t', e1, e2⟩ | ⟨e1, e2⟩
    · rw [hct] at e1; cases e1
      simp only [M.bind_apply, e2]
      rw [if_pos (by rw [startsWith, List.isPrefixOf_iff_prefix]; exact hpre)]
    · rw [hct] at e1; cases e1
  simp only [WarcPayload.main, onArchive, h1, WarcPayload.dumpStream, M.bind_apply, Tool.onStream, h3, Tool.withRecord, hd]
  cases http ⟨s1, parsed r.version r.headers, out⟩ <;> rfl

theorem tool_writes (c : Codec) (hc : Codec.Laws c) (fs : FS) (name : Bytes) (off : Nat) (body d : Bytes) (h : HttpAt c fs name off body)
    (k : Writes dump body d) (out : Bytes) : WarcPayload.tool c fs name off out = .ok () (out ++ d) := by
  obtain ⟨w, h1, rfl, h3⟩ := tool_run c hc fs dump name off body h out
  obtain ⟨w', k1, k2⟩ := k w h1
  rw [WarcPayload.tool, h3, k1, ← k2]

theorem tool_fails (c : Codec) (hc : Codec.Laws c) (fs : FS) (name : Bytes) (off : Nat) (body d : Bytes) (h : HttpAt c fs name off body)
    (k : Fails dump body d) (out : Bytes) : ∃ tag, WarcPayload.tool c fs name off out = .raise (.httpException tag) (out ++ d) := by
  obtain ⟨w, h1, rfl, h3⟩ := tool_run c hc fs dump name off body h out
  obtain ⟨w', tag, k1, k2⟩ := k w h1
  exact ⟨tag, by rw [WarcPayload.tool, h3, k1, ← k2]⟩

/-! ### the end of a chunked body -/

theorem arrived_zero (cs : List Chunk) : arrived cs 0 = [] := by
  induction cs with
  | nil => rfl
  | cons c cs ih => simp [arrived, ih]

theorem hexValue_mono (s : Bytes) (n : Nat) : n ≤ s.foldl (fun n d => 16 * n + (hexDigit d).getD 0) n := by
  induction s generalizing n with
  | nil => simp
  | cons d s ih => exact Nat.le_trans (by show n ≤ 16 * n + _; omega) (ih _)

theorem hexDigit_pos (d : Byte) (h : (hexDigit d).isSome = true) (h0 : d ≠ 48) : 0 < (hexDigit d).getD 0 := by
  have key : ∀ n : Nat, n < 256 → (hexDigit (UInt8.ofNat n)).isSome = true → UInt8.ofNat n ≠ 48 → 0 < (hexDigit (UInt8.ofNat n)).getD 0 := by decide +kernel
  have := key d.toNat d.toNat_lt
  simp only [UInt8.ofNat_toNat] at this
  exact this h h0

theorem hexValue_pos (s : Bytes) (h : ∀ d ∈ s, (hexDigit d).isSome = true) (h0 : s.head? ≠ some 48) (hne : s ≠ []) : 0 < hexValue s := by
  cases s with
  | nil => exact absurd rfl hne
  | cons d s =>
    have := hexDigit_pos d (h d (by simp)) (fun hh => h0 (by simp [hh]))
    have h2 := hexValue_mono s (16 * 0 + (hexDigit d).getD 0)
    simp only [hexValue, List.foldl_cons]
    omega

/-- the beginning of a size line is not a number or not zero -/
theorem size_cut (c : Chunk) (hok : c.Ok) (hx : HexSize c) (k : Nat) :
    pyInt 16 (((c.size ++ c.ext ++ [13]).take k).takeWhile (· ≠ 59)) = none ∨
      ∃ n : Nat, 0 < n ∧ pyInt 16 (((c.size ++ c.ext ++ [13]).take k).takeWhile (· ≠ 59)) = some (n : Int) := by
  have hpos : 0 < c.data.length := List.length_pos_iff.2 hok.2
  by_cases hk : k ≤ c.size.length
  · have e : ((c.size ++ c.ext ++ [13]).take k).takeWhile (· ≠ 59) = c.size.take k := by
      rw [List.append_assoc, List.take_append_of_le_length hk]
      exact takeWhile_all (fun hh => hok.1.semicolon (List.mem_of_mem_take hh))
    rw [e]
    by_cases h0 : c.size.take k = []
    · rw [h0]; exact Or.inl (by decide)
    · have hd : ∀ d ∈ c.size.take k, (hexDigit d).isSome = true := fun d hd => hx.1 d (List.mem_of_mem_take hd)
      refine Or.inr ⟨_, hexValue_pos _ hd ?_ h0, pyInt_hex _ hd h0⟩
      cases hs : c.size with
      | nil => simp
      | cons d s =>
        cases k with
        | zero => simp
        | succ k => have := hx.2; rw [hs] at this; simpa using this
  · refine Or.inr ⟨c.data.length, hpos, ?_⟩
    obtain ⟨j, rfl⟩ : ∃ j, k = c.size.length + j := ⟨k - c.size.length, by omega⟩
    rw [List.append_assoc, List.take_length_add_append]
    rcases hok.1.extStart with he | ⟨e, he⟩
    · rw [he, List.nil_append]
      have : (c.size ++ [13].take j).takeWhile (· ≠ 59) = c.size ++ [13].take j := by
        apply takeWhile_all
        intro hh
        rcases List.mem_append.1 hh with hh | hh
        · exact hok.1.semicolon hh
        · have := List.mem_of_mem_take hh; revert this; decide
      rw [this, pyInt_ws_right 16 _ _ (fun d hd => by have := List.mem_of_mem_take hd; simp at this; subst this; decide), hok.1.value]
    · obtain ⟨j, rfl⟩ : ∃ i, j = i + 1 := ⟨j - 1, by omega⟩
      rw [he, List.cons_append, List.take_succ_cons, takeWhile_ne hok.1.semicolon, hok.1.value]

/-- where a sequence of chunks is cut -/
theorem chunks_cut (cs : List Chunk) (h : ∀ c ∈ cs, (c.Ok ∧ c.Short) ∧ HexSize c) (k : Nat) (hk : k ≤ (cs.flatMap Chunk.text).length) :
    ∃ (cs1 : List Chunk) (tail D : Bytes), (cs.flatMap Chunk.text).take k = cs1.flatMap Chunk.text ++ tail ∧ (∀ c ∈ cs1, c.Ok ∧ c.Short) ∧ BadTail tail D ∧
      arrived cs k = cs1.flatMap Chunk.data ++ D := by
  induction cs generalizing k with
  | nil => exact ⟨[], [], [], by simp, by simp, .line [] (by simp) (by simp) (Or.inl (by decide)), rfl⟩
  | cons c cs ih =>
    have hc := h c (by simp)
    rw [List.flatMap_cons] at hk ⊢
    by_cases hlt : k < c.text.length
    · have hz : k - c.text.length = 0 := by omega
      rw [List.take_append_of_le_length (by omega)]
      by_cases hl : k < (sizeLine c.size c.ext).length
      · refine ⟨[], c.text.take k, [], by simp, by simp, ?_, by simp [arrived, hz, arrived_zero, Nat.sub_eq_zero_of_le (Nat.le_of_lt hl)]⟩
        have e : c.text.take k = (c.size ++ c.ext ++ [13]).take k := by
          have h1 : c.text = (c.size ++ c.ext ++ [13]) ++ (10 :: (c.data ++ CRLF)) := by simp [Chunk.text, sizeLine]
          rw [h1, List.take_append_of_le_length (by simp [sizeLine] at hl ⊢; omega)]
        rw [e]
        refine .line _ ?_ ?_ (size_cut c hc.1.1 hc.2 k)
        · intro hh
          have := List.mem_of_mem_take hh
          simp [hc.1.1.1.line, hc.1.1.1.extLine] at this
        · have := hc.1.2
          simp only [Chunk.Short] at this
          simp only [List.length_take]; omega
      · obtain ⟨j, rfl⟩ : ∃ j, k = (sizeLine c.size c.ext).length + j := ⟨k - (sizeLine c.size c.ext).length, by omega⟩
        have e : c.text.take ((sizeLine c.size c.ext).length + j) = sizeLine c.size c.ext ++ (c.data ++ CRLF).take j := by
          have h1 : c.text = sizeLine c.size c.ext ++ (c.data ++ CRLF) := by simp [Chunk.text]
          rw [h1, List.take_length_add_append]
        have hj : j < c.data.length + 2 := by simp [Chunk.text] at hlt; omega
        have e2 : arrived (c :: cs) ((sizeLine c.size c.ext).length + j) = ((c.data ++ CRLF).take j).take c.data.length := by
          rw [arrived, hz, arrived_zero, List.append_nil, Nat.add_sub_cancel_left, List.take_take, Nat.min_comm, ← List.take_take, List.take_left]
        refine ⟨[], sizeLine c.size c.ext ++ (c.data ++ CRLF).take j, ((c.data ++ CRLF).take j).take c.data.length, by rw [e]; simp, by simp,
          .data c _ hc.1.1 hc.1.2 (by rw [List.length_take]; omega), by rw [e2]; simp⟩
    · obtain ⟨cs1, tail, D, h1, h2, h3, h4⟩ := ih (fun x hx => h x (by simp [hx])) (k - c.text.length) (by rw [List.length_append] at hk; omega)
      refine ⟨c :: cs1, tail, D, ?_, ?_, h3, ?_⟩
      · rw [List.take_append, List.take_of_length_le (by omega), h1]; simp
      · intro x hx
        rcases List.mem_cons.1 hx with rfl | hx
        · exact hc.1
        · exact h2 x hx
      · rw [arrived, h4, List.take_of_length_le (by simp [Chunk.text] at hlt; omega)]; simp

theorem badTail_le {tail D : Bytes} (h : BadTail tail D) : D.length ≤ tail.length := by
  cases h with
  | line => simp
  | data c p => simp; omega

theorem data_le_text (cs : List Chunk) : (cs.flatMap Chunk.data).length ≤ (cs.flatMap Chunk.text).length := by
  induction cs with
  | nil => simp
  | cons c cs ih => simp only [List.flatMap_cons, List.length_append, Chunk.text] at ih ⊢; omega

end HttpClient

open HttpClient

theorem fieldValue_mem {nm val : Bytes} {hs : List Header} (h : fieldValue nm hs = some val) : ∃ f, (f ∈ hs ∧ lower f.1 = nm) ∧ f.2 = val := by
  unfold fieldValue at h
  cases hf : hs.find? (fun f => lower f.1 = nm) with
  | none => rw [hf] at h; cases h
  | some f =>
    rw [hf] at h
    simp only [Option.map_some, Option.some.injEq] at h
    exact ⟨f, ⟨List.mem_of_find?_eq_some hf, by simpa using List.find?_some hf⟩, h⟩

theorem fieldValue_none {nm : Bytes} {hs : List Header} (h : ∀ f ∈ hs, lower f.1 ≠ nm) : fieldValue nm hs = none := by
  unfold fieldValue
  rw [List.find?_eq_none.2 (by intro f hf; simpa using h f hf)]
  rfl

theorem says_chunked {hs : List Header} (hpf : PlainFraming hs) {f : Header} (hf : f ∈ hs) : saysChunked [] f = true ↔ lower f.1 = b! "transfer-encoding" := by
  constructor
  · intro h
    simp only [saysChunked, Bool.and_eq_true, beq_iff_eq] at h
    exact h.1.1
  · intro h
    have hc : contains (b! "chunked") (b! "chunked") = true := by decide
    simp only [saysChunked, h, hpf.1 f hf h, hc, ignored]
    decide

theorem says_length (f : Header) : saysLength [] f = true ↔ lower f.1 = b! "content-length" := by
  simp [saysLength, ignored]

theorem not_firstChunked {hs : List Header} (hpf : PlainFraming hs) (h : ∀ f ∈ hs, saysChunked [] f = false) : ¬ FirstChunked hs := by
  rintro ⟨v, h1, h2⟩
  obtain ⟨f, hf, rfl⟩ := fieldValue_mem h1
  have := h f hf.1
  rw [(says_chunked hpf hf.1).2 hf.2] at this
  cases this

theorem framing_chunked {hs : List Header} (hpf : PlainFraming hs) (h : framing [] hs = some .chunked) : FirstChunked hs := by
  have hex : ∃ f ∈ hs, saysChunked [] f = true := by
    unfold framing at h
    split at h
    · cases h
    · rename_i f hf
      split at h
      · rename_i hs1
        exact ⟨f, List.mem_of_find?_eq_some hf, hs1⟩
      · split at h
        · cases h
        · split at h
          · rename_i hany
            obtain ⟨g, hg, hg2⟩ := List.any_eq_true.1 hany
            exact ⟨g, hg, hg2⟩
          · cases h
  obtain ⟨f, hf, hf2⟩ := hex
  have hn := (says_chunked hpf hf).1 hf2
  cases hv : fieldValue (b! "transfer-encoding") hs with
  | none =>
    unfold fieldValue at hv
    rw [Option.map_eq_none_iff, List.find?_eq_none] at hv
    exact absurd hn (by simpa using hv f hf)
  | some v =>
    obtain ⟨g, hg, rfl⟩ := fieldValue_mem hv
    exact ⟨g.2, hv, hpf.1 g hg.1 hg.2⟩

theorem framing_close {hs : List Header} (hpf : PlainFraming hs) (h : framing [] hs = some .close) : ¬ FirstChunked hs ∧ NoLength hs := by
  have hnone : ∀ f ∈ hs, saysChunked [] f = false ∧ saysLength [] f = false := by
    unfold framing at h
    split at h
    · rename_i hf
      intro f hm
      have := List.find?_eq_none.1 hf f hm
      simpa using this
    · split at h
      · cases h
      · split at h
        · cases h
        · split at h <;> cases h
  refine ⟨not_firstChunked hpf fun f hf => (hnone f hf).1, fieldValue_none fun f hf hn => ?_⟩
  have := (hnone f hf).2
  rw [(says_length f).2 hn] at this
  cases this

theorem find?_same {α : Type} {p q : α → Bool} (l : List α) (h : ∀ a ∈ l, p a = q a) : l.find? p = l.find? q := by
  induction l with
  | nil => rfl
  | cons a l ih => simp only [List.find?_cons, h a (by simp), ih fun b hb => h b (by simp [hb])]

theorem framing_length {hs : List Header} {k : Nat} (hpf : PlainFraming hs) (h : framing [] hs = some (.length k)) : ¬ FirstChunked hs ∧ FirstLength hs k := by
  unfold framing at h
  split at h
  · cases h
  · rename_i f hf
    split at h
    · cases h
    · rename_i hnc
      split at h
      · cases h
      · rename_i m hm
        split at h
        · cases h
        · rename_i hany
          simp only [Option.some.injEq, Framed.length.injEq] at h
          subst h
          have hall : ∀ g ∈ hs, saysChunked [] g = false := by
            intro g hg
            rw [Bool.eq_false_iff]
            exact fun hh => hany (List.any_eq_true.2 ⟨g, hg, hh⟩)
          refine ⟨not_firstChunked hpf hall, ?_⟩
          have hfm := List.mem_of_find?_eq_some hf
          have hfs := List.find?_some hf
          simp only [Bool.or_eq_true] at hfs
          have hlen : lower f.1 = b! "content-length" := (says_length f).1 (hfs.resolve_left hnc)
          have hd := hpf.2 f hfm hlen
          have hfind : hs.find? (fun f => decide (lower f.1 = b! "content-length")) = some f := by
            rw [← hf]
            apply find?_same
            intro g hg
            rw [hall g hg, Bool.false_or]
            by_cases hh : lower g.1 = b! "content-length"
            · rw [(says_length g).2 hh]; simp [hh]
            · have : saysLength [] g = false := by rw [Bool.eq_false_iff]; exact fun q => hh ((says_length g).1 q)
              rw [this]; simp [hh]
          have hlow : lower f.2 = f.2 := lower_digits _ hd.2
          rw [hlow, pyInt_digits f.2 (fun d hd' => (isDigit_iff d).2 (hd.2 d hd')) hd.1] at hm
          simp only [Option.some.injEq] at hm
          refine ⟨f.2, by simp only [fieldValue, hfind, Option.map_some], hd.1, hd.2, ?_⟩
          have : decimalValue f.2 = k := by omega
          exact this

variable (c : Codec) (hc : Codec.Laws c) (fs : FS) (name : Bytes) (off : Nat) (is : List Interim) (his : SkippedOk is)
  (v p : Bytes) (n : Nat) (hs : List Header) (hh : ClientHead v n p hs) (hv : KnownVersion v) (b : Bytes) (out : Bytes)
include hc his hh hv

/-- **C92** `warcpayload file:offset` on an HTTP response with a Content-Length (and not chunked): exactly that many bytes of what follows the
header are written, whatever interim responses stand before it; nothing tells the user when there are fewer bytes. -/
theorem C92_sized (hb : HasBody n) (hnc : ¬ FirstChunked hs) (k : Nat) (hl : FirstLength hs k)
    (hat : HttpAt c fs name off (is.flatMap Interim.text ++ headText (.response v n p) hs ++ b)) :
    WarcPayload.tool c fs name off out = .ok () (out ++ b.take k) := by
  refine tool_writes c hc fs name off _ _ hat ?_ out
  refine dump_writes (begin_at is his hh hv (by have := hb.1; omega) b) ?_
  rw [length_sized hb hnc hl]
  exact fun fuel hf => copy_sized fuel k none b hf

/-- **C92** Without a Content-Length (and not chunked) everything after the header is written. -/
theorem C92_to_end (hb : HasBody n) (hnc : ¬ FirstChunked hs) (hl : NoLength hs)
    (hat : HttpAt c fs name off (is.flatMap Interim.text ++ headText (.response v n p) hs ++ b)) :
    WarcPayload.tool c fs name off out = .ok () (out ++ b) := by
  refine tool_writes c hc fs name off _ _ hat ?_ out
  refine dump_writes (begin_at is his hh hv (by have := hb.1; omega) b) ?_
  rw [length_none hb hnc hl]
  exact fun fuel hf => copy_toEnd fuel none b (by omega)

/-- **C92** Nothing is written for responses with code 1xx, 204 and 304 (not chunked), whatever follows the header. -/
theorem C92_no_body (hb : Bodyless n) (hnc : ¬ FirstChunked hs)
    (hat : HttpAt c fs name off (is.flatMap Interim.text ++ headText (.response v n p) hs ++ b)) :
    WarcPayload.tool c fs name off out = .ok () out := by
  have := tool_writes c hc fs name off _ [] hat ?_ out
  · simpa using this
  · refine dump_writes (begin_at is his hh hv (by rcases hb with hb | hb | hb <;> omega) b) ?_
    rw [length_bodyless hb hnc]
    exact fun fuel hf => copy_sized fuel 0 none b hf

/-- **C92** A chunked body (any status code but 100): the data of the chunks is written, without the chunk lines and the trailer; what
follows the body in the record is left out. -/
theorem C92_chunked (h100 : n ≠ 100) (hch : FirstChunked hs) (B : ChunkedBody) (hok : B.Ok) (hshort : B.Short)
    (hat : HttpAt c fs name off (is.flatMap Interim.text ++ headText (.response v n p) hs ++ (B.text ++ b))) :
    WarcPayload.tool c fs name off out = .ok () (out ++ B.data) := by
  refine tool_writes c hc fs name off _ _ hat ?_ out
  refine dump_writes (begin_at is his hh hv h100 _) ?_
  intro fuel hf
  have hplace : Place (respOf n hs) [] B.chunks (tailText B ++ b) (B.text ++ b) :=
    ⟨⟨[], .start rfl rfl, by simp [ChunkedBody.text, tailText]⟩, fun x hx => ⟨hok.1 x hx, hshort.1 x hx⟩⟩
  have := copy_chunked B hok hshort b fuel [] B.chunks (respOf n hs) _ hplace rfl ((chunked_iff n hs).2 hch) (by
    have h1 := data_le_text B.chunks
    simp only [ChunkedBody.text, List.length_append] at hf
    rw [List.nil_append]; omega)
  exact this

/-- **C92** A chunked body that ends within its chunks, or before the last chunk line: an exception, after the data that has arrived has been
written in whole blocks of 8192 bytes (what comes after the last whole block is lost).  The chunk sizes do not begin with 0. -/
theorem C92_chunked_cut (h100 : n ≠ 100) (hch : FirstChunked hs) (cs : List Chunk) (hcs : ∀ x ∈ cs, (x.Ok ∧ x.Short) ∧ HexSize x)
    (k : Nat) (hk : k ≤ (cs.flatMap Chunk.text).length)
    (hat : HttpAt c fs name off (is.flatMap Interim.text ++ headText (.response v n p) hs ++ (cs.flatMap Chunk.text).take k)) :
    ∃ tag, WarcPayload.tool c fs name off out =
      .raise (.httpException tag) (out ++ (arrived cs k).take ((arrived cs k).length / 8192 * 8192)) := by
  refine tool_fails c hc fs name off _ _ hat ?_ out
  refine dump_fails (begin_at is his hh hv h100 _) ?_
  intro fuel hf
  obtain ⟨cs1, tail, D, h1, h2, h3, h4⟩ := chunks_cut cs hcs k hk
  rw [h1] at hf ⊢
  rw [h4]
  have hbad : Bad (respOf n hs) (cs1.flatMap Chunk.text ++ tail) ([] ++ cs1.flatMap Chunk.data ++ D) :=
    .place [] cs1 tail D ⟨⟨[], .start rfl rfl, by simp⟩, h2⟩ h3
  rw [List.nil_append] at hbad
  exact copy_bad fuel _ _ _ hbad rfl ((chunked_iff n hs).2 hch) (by
    have h5 := data_le_text cs1
    have h6 := badTail_le h3
    simp only [List.length_append] at hf ⊢; omega)

/-- **C92** On a well-formed response, behind any interim responses, `warcpayload` writes the body: the same bytes that `ResponseMessage`
of hanzo.httptools gives for the same text (C33–C36), when each Transfer-Encoding is `chunked` and each Content-Length a number. -/
theorem C92_message (rm : PyStr) (x : Message) (hx : x.Ok (.response rm) []) (hst : x.start = .response v n p) (hfs : x.fields = hs)
    (hpf : PlainFraming hs) (hnone : x.payload = .none → ¬ FirstChunked hs) (hshort : ∀ B, x.payload = .chunked B → B.Short)
    (hat : HttpAt c fs name off (is.flatMap Interim.text ++ x.text)) :
    WarcPayload.tool c fs name off out = .ok () (out ++ x.payload.data) := by
  obtain ⟨fr, hfr, hframed⟩ := hx.framed
  rw [hfs] at hfr
  have h100 : n ≠ 100 := by rintro rfl; exact hx.final v p hst
  have hcode : HasBody n ∨ Bodyless n := by
    have := hh.code
    unfold HasBody Bodyless; omega
  have htext : is.flatMap Interim.text ++ x.text = is.flatMap Interim.text ++ headText (.response v n p) hs ++ x.payload.text := by
    rw [Message.text, hst, hfs, List.append_assoc]
  rw [htext] at hat
  have hbody : hasBody (.response rm) x.start fr → HasBody n := by
    rw [hst]
    intro hb
    simp only [hasBody] at hb
    have := hh.code
    unfold HasBody; omega
  cases hp : x.payload with
  | none =>
    have hnc := hnone hp
    rw [hp] at hat
    simp only [Payload.text, Payload.data, List.append_nil]
    rcases hcode with hb | hb
    · cases hl : fieldValue (b! "content-length") hs with
      | none =>
        have := C92_to_end c hc fs name off is his v p n hs hh hv [] out hb hnc hl hat
        simpa using this
      | some cl =>
        obtain ⟨f, hf, rfl⟩ := fieldValue_mem hl
        have hd := hpf.2 f hf.1 hf.2
        have := C92_sized c hc fs name off is his v p n hs hh hv [] out hb hnc _ ⟨f.2, hl, hd.1, hd.2, rfl⟩ hat
        simpa using this
    · exact C92_no_body c hc fs name off is his v p n hs hh hv [] out hb hnc hat
  | sized b =>
    rw [hp] at hat
    simp only [Message.Framed, hp] at hframed
    obtain ⟨hb, rfl⟩ := hframed
    obtain ⟨hnc, hl⟩ := framing_length hpf hfr
    have := C92_sized c hc fs name off is his v p n hs hh hv b out (hbody hb) hnc _ hl hat
    simpa [Payload.data] using this
  | toEnd b =>
    rw [hp] at hat
    simp only [Message.Framed, hp] at hframed
    obtain ⟨hb, rfl⟩ := hframed
    obtain ⟨hnc, hl⟩ := framing_close hpf hfr
    exact C92_to_end c hc fs name off is his v p n hs hh hv b out (hbody hb) hnc hl hat
  | chunked B =>
    rw [hp] at hat
    simp only [Message.Framed, hp] at hframed
    obtain ⟨hb, rfl, hB⟩ := hframed
    exact C92_chunked c hc fs name off is his v p n hs hh hv [] out h100 (framing_chunked hpf hfr) B hB (hshort B hp) (by simpa [Payload.text] using hat)

omit hc his hh hv in
/-- **C92** `warcpayload` always ends, whatever the HTTP response looks like, unless the file has a stuck header block (C61). -/
theorem C92_terminates (h : ∀ s, openName c fs .warc (some off) name = .ok s → ¬ StuckData s.fh.data) :
    WarcPayload.tool c fs name off out ≠ .hang :=
  C61_warcpayload c fs HttpClient.dump calm_dump name off out h

/-! examples -/

omit hc his hh hv

theorem demo1_http : HttpAt toy demoFS (b! "a.warc") 0 (([] : List Interim).flatMap Interim.text ++
    headText (.response (b! "HTTP/1.1") 200 (b! "OK")) [] ++ b! "WARC/1.0\r\n\r\n") := by
  refine ⟨demo1.R, Or.inl ⟨item_R_ok _ demo1_ok, by decide, [], CRLF ++ CRLF ++ demo2.R.bytes, ?_, rfl, ?_⟩, ?_, ?_, b! "application/http; msgtype=response", ?_, ?_⟩
  · simp [demoFS, archiveT, demoRT, R.bytes, R.core, recordBytes]
  · decide +kernel
  · decide +kernel
  · decide +kernel
  · decide +kernel
  · decide

/-- a body that is delimited by the end of the record -/
example : WarcPayload.tool toy demoFS (b! "a.warc") 0 [] = .ok () (b! "WARC/1.0\r\n\r\n") :=
  C92_to_end toy toy_laws demoFS _ _ [] (by intro i hi; cases hi) (b! "HTTP/1.1") (b! "OK") 200 []
    ⟨by decide, by decide, by decide, by decide, by decide +kernel, (by intro f hf; cases hf), by decide⟩ (Or.inr (by decide)) _ []
    (by unfold HasBody; decide) (by rintro ⟨v, h, _⟩; cases h) rfl demo1_http

/-- a chunked response behind an interim response, with an extension and a trailer -/
def demoHttpBody : ChunkedBody := ⟨[⟨b! "5", b! ";x=1", b! "hello"⟩, ⟨b! "1", [], b! "!"⟩], b! "00", [], [(b! "T", b! "u")]⟩
def demoHttpFields : List Header := [(b! "Host", b! "a b"), (b! "transfer-Encoding", b! "Chunked"), (b! "Content-Length", b! "7")]
def demoHttpInterim : Interim := ⟨b! "HTTP/1.1", b! "Continue", [(b! "A", [])]⟩
def demoHttpText (b : Bytes) : Bytes :=
  [demoHttpInterim].flatMap Interim.text ++ headText (.response (b! "HTTP/1.0") 203 (b! "Fine it is")) demoHttpFields ++ b
def demoHttpItem (b : Bytes) : Item :=
  ⟨b! "WARC/1.0", [(b! "WARC-Type", b! "response")], some (b! "application/http"), demoHttpText b⟩
def demoHttpFS (b : Bytes) : FS := fun n => if n = b! "h" then some ((demoHttpItem b).R.bytes) else none

theorem demoHttpItem_ok (b : Bytes) : (demoHttpItem b).Ok where
  version := ⟨[], b! "WARC/", b! "1.0", rfl, by decide⟩
  headers := by intro h hh; simp only [demoHttpItem, List.mem_singleton] at hh; subst hh; decide
  ctype := by intro t ht; simp only [demoHttpItem, Option.some.injEq] at ht; subst ht; decide

theorem demoHttp_at (b : Bytes) : HttpAt toy (demoHttpFS b) (b! "h") 0 (demoHttpText b) := by
  refine ⟨(demoHttpItem b).R, Or.inl ⟨item_R_ok _ (demoHttpItem_ok b), by decide, [], CRLF ++ CRLF, ?_, rfl, ?_⟩, rfl, ?_, b! "application/http", ?_, ?_⟩
  · simp [demoHttpFS, R.bytes, R.core, recordBytes]
  · rw [List.nil_append]; exact core_not_gzip _ (item_R_ok _ (demoHttpItem_ok b)) _
  · rfl
  · rfl
  · decide

theorem demoHttp_interim : SkippedOk [demoHttpInterim] := by
  intro i hi
  rw [List.mem_singleton] at hi; subst hi
  exact ⟨by decide, by decide, by decide, by decide, by decide +kernel, by
    intro f hf
    simp only [demoHttpInterim, List.mem_singleton] at hf; subst hf
    exact ⟨by decide, by decide, by decide, by simp, by decide⟩, by decide⟩

theorem demoHttp_head : ClientHead (b! "HTTP/1.0") 203 (b! "Fine it is") demoHttpFields := by
  refine ⟨by decide, by decide, by decide, by decide, by decide +kernel, ?_, by decide⟩
  intro f hf
  simp only [demoHttpFields, List.mem_cons, List.not_mem_nil, or_false] at hf
  rcases hf with rfl | rfl | rfl
  · exact ⟨by decide, by decide, by decide, by simp, by decide⟩
  · exact ⟨by decide, by decide, by decide, by simp, by decide⟩
  · exact ⟨by decide, by decide, by decide, by simp, by decide⟩

theorem demoHttp_chunked : FirstChunked demoHttpFields := ⟨b! "Chunked", by decide, by decide⟩

theorem demoHttp_chunks : ∀ x ∈ demoHttpBody.chunks, (x.Ok ∧ x.Short) ∧ HexSize x := by
  intro x hx
  simp only [demoHttpBody, List.mem_cons, List.not_mem_nil, or_false] at hx
  rcases hx with rfl | rfl
  · exact ⟨⟨⟨⟨by decide, by decide, by decide, Or.inr ⟨_, rfl⟩, by decide⟩, by decide⟩, by unfold Chunk.Short; decide⟩, by decide, by decide⟩
  · exact ⟨⟨⟨⟨by decide, by decide, by decide, Or.inl rfl, by decide⟩, by decide⟩, by unfold Chunk.Short; decide⟩, by decide, by decide⟩

theorem demoHttpBody_ok : demoHttpBody.Ok :=
  ⟨fun x hx => (demoHttp_chunks x hx).1.1, ⟨by decide, by decide, by decide, Or.inl rfl, by decide⟩, by
    intro f hf; simp only [demoHttpBody, List.mem_singleton] at hf; subst hf; exact ⟨by decide, by decide, by decide, by decide, by decide⟩⟩

theorem demoHttpBody_short : demoHttpBody.Short :=
  ⟨fun x hx => (demoHttp_chunks x hx).1.2, by decide, by
    intro f hf; simp only [demoHttpBody, List.mem_singleton] at hf; subst hf; decide⟩

/-- the same response as a message -/
def demoHttpMessage : Message := ⟨.response (b! "HTTP/1.0") 203 (b! "Fine it is"), demoHttpFields, .chunked demoHttpBody⟩

theorem demoHttpMessage_ok : demoHttpMessage.Ok (.response (.bytes (b! "GET"))) [] where
  fits := trivial
  start := by
    show Start.Ok (.response (b! "HTTP/1.0") 203 (b! "Fine it is"))
    exact ⟨⟨by decide, by decide⟩, by decide, by decide⟩
  fields := by
    intro f hf
    simp only [demoHttpMessage, demoHttpFields, List.mem_cons, List.not_mem_nil, or_false] at hf
    rcases hf with rfl | rfl | rfl <;> exact ⟨by decide, by decide, by decide, by decide, by decide⟩
  framed := ⟨.chunked, by decide, by
    refine ⟨?_, rfl, demoHttpBody_ok⟩
    show hasBody (.response (.bytes (b! "GET"))) (.response (b! "HTTP/1.0") 203 (b! "Fine it is")) .chunked
    exact ⟨by decide, by decide, by decide, by decide⟩⟩
  gzip := by rintro ⟨b, h⟩; cases h
  final := by intro v p h; simp [demoHttpMessage] at h

example : WarcPayload.tool toy (demoHttpFS demoHttpBody.text) (b! "h") 0 [] = .ok () (b! "hello!") :=
  C92_message toy toy_laws _ _ _ [demoHttpInterim] demoHttp_interim _ _ 203 demoHttpFields demoHttp_head (Or.inr (by decide)) []
    (.bytes (b! "GET")) demoHttpMessage demoHttpMessage_ok rfl rfl
    ⟨by decide, by decide⟩ (by intro h; cases h) (by intro B h; cases h; exact demoHttpBody_short)
    (by have := demoHttp_at demoHttpBody.text; simpa [demoHttpText, demoHttpMessage, Message.text, Payload.text] using this)

example : WarcPayload.tool toy (demoHttpFS (demoHttpBody.text ++ b! "junk")) (b! "h") 0 [] = .ok () (b! "hello!") :=
  C92_chunked toy toy_laws _ _ _ [demoHttpInterim] demoHttp_interim _ _ 203 demoHttpFields demoHttp_head (Or.inr (by decide)) (b! "junk") []
    (by decide) demoHttp_chunked demoHttpBody demoHttpBody_ok demoHttpBody_short (demoHttp_at _)

/-- cut after `he` -/
example : ∃ tag, WarcPayload.tool toy (demoHttpFS ((demoHttpBody.chunks.flatMap Chunk.text).take 9)) (b! "h") 0 [] = .raise (.httpException tag) [] := by
  obtain ⟨tag, h⟩ := C92_chunked_cut toy toy_laws _ _ _ [demoHttpInterim] demoHttp_interim _ _ 203 demoHttpFields demoHttp_head (Or.inr (by decide)) []
    (by decide) demoHttp_chunked demoHttpBody.chunks demoHttp_chunks 9 (by decide) (demoHttp_at _)
  exact ⟨tag, h⟩

/-- a Content-Length; there are fewer bytes, which goes unnoticed -/
example (fs : FS) (hat : HttpAt toy fs (b! "x") 3 (b! "HTTP/1.1 200 OK\r\ncontent-length: 10\r\n\r\nabc")) :
    WarcPayload.tool toy fs (b! "x") 3 [] = .ok () (b! "abc") :=
  C92_sized toy toy_laws fs _ _ [] (by intro i hi; cases hi) (b! "HTTP/1.1") (b! "OK") 200 [(b! "content-length", b! "10")]
    ⟨by decide, by decide, by decide, by decide, by decide +kernel, by
      intro f hf; rw [List.mem_singleton] at hf; subst hf; exact ⟨by decide, by decide, by decide, by simp, by decide⟩, by decide⟩
    (Or.inr (by decide)) (b! "abc") [] (by unfold HasBody; decide) (by rintro ⟨v, h, _⟩; cases h) 10
    ⟨b! "10", by decide, by decide, by decide, by decide⟩ hat

end Warc
