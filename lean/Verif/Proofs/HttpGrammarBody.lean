import Verif.Proofs.HttpGrammar
import Verif.Proofs.HttpHang
import Verif.Proofs.HttpPieces
/-
  The HTTP parser refines the grammar of Spec/HttpGrammar: trailers, chunks, bodies.
-/
set_option linter.all false
namespace Warc.Http
open Grammar

/-- what the reading of the chunks leaves alone, and what it adds -/
structure Read (m m' : Msg) (t : Bytes) (ts : List Header) : Prop where
  header : m'.header = { m.header with trailers := ts }
  buffer : m'.buffer = m.buffer ++ t
  interim : m'.interim = m.interim

theorem fieldLine_error {hs : List Header} {l : Bytes} {e : Exc} (h : fieldLine hs l = .error e) : e ≠ .brokenChunks := by
  unfold fieldLine at h
  split at h
  · cases hl : hs.getLast? with
    | none => rw [hl] at h; cases h; simp
    | some p => rw [hl] at h; cases h
  · cases hl : cutAt 58 l with
    | none => rw [hl] at h; cases h; simp
    | some p => rw [hl] at h; cases h

theorem trailer_any (n : Nat) (text : Bytes) (hlen : text.length = n) (cr : ChunkSt) (m : Msg) (hm : cr.mode = .trailer) (hfl : Flush m)
    (hmode : m.mode = .body) (hr : m.reader = some (.chunk cr)) :
    match fieldsIn m.header.trailers text with
    | .refused e => e ≠ .brokenChunks ∧ ∃ m', CF cr text m = .raise e m'
    | .going ts => ∃ m', CF cr text m = .ok [] m' ∧ Read m m' text ts ∧ m'.mode = .body ∧ m'.reader = some (.chunk cr) ∧ m'.bodyChunks = m.bodyChunks
    | .ended ts rest => ∃ m' used, text = used ++ rest ∧ CF cr text m = .ok rest m' ∧ Read m m' used ts ∧ m'.mode = .end_ ∧ m'.bodyChunks = m.bodyChunks := by
  induction n using Nat.strongRecOn generalizing text m with
  | _ n ih =>
    rcases line_cases text with h | ⟨u, r, h, rfl⟩
    · rw [fieldsIn_none _ h]
      by_cases ht : text = []
      · subst ht
        rw [CF_nil]
        exact ⟨m, rfl, ⟨rfl, by simp, rfl⟩, hmode, hr, rfl⟩
      · rw [CF_trailer_none hfl.inv hm ht h]
        exact ⟨_, rfl, ⟨rfl, rfl, rfl⟩, hmode, rfl, rfl⟩
    · rw [fieldsIn_line _ u r h, CF_trailer_line hfl.inv hm r h, hfl.pend, List.nil_append, isNewline_lf]
      cases he : emptyLine u with
      | true =>
        simp only [if_true, onHeader, took_header, addTrailerLine_empty he]
        exact ⟨_, u ++ [10], by simp, rfl, ⟨rfl, rfl, rfl⟩, rfl, rfl⟩
      | false =>
        simp only [Bool.false_eq_true, if_false, onHeader, took_header]
        have hl := addTrailerLine_any u m.header he
        cases hf : fieldLine m.header.trailers u with
        | error e =>
          rw [hf] at hl
          simp only at hl
          simp only [hl]
          exact ⟨fieldLine_error hf, _, rfl⟩
        | ok hs' =>
          rw [hf] at hl
          simp only at hl
          simp only [hl]
          have := ih r.length (by rw [← hlen]; simp; omega) r rfl (setR cr { took m (u ++ [10]) with header := { m.header with trailers := hs' } }) rfl hmode rfl
          simp only [setR_header] at this
          cases hx : fieldsIn hs' r with
          | refused e => rw [hx] at this; exact this
          | going ts =>
            rw [hx] at this
            obtain ⟨m', a, b, c, d, e⟩ := this
            exact ⟨m', a, ⟨b.header, by rw [b.buffer]; simp [took], b.interim⟩, c, d, e⟩
          | ended ts rest =>
            rw [hx] at this
            obtain ⟨m', used, a, b, c, d, e⟩ := this
            exact ⟨m', u ++ 10 :: used, by rw [a]; simp, b, ⟨c.header, by rw [c.buffer]; simp [took], c.interim⟩, d, e⟩

/-- the pieces begin within the buffer -/
def Low (m : Msg) : Prop := ∀ x ∈ m.bodyChunks, x.1 ≤ m.buffer.length

theorem Within.low {m : Msg} (h : Within m.buffer m.bodyChunks) : Low m := by
  intro x hx; have := h x hx; omega

theorem size_lf (u : Bytes) : chunkSize (u ++ [10]) = pyInt 16 (u.takeWhile (· ≠ 59)) := by
  rw [chunkSize_eq]
  rcases sep_cases 59 u with h | ⟨a, b, h, rfl⟩
  · rw [takeWhile_free h, takeWhile_free (by simp [h]), pyInt_ws_right 16 u [10] (by decide)]
  · rw [List.append_assoc, List.cons_append, takeWhile_sep a _ h, takeWhile_sep a _ h]

theorem chunksIn_none (first : Bool) (got : Bytes) {t : Bytes} (h : 10 ∉ t) : chunksIn first got t = .going got [] := by
  rw [chunksIn]
  split
  · rfl
  · rename_i l r h2
    rw [cutAt_none h] at h2; cases h2

theorem chunksIn_line (first : Bool) (got u rest : Bytes) (h : 10 ∉ u) : chunksIn first got (u ++ 10 :: rest) =
    match pyInt 16 (u.takeWhile (· ≠ 59)) with
    | .none => if first then .none else .refused .valueError
    | some n =>
      if n = 0 then
        match fieldsIn [] rest with
        | .refused e => .refused e
        | .going ts => .going got ts
        | .ended ts r => .ended got ts r
      else if n < 0 then (if rest = [] then .going got [] else .forever)
      else if rest.length < n.toNat then .going (got ++ rest) []
      else match cutAt 10 (rest.drop n.toNat) with
        | .none => .going (got ++ rest.take n.toNat) []
        | some (_, r) => chunksIn false (got ++ rest.take n.toNat) r := by
  rw [chunksIn]
  split
  · rename_i h2; rw [cutAt_some u rest h] at h2; cases h2
  · rename_i l r' h2
    rw [cutAt_some u rest h] at h2; cases h2
    cases pyInt 16 (u.takeWhile (· ≠ 59)) with
    | none => rfl
    | some n =>
      simp only
      split
      · rfl
      · split
        · rfl
        · split
          · rfl
          · split
            · rename_i h3; rw [h3]
            · rename_i h3; rw [h3]

/-- only the first line can be no size line -/
theorem chunksIn_late (n : Nat) (t : Bytes) (hn : t.length = n) (got : Bytes) : chunksIn false got t ≠ .none := by
  induction n using Nat.strongRecOn generalizing t got with
  | _ n ih =>
    rcases line_cases t with h | ⟨u, rest, h, rfl⟩
    · rw [chunksIn_none _ _ h]; simp
    · rw [chunksIn_line _ _ u rest h]
      cases pyInt 16 (u.takeWhile (· ≠ 59)) with
      | none => simp
      | some k =>
        simp only
        split
        · cases fieldsIn [] rest <;> simp
        · split
          · split <;> simp
          · split
            · simp
            · cases hc : cutAt 10 (rest.drop k.toNat) with
              | none => simp
              | some p =>
                have := cutAt_less hc
                rw [List.length_drop] at this
                exact ih p.2.length (by rw [← hn]; simp; omega) p.2 rfl _

theorem slice_empty (b : Bytes) (n : Int) (hn : n ≤ 0) : slice b b.length ((b.length : Int) + n) = [] := by
  unfold slice sliceTo
  split <;> simp <;> omega

theorem slice_over (a t : Bytes) {n : Int} (h : (t.length : Int) ≤ n) : slice (a ++ t) a.length ((a.length : Int) + n) = t := by
  unfold slice sliceTo
  rw [if_pos (by omega), List.take_of_length_le (by simp; omega)]
  simp

theorem chunk_any (n : Nat) (text : Bytes) (hlen : text.length = n) (cr : ChunkSt) (m : Msg) (hb : Between cr m) (hx : Ctx cr m) (htr : m.header.trailers = []) :
    match chunksIn cr.start m.getBody text with
    | .refused e => e ≠ .brokenChunks ∧ ∃ m', CF cr text m = .raise e m'
    | .forever => CF cr text m = .hang
    | .none => ∃ m', CF cr text m = .raise .brokenChunks m' ∧ m'.buffer = m.buffer ∧ m'.offset = m.buffer.length ∧ m'.header = m.header ∧ m'.mode = .body ∧
        m'.interim = m.interim
    | .going d ts => ∃ m', CF cr text m = .ok [] m' ∧ Read m m' text ts ∧ m'.mode = .body ∧ m'.reader ≠ none ∧ m'.getBody = d ∧ Low m'
    | .ended d ts rest => ∃ m' used, text = used ++ rest ∧ CF cr text m = .ok rest m' ∧ Read m m' used ts ∧ m'.mode = .end_ ∧ m'.getBody = d ∧ Within m'.buffer m'.bodyChunks := by
  induction n using Nat.strongRecOn generalizing text cr m with
  | _ n ih =>
    have keep : ({ m.header with trailers := [] } : Hdr) = m.header := by rw [← htr]
    rcases line_cases text with h | ⟨u, r, h, rfl⟩
    · rw [chunksIn_none _ _ h]
      by_cases ht : text = []
      · subst ht
        rw [CF_nil]
        exact ⟨m, rfl, ⟨keep.symm, by simp, rfl⟩, hx.mode, by rw [hx.reader]; simp, rfl, hb.within.low⟩
      · rw [CF_start_none hx.inv hb.mode ht h]
        refine ⟨_, rfl, ⟨keep.symm, rfl, rfl⟩, hx.mode, by simp, ?_, ?_⟩
        · show pick (m.buffer ++ text) m.bodyChunks = _
          rw [pick_stable hb.within]; rfl
        · intro x hx2
          have := hb.within.append text x hx2
          show x.1 ≤ (m.buffer ++ text).length
          omega
    · rw [chunksIn_line _ _ u r h, CF_start_line hx.inv hb.mode r h, hb.flush.pend, List.nil_append, size_lf]
      cases hs : pyInt 16 (u.takeWhile (· ≠ 59)) with
      | none =>
        simp only
        cases hst : cr.start with
        | true => exact ⟨_, rfl, rfl, rfl, rfl, hx.mode, rfl⟩
        | false => exact ⟨by simp, _, rfl⟩
      | some k =>
        simp only
        -- the message behind the size line
        have hbuf : (m.buffer ++ (u ++ [10])).length = m.buffer.length + u.length + 1 := by simp; omega
        have hlow : ∀ (t : Bytes) (k : Int) x, x ∈ m.bodyChunks ++ [((m.buffer ++ (u ++ [10])).length, k)] → x.1 ≤ (m.buffer ++ (u ++ [10]) ++ t).length := by
          intro t k x hx2
          rcases List.mem_append.1 hx2 with hx2 | hx2
          · have := hb.within.append (u ++ [10] ++ t) x hx2
            simp only [List.append_assoc] at this ⊢
            omega
          · simp at hx2; subst hx2; simp
        have hbody : ∀ (t : Bytes) (k : Int), pick (m.buffer ++ (u ++ [10]) ++ t) (m.bodyChunks ++ [((m.buffer ++ (u ++ [10])).length, k)]) =
            m.getBody ++ slice (m.buffer ++ (u ++ [10]) ++ t) (m.buffer ++ (u ++ [10])).length (((m.buffer ++ (u ++ [10])).length : Int) + k) := by
          intro t k
          rw [pick_append, List.append_assoc m.buffer, pick_stable hb.within, ← getBody_pick]
          simp [pick]
        by_cases h0 : k = 0
        · subst h0
          rw [if_pos rfl]
          have := trailer_any r.length r rfl (afterSize 0) (setR (afterSize 0) (addChunk (took m (u ++ [10])) 0)) rfl rfl hx.mode rfl
          simp only [setR_header, addChunk_header, took_header, htr] at this
          have hgb : ∀ t, pick (m.buffer ++ (u ++ [10]) ++ t) (m.bodyChunks ++ [((m.buffer ++ (u ++ [10])).length, 0)]) = m.getBody := by
            intro t
            rw [hbody]
            have : slice (m.buffer ++ (u ++ [10]) ++ t) (m.buffer ++ (u ++ [10])).length (((m.buffer ++ (u ++ [10])).length : Int) + 0) = [] := by
              unfold slice sliceTo
              rw [if_pos (by omega)]
              simp
              omega
            rw [this, List.append_nil]
          have hwin : ∀ t, Within (m.buffer ++ (u ++ [10]) ++ t) (m.bodyChunks ++ [((m.buffer ++ (u ++ [10])).length, 0)]) := by
            intro t x hx2
            rcases List.mem_append.1 hx2 with hx2 | hx2
            · have := hb.within.append (u ++ [10] ++ t) x hx2
              simp only [List.append_assoc] at this ⊢
              exact this
            · simp at hx2; subst hx2; simp; omega
          cases hf : fieldsIn [] r with
          | refused e => rw [hf] at this; exact this
          | going ts =>
            rw [hf] at this
            obtain ⟨m', a, b, c, d, e⟩ := this
            refine ⟨m', a, ⟨b.header, by rw [b.buffer]; simp [took], b.interim⟩, c, by rw [d]; simp, ?_, ?_⟩
            · rw [getBody_pick, b.buffer, e]; exact hgb r
            · intro x hx2
              rw [e] at hx2
              rw [b.buffer]
              exact hlow r 0 x hx2
          | ended ts rest =>
            rw [hf] at this
            obtain ⟨m', used, a, b, c, d, e⟩ := this
            refine ⟨m', u ++ 10 :: used, by rw [a]; simp, b, ⟨c.header, by rw [c.buffer]; simp [took], c.interim⟩, d, ?_, ?_⟩
            · rw [getBody_pick, c.buffer, e]; exact hgb used
            · rw [c.buffer, e]; exact hwin used
        · rw [if_neg h0]
          have has : afterSize k = { mode := .chunk, start := false, remaining := k } := by unfold afterSize; rw [if_neg h0]
          rw [has]
          by_cases hneg : k < 0
          · rw [if_pos hneg]
            by_cases hr : r = []
            · subst hr
              rw [if_pos rfl, CF_nil]
              refine ⟨_, rfl, ⟨keep.symm, rfl, rfl⟩, hx.mode, by simp, ?_, ?_⟩
              · have := hbody [] k
                rw [List.append_nil, slice_empty _ _ (by omega), List.append_nil] at this
                exact this
              · intro x hx2
                have := hlow [] k x hx2
                rw [List.append_nil] at this
                exact this
            · rw [if_neg hr, CF_neg rfl hr hneg]
          · rw [if_neg hneg]
            by_cases hl : r.length < k.toNat
            · rw [if_pos hl]
              have hfin : pick (m.buffer ++ (u ++ [10]) ++ r) (m.bodyChunks ++ [((m.buffer ++ (u ++ [10])).length, k)]) = m.getBody ++ r := by
                rw [hbody, slice_over _ _ (by omega)]
              by_cases hr : r = []
              · subst hr
                rw [CF_nil]
                refine ⟨_, rfl, ⟨keep.symm, rfl, rfl⟩, hx.mode, by simp, ?_, ?_⟩
                · rw [List.append_nil] at hfin; exact hfin
                · intro x hx2
                  have := hlow [] k x hx2
                  rw [List.append_nil] at this
                  exact this
              · rw [CF_part rfl hr (by simp only; omega)]
                refine ⟨_, rfl, ⟨keep.symm, by simp [took], rfl⟩, hx.mode, by simp, hfin, ?_⟩
                exact fun x hx2 => hlow r k x hx2
            · rw [if_neg hl]
              obtain ⟨t1, t2, rfl, h1, h2⟩ := length_split r k (by omega) (by omega)
              subst h1
              have hn : (t1.length : Int).toNat = t1.length := by omega
              rw [CF_full rfl t1 t2 rfl h2, hn, List.drop_left, List.take_left]
              have hw : Within (m.buffer ++ (u ++ [10]) ++ t1) (m.bodyChunks ++ [((m.buffer ++ (u ++ [10])).length, (t1.length : Int))]) := by
                intro x hx2
                rcases List.mem_append.1 hx2 with hx2 | hx2
                · have := hb.within.append (u ++ [10] ++ t1) x hx2
                  simp only [List.append_assoc] at this ⊢
                  exact this
                · simp at hx2; subst hx2; simp; omega
              have hgot : pick (m.buffer ++ (u ++ [10]) ++ t1) (m.bodyChunks ++ [((m.buffer ++ (u ++ [10])).length, (t1.length : Int))]) = m.getBody ++ t1 := by
                rw [hbody, slice_over _ _ (Int.le_refl _)]
              have hgot2 : ∀ t, pick (m.buffer ++ (u ++ [10]) ++ t1 ++ t) (m.bodyChunks ++ [((m.buffer ++ (u ++ [10])).length, (t1.length : Int))]) = m.getBody ++ t1 := by
                intro t; rw [pick_stable hw, hgot]
              rcases line_cases t2 with h3 | ⟨v, r2, h3, rfl⟩
              · rw [cutAt_none h3]
                simp only
                by_cases hr : t2 = []
                · subst hr
                  rw [CF_nil]
                  refine ⟨_, rfl, ⟨keep.symm, by simp [took], rfl⟩, hx.mode, by simp, hgot, ?_⟩
                  exact Within.low (m := setR _ (took (setR _ (addChunk (took m (u ++ [10])) _)) t1)) hw
                · rw [CF_eoc_none (by exact (LineInv.took _ _).congr rfl rfl) rfl rfl hr h3]
                  refine ⟨_, rfl, ⟨keep.symm, by simp [took, ext], rfl⟩, hx.mode, by simp, hgot2 t2, ?_⟩
                  exact Within.low (m := setR _ (ext (setR _ (took (setR _ (addChunk (took m (u ++ [10])) _)) t1)) t2)) (hw.append t2)
              · rw [cutAt_some v r2 h3, CF_eoc_line (by exact (LineInv.took _ _).congr rfl rfl) rfl rfl r2 h3]
                simp only
                generalize hm1 : setR _ (took (setR _ (took (setR _ (addChunk (took m (u ++ [10])) _)) t1)) (v ++ [10])) = m1
                have e1 : m1.buffer = m.buffer ++ (u ++ [10]) ++ t1 ++ (v ++ [10]) := by rw [← hm1]; rfl
                have e2 : m1.bodyChunks = m.bodyChunks ++ [((m.buffer ++ (u ++ [10])).length, (t1.length : Int))] := by rw [← hm1]; rfl
                have e3 : m1.header = m.header := by rw [← hm1]; rfl
                have e4 : m1.interim = m.interim := by rw [← hm1]; rfl
                have e5 : m1.getBody = m.getBody ++ t1 := by rw [getBody_pick, e1, e2]; exact hgot2 _
                have hb1 : Between { mode := .start, start := false, remaining := 0 } m1 := ⟨rfl, by rw [← hm1]; rfl, by rw [e1, e2]; exact hw.append _⟩
                have hx1 : Ctx { mode := .start, start := false, remaining := 0 } m1 :=
                  ⟨hb1.flush.inv, by rw [← hm1]; exact hx.mode, by rw [← hm1]; rfl, by simp, by simp⟩
                have := ih r2.length (by rw [← hlen]; simp; omega) r2 rfl _ m1 hb1 hx1 (by rw [e3]; exact htr)
                simp only [e5] at this
                cases hc : chunksIn false (m.getBody ++ t1) r2 with
                | refused e => rw [hc] at this; exact this
                | forever => rw [hc] at this; exact this
                | none =>
                  exact absurd hc (chunksIn_late _ _ rfl _)
                | going d ts =>
                  rw [hc] at this
                  obtain ⟨m', a, b, c, d', e, f⟩ := this
                  exact ⟨m', a, ⟨by rw [b.header, e3], by rw [b.buffer, e1]; simp, by rw [b.interim, e4]⟩, c, d', e, f⟩
                | ended d ts rest =>
                  rw [hc] at this
                  obtain ⟨m', used, a, b, c, d', e⟩ := this
                  exact ⟨m', u ++ 10 :: (t1 ++ (v ++ 10 :: used)), by rw [a]; simp, b, ⟨by rw [c.header, e3], by rw [c.buffer, e1]; simp, by rw [c.interim, e4]⟩, d', e⟩

/-- `close()` does not change the body -/
theorem close_body {m : Msg} (h : Low m) : m.close.getBody = m.getBody := by
  unfold Msg.close
  split
  · rfl
  · split
    · cases hl : m.bodyChunks.getLast? with
      | none => rfl
      | some p =>
        obtain ⟨o, l⟩ := p
        have hne : m.bodyChunks ≠ [] := by rintro e; rw [e] at hl; cases hl
        have hsp : m.bodyChunks = m.bodyChunks.dropLast ++ [(o, l)] := by
          have := List.dropLast_concat_getLast hne
          rw [List.getLast?_eq_some_getLast hne] at hl
          simp only [Option.some.injEq] at hl
          rw [hl] at this
          exact this.symm
        have ho : o ≤ m.buffer.length := h (o, l) (by rw [hsp]; simp)
        show pick m.buffer _ = pick m.buffer m.bodyChunks
        rw [hsp, List.dropLast_concat, pick_append, pick_append]
        congr 1
        simp only [pick, List.flatMap_cons, List.flatMap_nil, List.append_nil]
        by_cases hle : l ≤ (m.buffer.length : Int) - o
        · rw [Int.min_eq_left hle]
        · rw [Int.min_eq_right (by omega)]
          unfold slice sliceTo
          rw [if_pos (by omega), if_pos (by omega), List.take_of_length_le (by omega), List.take_of_length_le (by omega)]
    · rfl

theorem within_one (a t : Bytes) {o : Nat} (ho : o = a.length) : Within (a ++ t) [(o, (t.length : Int))] := by
  intro x hx; simp at hx; subst hx; simp; omega

theorem within_zero (a : Bytes) {o : Nat} (ho : o = a.length) : Within a [(o, 0)] := by
  intro x hx; simp at hx; subst hx; simp; omega

/-- the body is shown -/
structure BodyShown (M m' : Msg) (b : Body) : Prop where
  header : m'.header = { M.header with trailers := b.trailers }
  buffer : m'.buffer = M.buffer ++ b.message
  interim : m'.interim = M.interim
  body : m'.getBody = b.data
  complete : m'.complete = b.complete
  closes : m'.close.complete = b.closes
  closedBody : m'.close.getBody = b.data
  head : m'.headersComplete = true
  within : b.closes = true → b.left = [] → Within m'.buffer m'.bodyChunks
  closed : b.closes = true → m'.close = { m' with mode := .end_ }

theorem BodyShown.over {M m' : Msg} {b : Body} (h1 : m'.header = { M.header with trailers := b.trailers }) (h2 : m'.buffer = M.buffer ++ b.message)
    (h3 : m'.interim = M.interim) (h4 : m'.getBody = b.data) (h5 : m'.mode = .end_) (h6 : b.complete = true) (h7 : b.closes = true)
    (h8 : b.left = [] → Within m'.buffer m'.bodyChunks) : BodyShown M m' b := by
  have hc : m'.complete = true := by simp [Msg.complete, h5]
  exact ⟨h1, h2, h3, h4, by rw [hc, h6], by rw [close_id h5, hc, h7], by rw [close_id h5, h4], by simp [Msg.headersComplete, h5], fun _ => h8,
    fun _ => by rw [close_id h5, ← h5]⟩

theorem BodyShown.open_ {M m' : Msg} {b : Body} (h1 : m'.header = { M.header with trailers := b.trailers }) (h2 : m'.buffer = M.buffer ++ b.message)
    (h3 : m'.interim = M.interim) (h4 : m'.getBody = b.data) (h5 : m'.mode = .body) (hl : Low m') (h6 : b.complete = false) (hr : m'.reader ≠ none)
    (h7 : b.closes = false) : BodyShown M m' b := by
  refine ⟨h1, h2, h3, h4, by rw [h6]; simp [Msg.complete, h5], ?_, by rw [close_body hl, h4], by simp [Msg.headersComplete, h5],
    by rw [h7]; simp, by rw [h7]; simp⟩
  rw [h7]; exact close_open (by simp [h5]) (fun h => hr h.2)

theorem BodyShown.toEnd {M m' : Msg} {b : Body} (h1 : m'.header = { M.header with trailers := b.trailers }) (h2 : m'.buffer = M.buffer ++ b.message)
    (h3 : m'.interim = M.interim) (h4 : m'.getBody = b.data) (h5 : m'.mode = .body) (h6 : b.complete = false) (hr : m'.reader = none)
    (h7 : b.closes = true) (h8 : Within m'.buffer m'.bodyChunks) : BodyShown M m' b := by
  have hcl : m'.close = { m' with mode := .end_ } := by unfold Msg.close; rw [if_pos ⟨hr, h5⟩]
  refine ⟨h1, h2, h3, h4, by rw [h6]; simp [Msg.complete, h5], by rw [h7, hcl]; rfl, by rw [hcl]; exact h4, by simp [Msg.headersComplete, h5], fun _ _ => h8, fun _ => hcl⟩

/-- what the head says -/
structure HeadSays (k : Kind) (ig : List PyStr) (o : Opening) (hs : List Header) (fr : Framed) (h : Hdr) : Prop where
  headers : h.headers = hs
  framed : framed h.mode h.contentLength fr
  encoding : h.encoding = encodingOf ig hs
  trailers : h.trailers = []
  side : h.side = (freshHdr k ig).side
  response : ∀ v c p, o = .response v c p → h.code = c ∧ h.version = .bytes v ∧ h.phrase = .bytes p
  request : ∀ me t v, o = .request me t v → h.method = .bytes me ∧ h.version = .bytes v
  target : ∀ me t v, o = .request me t v → ∃ line, LineSays me t line ∧ FieldsSay hs line h.target
  flags : h.keepAlive = keepsAlive ig hs ∧ h.expectContinue = expects ig hs

variable {c : Codec} {k : Kind} {ig : List PyStr} {o : Opening} {hs : List Header} {fr : Framed} {h : Hdr}

theorem HeadSays.hasBody (hh : HeadSays k ig o hs fr h) (ho : Opening.Of o k) : h.hasBody = bodied k o fr := by
  cases k with
  | request =>
    have hs' : h.side = .request := hh.side
    have hfr := hh.framed
    unfold Hdr.hasBody bodied
    rw [hs']
    cases fr <;> simp only [Http.framed] at hfr
    · simp [hfr]
    · simp [hfr.1]
    · simp [hfr]
  | response rm =>
    have hs' : h.side = .response rm := hh.side
    obtain ⟨v, n, p, rfl⟩ := ho
    obtain ⟨hc, _, _⟩ := hh.response v n p rfl
    unfold Hdr.hasBody bodied
    rw [hs', hc]
    simp only [noBodyMethod, noBodyCode]
    by_cases h1 : rm = PyStr.bytes [72, 69, 65, 68] <;> by_cases h2 : n = 204 <;> by_cases h3 : n = 304 <;> by_cases h4 : 100 ≤ n <;> by_cases h5 : n < 200 <;>
      simp [h1, h2, h3, h4, h5] <;> omega

theorem zipField_eq : zipField ig hs = gzipEncoded (encodingOf ig hs) := by
  unfold zipField gzipEncoded
  cases encodingOf ig hs with
  | none => rfl
  | some e =>
    simp only [endsWith, gzipTag]
    cases e with
    | nil => rfl
    | cons x xs => simp

theorem sliceTo_upTo (t : Bytes) (n : Int) : sliceTo t n = upTo n t := rfl

theorem body_any (hfr : framing ig hs = some fr) (ho : Opening.Of o k) (M : Msg) (hh : HeadSays k ig o hs fr M.header) (hm : M.mode = .body) (hfl : Flush M)
    (hc : M.bodyChunks = []) (text : Bytes) :
    match bodyIn c k ig o hs text with
    | .refused e => ∃ m', afterHeaders c text M = .raise e m'
    | .forever => afterHeaders c text M = .hang
    | .found b => ∃ m', afterHeaders c text M = .ok b.left m' ∧ BodyShown M m' b ∧ (bodied k o fr = false → Flush m') := by
  have keep : M.header = { M.header with trailers := [] } := by rw [← hh.trailers]
  have hoff : M.offset = M.buffer.length := hfl
  rw [bodyIn, hfr]
  simp only
  have hbd := hh.hasBody ho
  cases hb : bodied k o fr with
  | false =>
    rw [hb] at hbd
    simp only [Bool.false_eq_true, if_false]
    rw [afterHeaders, setupBody_nobody c text hm hbd]
    simp only
    rw [stageBody_skip _ (by simp)]
    exact ⟨_, rfl, .over keep (by simp) rfl (by rw [getBody_pick, hc]; rfl) rfl rfl rfl (fun _ => by show Within M.buffer M.bodyChunks; rw [hc]; intro x hx; cases hx), fun _ => hfl⟩
  | true =>
    rw [hb] at hbd
    simp only [if_true]
    have wk : ∀ r : BodyIs, (match r with
      | .refused e => ∃ m', afterHeaders c text M = .raise e m'
      | .forever => afterHeaders c text M = .hang
      | .found b => ∃ m', afterHeaders c text M = .ok b.left m' ∧ BodyShown M m' b) →
      (match r with
      | .refused e => ∃ m', afterHeaders c text M = .raise e m'
      | .forever => afterHeaders c text M = .hang
      | .found b => ∃ m', afterHeaders c text M = .ok b.left m' ∧ BodyShown M m' b ∧ (true = false → Flush m')) := by
      intro r hr
      cases r with
      | refused e => exact hr
      | forever => exact hr
      | found b => obtain ⟨m', h1, h2⟩ := hr; exact ⟨m', h1, h2, fun h => absurd h (by simp)⟩
    apply wk
    clear wk
    cases fr with
    | close =>
      have hmode : M.header.mode = .close := hh.framed
      simp only
      rw [afterHeaders, setupBody_close c _ hm hbd (by rw [hmode]; simp) (by simp [Hdr.bodyLength, hmode])]
      simp only
      by_cases h0 : text = []
      · subst h0
        rw [stageBody_nil]
        exact ⟨_, rfl, .toEnd keep (by simp [toEnd]) rfl (by simp [getBody_pick, pick, toEnd, slice, sliceTo, hoff]) hm rfl rfl rfl (within_zero _ hoff)⟩
      · rw [stageBody_close h0 (by exact hm) rfl]
        refine ⟨_, rfl, .toEnd keep rfl rfl ?_ hm rfl rfl rfl (by rw [Int.zero_add]; exact within_one _ _ hoff)⟩
        simp only [getBody_pick, pick, List.flatMap_cons, List.flatMap_nil, List.append_nil, toEnd, hoff, Int.zero_add]
        exact slice_over _ _ (Int.le_refl _)
    | length n =>
      obtain ⟨h1, h2⟩ : M.header.mode = .length ∧ M.header.contentLength = some n := hh.framed
      have hbl : M.header.bodyLength = some n := by simp [Hdr.bodyLength, h1, h2]
      have hgz : gzipBody M.header = zipField ig hs := by rw [gzipBody_length hbl hbd, hh.encoding, zipField_eq]
      simp only
      cases hz : zipField ig hs with
      | false =>
        rw [hz] at hgz
        simp only [Bool.false_eq_true, if_false]
        rw [afterHeaders, setupBody_length c _ hm hbd hbl hgz]
        simp only
        by_cases hn0 : n = 0
        · subst hn0
          simp only [if_true]
          rw [stageBody_skip _ (by simp)]
          refine ⟨_, congrArg (Res.ok · _) (by simp [sized]), .over keep (by simp [sized]) rfl ?_ rfl (by simp [sized]) (by simp [sized]) (fun _ => within_zero _ hoff)⟩
          simp [getBody_pick, pick, sized, slice, sliceTo, hoff]
        · simp only [hn0, if_false]
          by_cases h0 : text = []
          · subst h0
            rw [stageBody_nil]
            refine ⟨_, congrArg (Res.ok · _) (by simp [sized]), .open_ keep (by simp [sized]) rfl ?_ hm ?_ (by simp [sized, hn0]) (by simp) (by simp [sized, hn0])⟩
            · simp only [getBody_pick, pick, List.flatMap_cons, List.flatMap_nil, List.append_nil, sized, List.take_nil, hoff]
              by_cases hn : n ≤ 0
              · exact slice_empty _ _ hn
              · have := slice_over M.buffer [] (n := n) (by simp; omega)
                rwa [List.append_nil] at this
            · intro x hx; simp at hx; subst hx; simp [hoff]
          · rw [stageBody_length h0 (by exact hm) rfl]
            by_cases hneg : n < 0
            · rw [lengthFeed_done (by omega)]
              have ht : n.toNat = 0 := by omega
              refine ⟨_, congrArg (Res.ok · _) (by simp [sized, ht]), .over keep (by simp [sized, ht]) rfl ?_ rfl ?_ ?_ ?_⟩
              · simp only [getBody_pick, pick, List.flatMap_cons, List.flatMap_nil, List.append_nil, sized, ht, List.take_zero, hoff]
                exact slice_empty _ _ (by omega)
              · simp only [sized, h0, hn0, ne_eq, not_false_eq_true, true_and, false_or, decide_eq_true_eq]; omega
              · simp only [sized, h0, hn0, ne_eq, not_false_eq_true, true_and, false_or, decide_eq_true_eq]; omega
              · intro e; simp only [sized, ht, List.drop_zero] at e; exact absurd e h0
            · by_cases hp : (text.length : Int) < n
              · rw [lengthFeed_part hp]
                have ht : text.take n.toNat = text := List.take_of_length_le (by omega)
                have ht2 : text.drop n.toNat = [] := List.drop_of_length_le (by omega)
                refine ⟨_, congrArg (Res.ok · _) (by simp [sized, ht2]), .open_ keep (by simp [sized, ht, took]) rfl ?_ hm ?_ ?_ (by simp) ?_⟩
                · simp only [getBody_pick, pick, List.flatMap_cons, List.flatMap_nil, List.append_nil, sized, ht, hoff, took]
                  exact slice_over _ _ (by omega)
                · intro x hx; simp [took] at hx; subst hx; simp [hoff, took]
                · simp only [sized, h0, hn0, ne_eq, not_false_eq_true, true_and, false_or, decide_eq_false_iff_not]; omega
                · simp only [sized, h0, hn0, ne_eq, not_false_eq_true, true_and, false_or, decide_eq_false_iff_not]; omega
              · obtain ⟨t1, t2, rfl, e1, e2⟩ := length_split text n (by omega) (by omega)
                subst e1
                have hn : (t1.length : Int).toNat = t1.length := by omega
                rw [lengthFeed_full t1 t2 e2]
                refine ⟨_, congrArg (Res.ok · _) (by simp [sized]), .over keep (by simp [sized, took]) rfl ?_ rfl ?_ ?_ (fun _ => within_one _ _ hoff)⟩
                · simp only [getBody_pick, pick, List.flatMap_cons, List.flatMap_nil, List.append_nil, sized, hn, List.take_left, hoff, took]
                  exact slice_over _ _ (Int.le_refl _)
                · simp only [sized, h0, ne_eq, not_false_eq_true, true_and, decide_eq_true_eq]; right; simp; omega
                · simp only [sized, h0, ne_eq, not_false_eq_true, true_and, decide_eq_true_eq]; right; simp; omega
      | true =>
        rw [hz] at hgz
        simp only [if_true]
        rw [afterHeaders, setupBody_gzip c _ hm hbl hgz, sliceTo_upTo, zipped]
        cases hd : c.dec (upTo n text) with
        | mk d err =>
        cases err with
        | none =>
          simp only
          cases d with
          | nil =>
            simp only [List.length_nil]
            rw [stageBody_skip _ (by simp)]
            refine ⟨_, rfl, .over keep (by simp) rfl ?_ rfl rfl rfl (fun _ => within_zero _ hoff)⟩
            simp [getBody_pick, pick, slice, sliceTo, hoff]
          | cons x xs =>
            simp only
            have hpos : ((x :: xs).length : Int) ≠ 0 := by simp; omega
            rw [if_neg hpos]
            by_cases h0 : text = []
            · subst h0
              rw [if_pos rfl, stageBody_nil]
              refine ⟨_, rfl, .open_ keep (by simp) rfl ?_ hm ?_ rfl (by simp) rfl⟩
              · simp only [getBody_pick, pick, List.flatMap_cons, List.flatMap_nil, List.append_nil, hoff]
                have := slice_over M.buffer [] (n := ((x :: xs).length : Int)) (by simp; omega)
                rwa [List.append_nil] at this
              · intro y hy; simp at hy; subst hy; simp [hoff]
            · rw [if_neg h0, stageBody_zip h0 (by exact hm) rfl]
              have hf := @feedLength_full { M with reader := some (.zip (some (x :: xs)) ((x :: xs).length : Int)), bodyChunks := [(M.offset, ((x :: xs).length : Int))], mode := M.mode } (x :: xs) []
              rw [List.append_nil] at hf
              simp only [zipFeed, _root_.Warc.M.bind_apply, show (0 : Int) < ((x :: xs).length : Int) from (by simp), if_true, Option.getD_some, hf, _root_.Warc.M.modify_apply, _root_.Warc.M.pure_apply]
              refine ⟨_, rfl, .over keep (by simp [took]) rfl ?_ (by simp) rfl rfl (fun _ => within_one _ _ hoff)⟩
              simp only [getBody_pick, pick, List.flatMap_cons, List.flatMap_nil, List.append_nil, hoff, took]
              exact slice_over _ _ (Int.le_refl _)
        | some e =>
          by_cases he : e = .osError
          · subst he
            simp only
            by_cases h0 : text = []
            · subst h0
              rw [stageBody_nil]
              refine ⟨_, rfl, .over keep (by simp) rfl ?_ (by simp) rfl rfl (fun _ => within_zero _ hoff)⟩
              simp [getBody_pick, pick, slice, sliceTo, hoff]
            · have hpos : (text.length : Int) ≠ 0 := by have := List.length_pos_iff.2 h0; omega
              simp only [hpos, if_false]
              rw [stageBody_zip h0 (by exact hm) rfl]
              have hf := @feedLength_full { M with reader := some (.zip none (text.length : Int)), bodyChunks := [(M.offset, (text.length : Int))], mode := M.mode } text []
              rw [List.append_nil] at hf
              simp only [zipFeed, _root_.Warc.M.bind_apply, show (0 : Int) < (text.length : Int) by omega, if_true, Option.getD_none, hf, _root_.Warc.M.modify_apply, _root_.Warc.M.pure_apply]
              refine ⟨_, rfl, .over keep (by simp [took]) rfl ?_ (by simp) rfl rfl (fun _ => within_one _ _ hoff)⟩
              simp only [getBody_pick, pick, List.flatMap_cons, List.flatMap_nil, List.append_nil, hoff, took]
              exact slice_over _ _ (Int.le_refl _)
          · cases d <;> cases e <;> first | exact absurd rfl he | exact ⟨_, rfl⟩
    | chunked =>
      have hmode : M.header.mode = .chunked := hh.framed
      simp only
      rw [afterHeaders, setupBody_chunked c _ hm hbd hmode]
      simp only
      have hx : Ctx {} { M with reader := some (.chunk {}) } := ⟨hfl.inv.congr rfl rfl, hm, rfl, by simp, by simp⟩
      have hbt : Between {} { M with reader := some (.chunk {}) } := ⟨rfl, hfl, by intro x hx; rw [show ({ M with reader := some (.chunk {}) } : Msg).bodyChunks = M.bodyChunks from rfl, hc] at hx; cases hx⟩
      have hgb : ({ M with reader := some (.chunk {}) } : Msg).getBody = [] := by
        rw [getBody_pick]; show pick _ M.bodyChunks = []; rw [hc]; rfl
      have := chunk_any text.length text rfl {} { M with reader := some (.chunk {}) } hbt hx hh.trailers
      rw [hgb] at this
      rw [chunked]
      by_cases h0 : text = []
      · subst h0
        rw [stageBody_nil]
        rw [show chunksIn true [] [] = .going [] [] from chunksIn_none _ _ (by simp)]
        exact ⟨_, rfl, .open_ keep (by simp) rfl hgb hm hbt.within.low rfl (by simp) rfl⟩
      · rw [stageBody_chunk h0 hx]
        cases hch : chunksIn true [] text with
        | refused e =>
          rw [show ({} : ChunkSt).start = true from rfl, hch] at this
          obtain ⟨hne, m', hm'⟩ := this
          rw [hm']
          cases e <;> first | exact absurd rfl hne | exact ⟨_, rfl⟩
        | forever =>
          rw [show ({} : ChunkSt).start = true from rfl, hch] at this
          rw [this]
        | none =>
          rw [show ({} : ChunkSt).start = true from rfl, hch] at this
          obtain ⟨m', e1, e2, e3, e4, e5, e6⟩ := this
          rw [e1]
          simp only [closeFeed]
          refine ⟨_, rfl, .toEnd (by simp only [toEnd, e4]; exact keep) (by simp only [toEnd, e2]) e6 ?_ e5 rfl rfl rfl (by simp only [e2, e3, Int.zero_add]; exact within_one _ _ rfl)⟩
          simp only [getBody_pick, pick, List.flatMap_cons, List.flatMap_nil, List.append_nil, toEnd, e2, e3, Int.zero_add]
          exact slice_over _ _ (Int.le_refl _)
        | going d ts =>
          rw [show ({} : ChunkSt).start = true from rfl, hch] at this
          obtain ⟨m', e1, e2, e3, e4, e5, e6⟩ := this
          rw [e1]
          exact ⟨m', rfl, .open_ e2.header e2.buffer e2.interim e5 e3 e6 rfl e4 rfl⟩
        | ended d ts rest =>
          rw [show ({} : ChunkSt).start = true from rfl, hch] at this
          obtain ⟨m', used, e0, e1, e2, e3, e4, e5⟩ := this
          rw [e1]
          refine ⟨m', rfl, .over e2.header ?_ e2.interim e4 e3 rfl rfl (fun _ => e5)⟩
          rw [e2.buffer, e0]
          simp

end Warc.Http
