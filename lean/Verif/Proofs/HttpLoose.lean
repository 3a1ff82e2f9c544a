import Verif.Proofs.HttpParsed
import Verif.Proofs.HttpUrl
import Verif.Proofs.Http09
import Verif.Spec.HttpLoose
/-
  Other ways to write the same HTTP message.
-/
set_option linter.all false
namespace Warc.Http
open Rx

theorem Blanks.ws {w : Bytes} (h : Blanks w) : ∀ c ∈ w, isWs c = true := by
  intro c hc
  rcases h c hc with rfl | rfl | rfl | rfl | rfl <;> decide

theorem Blanks.line {w : Bytes} (h : Blanks w) : 10 ∉ w := by
  intro hc
  rcases h 10 hc with h | h | h | h | h <;> exact absurd h (by decide)

theorem strip_ws_left (w s : Bytes) (h : ∀ c ∈ w, isWs c = true) : strip (w ++ s) = strip s := by
  induction w with
  | nil => rfl
  | cons c w ih =>
    rw [List.cons_append, strip_ws_cons (h c (by simp)), ih (fun d hd => h d (by simp [hd]))]

/-! ### continuation lines -/

theorem isFold_line (l : Byte × Bytes) (hl : l.1 = 32 ∨ l.1 = 9) : isFold (l.1 :: l.2 ++ [10]) = true := by
  unfold isFold startsWith
  rcases hl with h | h <;> rw [h] <;> simp [List.isPrefixOf]

theorem strip_fold (l : Byte × Bytes) (hl : l.1 = 32 ∨ l.1 = 9) : strip (l.1 :: l.2 ++ [10]) = strip l.2 := by
  rw [List.cons_append, strip_ws_cons (by rcases hl with h | h <;> rw [h] <;> decide), strip_ws_right l.2 [10] (by decide)]

theorem splitOnce_more {sep : Byte} {v a b : Bytes} (w : Bytes) (h : splitOnce sep v = some (a, b)) :
    splitOnce sep (v ++ w) = some (a, b ++ w) := by
  induction v generalizing a with
  | nil => simp [splitOnce] at h
  | cons c v ih =>
    simp only [splitOnce, List.cons_append] at h ⊢
    by_cases hc : c = sep
    · simp only [hc, beq_self_eq_true, if_true, Option.some.injEq, Prod.mk.injEq] at h ⊢
      exact ⟨h.1, by rw [h.2]⟩
    · have hc' : (c == sep) = false := by simpa using hc
      simp only [hc', Bool.false_eq_true, if_false] at h ⊢
      cases hs : splitOnce sep v with
      | none => rw [hs] at h; simp at h
      | some ab =>
        obtain ⟨a', b'⟩ := ab
        rw [hs] at h
        simp only [Option.map_some, Option.some.injEq, Prod.mk.injEq] at h
        rw [ih (a := a') (by rw [hs, ← h.2])]
        simp [← h.1]

theorem hostStep_again (hp : PyStr × Port) (n v w : Bytes) : hostStep (hostStep hp (n, v)) (n, v ++ w) = hostStep hp (n, v ++ w) := by
  unfold hostStep
  by_cases hn : lower n = b! "host"
  · simp only [hn, if_true]
    cases h : splitOnce 58 v with
    | some ab =>
      obtain ⟨a, b⟩ := ab
      rw [splitOnce_more w h]
    | none => cases splitOnce 58 (v ++ w) <;> rfl
  · simp only [hn, if_false]

theorem addHeaderLine_fold (l : Byte × Bytes) (hl : l.1 = 32 ∨ l.1 = 9) (h : Hdr) (hs : List Header) (n v : Bytes) (hh : h.headers = hs ++ [(n, v)]) :
    ∃ h', addHeaderLine (l.1 :: l.2 ++ [10]) h = .ok () h' ∧ h'.headers = hs ++ [(n, v ++ [32] ++ strip l.2)] ∧ Kept h' h ∧
      (h.side = .request → (h'.host, h'.port) = hostStep (h.host, h.port) (n, v ++ [32] ++ strip l.2)) := by
  obtain ⟨h', h1, h2, h3, h4⟩ := addHeader_kept n (v ++ [32] ++ strip l.2) { h with headers := h.headers.dropLast }
  refine ⟨h', ?_, ?_, ?_, h4⟩
  · simp only [addHeaderLine, M.bind_apply, M.get_apply, isFold_line l hl, if_true]
    have : h.headers.getLast? = some (n, v) := by rw [hh]; simp
    simp only [this, M.bind_apply, M.modify_apply, strip_fold l hl]
    exact h1
  · rw [h2]; simp [hh]
  · exact h3.trans ⟨rfl, rfl, rfl, rfl, rfl, rfl, rfl, rfl, rfl, rfl, rfl, rfl, rfl, rfl⟩

def foldsText (ls : List (Byte × Bytes)) : Bytes := ls.flatMap fun l => l.1 :: l.2 ++ [10]

def joined (v : Bytes) (ls : List (Byte × Bytes)) : Bytes := ls.foldl (fun v l => v ++ [32] ++ strip l.2) v

theorem not_newline_fold (l : Byte × Bytes) (hl : l.1 = 32 ∨ l.1 = 9) : isNewline (l.1 :: l.2 ++ [10]) = false := by
  unfold isNewline
  rcases hl with h | h <;> rw [h] <;> simp

theorem FH_folds (ls : List (Byte × Bytes)) (hls : ∀ l ∈ ls, (l.1 = 32 ∨ l.1 = 9) ∧ 10 ∉ l.2) (hs : List Header) (n v : Bytes) (hp : PyStr × Port)
    (m : Msg) (hfl : Flush m) (hh : m.header.headers = hs ++ [(n, v)])
    (hho : m.header.side = .request → (m.header.host, m.header.port) = hostStep hp (n, v)) :
    ∃ h', (∀ rest, FH (foldsText ls ++ rest) m = FH rest { took m (foldsText ls) with header := h' }) ∧ h'.headers = hs ++ [(n, joined v ls)] ∧
      Kept h' m.header ∧ (m.header.side = .request → (h'.host, h'.port) = hostStep hp (n, joined v ls)) := by
  induction ls generalizing m v with
  | nil =>
    refine ⟨m.header, fun rest => ?_, hh, .refl _, hho⟩
    have : { took m (foldsText []) with header := m.header } = m := by
      simp only [took, foldsText, List.flatMap_nil, List.append_nil]
      rw [← hfl]
    rw [this]; rfl
  | cons l ls ih =>
    obtain ⟨hl, hl10⟩ := hls l (by simp)
    obtain ⟨h1, ha, hb, hc, hd⟩ := addHeaderLine_fold l hl m.header hs n v hh
    obtain ⟨h2, ha2, hb2, hc2, hd2⟩ := ih (fun l hl => hls l (by simp [hl])) (v ++ [32] ++ strip l.2) { took m (l.1 :: l.2 ++ [10]) with header := h1 } rfl hb
      (fun hr => by
        have hr' : m.header.side = .request := by rw [← hr]; exact hc.side.symm
        show (h1.host, h1.port) = _
        rw [hd hr', hho hr', List.append_assoc, hostStep_again])
    refine ⟨h2, fun rest => ?_, hb2, hc2.trans hc, fun hr => hd2 (by rw [← hr]; exact hc.side)⟩
    have h10 : 10 ∉ l.1 :: l.2 := by
      rw [List.mem_cons, not_or]
      exact ⟨by rcases hl with h | h <;> rw [h] <;> decide, hl10⟩
    have htext : foldsText (l :: ls) ++ rest = (l.1 :: l.2) ++ 10 :: (foldsText ls ++ rest) := by simp [foldsText]
    rw [htext, FH_line hfl.inv _ h10]
    simp only [hfl.pend, List.nil_append, onHeader, took_header, ha, not_newline_fold l hl, Bool.false_eq_true, if_false]
    rw [ha2]
    simp [took, foldsText]

/-! ### fields -/

/-- the first line of a field -/
def firstText (f : FieldLayout) : Bytes := f.name ++ f.gap ++ [58] ++ f.lead ++ f.value ++ f.tail ++ [10]

theorem firstText_line {f : FieldLayout} (h : f.Ok) :
    ∃ u, firstText f = u ++ [10] ∧ 10 ∉ u ∧ isFold (firstText f) = false ∧ isNewline (firstText f) = false ∧
      splitOnce 58 (firstText f) = some (f.name ++ f.gap, f.lead ++ f.value ++ f.tail ++ [10]) := by
  obtain ⟨n, g, l, v, t, ls⟩ := f
  obtain ⟨h1, h2, h3, h4, h5, h6, h7, h8, h9, _⟩ := h
  simp only at h1 h2 h3 h4 h5 h6 h7 h8 h9
  have hg58 : 58 ∉ g := by
    intro hc
    rcases h5 58 hc with h | h | h | h | h <;> exact absurd h (by decide)
  refine ⟨n ++ g ++ [58] ++ l ++ v ++ t, by simp [firstText], by simp [h2, h5.line, h6.line, h7, h9.line], ?_, ?_, ?_⟩
  · cases n with
    | nil => rw [firstText]; simp only [h4 rfl]; simp [isFold, startsWith, List.isPrefixOf]
    | cons c n =>
      have hw := strip_self_head h3 rfl
      simp only [firstText, isFold, startsWith, List.cons_append]
      have hc1 : ¬ (32 = c) := by rintro rfl; simp [isWs] at hw
      have hc2 : ¬ (9 = c) := by rintro rfl; simp [isWs] at hw
      simp [List.isPrefixOf, hc1, hc2]
  · cases hx : isNewline (firstText ⟨n, g, l, v, t, ls⟩) with
    | false => rfl
    | true =>
      exfalso
      have : 58 ∈ firstText ⟨n, g, l, v, t, ls⟩ := by simp [firstText]
      unfold isNewline at hx
      simp only [Bool.or_eq_true, beq_iff_eq] at hx
      rcases hx with hx | hx <;> rw [hx] at this <;> simp at this
  · have : firstText ⟨n, g, l, v, t, ls⟩ = (n ++ g) ++ 58 :: (l ++ v ++ t ++ [10]) := by simp [firstText]
    rw [this]
    exact splitOnce_append _ _ (by simp [h1, hg58])

theorem first_parts {f : FieldLayout} (h : f.Ok) : strip (f.name ++ f.gap) = f.name ∧ strip (f.lead ++ f.value ++ f.tail ++ [10]) = f.value := by
  refine ⟨by rw [strip_ws_right _ _ h.gap.ws, h.nameStrip], ?_⟩
  rw [List.append_assoc, strip_ws_right _ _ (by
    intro c hc
    rcases List.mem_append.1 hc with hc | hc
    · exact h.tail.ws c hc
    · simp at hc; subst hc; decide), strip_ws_left _ _ h.lead.ws, h.valueStrip]

theorem FH_layout (f : FieldLayout) (hf : f.Ok) (m : Msg) (hfl : Flush m) :
    ∃ h', (∀ rest, FH (f.text ++ rest) m = FH rest { took m f.text with header := h' }) ∧ h'.headers = m.header.headers ++ [f.field] ∧
      Kept h' m.header ∧ (m.header.side = .request → (h'.host, h'.port) = hostStep (m.header.host, m.header.port) f.field) := by
  obtain ⟨u, hu, hu10, h1, h2, h3⟩ := firstText_line hf
  obtain ⟨hn, hv⟩ := first_parts hf
  obtain ⟨ha, hha, hb, hc, hd⟩ := addHeader_kept f.name f.value m.header
  have hline : addHeaderLine (firstText f) m.header = .ok () ha := by
    simp only [addHeaderLine, M.bind_apply, M.get_apply, h1, h2, h3, Bool.false_eq_true, if_false, hn, hv]
    exact hha
  obtain ⟨h', g1, g2, g3, g4⟩ := FH_folds f.folds hf.folds m.header.headers f.name f.value (m.header.host, m.header.port)
    { took m (firstText f) with header := ha } rfl hb (fun hr => hd (by rw [← hr]; exact hc.side.symm))
  refine ⟨h', fun rest => ?_, g2, g3.trans hc, fun hr => g4 (by rw [← hr]; exact hc.side)⟩
  have htext : f.text ++ rest = u ++ 10 :: (foldsText f.folds ++ rest) := by
    have : f.text = firstText f ++ foldsText f.folds := rfl
    rw [this, hu]; simp
  rw [htext, FH_line hfl.inv _ hu10]
  simp only [hfl.pend, List.nil_append, ← hu, onHeader, took_header, hline, h2, Bool.false_eq_true, if_false]
  rw [g1]
  simp [took, foldsText, FieldLayout.text, firstText]

theorem FH_layouts (fs : List FieldLayout) (hok : ∀ f ∈ fs, f.Ok) (m : Msg) (hfl : Flush m) :
    ∃ h', (∀ rest, FH (fs.flatMap FieldLayout.text ++ rest) m = FH rest { took m (fs.flatMap FieldLayout.text) with header := h' }) ∧
      h'.headers = m.header.headers ++ fs.map FieldLayout.field ∧ Kept h' m.header ∧
      (m.header.side = .request → (h'.host, h'.port) = (fs.map FieldLayout.field).foldl hostStep (m.header.host, m.header.port)) := by
  induction fs generalizing m with
  | nil =>
    refine ⟨m.header, fun rest => ?_, by simp, .refl _, fun _ => rfl⟩
    have : { took m (([] : List FieldLayout).flatMap FieldLayout.text) with header := m.header } = m := by
      simp only [took, List.flatMap_nil, List.append_nil]
      rw [← hfl]
    rw [this]; rfl
  | cons f fs ih =>
    obtain ⟨h1, ha, hb, hc, hd⟩ := FH_layout f (hok f (by simp)) m hfl
    obtain ⟨h2, ha2, hb2, hc2, hd2⟩ := ih (fun g hg => hok g (by simp [hg])) { took m f.text with header := h1 } rfl
    refine ⟨h2, fun rest => ?_, ?_, hc2.trans hc, fun hr => ?_⟩
    · rw [List.flatMap_cons, List.append_assoc, ha, ha2]
      simp [took]
    · rw [hb2, hb]; simp
    · rw [hd2 (by rw [← hr]; exact hc.side), List.map_cons, List.foldl_cons, hd hr]

/-! ### trailers -/

theorem addTrailerLine_fold (l : Byte × Bytes) (hl : l.1 = 32 ∨ l.1 = 9) (h : Hdr) (hs : List Header) (n v : Bytes) (hh : h.trailers = hs ++ [(n, v)]) :
    addTrailerLine (l.1 :: l.2 ++ [10]) h = .ok () { h with trailers := hs ++ [(n, v ++ [32] ++ strip l.2)] } := by
  have : h.trailers.getLast? = some (n, v) := by rw [hh]; simp
  simp only [addTrailerLine, M.bind_apply, M.get_apply, isFold_line l hl, if_true, this, M.modify_apply, strip_fold l hl]
  simp [hh]

theorem CF_folds (ls : List (Byte × Bytes)) (hls : ∀ l ∈ ls, (l.1 = 32 ∨ l.1 = 9) ∧ 10 ∉ l.2) (hs : List Header) (n v : Bytes) {cr : ChunkSt}
    (hm : cr.mode = .trailer) (m : Msg) (hfl : Flush m) (hr : m.reader = some (.chunk cr)) (hh : m.header.trailers = hs ++ [(n, v)]) (rest : Bytes) :
    CF cr (foldsText ls ++ rest) m = CF cr rest { took m (foldsText ls) with header := { m.header with trailers := hs ++ [(n, joined v ls)] } } := by
  induction ls generalizing m v with
  | nil =>
    have : { took m (foldsText []) with header := { m.header with trailers := hs ++ [(n, joined v [])] } } = m := by
      simp only [took, foldsText, List.flatMap_nil, List.append_nil, joined, List.foldl_nil]
      rw [← hfl, ← hh]
    rw [this]; rfl
  | cons l ls ih =>
    obtain ⟨hl, hl10⟩ := hls l (by simp)
    have h10 : 10 ∉ l.1 :: l.2 := by
      rw [List.mem_cons, not_or]
      exact ⟨by rcases hl with h | h <;> rw [h] <;> decide, hl10⟩
    have htext : foldsText (l :: ls) ++ rest = (l.1 :: l.2) ++ 10 :: (foldsText ls ++ rest) := by simp [foldsText]
    rw [htext, CF_trailer_line hfl.inv hm _ h10]
    simp only [hfl.pend, List.nil_append, onHeader, took_header, addTrailerLine_fold l hl m.header hs n v hh, not_newline_fold l hl,
      Bool.false_eq_true, if_false]
    rw [ih (fun l hl => hls l (by simp [hl])) (v ++ [32] ++ strip l.2)
      (setR cr { took m (l.1 :: l.2 ++ [10]) with header := { m.header with trailers := hs ++ [(n, v ++ [32] ++ strip l.2)] } }) (by exact rfl) (by exact rfl) (by exact rfl)]
    simp [took, foldsText, setR, joined, hr]

theorem CF_layouts (fs : List FieldLayout) (hok : ∀ f ∈ fs, f.Ok) {cr : ChunkSt} (hm : cr.mode = .trailer) (m : Msg) (hfl : Flush m)
    (hr : m.reader = some (.chunk cr)) (rest : Bytes) :
    CF cr (fs.flatMap FieldLayout.text ++ rest) m =
      CF cr rest { took m (fs.flatMap FieldLayout.text) with header := { m.header with trailers := m.header.trailers ++ fs.map FieldLayout.field } } := by
  induction fs generalizing m with
  | nil =>
    have : { took m (([] : List FieldLayout).flatMap FieldLayout.text) with header := { m.header with trailers := m.header.trailers ++ ([] : List FieldLayout).map FieldLayout.field } } = m := by
      simp only [took, List.flatMap_nil, List.append_nil, List.map_nil]
      rw [← hfl]
    rw [this]; rfl
  | cons f fs ih =>
    have hf := hok f (by simp)
    obtain ⟨u, hu, hu10, h1, h2, h3⟩ := firstText_line hf
    obtain ⟨hn, hv⟩ := first_parts hf
    have hline : addTrailerLine (firstText f) m.header = .ok () { m.header with trailers := m.header.trailers ++ [(f.name, f.value)] } := by
      simp only [addTrailerLine, M.bind_apply, M.get_apply, h1, h2, h3, Bool.false_eq_true, if_false, hn, hv]
      rfl
    have htext : (f :: fs).flatMap FieldLayout.text ++ rest = u ++ 10 :: (foldsText f.folds ++ (fs.flatMap FieldLayout.text ++ rest)) := by
      have : f.text = firstText f ++ foldsText f.folds := rfl
      rw [List.flatMap_cons, this, hu]; simp
    rw [htext, CF_trailer_line hfl.inv hm _ hu10]
    simp only [hfl.pend, List.nil_append, ← hu, onHeader, took_header, hline, h2, Bool.false_eq_true, if_false]
    rw [CF_folds f.folds hf.folds m.header.trailers f.name f.value hm
      (setR cr { took m (firstText f) with header := { m.header with trailers := m.header.trailers ++ [(f.name, f.value)] } }) (by exact rfl) (by exact rfl) (by exact rfl), ih (fun g hg => hok g (by simp [hg])) _ (by exact rfl) (by exact rfl)]
    have hx : f.text = firstText f ++ foldsText f.folds := rfl
    simp [took, setR, hx, FieldLayout.field, joined, hr]

theorem blank_cases {b : Bytes} (h : b = CRLF ∨ b = [10]) : ∃ u, b = u ++ [10] ∧ 10 ∉ u ∧ isNewline b = true ∧ isFold b = false := by
  rcases h with rfl | rfl
  · exact ⟨[13], rfl, by decide, by decide, by decide⟩
  · exact ⟨[], rfl, by decide, by decide, by decide⟩

theorem layout_trails (fs : List FieldLayout) (hok : ∀ f ∈ fs, f.Ok) {b : Bytes} (hb : b = CRLF ∨ b = [10]) :
    Trails (fs.map FieldLayout.field) (fs.flatMap FieldLayout.text ++ b) := by
  intro cr m rest hm hfl
  obtain ⟨u, hu, hu10, hnl, hfo⟩ := blank_cases hb
  have last : ∀ m : Msg, Flush m → ∃ m', CF cr (b ++ rest) m = .ok rest m' ∧ m'.mode = .end_ ∧ m'.header = m.header ∧ m'.buffer = m.buffer ++ b ∧
      m'.bodyChunks = m.bodyChunks ∧ m'.interim = m.interim := by
    intro m hfl
    rw [show b ++ rest = u ++ 10 :: rest by rw [hu]; simp, CF_trailer_line hfl.inv hm rest hu10, hfl.pend]
    simp only [onHeader, took_header, List.nil_append, ← hu]
    have : addTrailerLine b m.header = .ok () m.header := by
      simp only [addTrailerLine, M.bind_apply, M.get_apply, hfo, hnl, Bool.false_eq_true, if_false, if_true]
      rfl
    rw [this]
    simp only [hnl, if_true]
    exact ⟨_, rfl, rfl, by simp [setR], by simp [took, setR], rfl, rfl⟩
  cases fs with
  | nil =>
    obtain ⟨m', h1, h2, h3, h4, h5, h6⟩ := last m hfl
    exact ⟨m', h1, h2, by rw [h3]; simp, h4, h5, h6⟩
  | cons f fs =>
    -- after the first line the reader is set
    have hf := hok f (by simp)
    obtain ⟨v, hv, hv10, g1, g2, g3⟩ := firstText_line hf
    obtain ⟨hn, hvv⟩ := first_parts hf
    have hline : addTrailerLine (firstText f) m.header = .ok () { m.header with trailers := m.header.trailers ++ [(f.name, f.value)] } := by
      simp only [addTrailerLine, M.bind_apply, M.get_apply, g1, g2, g3, Bool.false_eq_true, if_false, hn, hvv]
      rfl
    have htext : (f :: fs).flatMap FieldLayout.text ++ b ++ rest = v ++ 10 :: (foldsText f.folds ++ (fs.flatMap FieldLayout.text ++ (b ++ rest))) := by
      have : f.text = firstText f ++ foldsText f.folds := rfl
      rw [List.flatMap_cons, this, hv]; simp
    rw [htext, CF_trailer_line hfl.inv hm _ hv10]
    simp only [hfl.pend, List.nil_append, ← hv, onHeader, took_header, hline, g2, Bool.false_eq_true, if_false]
    rw [CF_folds f.folds hf.folds m.header.trailers f.name f.value hm
      (setR cr { took m (firstText f) with header := { m.header with trailers := m.header.trailers ++ [(f.name, f.value)] } }) (by exact rfl) (by exact rfl) (by exact rfl),
      CF_layouts fs (fun g hg => hok g (by simp [hg])) hm _ (by exact rfl) (by exact rfl)]
    refine Exists.imp (fun m' h => ⟨h.1, h.2.1, ?_, ?_, h.2.2.2.2.1, h.2.2.2.2.2⟩) (last _ ?_)
    · rw [h.2.2.1]; simp [took, setR, FieldLayout.field, joined]
    · rw [h.2.2.2.1]
      have hx : f.text = firstText f ++ foldsText f.folds := rfl
      simp [took, setR, hx]
    · exact rfl

/-! ### the start line and whole messages -/

theorem start_words (st : Start) : st.text = st.words ++ CRLF := by cases st <;> rfl

theorem start_line_free {st : Start} (h : st.Ok) : 10 ∉ st.words := by
  obtain ⟨u, h1, h2, _⟩ := Start.line h
  rw [start_words] at h1
  have : st.words ++ [13] = u := by
    have : (st.words ++ [13]) ++ [10] = u ++ [10] := by rw [← h1]; simp
    exact List.append_cancel_right this
  intro hc
  exact h2 (by rw [← this]; simp [hc])

theorem setStartLine_rstrip {a b : Bytes} (hr : rstrip a = rstrip b) : setStartLine a = setStartLine b := by
  funext hd
  simp only [setStartLine, M.bind_apply, M.get_apply]
  cases hd.side with
  | request => simp only [setRequestLine, hr]
  | response rm => simp only [setStatusLine, hr]

theorem not_newline_space {l : Bytes} (h : 32 ∈ l) : isNewline (l ++ [10]) = false := by
  cases hx : isNewline (l ++ [10]) with
  | false => rfl
  | true =>
    exfalso
    have : 32 ∈ l ++ [10] := by simp [h]
    unfold isNewline at hx
    simp only [Bool.or_eq_true, beq_iff_eq] at hx
    rcases hx with hx | hx <;> rw [hx] at this <;> simp at this

theorem Start.loose {st : Start} (h : st.Ok) {l : Bytes} (hl : st.writtenAs l) :
    10 ∉ l ∧ isNewline (l ++ [10]) = false ∧ setStartLine (l ++ [10]) = setStartLine st.text := by
  obtain ⟨w, hw, hl⟩ := hl
  have hw10 : ∀ c ∈ w ++ [10], isWs c = true := by
    intro c hc
    rcases List.mem_append.1 hc with hc | hc
    · exact hw.ws c hc
    · simp at hc; subst hc; decide
  have h10 := start_line_free h
  rcases hl with rfl | ⟨v, cd, rfl, rfl⟩
  · refine ⟨by simp [h10, hw.line], not_newline_space (by cases st <;> simp [Start.words]), setStartLine_rstrip ?_⟩
    rw [start_words, rstrip_ws _ CRLF (by decide), List.append_assoc, rstrip_ws _ (w ++ [10]) hw10]
  · have h10' : 10 ∉ v ++ [32] ++ decimal cd := by
      intro hc; exact h10 (by simp only [Start.words]; simp only [List.append_nil]; exact List.mem_append_left _ hc)
    refine ⟨by rw [List.mem_append, not_or]; exact ⟨h10', hw.line⟩, not_newline_space (by simp), setStartLine_rstrip ?_⟩
    rw [start_words, rstrip_ws _ CRLF (by decide), List.append_assoc, rstrip_ws _ (w ++ [10]) hw10]
    simp only [Start.words, List.append_nil]
    rw [rstrip_ws (v ++ [32] ++ decimal cd) [32] (by decide)]

theorem parse_layout (c : Codec) {k : Kind} {ig : List PyStr} {m : Msg} (hm : Fresh k ig m) (x : Message) (hx : x.Ok k ig) (w : Layout) (hw : w.Ok x)
    (after : Bytes) (ha : x.payload.ends = false → after = []) :
    ∃ m', feed c (w.text x ++ after) m = .ok after m' ∧ DoneAs k ig x (w.text x) m m' := by
  obtain ⟨fr, hfr, hpl⟩ := hx.framed
  obtain ⟨h1, h2, h3⟩ := Start.loose hx.start hw.startLine
  have := head_run c k ig x.start x.fields (w.payload x ++ after) m hm hx.fits hx.start w.startLine (w.fields.flatMap FieldLayout.text)
    w.blank h1 h2 h3 hw.blank (fun m' hm' => by
      obtain ⟨h', g1, g2, g3, g4⟩ := FH_layouts w.fields hw.fieldsOk m' hm'
      rw [hw.fields] at g2 g4
      exact ⟨h', g1 _, g2, g3, g4⟩)
  rw [hfr] at this
  obtain ⟨h, hh, hd⟩ := this
  have hH : w.startLine ++ [10] ++ w.fields.flatMap FieldLayout.text ++ w.blank = w.head := rfl
  rw [hH, ← List.append_assoc] at hh
  refine parse_from c hm x hx after _ (w.head) (w.payload x) ha hfr hpl hh hd ?_
  have ht := hw.trailers
  unfold Layout.payload
  cases hp : x.payload with
  | chunked b =>
    rw [hp] at ht
    refine ⟨_, rfl, ?_⟩
    rw [← show w.trailers.map FieldLayout.field = b.trailers from ht]
    exact layout_trails w.trailers hw.trailersOk hw.lastBlank
  | none => rfl
  | sized b => rfl
  | toEnd b => rfl

theorem kind_layout (c : Codec) (k : Kind) (ig : List PyStr) (x : Message) (hx : x.Ok k ig) (w : Layout) (hw : w.Ok x) (after : Bytes)
    (ha : x.payload.ends = false → after = []) (ts : List Bytes) (hts : ts.flatten = w.text x ++ after) :
    ∃ m', feedAll (k.feed c) ts (k.message ig) = .ok after m' ∧ DoneAs k ig x (w.text x) (k.message ig) m' := by
  obtain ⟨m', h1, h2⟩ := parse_layout c (Fresh.message k ig) x hx w hw after ha
  have hsp := h2.splittable hx after
  have hfeed : k.feed c (w.text x ++ after) (k.message ig) = .ok after m' ∧ k.Splittable (.ok after m') := by
    cases k with
    | request => exact ⟨h1, hsp⟩
    | response rm =>
      have hn := h2.not100 hx ⟨rm, rfl⟩
      refine ⟨?_, hsp, ?_⟩
      · show feedResponse c _ _ = _
        rw [feedResponse_eq, h1]
        have : is100 m' = false := by simp [is100, hn]
        simp [this]
      · intro l m2 he
        cases he
        rintro ⟨_, h⟩
        exact hn h
  rw [kind_pieces c k ig ts (by rw [hts, hfeed.1]; exact hfeed.2), hts, hfeed.1]
  exact ⟨m', rfl, h2⟩

/-! ### lines that are refused -/

theorem kind_raise (c : Codec) (k : Kind) (ig : List PyStr) (t : Bytes) {e : Exc} {m' : Msg} (h : feed c t (k.message ig) = .raise e m')
    (hm : m'.header.mode = .close) (ts : List Bytes) (hts : ts.flatten = t) :
    feedAll (k.feed c) ts (k.message ig) = .raise e m' := by
  have hg : gzipBody m'.header = false := by simp [gzipBody, hm]
  have hfeed : k.feed c t (k.message ig) = .raise e m' ∧ k.Splittable (.raise e m') := by
    cases k with
    | request => exact ⟨h, hg⟩
    | response rm =>
      refine ⟨?_, hg, fun l m hh => by cases hh⟩
      show feedResponse c _ _ = _
      rw [feedResponse_eq, h]
  rw [kind_pieces c k ig ts (by rw [hts, hfeed.1]; exact hfeed.2), hts, hfeed.1]

theorem line_refused (c : Codec) (k : Kind) (ig : List PyStr) (st : Start) (hf : st.fits k) (hst : st.Ok) {l : Bytes} (hl : st.writtenAs l)
    (fs : List FieldLayout) (hok : ∀ f ∈ fs, f.Ok) (u rest : Bytes) (hu : 10 ∉ u) {e : Exc}
    (hbad : ∀ h : Hdr, h.headers = fs.map FieldLayout.field → addHeaderLine (u ++ [10]) h = .raise e h) (ts : List Bytes)
    (hts : ts.flatten = l ++ [10] ++ fs.flatMap FieldLayout.text ++ u ++ 10 :: rest) :
    ∃ m', feedAll (k.feed c) ts (k.message ig) = .raise e m' := by
  obtain ⟨hl10, hnl, hsl⟩ := Start.loose hst hl
  have hm := Fresh.message k ig
  obtain ⟨h1, hh1, hb1⟩ := start_line k st hf hst ig
  have hon : onHeader (setStartLine (l ++ [10])) (took (k.message ig) (l ++ [10])) = .ok () { took (k.message ig) (l ++ [10]) with header := h1 } := by
    simp only [onHeader, took_header, hm.header, hsl, hh1]
  obtain ⟨h2, hh2, hb2, hk2, _⟩ := FH_layouts fs hok { took (k.message ig) (l ++ [10]) with header := h1, mode := .headers } rfl
  have hd0 : (freshHdr k ig).headers = [] := by cases k <;> rfl
  have hm0 : (freshHdr k ig).mode = .close := by cases k <;> rfl
  have hhs : h2.headers = fs.map FieldLayout.field := by rw [hb2]; simp [hb1.headers, hd0]
  have hmo : h2.mode = .close := by rw [hk2.mode]; simp [hb1.mode, hm0]
  have hfl : Flush { took { took (k.message ig) (l ++ [10]) with header := h1, mode := .headers } (fs.flatMap FieldLayout.text) with header := h2 } := rfl
  refine ⟨_, kind_raise c k ig _ (m' := took { took { took (k.message ig) (l ++ [10]) with header := h1, mode := .headers } (fs.flatMap FieldLayout.text) with header := h2 } (u ++ [10])) ?_ (by simpa using hmo) ts hts⟩
  rw [show l ++ [10] ++ fs.flatMap FieldLayout.text ++ u ++ 10 :: rest = l ++ 10 :: (fs.flatMap FieldLayout.text ++ (u ++ 10 :: rest)) by simp,
    feed_start_line c _ hm.flush.inv hm.mode hl10, hm.flush.pend, List.nil_append, hnl, hon]
  simp only [Bool.false_eq_true, if_false]
  rw [feed_headers c _ (by exact (LineInv.took (k.message ig) (l ++ [10])).congr rfl rfl) rfl, hh2, FH_line hfl.inv rest hu, hfl.pend]
  simp only [List.nil_append, onHeader, took_header, hbad h2 hhs]
  rfl

theorem splitOnce_free {sep : Byte} {s : Bytes} (h : splitOnce sep s = none) : sep ∉ s := by
  intro hc
  induction s with
  | nil => cases hc
  | cons c s ih =>
    simp only [splitOnce] at h
    by_cases hcs : c = sep
    · simp [hcs] at h
    · have : (c == sep) = false := by simpa using hcs
      simp only [this, Bool.false_eq_true, if_false, Option.map_eq_none_iff] at h
      rcases List.mem_cons.1 hc with e | hc
      · exact hcs e.symm
      · refine ih ?_ hc
        cases hx : splitOnce sep s with
        | none => rfl
        | some ab => rw [hx] at h; cases h

theorem splitMax_one {sep : Byte} (n : Nat) {s a : Bytes} (hn : s.length ≤ n) (h : splitMax sep n s = [a]) : sep ∉ s := by
  cases n with
  | zero =>
    have : s = [] := List.eq_nil_of_length_eq_zero (by omega)
    subst this; simp
  | succ n =>
    cases hs : splitOnce sep s with
    | none => exact splitOnce_free hs
    | some ab =>
      simp only [splitMax, hs, List.cons.injEq] at h
      exfalso
      have h2 := h.2
      cases n with
      | zero => simp [splitMax] at h2
      | succ n =>
        simp only [splitMax] at h2
        split at h2 <;> cases h2

theorem splitAll_pair {t a b : Bytes} (h : splitAll 58 t = [a, b]) : t.count 58 = 1 := by
  unfold splitAll at h
  cases hs : splitOnce 58 t with
  | none =>
    cases hl : t.length with
    | zero => rw [hl] at h; simp [splitMax] at h
    | succ n => rw [hl] at h; simp [splitMax, hs] at h
  | some de =>
    obtain ⟨d, e⟩ := de
    obtain ⟨rfl, hd⟩ := splitOnce_spec hs
    rw [show (d ++ 58 :: e).length = (d.length + e.length) + 1 by simp; omega] at h
    simp only [splitMax, hs, List.cons.injEq] at h
    have he := splitMax_one _ (by omega) h.2
    rw [List.count_append, List.count_cons, List.count_eq_zero.2 hd, List.count_eq_zero.2 he]
    simp

theorem start_refused (c : Codec) (k : Kind) (ig : List PyStr) (l rest : Bytes) (hl : 10 ∉ l) (hn : l ≠ [] ∧ l ≠ [13]) (hb : BadStart k l) (ts : List Bytes)
    (hts : ts.flatten = l ++ 10 :: rest) : ∃ m', feedAll (k.feed c) ts (k.message ig) = .raise .valueError m' := by
  have hm := Fresh.message k ig
  have hnl : isNewline (l ++ [10]) = false := by
    unfold isNewline
    simp only [Bool.or_eq_false_iff, beq_eq_false_iff_ne]
    constructor
    · intro h
      have : l ++ [10] = [13] ++ [10] := h
      exact hn.2 (List.append_cancel_right this)
    · intro h
      have : l ++ [10] = [] ++ [10] := h
      exact hn.1 (List.append_cancel_right this)
  have hr : rstrip (l ++ [10]) = rstrip l := rstrip_ws l [10] (by decide)
  have hbad : ∃ h', setStartLine (l ++ [10]) (freshHdr k ig) = .raise .valueError h' ∧ h'.mode = .close := by
    cases k with
    | request =>
      simp only [setStartLine, M.bind_apply, M.get_apply, freshHdr, Hdr.request, setRequestLine, hr]
      rcases hb with hb | ⟨m, t, v, h1, h2, h3, h4, h5⟩
      · cases hs : splitOnce 32 (rstrip l) with
        | none =>
          simp only [splitMax, hs]
          exact ⟨_, rfl, rfl⟩
        | some ab =>
          obtain ⟨a, b⟩ := ab
          have hab := splitOnce_spec hs
          have : splitOnce 32 b = none := splitOnce_none (by
            intro hc
            rw [hab.1] at hb
            have := List.count_pos_iff.2 hc
            simp [List.count_append, List.count_cons] at hb
            omega)
          simp only [splitMax, hs, this]
          exact ⟨_, rfl, rfl⟩
      · rw [h1, splitMax_three m t v h2 h3]
        simp only [M.bind_apply, M.modify_apply, h4, if_true]
        have : ∀ a b, splitAll 58 t ≠ [a, b] := fun a b hs => h5 (splitAll_pair hs)
        cases hs : splitAll 58 t with
        | nil => exact ⟨_, rfl, rfl⟩
        | cons a as =>
          cases as with
          | nil => exact ⟨_, rfl, rfl⟩
          | cons b bs =>
            cases bs with
            | nil => exact absurd hs (this a b)
            | cons d ds => exact ⟨_, rfl, rfl⟩
    | response rm =>
      simp only [setStartLine, M.bind_apply, M.get_apply, freshHdr, Hdr.response, setStatusLine, hr]
      cases hs : splitOnce 32 (rstrip l) with
      | none =>
        simp only [splitMax, hs]
        exact ⟨_, rfl, rfl⟩
      | some ab =>
        obtain ⟨a, b⟩ := ab
        have hab := splitOnce_spec hs
        have hp := hb a b hab.1 hab.2
        cases hs2 : splitOnce 32 b with
        | none =>
          have hb32 : 32 ∉ b := splitOnce_free hs2
          have : b.takeWhile (· ≠ 32) = b := takeWhile_all hb32
          rw [this] at hp
          simp only [splitMax, hs, hs2, M.bind_apply, M.modify_apply, hp]
          exact ⟨_, rfl, rfl⟩
        | some de =>
          obtain ⟨d, e⟩ := de
          have hde := splitOnce_spec hs2
          have : b.takeWhile (· ≠ 32) = d := by rw [hde.1]; exact takeWhile_ne hde.2
          rw [this] at hp
          simp only [splitMax, hs, hs2, M.bind_apply, M.modify_apply, hp]
          exact ⟨_, rfl, rfl⟩
  obtain ⟨h', hh', hmo⟩ := hbad
  refine ⟨_, kind_raise c k ig _ (m' := { took (k.message ig) (l ++ [10]) with header := h' }) ?_ hmo ts hts⟩
  rw [feed_start_line c _ hm.flush.inv hm.mode hl, hm.flush.pend, List.nil_append, hnl]
  simp only [Bool.false_eq_true, if_false, onHeader, took_header, hm.header, hh']

end Warc.Http
