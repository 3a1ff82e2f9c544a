import Verif.Proofs.HttpMsg
/-
  The decoded form of a message is itself a message, and decoding it changes nothing.
-/
set_option linter.all false
namespace Warc.Http
open Rx

theorem lower_decimal (n : Nat) : lower (decimal n) = decimal n := by
  unfold lower
  conv => rhs; rw [← List.map_id (decimal n)]
  apply List.map_congr_left
  intro c hc
  have hd := decimal_digits n c hc
  simp only [isDigit, Bool.and_eq_true, decide_eq_true_eq] at hd
  unfold lowerByte
  rw [if_neg]
  · rfl
  · simp only [Bool.and_eq_true, decide_eq_true_eq, not_and]
    intro h1
    have h2 := hd.2
    rw [UInt8.le_iff_toNat_le] at h1 h2
    simp at h1 h2
    omega

theorem lengthField_ok (n : Nat) : FieldOk (b! "Content-Length", decimal n) where
  nameColon := by show 58 ∉ (b! "Content-Length"); decide
  nameLine := by show 10 ∉ (b! "Content-Length"); decide
  nameStrip := by show strip (b! "Content-Length") = b! "Content-Length"; decide
  valueLine := decimal_noLF n
  valueStrip := strip_decimal n

theorem not_dropped_says {ig : List PyStr} {f : Header} (h : ¬ dropped f.1) : saysChunked ig f = false ∧ saysLength ig f = false := by
  simp only [dropped, List.mem_cons, not_or] at h
  obtain ⟨h1, h2, _⟩ := h
  constructor
  · simp [saysChunked, h2]
  · simp [saysLength, h1]

theorem plain_framing {ig : List PyStr} {F : List Header} (hF : ∀ f ∈ F, ¬ dropped f.1) (n : Nat) (hig : ignored ig (b! "Content-Length") = false) :
    framing ig (F ++ [(b! "Content-Length", decimal n)]) = some (.length n) := by
  have hsc : saysChunked ig (b! "Content-Length", decimal n) = false := by
    have : (lower (b! "Content-Length") == b! "transfer-encoding") = false := by decide
    simp [saysChunked, this]
  have hsl : saysLength ig (b! "Content-Length", decimal n) = true := by
    have : (lower (b! "Content-Length") == b! "content-length") = true := by decide
    simp [saysLength, this, hig]
  have hfind : (F ++ [(b! "Content-Length", decimal n)]).find? (fun f => saysChunked ig f || saysLength ig f) = some (b! "Content-Length", decimal n) := by
    rw [List.find?_append]
    have : F.find? (fun f => saysChunked ig f || saysLength ig f) = none := by
      rw [List.find?_eq_none]
      intro f hf
      simp [not_dropped_says (hF f hf)]
    rw [this]
    simp [hsl]
  unfold framing
  rw [hfind]
  have hany : (F ++ [(b! "Content-Length", decimal n)]).any (saysChunked ig) = false := by
    rw [List.any_eq_false]
    intro f hf
    rcases List.mem_append.1 hf with hf | hf
    · simp [not_dropped_says (hF f hf)]
    · simp at hf; subst hf; simp [hsc]
  simp [hsc, lower_decimal, pyInt_decimal, hany]

theorem plain_encoding {ig : List PyStr} {F : List Header} (hF : ∀ f ∈ F, ¬ dropped f.1) (n : Nat) :
    encodingOf ig (F ++ [(b! "Content-Length", decimal n)]) = none := by
  unfold encodingOf
  have : (F ++ [(b! "Content-Length", decimal n)]).filter (fun f => lower f.1 == b! "content-encoding" && !ignored ig f.1) = [] := by
    rw [List.filter_eq_nil_iff]
    intro f hf
    rcases List.mem_append.1 hf with hf | hf
    · have h := hF f hf
      simp only [dropped, List.mem_cons, not_or] at h
      simp [h.2.2.1]
    · simp at hf; subst hf
      have : (lower (b! "Content-Length") == b! "content-encoding") = false := by decide
      simp [this]
  rw [this]; rfl

theorem plain_eq {x : Message} (h : x.payload ≠ .none) :
    x.plain = { start := x.start
                fields := (x.fields ++ x.payload.trailers).filter (fun f => ¬ dropped f.1) ++ [(b! "Content-Length", decimal x.payload.data.length)]
                payload := .sized x.payload.data } := by
  unfold Message.plain
  cases hp : x.payload with
  | none => exact absurd hp h
  | sized b => rfl
  | toEnd b => rfl
  | chunked b => rfl

theorem filter_not_dropped (L : List Header) : ∀ f ∈ L.filter (fun f => ¬ dropped f.1), ¬ dropped f.1 := by
  intro f hf
  simpa using (List.mem_filter.1 hf).2

theorem hasBody_framing {k : Kind} {st : Start} {fr : Framed} (h : hasBody k st fr) (n : Int) : hasBody k st (.length n) := by
  cases k with
  | request => simp [hasBody]
  | response rm => cases st <;> exact h

theorem Message.Ok.plain {x : Message} {k : Kind} {ig : List PyStr} (hx : x.Ok k ig) (hig : ignored ig (b! "Content-Length") = false) :
    x.plain.Ok k ig := by
  by_cases hp : x.payload = .none
  · have : x.plain = x := by unfold Message.plain; rw [hp]
    rw [this]; exact hx
  · rw [plain_eq hp]
    obtain ⟨fr, hfr, hpl⟩ := hx.framed
    have hb : hasBody k x.start fr := by
      unfold Message.Framed at hpl
      cases hpp : x.payload with
      | none => exact absurd hpp hp
      | sized b => rw [hpp] at hpl; exact hpl.1
      | toEnd b => rw [hpp] at hpl; exact hpl.1
      | chunked b => rw [hpp] at hpl; exact hpl.1
    have htr : FieldsOk x.payload.trailers := by
      unfold Message.Framed at hpl
      cases hpp : x.payload with
      | none => exact absurd hpp hp
      | sized b => intro f hf; cases hf
      | toEnd b => intro f hf; cases hf
      | chunked b => rw [hpp] at hpl; exact hpl.2.2.2.2
    refine ⟨hx.fits, hx.start, ?_, ⟨_, plain_framing (filter_not_dropped _) _ hig, hasBody_framing hb _, rfl⟩, ?_, hx.final⟩
    · intro f hf
      rcases List.mem_append.1 hf with hf | hf
      · rcases List.mem_append.1 (List.mem_filter.1 hf).1 with hf | hf
        · exact hx.fields f hf
        · exact htr f hf
      · simp at hf; subst hf; exact lengthField_ok _
    · rintro - ⟨e, he, -⟩
      rw [plain_encoding (filter_not_dropped _)] at he
      cases he

theorem Message.plain_plain (x : Message) : x.plain.plain = x.plain := by
  by_cases hp : x.payload = .none
  · have : x.plain = x := by unfold Message.plain; rw [hp]
    rw [this, this]
  · rw [plain_eq hp]
    rw [plain_eq (by simp)]
    have hd : dropped (b! "Content-Length") := by decide
    simp [Payload.trailers, Payload.data, hd, List.filter_append]

theorem Message.plain_data (x : Message) : x.plain.payload.data = x.payload.data := by
  unfold Message.plain
  cases hp : x.payload <;> simp [Payload.data, hp]

theorem Message.plain_start (x : Message) : x.plain.start = x.start := by
  unfold Message.plain
  cases hp : x.payload <;> simp [hp]

theorem Message.plain_ends (x : Message) : x.plain.payload.ends = true := by
  unfold Message.plain
  cases hp : x.payload <;> simp [Payload.ends, hp]

theorem Message.plain_encoding {x : Message} {ig : List PyStr} (h : ∀ e, encodingOf ig x.fields = some e → e = [] ∨ x.payload.data = []) :
    ∀ e, encodingOf ig x.plain.fields = some e → e = [] ∨ x.plain.payload.data = [] := by
  by_cases hp : x.payload = .none
  · have : x.plain = x := by unfold Message.plain; rw [hp]
    rw [this]; exact h
  · rw [plain_eq hp]
    intro e he
    rw [Http.plain_encoding (filter_not_dropped _)] at he
    cases he

end Warc.Http
