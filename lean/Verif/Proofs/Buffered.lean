import Verif.Spec.Buffered
import Verif.Proofs.RoundTrip
set_option linter.all false
namespace Warc
open Rx Stream Spec

/-- everything that was given to the sink -/
def Sink.all (s : Sink) : Bytes := s.raw.flatten ++ s.buf

theorem Sink.flush_buf (s : Sink) : s.flush.buf = [] := by
  by_cases h : s.buf = [] <;> simp [Sink.flush, h]

theorem Sink.flush_all (s : Sink) : s.flush.all = s.all := by
  by_cases h : s.buf = [] <;> simp [Sink.flush, Sink.all, h]

theorem Sink.flush_disk (s : Sink) : onDisk s.flush = s.all := by
  have := s.flush_all
  simpa [Sink.all, s.flush_buf, onDisk] using this

theorem Sink.flush_raw (s : Sink) : s.raw <+: s.flush.raw := by
  by_cases h : s.buf = [] <;> simp [Sink.flush, h]

theorem Sink.write_all (size : Nat) (b : Bytes) (s : Sink) : (s.write size b).all = s.all ++ b := by
  unfold Sink.write
  by_cases h : b.length ≤ size - s.buf.length ∧ b.length < size
  · rw [if_pos h]; simp [Sink.all]
  · rw [if_neg h]
    have e := s.flush_disk
    unfold onDisk at e
    by_cases h2 : size < b.length
    · rw [if_pos h2]; simp only [Sink.all, List.flatten_append, List.flatten_cons, List.flatten_nil, List.append_nil, e]
    · rw [if_neg h2]; simp only [Sink.all, e]

theorem Sink.write_raw (size : Nat) (b : Bytes) (s : Sink) : s.raw <+: (s.write size b).raw := by
  unfold Sink.write
  by_cases h : b.length ≤ size - s.buf.length ∧ b.length < size
  · rw [if_pos h]; exact List.prefix_refl _
  · rw [if_neg h]
    by_cases h2 : size < b.length
    · rw [if_pos h2]; exact s.flush_raw.trans (List.prefix_append _ _)
    · rw [if_neg h2]; exact s.flush_raw

theorem Sink.run_append (size : Nat) (a b : List Call) (s : Sink) : Sink.run size (a ++ b) s = Sink.run size b (Sink.run size a s) := by
  simp [Sink.run, List.foldl_append]

theorem given_append (a b : List Call) : given (a ++ b) = given a ++ given b := by
  induction a with
  | nil => rfl
  | cons c a ih => cases c <;> simp [given, ih]

theorem Sink.run_all (size : Nat) (cs : List Call) (s : Sink) : (Sink.run size cs s).all = s.all ++ given cs := by
  induction cs generalizing s with
  | nil => simp [Sink.run, given]
  | cons c cs ih =>
    show (Sink.run size cs (s.call size c)).all = _
    rw [ih]
    cases c with
    | write b => simp [Sink.call, Sink.write_all, given]
    | flush => simp [Sink.call, Sink.flush_all, given]

theorem Sink.run_raw (size : Nat) (cs : List Call) (s : Sink) : s.raw <+: (Sink.run size cs s).raw := by
  induction cs generalizing s with
  | nil => exact List.prefix_refl _
  | cons c cs ih =>
    refine List.IsPrefix.trans ?_ (ih (s.call size c))
    cases c with
    | write b => exact s.write_raw size b
    | flush => exact s.flush_raw

/-- calls that all fit are held back -/
theorem Sink.run_held (size : Nat) (ws : List Bytes) (s : Sink) (h : s.buf.length + ws.flatten.length ≤ size) (hb : ∀ b ∈ ws, b.length < size) :
    Sink.run size (ws.map .write) s = ⟨s.raw, s.buf ++ ws.flatten⟩ := by
  induction ws generalizing s with
  | nil => simp [Sink.run]
  | cons b ws ih =>
    have h1 : b.length ≤ size - s.buf.length ∧ b.length < size := ⟨by simp at h; omega, hb b (by simp)⟩
    show Sink.run size (ws.map .write) (s.write size b) = _
    rw [Sink.write, if_pos h1, ih _ (by simp at h ⊢; omega) (fun x hx => hb x (by simp [hx]))]
    simp

/-! ### the calls of a record -/

theorem given_header (nl : Bytes) (h : Header) : given (headerCalls nl h) = h.1 ++ b! ": " ++ h.2 ++ nl := by
  simp [headerCalls, given]

theorem given_headers (nl : Bytes) (f : Bool) (hs : List Header) :
    given (headersCalls nl f hs) =
      (hs.filter fun h => f || !(h.1 == WH.CONTENT_TYPE || h.1 == WH.CONTENT_LENGTH)).flatMap fun h => h.1 ++ b! ": " ++ h.2 ++ nl := by
  induction hs with
  | nil => rfl
  | cons h hs ih =>
    have e : headersCalls nl f (h :: hs) = (if f || !(h.1 == WH.CONTENT_TYPE || h.1 == WH.CONTENT_LENGTH) then headerCalls nl h else []) ++ headersCalls nl f hs := by
      simp [headersCalls]
    rw [e, given_append, ih]
    by_cases hc : (f || !(h.1 == WH.CONTENT_TYPE || h.1 == WH.CONTENT_LENGTH)) = true
    · rw [if_pos hc, given_header]; simp only [List.filter_cons, if_pos hc]; simp
    · rw [if_neg hc]; simp only [List.filter_cons, if_neg hc]; simp [given]

theorem given_writes (ws : List Bytes) : given (ws.map .write) = ws.flatten := by
  induction ws with
  | nil => rfl
  | cons b ws ih => simp [given, ih]

/-- what a record with a content tuple gives to `out` -/
theorem given_tuple (version : Bytes) (hs : List Header) (ct buf : Option Bytes) :
    given (recordCalls CRLF version hs (.tuple ct buf)) = recordBytes version (writtenHeaders hs ct (buf.getD [])) (buf.getD []) := by
  have hf : (fun h : Header => false || !(h.1 == WH.CONTENT_TYPE || h.1 == WH.CONTENT_LENGTH)) =
      fun h => h.1 != b! "Content-Type" && h.1 != b! "Content-Length" := by
    funext h
    simp [WH.CONTENT_TYPE, WH.CONTENT_LENGTH, bne, Bool.not_or]
  have hline : (fun h : Header => h.1 ++ b! ": " ++ h.2 ++ CRLF) = headerLine := by
    funext h; simp [headerLine]
  simp only [recordCalls, supplyCalls, Supply.isFile, given_append, given_headers, given_header, hf, hline]
  have hct : given (typeCalls CRLF ct) = (match ct with
      | some t => if t = [] then [] else [(b! "Content-Type", t)]
      | none => ([] : List Header)).flatMap headerLine := by
    cases ct with
    | none => rfl
    | some t =>
      by_cases ht : t = []
      · simp [typeCalls, ht, given]
      · simp only [typeCalls, if_neg ht, given_header]; simp [headerLine, WH.CONTENT_TYPE]
  have hb : given (if buf.getD [] = [] then [] else [Call.write (buf.getD [])]) = buf.getD [] := by
    by_cases h : buf.getD [] = []
    · rw [if_pos h, h]; rfl
    · rw [if_neg h]; simp [given]
  rw [hct, hb]
  simp [given, recordBytes, headBytes, writtenHeaders, headerLine, WH.CONTENT_LENGTH, List.flatMap_append]
  cases ct <;> rfl

/-- what a record with a content file gives to `out` -/
theorem given_file (version : Bytes) (hs : List Header) (blocks : List Bytes) :
    given (recordCalls CRLF version hs (.file blocks)) = recordBytes version hs blocks.flatten := by
  have hline : (fun h : Header => h.1 ++ b! ": " ++ h.2 ++ CRLF) = headerLine := by
    funext h; simp [headerLine]
  have hf : hs.filter (fun h : Header => true || !(h.1 == WH.CONTENT_TYPE || h.1 == WH.CONTENT_LENGTH)) = hs := by
    apply List.filter_eq_self.2; intro h _; simp
  simp only [recordCalls, supplyCalls, Supply.isFile, given_append, given_headers, hf, hline]
  have e : given (Call.write CRLF :: blocks.map .write) = CRLF ++ blocks.flatten := by
    show CRLF ++ given (blocks.map .write) = _
    rw [given_writes]
  rw [e]
  simp [given, recordBytes, headBytes]

theorem item_given (it : Item) : given it.calls = it.R.bytes := by
  rw [Item.calls, given_tuple]; rfl

theorem allCalls_given (its : List Item) : given (allCalls its) = archive (its.map Item.R) := by
  induction its with
  | nil => rfl
  | cons it its ih =>
    show given (it.calls ++ allCalls its) = _
    rw [given_append, ih, item_given]; simp [archive]

/-- the calls of a record: some that write, and a flush -/
theorem recordCalls_split (nl version : Bytes) (hs : List Header) (x : Supply) :
    ∃ ws : List Bytes, recordCalls nl version hs x = ws.map .write ++ [.flush] ∧ ∃ vs, ws = vs ++ [nl, nl] := by
  have hh : ∀ h, ∃ ws : List Bytes, headerCalls nl h = ws.map .write := fun h => ⟨[h.1, b! ": ", h.2, nl], rfl⟩
  have h1 : ∃ ws : List Bytes, headersCalls nl x.isFile hs = ws.map .write := by
    induction hs with
    | nil => exact ⟨[], rfl⟩
    | cons h hs ih =>
      obtain ⟨a, ha⟩ := ih
      obtain ⟨b, hb⟩ := hh h
      have e : headersCalls nl x.isFile (h :: hs) = (if x.isFile || !(h.1 == WH.CONTENT_TYPE || h.1 == WH.CONTENT_LENGTH) then headerCalls nl h else []) ++ headersCalls nl x.isFile hs := by
        simp [headersCalls]
      rw [e, ha, hb]
      by_cases hc : (x.isFile || !(h.1 == WH.CONTENT_TYPE || h.1 == WH.CONTENT_LENGTH)) = true
      · exact ⟨b ++ a, by rw [if_pos hc]; simp⟩
      · exact ⟨a, by rw [if_neg hc]; rfl⟩
  have h2 : ∃ ws : List Bytes, supplyCalls nl x = ws.map .write := by
    cases x with
    | file bs => exact ⟨nl :: bs, rfl⟩
    | tuple ct buf =>
      have h3 : ∃ ws : List Bytes, typeCalls nl ct = ws.map Call.write := by
        cases ct with
        | none => exact ⟨[], rfl⟩
        | some t =>
          by_cases ht : t = []
          · exact ⟨[], by simp [typeCalls, ht]⟩
          · obtain ⟨b, hb⟩ := hh (WH.CONTENT_TYPE, t)
            exact ⟨b, by simp [typeCalls, ht, hb]⟩
      have h4 : ∃ ws : List Bytes, (if buf.getD [] = [] then [] else [Call.write (buf.getD [])]) = ws.map Call.write := by
        by_cases h : buf.getD [] = []
        · exact ⟨[], by simp [h]⟩
        · exact ⟨[buf.getD []], by simp [h]⟩
      obtain ⟨a, ha⟩ := h3
      obtain ⟨b, hb⟩ := hh (WH.CONTENT_LENGTH, decimal (buf.getD []).length)
      obtain ⟨e, he⟩ := h4
      exact ⟨a ++ b ++ [nl] ++ e, by simp only [supplyCalls, ha, hb, he]; simp⟩
  obtain ⟨a, ha⟩ := h1
  obtain ⟨b, hb⟩ := h2
  exact ⟨[version, nl] ++ a ++ b ++ [nl, nl], by simp [recordCalls, ha, hb], _, rfl⟩

/-- behind a record nothing is held back -/
theorem Sink.run_record (size : Nat) (version : Bytes) (hs : List Header) (x : Supply) (s : Sink) :
    (Sink.run size (recordCalls CRLF version hs x) s).buf = [] ∧
    onDisk (Sink.run size (recordCalls CRLF version hs x) s) = s.all ++ given (recordCalls CRLF version hs x) := by
  obtain ⟨ws, hw, _⟩ := recordCalls_split CRLF version hs x
  have hb : (Sink.run size (recordCalls CRLF version hs x) s).buf = [] := by
    rw [hw, Sink.run_append]
    show (Sink.flush _).buf = []
    exact Sink.flush_buf _
  refine ⟨hb, ?_⟩
  have := Sink.run_all size (recordCalls CRLF version hs x) s
  simpa [Sink.all, hb, onDisk] using this

/-- the parts of a record are shorter than the record -/
theorem part_short (vs : List Bytes) (b : Bytes) (h : b ∈ vs ++ [CRLF, CRLF]) : b.length < (vs ++ [CRLF, CRLF]).flatten.length := by
  have hc : CRLF.length = 2 := rfl
  rcases List.mem_append.1 h with h | h
  · obtain ⟨a, c, rfl⟩ := List.append_of_mem h
    simp [hc]; omega
  · simp only [List.mem_cons, List.not_mem_nil, or_false, or_self] at h
    subst h
    simp [hc]

/-- a record that fits into the buffer is given by one call -/
theorem Sink.run_small (size : Nat) (version : Bytes) (hs : List Header) (x : Supply) (s : Sink) (hb : s.buf = [])
    (h : (given (recordCalls CRLF version hs x)).length ≤ size) :
    Sink.run size (recordCalls CRLF version hs x) s = ⟨s.raw ++ [given (recordCalls CRLF version hs x)], []⟩ ∧
    ∀ p, p <+: recordCalls CRLF version hs x → p ≠ recordCalls CRLF version hs x → (Sink.run size p s).raw = s.raw := by
  obtain ⟨ws, hw, vs, hv⟩ := recordCalls_split CRLF version hs x
  have e : given (recordCalls CRLF version hs x) = ws.flatten := by
    rw [hw, given_append, given_writes]; simp [given]
  rw [e] at h ⊢
  have hs' : ∀ b ∈ ws, b.length < size := by
    intro b hb
    have := part_short vs b (hv ▸ hb)
    rw [← hv] at this
    omega
  have hne : ws.flatten ≠ [] := by rw [hv]; simp
  have hhold : ∀ us : List Bytes, us <+: ws → Sink.run size (us.map .write) s = ⟨s.raw, us.flatten⟩ := by
    intro us hu
    obtain ⟨t, rfl⟩ := hu
    rw [Sink.run_held size us s (by rw [hb]; simp at h ⊢; omega) (fun b hb => hs' b (by simp [hb])), hb]
    simp
  refine ⟨?_, ?_⟩
  · rw [hw, Sink.run_append, hhold ws (List.prefix_refl _)]
    simp [Sink.run, Sink.call, Sink.flush, hne]
  · intro p hp hpn
    rw [hw] at hp hpn
    have hp' : p <+: ws.map Call.write := by
      obtain ⟨t, ht⟩ := hp
      rcases List.eq_nil_or_concat t with rfl | ⟨t', y, rfl⟩
      · rw [List.append_nil] at ht; exact absurd ht hpn
      · refine ⟨t', ?_⟩
        have := congrArg List.dropLast ht
        simpa [← List.append_assoc] using this
    obtain ⟨t, ht⟩ := hp'
    have hu : p = (ws.take p.length).map Call.write := by
      rw [List.map_take, ← ht]; simp
    rw [hu, hhold _ (List.take_prefix _ _)]

end Warc
