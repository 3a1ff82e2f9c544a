import Verif.Proofs.Open
/-
  Inversion: what is known when reading a record succeeded.
-/
set_option linter.all false
namespace Warc
open Rx Stream Spec

theorem hspec_name {l n v nl : Bytes} (h : hspec l = some (n, v, nl)) : 10 ∉ n := by
  induction l generalizing n with
  | nil => simp [hspec] at h
  | cons c cs ih =>
    simp only [hspec] at h
    cases hq : (if c = 58 then afterColon cs else none) with
    | some p =>
      simp only [hq, Option.some.injEq, Prod.mk.injEq] at h
      rw [← h.1]; simp
    | none =>
      simp only [hq] at h
      split at h
      · simp at h
      · rename_i hc
        cases hh : hspec cs with
        | none => simp [hh] at h
        | some q =>
          obtain ⟨a, b, d⟩ := q
          simp only [hh, Option.map_some, Option.some.injEq, Prod.mk.injEq] at h
          obtain ⟨rfl, rfl, rfl⟩ := h
          simp only [List.mem_cons, not_or]
          exact ⟨fun e => hc e.symm, ih hh⟩

theorem item_name_noLF {it : HItem} (h : it.Ok) : 10 ∉ it.header.1 := by
  intro hm
  exact hspec_name h.h (mem_strip hm)

theorem addHeader_headers (st : WarcParser.HState) (k v : Bytes) :
    (WarcParser.addHeader st k v).headers = st.headers ++ [(k, v)] := by
  unfold WarcParser.addHeader
  simp only
  split
  · split <;> rfl
  · split
    · split <;> rfl
    · rfl

theorem addHeader_length (st : WarcParser.HState) (k v : Bytes) (hk : 10 ∉ k) :
    (WarcParser.addHeader st k v).contentLength = stepLength st.contentLength (k, v) := by
  unfold WarcParser.addHeader stepLength
  simp only [rxTest_type k hk, rxTest_length k hk]
  by_cases h1 : lower k = b! "content-type"
  · have : ¬ lower k = b! "content-length" := by rw [h1]; decide
    simp only [h1, decide_true, if_true]
    split <;> simp
  · simp only [h1, decide_false, Bool.false_eq_true, if_false]
    by_cases h2 : lower k = b! "content-length"
    · simp only [h2, decide_true, if_true]
      cases pyInt 10 v <;> simp
    · simp [h2]

theorem apply_headers (items : List HItem) (st : WarcParser.HState) :
    (items.foldl HItem.apply st).headers = st.headers ++ items.map HItem.header := by
  induction items generalizing st with
  | nil => simp
  | cons it items ih =>
    rw [List.foldl_cons, ih, HItem.apply, addHeader_headers]
    simp

theorem apply_length (items : List HItem) (st : WarcParser.HState) (h : ∀ it ∈ items, it.Ok) :
    (items.foldl HItem.apply st).contentLength = (items.map HItem.header).foldl stepLength st.contentLength := by
  induction items generalizing st with
  | nil => simp
  | cons it items ih =>
    rw [List.foldl_cons, ih _ (fun x hx => h x (by simp [hx])), HItem.apply,
      addHeader_length _ _ _ (item_name_noLF (h it (by simp)))]
    simp

theorem Block.items_ok {items fin} (h : Block items fin) : ∀ it ∈ items, it.Ok := by
  induction h with
  | nil => simp
  | cons h _ _ ih =>
    intro x hx
    rcases List.mem_cons.1 hx with rfl | hx
    · exact h
    · exact ih x hx

theorem declaredLength_eq (hs : List Header) : declaredLength hs = hs.foldl stepLength 0 := rfl

/-- the parser leaves the stream positioned in front of a payload of the declared length -/
theorem parse_eoc (off : Option Nat) (l : Bytes) (s s' : Stream) (r : Rec) (es : List Err)
    (off' : Option Nat) (h : WarcParser.parse off l s = .ok (some r, es, off') s') :
    s'.eoc = some (declaredLength r.headers) ∧ es = [] := by
  obtain ⟨pre, vl, p, items, fin, ls, s1, _, _, _, _, hb, _, _, hst, _, he⟩ := parse_record_inv off l s s' r es off' h
  simp only at hst
  obtain ⟨rfl, rfl⟩ := hst
  refine ⟨?_, he⟩
  simp only [warcRec, apply_headers, apply_length _ _ hb.items_ok, hinit, declaredLength_eq, List.nil_append]

/-- the state in which the search for the next record starts -/
theorem readRecord_inv (offs : Bool) (s s' : Stream) (e : Entry) (h : readRecord offs s = .ok e s') :
    ∃ s0 off line s1 off', s0.eoc = none ∧ s0.kind = s.kind ∧ s0.parser = s.parser ∧
      s0.fh.data = s.fh.data ∧ s.fh.pos ≤ s0.fh.pos ∧ s0.fh.fault = s.fh.fault ∧
      (s.eoc = none → s0 = s) ∧ s.kind ≠ .gzipFile ∧
      blankLoop (offs && s.kind == .plain) (s0.fh.rest.length + 2) s0 = .ok (off, line) s1 ∧
      parseWith off line s1 = .ok (e.rcd, e.errors, off') s' ∧
      e.offset = (if s.kind = .plain then off' else none) := by
  have key : ∀ s0 : Stream, s0.eoc = none → s0.kind = s.kind → readRecord offs s0 = .ok e s' →
      ∃ off line s1 off', s.kind ≠ .gzipFile ∧
      blankLoop (offs && s.kind == .plain) (s0.fh.rest.length + 2) s0 = .ok (off, line) s1 ∧
      parseWith off line s1 = .ok (e.rcd, e.errors, off') s' ∧
      e.offset = (if s.kind = .plain then off' else none) := by
    intro s0 he hk h0
    have hset : { s0 with eoc := none } = s0 := by
      obtain ⟨fh, eoc, kind, parser⟩ := s0; simp at he; subst he; rfl
    simp only [readRecord, M.bind_apply, M.get_apply, he, M.pure_apply, M.modify_apply, hset] at h0
    rw [hk] at h0
    cases hkind : s.kind with
    | plain =>
      simp only [hkind, M.bind_apply] at h0
      cases hb : blankLoop offs (s0.fh.rest.length + 2) s0 with
      | hang => simp [hb] at h0
      | raise x y => simp [hb] at h0
      | ok a s1 =>
        obtain ⟨off, line⟩ := a
        simp only [hb] at h0
        cases hp : parseWith off line s1 with
        | hang => simp [hp] at h0
        | raise x y => simp [hp] at h0
        | ok q s2 =>
          obtain ⟨r, es, off'⟩ := q
          simp only [hp, M.pure_apply, Res.ok.injEq] at h0
          obtain ⟨rfl, rfl⟩ := h0
          exact ⟨off, line, s1, off', by simp, by simpa using hb, hp, by simp⟩
    | gzipRecord =>
      simp only [hkind, M.bind_apply] at h0
      cases hb : blankLoop false (s0.fh.rest.length + 2) s0 with
      | hang => simp [hb] at h0
      | raise x y => simp [hb] at h0
      | ok a s1 =>
        obtain ⟨off, line⟩ := a
        obtain ⟨T, more, _, _, _, _, _, hoff⟩ := blankLoop_inv _ _ _ _ _ _ hb
        simp at hoff
        subst hoff
        simp only [hb] at h0
        cases hp : parseWith none line s1 with
        | hang => simp [hp] at h0
        | raise x y => simp [hp] at h0
        | ok q s2 =>
          obtain ⟨r, es, off'⟩ := q
          simp only [hp, M.pure_apply, Res.ok.injEq] at h0
          obtain ⟨rfl, rfl⟩ := h0
          have hd : (offs && (Kind.gzipRecord == Kind.plain)) = false := by cases offs <;> rfl
          exact ⟨none, line, s1, off', by simp, by rw [hd]; exact hb, hp, by simp⟩
    | gzipFile =>
      simp only [hkind, M.bind_apply] at h0
      cases hb : blankLoop false (s0.fh.rest.length + 2) s0 with
      | hang => simp [hb] at h0
      | raise x y => simp [hb] at h0
      | ok a s1 =>
        obtain ⟨off, line⟩ := a
        simp only [hb] at h0
        cases hp : parseWith none line s1 with
        | hang => simp [hp] at h0
        | raise x y => simp [hp] at h0
        | ok q s2 => simp [hp] at h0
  cases he : s.eoc with
  | none =>
    obtain ⟨off, line, s1, off', h1, h2, h3, h4⟩ := key s he rfl h
    exact ⟨s, off, line, s1, off', he, rfl, rfl, rfl, Nat.le_refl _, rfl, fun _ => rfl, h1, h2, h3, h4⟩
  | some n =>
    by_cases hn : n ≤ 0
    · rw [readRecord_neg offs n s he hn] at h
      obtain ⟨off, line, s1, off', h1, h2, h3, h4⟩ := key { s with eoc := none } rfl rfl h
      exact ⟨{ s with eoc := none }, off, line, s1, off', rfl, rfl, rfl, rfl, Nat.le_refl _, rfl, fun e => absurd e (by simp), h1, h2, h3, h4⟩
    · obtain ⟨k, rfl⟩ : ∃ k : Nat, n = k := ⟨n.toNat, by omega⟩
      by_cases hle : k ≤ s.fh.rest.length
      · rw [readRecord_skip offs k s he hle] at h
        obtain ⟨off, line, s1, off', h1, h2, h3, h4⟩ := key { s.adv k with eoc := none } rfl rfl h
        exact ⟨{ s.adv k with eoc := none }, off, line, s1, off', rfl, rfl, rfl, rfl, by simp, rfl, fun e => absurd e (by simp), h1, h2, h3, h4⟩
      · obtain ⟨exc, m, hsh, _⟩ := readRecord_short offs k s he (by omega)
        rw [hsh] at h
        simp at h

/-- a record returned by the WARC parser declares the payload that the stream then delivers -/
theorem readRecord_eoc (offs : Bool) (s s' : Stream) (e : Entry) (r : Rec) (hp : s.parser = .warc)
    (h : readRecord offs s = .ok e s') (hr : e.rcd = some r) :
    s'.eoc = some (declaredLength r.headers) ∧ e.errors = [] := by
  obtain ⟨s0, off, line, s1, off', _, _, hpar, _, _, _, _, _, hb, hparse, _⟩ := readRecord_inv offs s s' e h
  obtain ⟨T, more, _, _, _, _, hs1, _⟩ := blankLoop_inv _ _ _ _ _ _ hb
  rw [parseWith_warc _ _ _ (Or.inl (by rw [hs1]; simp [hpar, hp])), hr] at hparse
  exact parse_eoc _ _ _ _ _ _ _ hparse

end Warc
