import Verif.Proofs.Rich
import Verif.Proofs.AnyRecord
import Verif.Proofs.Inv
import Verif.Proofs.Frame
import Verif.Proofs.Forward
import Verif.Spec.Reread
/-
  Reading a record again from its reported offset.
-/
set_option linter.all false
namespace Warc
open Rx Stream Spec

theorem firstLine_cut (p y : Bytes) (h : 10 ∉ p) : File.firstLine (p ++ y) = p ++ File.firstLine y := by
  induction p with
  | nil => rfl
  | cons c cs ih =>
    have hc : ¬ (c == 10) = true := by
      intro hc; exact h (by simp at hc; simp [hc])
    simp only [List.cons_append, File.firstLine, hc]
    rw [ih (fun hx => h (List.mem_cons_of_mem _ hx))]
    rfl

/-- the version line without its prefix -/
theorem vspec_cut {x : Bytes} {p} (h : vspec x = some p) :
    ∃ y, x = p.1 ++ y ∧ 10 ∉ p.1 ∧ vspec y = some ([], p.2) := by
  induction x generalizing p with
  | nil => simp [vspec] at h
  | cons c cs ih =>
    have h0 := h
    simp only [vspec] at h
    cases hv : versionAt (c :: cs) with
    | some q =>
      simp only [hv] at h
      cases h
      exact ⟨c :: cs, rfl, by simp, h0⟩
    | none =>
      simp only [hv] at h
      by_cases hc : c = 10
      · simp [hc] at h
      · simp only [if_neg hc] at h
        cases hq : vspec cs with
        | none => simp [hq] at h
        | some q =>
          simp only [hq, Option.map_some, Option.some.injEq] at h
          subst h
          obtain ⟨y, h1, h2, h3⟩ := ih hq
          refine ⟨y, by simp [h1], ?_, h3⟩
          simp only [List.mem_cons, not_or]
          exact ⟨fun e => hc e.symm, h2⟩

theorem readline_firstLine {s s' : Stream} {l : Bytes} (he : s.eoc = none) (hf : s.fh.fault = none) (h : Stream.readline none s = .ok l s') :
    l = File.firstLine s.fh.rest := by
  simp only [Stream.readline, M.bind_apply, M.get_apply, he, limitOf, onFile, File.readline, File.deliver_nofault _ _ _ hf, consume, M.modify_apply, M.pure_apply] at h
  cases h
  rfl

/-- the header errors do not depend on the errors before them -/
theorem addHeader_front (st : WarcParser.HState) (es : List Err) (n v : Bytes) :
    WarcParser.addHeader { st with errors := es ++ st.errors } n v =
      { WarcParser.addHeader st n v with errors := es ++ (WarcParser.addHeader st n v).errors } := by
  simp only [WarcParser.addHeader]
  by_cases h1 : rxTest typeRx n = true
  · simp only [h1, if_true]
    by_cases h2 : v ≠ []
    · simp only [if_pos h2]
    · simp only [if_neg h2, List.append_assoc]
  · simp only [h1]
    by_cases h2 : rxTest lengthRx n = true
    · simp only [h2, if_true]
      cases pyInt 10 v with
      | some k => simp
      | none => simp
    · simp [h2]

theorem apply_front (it : HItem) (st : WarcParser.HState) (es : List Err) :
    HItem.apply { st with errors := es ++ st.errors } it = { HItem.apply st it with errors := es ++ (HItem.apply st it).errors } := by
  simp only [HItem.apply]
  have := addHeader_front { st with errors := st.errors ++ it.errs } es it.header.1 it.header.2
  simp only [List.append_assoc] at this ⊢
  exact this

theorem foldl_front (items : List HItem) (st : WarcParser.HState) (es : List Err) :
    items.foldl HItem.apply { st with errors := es ++ st.errors } =
      { items.foldl HItem.apply st with errors := es ++ (items.foldl HItem.apply st).errors } := by
  induction items generalizing st with
  | nil => rfl
  | cons it items ih =>
    simp only [List.foldl_cons]
    rw [apply_front, ih]

theorem foldl_hinit (items : List HItem) (es : List Err) :
    items.foldl HItem.apply (hinit es) =
      { items.foldl HItem.apply (hinit []) with errors := es ++ (items.foldl HItem.apply (hinit [])).errors } := by
  have := foldl_front items (hinit []) es
  simpa [hinit] using this

/-- errors of header lines are the record's own -/
theorem own_append (a b : List Err) : ownErrors (a ++ b) = ownErrors a ++ ownErrors b := by simp [ownErrors]

theorem own_id {es : List Err} (h : ∀ e ∈ es, (match e with | .ignoredLine _ => false | .badPrefix _ => false | _ => true) = true) : ownErrors es = es :=
  List.filter_eq_self.2 h

def OwnErr (e : Err) : Prop := (match e with | .ignoredLine _ => false | .badPrefix _ => false | _ => true) = true

theorem addHeader_own (st : WarcParser.HState) (n v : Bytes) (h : ∀ e ∈ st.errors, OwnErr e) : ∀ e ∈ (WarcParser.addHeader st n v).errors, OwnErr e := by
  have key : ∀ e ∈ st.errors ++ [Err.invalidHeader n v], OwnErr e := by
    intro e he
    rcases List.mem_append.1 he with he | he
    · exact h e he
    · simp only [List.mem_singleton] at he; subst he; rfl
  simp only [WarcParser.addHeader]
  by_cases h1 : rxTest typeRx n = true
  · simp only [h1, if_true]
    by_cases h2 : v ≠ []
    · simp only [if_pos h2]; exact h
    · simp only [if_neg h2]; exact key
  · simp only [h1]
    by_cases h2 : rxTest lengthRx n = true
    · simp only [h2, if_true]
      cases pyInt 10 v with
      | some k => simpa using h
      | none => simpa using key
    · simpa [h2] using h

theorem foldl_own (items : List HItem) (st : WarcParser.HState) (h : ∀ e ∈ st.errors, OwnErr e) : ∀ e ∈ (items.foldl HItem.apply st).errors, OwnErr e := by
  induction items generalizing st with
  | nil => exact h
  | cons it items ih =>
    simp only [List.foldl_cons]
    apply ih
    simp only [HItem.apply]
    apply addHeader_own
    intro e he
    simp only [List.mem_append] at he
    rcases he with he | he
    · exact h e he
    · simp only [HItem.errs, List.mem_append] at he
      rcases he with he | he
      · by_cases hc : it.nl = CRLF
        · simp [hc] at he
        · simp [hc] at he; subst he; rfl
      · obtain ⟨c, _, hc⟩ := List.mem_flatMap.1 he
        simp only [HItem.contErr] at hc
        by_cases h2 : c.2.2 = CRLF
        · simp [h2] at hc
        · simp [h2] at hc; subst hc; rfl

theorem own_junk (pre : List Bytes) : ownErrors (junkErrs pre) = [] := by
  simp only [ownErrors, junkErrs, List.filter_eq_nil_iff]
  intro e he
  obtain ⟨l, _, rfl⟩ := List.mem_map.1 he
  simp

theorem own_version (p : Bytes × Bytes × Bytes × Bytes) : ownErrors (versionErrs p) = versionErrs ([], p.2) := by
  simp only [versionErrs, own_append]
  by_cases h1 : p.2.2.2 = CRLF <;> by_cases h2 : p.1 = [] <;> simp [h1, h2, ownErrors]

/-- the first line of a record, as read from its offset, is no terminator line -/
theorem vspec_not_term {x : Bytes} {p} (h : vspec x = some p) : isTerm x = false := by
  by_cases ht : isTerm x = true
  · exfalso
    have hall : ∀ c ∈ x, isCRLF c = true := by
      simp only [isTerm, Bool.and_eq_true, List.all_eq_true] at ht
      exact ht.2
    have noW : ∀ y : Bytes, (∀ c ∈ y, isCRLF c = true) → versionAt y = none := by
      intro y hy
      have hd : y.dropWhile isWs = [] := by
        have hws : ∀ c ∈ y, isWs c = true := by
          intro c hc
          have := hy c hc
          simp only [isCRLF, Bool.or_eq_true, beq_iff_eq] at this
          rcases this with rfl | rfl <;> rfl
        clear hy
        induction y with
        | nil => rfl
        | cons c cs ih => rw [List.dropWhile_cons, if_pos (hws c (by simp))]; exact ih fun d hd => hws d (List.mem_cons_of_mem _ hd)
      simp only [versionAt, hd]
      rfl
    have : ∀ y : Bytes, (∀ c ∈ y, isCRLF c = true) → vspec y = none := by
      intro y
      induction y with
      | nil => intro _; rfl
      | cons c cs ih =>
        intro hy
        simp only [vspec, noW _ hy]
        by_cases hc : c = 10
        · simp [hc]
        · simp [hc, ih (fun d hd => hy d (List.mem_cons_of_mem _ hd))]
    rw [this x hall] at h
    cases h
  · simpa using ht

/-- Where a record of an uncompressed file starts, and reading it again from there. -/
theorem reread_full (s s' : Stream) (e : Entry) (r : Rec) (hk : s.kind = .plain) (hp : s.parser = .warc) (hf : s.fh.fault = none)
    (h : readRecord true s = .ok e s') (hr : e.rcd = some r) :
    ∃ o, e.offset = some o ∧ (∃ v, vspec (File.firstLine (warcAt s.fh o).fh.rest) = some ([], v)) ∧ ∀ offs : Bool,
    readRecord offs (warcAt s.fh o) = .ok ⟨if offs then some o else none, some r.alone, []⟩ s' := by
  obtain ⟨s0, off, line, s1, off', he0, hk0, hp0, hd0, _, hf0, _, _, hb, hparse, hoff⟩ := readRecord_inv true s s' e h
  obtain ⟨T, more, hT1, hT2, hline, _, hs1, hoff1⟩ := blankLoop_inv _ _ _ _ _ _ hb
  rw [hk] at hoff hoff1
  simp only [if_true] at hoff
  have hoff1 : off = some (s0.fh.pos + T.length) := by simpa using hoff1
  have huse := readRecord_same true h
  have hpw : parseWith off line s1 = WarcParser.parse off line s1 := by
    have : s1.parser = .warc := by rw [hs1, adv_parser, hp0, hp]
    simp [parseWith, this]
  rw [hpw, hr] at hparse
  obtain ⟨pre, vl, p, items, fin, ls, s2, hpre, hv, hknown, _, hblock, hls, hlines, ⟨hrr, hs'⟩, ho', hes⟩ :=
    parse_record_inv off line s1 s' r e.errors off' hparse
  -- the state after the version line
  have he1 : s1.eoc = none := by rw [hs1, adv_eoc, he0]
  have hf1 : ∀ k, (s1.adv k).fh.fault = none := by intro k; rw [hs1]; simp [File.advance, hf0, hf]
  have hmore : s0.fh.rest.drop T.length = more := by rw [hT1]; simp
  have key : ∃ ls1, ls = ls1 ++ blockHead items fin :: blockTail items fin ∧ line.length + ls1.flatten.length = lenSum pre + vl.length ∧
      Lines s1 ls1 (s1.adv ls1.flatten.length) ∧ Lines (s1.adv ls1.flatten.length) (blockHead items fin :: blockTail items fin) s2 ∧
      File.firstLine (s0.fh.rest.drop (T.length + lenSum pre)) = vl := by
    cases pre with
    | nil =>
      simp only [List.nil_append, List.cons.injEq] at hls
      obtain ⟨rfl, rfl⟩ := hls
      exact ⟨[], rfl, by simp, .nil _, hlines, by simp [hmore, hline]⟩
    | cons a pre =>
      simp only [List.cons_append, List.cons.injEq] at hls
      obtain ⟨rfl, rfl⟩ := hls
      have hsplit : Lines s1 ((pre ++ [vl]) ++ (blockHead items fin :: blockTail items fin)) s2 := by simpa using hlines
      obtain ⟨sa, ha, hb2⟩ := hsplit.split
      have hsa := (ha.shape he1).1
      rw [hsa] at ha hb2
      refine ⟨pre ++ [vl], by simp, by simp [lenSum]; omega, ha, hb2, ?_⟩
      obtain ⟨sb, h1, h2⟩ := ha.split
      have hsb := (h1.shape he1).1
      cases h2 with
      | cons h3 h4 =>
        have := readline_firstLine (by rw [hsb]; exact he1) (by rw [hsb]; exact hf1 _) h3
        rw [this, hsb, adv_fh, File.advance_rest, hs1, adv_fh, File.advance_rest, List.drop_drop]
        congr 2
        rw [lenSum_cons, lenSum]
        omega
  obtain ⟨ls1, hls1, hlen, hl1, hl2, hfl⟩ := key
  obtain ⟨y, hy1, hy2, hy3⟩ := vspec_cut hv
  obtain ⟨o, ho0, ho⟩ : ∃ o, e.offset = some o ∧ o = s0.fh.pos + T.length + lenSum pre + p.1.length := by
    refine ⟨_, ?_, rfl⟩
    rw [ho', hoff1] at hoff
    simpa using hoff
  -- the file from the offset on
  have hrest : (warcAt s.fh o).fh.rest = s0.fh.rest.drop (T.length + lenSum pre + p.1.length) := by
    simp only [warcAt, File.rest, List.drop_drop, hd0]
    congr 1
    omega
  have hpfx : ∃ z, s0.fh.rest.drop (T.length + lenSum pre) = p.1 ++ z ∧ s0.fh.rest.drop (T.length + lenSum pre + p.1.length) = z := by
    have h1 : vl <+: s0.fh.rest.drop (T.length + lenSum pre) := by rw [← hfl]; exact File.firstLine_prefix _
    obtain ⟨w, hw⟩ := h1
    rw [hy1] at hw
    refine ⟨y ++ w, by rw [← hw]; simp, ?_⟩
    rw [← List.drop_drop, ← hw]
    simp
  obtain ⟨z, hz1, hz2⟩ := hpfx
  have hfz : File.firstLine z = y := by
    rw [hz1, firstLine_cut _ _ hy2, hy1] at hfl
    exact List.append_cancel_left hfl
  have hstate : (warcAt s.fh o).adv y.length = s1.adv ls1.flatten.length := by
    have hsn : s'.fh.strictNeg = s.fh.strictNeg := huse.2.2.2.1
    have hsn0 : s0.fh.strictNeg = s.fh.strictNeg := by
      rw [← hsn, hs']
      have := (hl2.shape (by rw [adv_eoc]; exact he1)).1
      simp only [this, hs1]
      rfl
    have hvl : vl.length = p.1.length + y.length := by rw [hy1]; simp
    rw [hs1]
    obtain ⟨⟨d, q, n, f⟩, eo, ki, pa⟩ := s0
    obtain ⟨⟨d', q', n', f'⟩, eo', ki', pa'⟩ := s
    simp only at he0 hk0 hp0 hd0 hf0 hk hp hsn0 ho
    subst he0 hk0 hp0 hd0 hf0 hk hp hsn0 ho
    simp only [warcAt, adv, File.advance, Stream.mk.injEq, File.mk.injEq, true_and, and_true]
    omega
  refine ⟨o, ho0, ⟨p.2, by rw [hrest, hz2, hfz]; exact hy3⟩, fun offs => ?_⟩
  have hfin := readRecord_of_parse offs [] z y 0 (some r.alone) [] (warcAt s.fh o) s' (by simp [warcAt]) rfl ⟨by simp, Or.inl rfl⟩
    (by rw [hrest, hz2]; rfl) hfz (vspec_not_term hy3) (Or.inl hf) (Or.inl rfl) (by
      intro oo
      rw [List.length_nil, Nat.zero_add, hstate]
      have hf' := parse_forward oo [] y ([], p.2) (by simp [Skipped]) hy3 hknown (by simp [badLines]) items fin hblock
        (s1.adv ls1.flatten.length) s2 y (blockHead items fin :: blockTail items fin) rfl hl2
      rw [hf']
      have e1 := foldl_hinit items (junkErrs [] ++ versionErrs ([], p.2))
      have e2 := foldl_hinit items (junkErrs pre ++ versionErrs p)
      simp only [e1]
      rw [hs', hrr]
      simp only [e2]
      have hown : ownErrors (items.foldl HItem.apply (hinit [])).errors = (items.foldl HItem.apply (hinit [])).errors :=
        own_id (foldl_own items (hinit []) (by simp [hinit]))
      simp only [Rec.alone, warcRec, own_append, own_junk, own_version, hown, junkErrs_nil, List.nil_append, lenSum_nil, Nat.add_zero, List.length_nil])
  rw [hfin]
  simp [warcAt, reported]

theorem reread (s s' : Stream) (e : Entry) (r : Rec) (o : Nat) (hk : s.kind = .plain) (hp : s.parser = .warc) (hf : s.fh.fault = none)
    (h : readRecord true s = .ok e s') (hr : e.rcd = some r) (ho : e.offset = some o) (offs : Bool) :
    readRecord offs (warcAt s.fh o) = .ok ⟨if offs then some o else none, some r.alone, []⟩ s' := by
  obtain ⟨o', h1, _, h2⟩ := reread_full s s' e r hk hp hf h hr
  rw [ho] at h1
  cases h1
  exact h2 offs

end Warc
