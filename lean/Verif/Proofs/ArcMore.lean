import Verif.Proofs.Arc
import Verif.Proofs.Frame
import Verif.Proofs.Inv
/-
  ARC records that are refused, and the field names in force.
-/
set_option linter.all false
namespace Warc
open Rx Stream Spec

theorem splitScan_length (n : Option Nat) (prev : Option Byte) (x cur : Bytes) :
    (splitScan n prev x cur).length ≤ 1 + x.countP isWs := by
  induction x generalizing n prev cur with
  | nil => simp [splitScan]
  | cons c x ih =>
    rw [splitScan_cons]
    split
    · rename_i h
      have := ih (n.map (· - 1)) (some c) []
      simp only [List.length_cons, List.countP_cons, h.2.1, if_true]
      omega
    · have := ih n (some c) (c :: cur)
      rw [List.countP_cons]
      split <;> omega

theorem splitScan_pos (n : Option Nat) (prev : Option Byte) (x cur : Bytes) : splitScan n prev x cur ≠ [] := by
  induction x generalizing n prev cur with
  | nil => simp [splitScan]
  | cons c x ih =>
    rw [splitScan_cons]
    split
    · simp
    · exact ih _ _ _

theorem arcSplit_length (line : Bytes) (k : Int) : (arcSplit line k).length ≤ 1 + line.countP isWs := by
  unfold arcSplit
  split
  · simp
  · split <;> exact splitScan_length _ _ _ _

theorem rstripCRLF_le (line : Bytes) : (rstripCRLF line).countP isWs ≤ line.countP isWs := by
  unfold rstripCRLF rstripP
  rw [List.countP_reverse]
  have := List.Sublist.countP_le (p := isWs) (List.dropWhile_sublist (fun c => c == 13 || c == 10) (l := line.reverse))
  rw [List.countP_reverse] at this
  exact this

/-- too few values for the field names -/
theorem parseHeaderList_few (names : List Bytes) (line : Bytes) (hn : names ≠ [])
    (h : 1 + (rstripCRLF line).countP isWs < names.length) :
    ArcParser.parseHeaderList names line = .error .typeError := by
  have hv : ∃ values, ArcParser.headerValues names line = .ok values ∧ values.length < names.length := by
    unfold ArcParser.headerValues
    simp only
    have h0 := arcSplit_length (rstripCRLF line) 0
    rw [if_pos (by omega)]
    cases names with
    | nil => exact absurd rfl hn
    | cons n0 ns =>
      simp only
      split
      · refine ⟨_, rfl, ?_⟩
        have := arcSplit_length (rstripCRLF line).reverse (((n0 :: ns).length : Int) - 1)
        rw [List.countP_reverse] at this
        simp only [List.length_map, List.length_reverse]
        omega
      · refine ⟨_, rfl, ?_⟩
        have := arcSplit_length (rstripCRLF line) (((n0 :: ns).length : Int) - 1)
        omega
  obtain ⟨values, h1, h2⟩ := hv
  simp only [ArcParser.parseHeaderList, h1]
  rw [if_pos (by omega)]

/-- reading up to the parser when it raises -/
theorem readRecord_line_raise (offs : Bool) (T u more : Bytes) (s s' : Stream) (ex : Exc)
    (hk : s.kind ≠ .gzipFile) (he : s.eoc = none)
    (hT : Terminator T) (hu : 10 ∉ u) (hvis : Visible (u ++ [10])) (hr : s.fh.rest = T ++ (u ++ 10 :: more))
    (hparse : ∀ o, parseWith o (u ++ [10]) (s.adv (T.length + (u.length + 1))) = .raise ex s') :
    readRecord offs s = .raise ex s' := by
  have hfirst : File.firstLine (u ++ 10 :: more) = u ++ [10] := File.firstLine_append _ _ hu
  have hT' : ∀ c ∈ T, isCRLF c = true := fun c hc => by
    rcases hT.1 c hc with h | h <;> simp [h, isCRLF]
  have hbl : ∀ o, blankLoop o (s.fh.rest.length + 2) s =
      .ok (if o then some (s.fh.pos + T.length) else none, u ++ [10]) (s.adv (T.length + (u.length + 1))) := by
    intro o
    have := blankLoop_spec o (s.fh.rest.length + 2) T (u ++ 10 :: more) s hT' hT.2 hr
      (by rw [hfirst]; exact hvis.notTerm) (Or.inr (by simp)) (by rw [hr]; simp; omega)
    rw [hfirst] at this
    simpa using this
  have hset : { s with eoc := none } = s := by
    obtain ⟨fh, eoc, kind, parser⟩ := s; simp at he; subst he; rfl
  simp only [readRecord, M.bind_apply, M.get_apply, he, M.pure_apply, M.modify_apply, hset]
  cases hkind : s.kind with
  | plain => simp only [M.bind_apply, hbl, hparse]
  | gzipRecord => simp only [M.bind_apply, hbl, hparse]
  | gzipFile => exact absurd hkind hk

theorem parse_no_filedesc (st : ArcSt) (set : ArcSt → M Stream Unit) (off : Option Nat) (line : Bytes) (s : Stream)
    (hst : st.headers = []) (hvis : Visible line) (hnf : ¬ b! "filedesc:" <+: line) :
    ArcParser.parse st set off line s = .raise (.generic "missing filedesc") s := by
  have hsw : startsWith line ArcParser.filedescTag = false := by
    cases hh : startsWith line ArcParser.filedescTag with
    | false => rfl
    | true => exact absurd (List.isPrefixOf_iff_prefix.1 hh) hnf
  simp only [ArcParser.parse, M.bind_apply, M.get_apply, skipBlank_visible _ _ hvis, hsw, if_pos hst,
    M.throw_apply, Bool.false_eq_true, if_false]

theorem parse_few (st : ArcSt) (set : ArcSt → M Stream Unit) (off : Option Nat) (line : Bytes) (s : Stream)
    (hst : st.headers ≠ []) (hvis : Visible line) (hnf : ¬ b! "filedesc:" <+: line)
    (h : 1 + (rstripCRLF line).countP isWs < st.headers.length) :
    ArcParser.parse st set off line s = .raise .typeError s := by
  have hsw : startsWith line ArcParser.filedescTag = false := by
    cases hh : startsWith line ArcParser.filedescTag with
    | false => rfl
    | true => exact absurd (List.isPrefixOf_iff_prefix.1 hh) hnf
  simp only [ArcParser.parse, M.bind_apply, M.get_apply, skipBlank_visible _ _ hvis, hsw, if_neg hst,
    parseHeaderList_few _ _ hst h, M.throw_apply, Bool.false_eq_true, if_false]

/-! ### the field names in force -/

theorem parseHeaderList_names {names : List Bytes} {line : Bytes} {hs : List Header}
    (h : ArcParser.parseHeaderList names line = .ok hs) : hs.map Prod.fst = names := by
  unfold ArcParser.parseHeaderList at h
  split at h
  · simp at h
  · split at h
    · simp at h
    · rename_i values _ hl
      simp only [Except.ok.injEq] at h
      subst h
      simp only [ne_eq, Decidable.not_not] at hl
      rw [List.map_fst_zip (by omega)]

/-- what a parse step does to the field names -/
def NameStep (st : ArcSt) (r : Option Rec) (st' : ArcSt) : Prop :=
  match r with
  | none => st' = st
  | some r =>
    match r.cls with
    | .warc => st' = st
    | .arc => st' = st ∧ st.headers ≠ [] ∧ r.headers.map Prod.fst = st.headers
    | .arcHeader => r.headers.map Prod.fst = st'.headers

theorem Keeps.parserEq {α : Type} {x : M Stream α} (h : Keeps true x) {s s' : Stream} {a : α} (hx : x s = .ok a s') :
    s'.parser = s.parser := by
  have := h s
  rw [hx] at this
  exact (this.2.2.2.2 rfl)

theorem arcParse_step (st : ArcSt) (g : ArcSt → Parser) (off : Option Nat) (line : Bytes)
    (s s' : Stream) (r : Option Rec) (es off')
    (h : ArcParser.parse st (fun st' => M.modify fun t => { t with parser := g st' }) off line s = .ok (r, es, off') s') :
    (s'.parser = s.parser ∧ NameStep st r st) ∨ ∃ st', s'.parser = g st' ∧ NameStep st r st' := by
  simp only [ArcParser.parse, M.bind_apply, M.get_apply] at h
  cases hsb : ArcParser.skipBlank (s.fh.rest.length + 2) line s with
  | hang => simp [hsb] at h
  | raise e t => simp [hsb] at h
  | ok l s1 =>
    have hp1 := Keeps.parserEq (Keeps.skipBlank _ _) hsb
    simp only [hsb] at h
    cases l with
    | none =>
      simp at h
      obtain ⟨⟨rfl, _, _⟩, rfl⟩ := h
      exact Or.inl ⟨hp1, rfl⟩
    | some l =>
      simp only at h
      split at h
      · simp only [M.bind_apply] at h
        cases hr1 : Stream.readline none s1 with
        | hang => simp [hr1] at h
        | raise e t => simp [hr1] at h
        | ok vl s2 =>
          simp only [hr1] at h
          cases hr2 : Stream.readline none s2 with
          | hang => simp [hr2] at h
          | raise e t => simp [hr2] at h
          | ok nl s3 =>
            simp only [hr2] at h
            cases hsw : splitWs (strip vl) with
            | nil => simp [hsw] at h
            | cons v vs =>
              simp only [hsw, M.bind_apply, M.modify_apply] at h
              cases hph : ArcParser.parseHeaderList (splitWs (strip nl)) l with
              | error e => simp [hph] at h
              | ok hs =>
                simp only [hph] at h
                cases hch : ArcParser.contentHeaders hs (none, []) with
                | mk a b =>
                cases a with
                | none => simp [hch] at h
                | some n =>
                  simp [hch] at h
                  obtain ⟨⟨rfl, _, _⟩, rfl⟩ := h
                  exact Or.inr ⟨_, rfl, parseHeaderList_names hph⟩
      · split at h
        · simp at h
        · rename_i hne
          cases hph : ArcParser.parseHeaderList st.headers l with
          | error e => simp [hph] at h
          | ok hs =>
            simp [hph] at h
            obtain ⟨⟨rfl, _, _⟩, rfl⟩ := h
            exact Or.inl ⟨hp1, rfl, hne, parseHeaderList_names hph⟩

theorem warcParse_cls (off : Option Nat) (line : Bytes) (s s' : Stream) (r : Option Rec) (es off')
    (h : WarcParser.parse off line s = .ok (r, es, off') s') : ∀ x, r = some x → x.cls = .warc := by
  simp only [WarcParser.parse, M.bind_apply, M.get_apply] at h
  cases hv : WarcParser.versionLoop (s.fh.rest.length + 2) line [] off s with
  | hang => simp [hv] at h
  | raise e t => simp [hv] at h
  | ok v s1 =>
    simp only [hv] at h
    cases v with
    | eof a b => simp at h; obtain ⟨⟨rfl, _⟩, _⟩ := h; simp
    | giveUp a b => simp at h; obtain ⟨⟨rfl, _⟩, _⟩ := h; simp
    | found mt errors o =>
      simp only at h
      cases hve : WarcParser.versionErrors mt errors with
      | none => simp [hve] at h
      | some es1 =>
        simp only [hve, M.bind_apply, M.get_apply] at h
        cases hr : Stream.readline none s1 with
        | hang => simp [hr] at h
        | raise e t => simp [hr] at h
        | ok l s2 =>
          simp only [hr] at h
          cases hl : WarcParser.headerLoop (s1.fh.rest.length + 2) l ⟨[], es1, 0⟩ s2 with
          | hang => simp [hl] at h
          | raise e t => simp [hl] at h
          | ok st s3 =>
            simp [hl] at h
            obtain ⟨⟨rfl, _⟩, _⟩ := h
            intro x hx; simp at hx; subst hx; rfl

theorem mixedParse_step (st : ArcSt) (g : ArcSt → Parser) (off : Option Nat) (fuel : Nat) (line : Bytes)
    (s s' : Stream) (r : Option Rec) (es off')
    (h : MixedParser.parse st (fun st' => M.modify fun t => { t with parser := g st' }) off fuel line s = .ok (r, es, off') s') :
    (s'.parser = s.parser ∧ NameStep st r st) ∨ ∃ st', s'.parser = g st' ∧ NameStep st r st' := by
  induction fuel generalizing line s with
  | zero => simp [MixedParser.parse] at h
  | succ fuel ih =>
    unfold MixedParser.parse at h
    split at h
    · simp at h
      obtain ⟨⟨rfl, _⟩, rfl⟩ := h
      exact Or.inl ⟨rfl, rfl⟩
    · split at h
      · have h1 := warcParse_cls _ _ _ _ _ _ _ h
        have h2 := Keeps.parserEq (Keeps.warcParse _ _) h
        refine Or.inl ⟨h2, ?_⟩
        cases r with
        | none => exact rfl
        | some x => simp [NameStep, h1 x rfl]
      · split at h
        · exact arcParse_step st g off line s s' r es off' h
        · simp only [M.bind_apply] at h
          cases hr1 : Stream.readline none s with
          | hang => simp [hr1] at h
          | raise e t => simp [hr1] at h
          | ok vl s2 =>
            simp only [hr1] at h
            have := Keeps.parserEq (Keeps.readline _) hr1
            have := ih _ _ h
            simpa only [*] using this

theorem readRecord_names (offs : Bool) (s s' : Stream) (e : Entry) (st : ArcSt)
    (hp : s.parser.arcSt? = some st) (h : readRecord offs s = .ok e s') :
    ∃ st', s'.parser = s.parser.withArc st' ∧ NameStep st e.rcd st' := by
  obtain ⟨s0, off, line, s1, off', _, _, hpar, _, _, _, _, _, hb, hparse, _⟩ := readRecord_inv offs s s' e h
  have hp1 := Keeps.parserEq (Keeps.blankLoop _ _) hb
  rw [hpar] at hp1
  simp only [parseWith, M.bind_apply, M.get_apply] at hparse
  rw [hp1] at hparse
  cases hpp : s.parser with
  | warc => simp [hpp, Parser.arcSt?] at hp
  | arc st0 =>
    simp [hpp, Parser.arcSt?] at hp; subst hp
    rw [hpp] at hparse
    rcases arcParse_step st0 .arc _ _ _ _ _ _ _ hparse with ⟨h1, h2⟩ | ⟨st', h1, h2⟩
    · exact ⟨st0, by rw [h1, hp1, hpp]; rfl, h2⟩
    · exact ⟨st', h1, h2⟩
  | mixed st0 =>
    simp [hpp, Parser.arcSt?] at hp; subst hp
    rw [hpp] at hparse
    rcases mixedParse_step st0 .mixed _ _ _ _ _ _ _ _ hparse with ⟨h1, h2⟩ | ⟨st', h1, h2⟩
    · exact ⟨st0, by rw [h1, hp1, hpp]; rfl, h2⟩
    · exact ⟨st', h1, h2⟩

end Warc
