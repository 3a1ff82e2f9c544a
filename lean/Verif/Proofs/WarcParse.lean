import Verif.Proofs.Stream
import Verif.Proofs.Bytes
/-
  What the WARC parser does, in terms of the lines it reads.
-/
set_option linter.all false
namespace Warc
open Rx

namespace Stream

/-- `readline` consumes exactly what it returns -/
theorem readline_shape {n : Option Int} {s s' : Stream} {l : Bytes}
    (h : Stream.readline n s = .ok l s') :
    s' = { s with fh := s.fh.advance l.length, eoc := s.eoc.map (· - (l.length : Int)) } ∧
      l <+: s.fh.rest := by
  simp only [Stream.readline, M.bind_apply, M.get_apply, onFile] at h
  have key : ∀ lim a f', File.readline lim s.fh = .ok a f' →
      f' = s.fh.advance a.length ∧ a <+: s.fh.rest := by
    intro lim a f' hf
    have hd : ∀ out b, File.deliver out b s.fh = .ok a f' → f' = s.fh.advance a.length ∧ a = out := by
      intro out b hd
      unfold File.deliver at hd
      split at hd
      · simp at hd
      · simp only [Res.ok.injEq] at hd
        obtain ⟨rfl, rfl⟩ := hd
        exact ⟨rfl, rfl⟩
    have hpre := File.firstLine_prefix s.fh.rest
    unfold File.readline at hf
    simp only at hf
    split at hf
    · split at hf
      · obtain ⟨h1, h2⟩ := hd _ _ hf
        refine ⟨h1, h2 ▸ (List.take_prefix _ _).trans hpre⟩
      · obtain ⟨h1, h2⟩ := hd _ _ hf
        exact ⟨h1, h2 ▸ hpre⟩
    · obtain ⟨h1, h2⟩ := hd _ _ hf
      exact ⟨h1, h2 ▸ hpre⟩
  cases hf : File.readline (limitOf s.eoc n) s.fh with
  | ok a f' =>
    obtain ⟨h1, h2⟩ := key _ _ _ hf
    simp only [hf, consume, M.modify_apply, M.pure_apply, Res.ok.injEq] at h
    obtain ⟨rfl, rfl⟩ := h
    exact ⟨by simp [h1], h2⟩
  | raise e f' => simp [hf] at h
  | hang => simp [hf] at h

theorem readline_no_hang (n : Option Int) (s : Stream) : Stream.readline n s ≠ .hang := by
  simp only [Stream.readline, M.bind_apply, M.get_apply, onFile]
  have : File.readline (limitOf s.eoc n) s.fh ≠ .hang := by
    have hd : ∀ out b, File.deliver out b s.fh ≠ .hang := by
      intro out b; unfold File.deliver; split <;> simp
    unfold File.readline
    simp only
    split
    · split <;> exact hd _ _
    · exact hd _ _
  cases hf : File.readline (limitOf s.eoc n) s.fh with
  | ok a f' => simp [consume]
  | raise e f' => simp
  | hang => exact absurd hf this

/-- successive calls of `readline` on `s` return `ls` and leave the stream in `s'` -/
inductive Lines : Stream → List Bytes → Stream → Prop where
  | nil (s) : Lines s [] s
  | cons {s s1 s2 l ls} (h : Stream.readline none s = .ok l s1) (t : Lines s1 ls s2) :
      Lines s (l :: ls) s2

theorem Lines.append {s s1 s2 a b} (h1 : Lines s a s1) (h2 : Lines s1 b s2) : Lines s (a ++ b) s2 := by
  induction h1 with
  | nil => exact h2
  | cons h _ ih => exact .cons h (ih h2)

theorem Lines.split {s s2 b} : ∀ {a}, Lines s (a ++ b) s2 → ∃ s1, Lines s a s1 ∧ Lines s1 b s2
  | [], h => ⟨s, .nil s, h⟩
  | _ :: _, .cons h t =>
    let ⟨s1, h1, h2⟩ := Lines.split t
    ⟨s1, .cons h h1, h2⟩

theorem Lines.rest_length {s ls s'} (h : Lines s ls s') (hne : ∀ l ∈ ls, l ≠ []) :
    ls.length + s'.fh.rest.length ≤ s.fh.rest.length := by
  induction h with
  | nil => simp
  | @cons s s1 s2 l ls h t ih =>
    have ih := ih (fun l hl => hne l (by simp [hl]))
    obtain ⟨rfl, hp⟩ := readline_shape h
    have hl : 0 < l.length := List.length_pos_iff.2 (hne l (by simp))
    have := hp.length_le
    simp only [List.length_cons, File.advance_rest, List.length_drop] at ih ⊢
    omega

/-- what a sequence of lines does to a stream -/
theorem Lines.shape {s ls s'} (h : Lines s ls s') (he : s.eoc = none) :
    s' = s.adv ls.flatten.length ∧ ls.flatten <+: s.fh.rest := by
  induction h with
  | nil => simp
  | @cons s s1 s2 l ls h t ih =>
    obtain ⟨rfl, hp⟩ := readline_shape h
    obtain ⟨h1, h2⟩ := ih (by simp [he])
    refine ⟨?_, ?_⟩
    · rw [h1]; simp [adv, he]
    · obtain ⟨t', ht'⟩ := hp
      obtain ⟨u, hu⟩ := h2
      simp only [File.advance_rest, ← ht', List.drop_left] at hu
      exact ⟨u, by rw [← ht', ← hu]; simp⟩

/-- lines of a byte string that starts at the current position -/
theorem Lines.of_bytes (ls : List Bytes) (s : Stream) (he : s.eoc = none) (more : Bytes)
    (hl : ∀ l ∈ ls, ∃ u, l = u ++ [10] ∧ 10 ∉ u) (hr : s.fh.rest = ls.flatten ++ more) :
    Lines s ls (s.adv ls.flatten.length) := by
  induction ls generalizing s with
  | nil => exact .nil s
  | cons l ls ih =>
    obtain ⟨u, rfl, hu⟩ := hl l (by simp)
    have h1 := readline_line s he u (ls.flatten ++ more) hu (by rw [hr]; simp)
    refine .cons h1 ?_
    have := ih (s.adv (u.length + 1)) he (fun l hl' => hl l (by simp [hl']))
      (by rw [adv_fh, File.advance_rest, hr]
          simp [List.drop_append])
    simpa [Nat.add_assoc, Nat.add_comm, Nat.add_left_comm] using this

end Stream

open Stream

/-! ### groups of the closed forms -/
@[simp] theorem fgrp_nl (a b r) : (⟨[(.nl, a), (.value, b)], r⟩ : Match).grp .nl = a := rfl
@[simp] theorem fgrp_value (a b r) : (⟨[(.nl, a), (.value, b)], r⟩ : Match).grp .value = b := rfl
@[simp] theorem hgrp_nl (a b c r) : (⟨[(.nl, a), (.value, b), (.name, c)], r⟩ : Match).grp .nl = a := rfl
@[simp] theorem hgrp_value (a b c r) :
    (⟨[(.nl, a), (.value, b), (.name, c)], r⟩ : Match).grp .value = b := rfl
@[simp] theorem hgrp_name (a b c r) :
    (⟨[(.nl, a), (.value, b), (.name, c)], r⟩ : Match).grp .name = c := rfl
@[simp] theorem vgrp_nl (a b c d r) :
    (⟨[(.nl, a), (.version, b), (.number, c), (.prefix_, d)], r⟩ : Match).grp .nl = a := rfl
@[simp] theorem vgrp_version (a b c d r) :
    (⟨[(.nl, a), (.version, b), (.number, c), (.prefix_, d)], r⟩ : Match).grp .version = b := rfl
@[simp] theorem vgrp_number (a b c d r) :
    (⟨[(.nl, a), (.version, b), (.number, c), (.prefix_, d)], r⟩ : Match).grp .number = c := rfl
@[simp] theorem vgrp_prefix (a b c d r) :
    (⟨[(.nl, a), (.version, b), (.number, c), (.prefix_, d)], r⟩ : Match).grp .prefix_ = d := rfl

/-! ### blank lines -/

/-- the line ends a header block (`nl_rx`): it starts with CR or is a single LF -/
def isBlank (line : Bytes) : Bool := line.head? == some 13 || line == [10]

theorem nlRx_isBlank (line : Bytes) : rxTest nlRx line = isBlank line := rxTest_nlRx line

/-! ### header items -/

/-- a header as it stands in the file: first line with the parts that `header_rx` finds, and the
continuation lines with the parts that `value_rx` finds -/
structure HItem where
  line : Bytes
  name : Bytes
  value : Bytes
  nl : Bytes
  conts : List (Bytes × Bytes × Bytes)

namespace HItem
def contLines (it : HItem) : List Bytes := it.conts.map (·.1)
def lines (it : HItem) : List Bytes := it.line :: it.contLines
structure Ok (it : HItem) : Prop where
  h : hspec it.line = some (it.name, it.value, it.nl)
  ne : it.line ≠ []
  blank : isBlank it.line = false
  conts : ∀ c ∈ it.conts, fspec c.1 = some c.2

/-- errors of one continuation line -/
def contErr (c : Bytes × Bytes × Bytes) : List Err :=
  if c.2.2 ≠ CRLF then [Err.badNlFollow c.1 c.2.2] else []

/-- newline errors of a header -/
def errs (it : HItem) : List Err :=
  (if it.nl ≠ CRLF then [Err.badNlHeader it.nl] else []) ++ it.conts.flatMap contErr

/-- the header that results -/
def header (it : HItem) : Header :=
  (strip it.name, join [32] (strip it.value :: it.conts.map fun c => strip c.2.1))

def apply (st : WarcParser.HState) (it : HItem) : WarcParser.HState :=
  WarcParser.addHeader { st with errors := st.errors ++ it.errs } it.header.1 it.header.2
end HItem

/-- first line of a block -/
def blockHead : List HItem → Bytes → Bytes
  | [], fin => fin
  | it :: _, _ => it.line

/-- all lines of a block but the first one -/
def blockTail : List HItem → Bytes → List Bytes
  | [], _ => []
  | it :: items, fin => it.contLines ++ blockHead items fin :: blockTail items fin

/-- a header block that ends with the line `fin` (a blank line or the end of the file) -/
inductive Block : List HItem → Bytes → Prop where
  | nil {fin} (h : fin = [] ∨ isBlank fin = true) : Block [] fin
  | cons {it items fin} (h : it.Ok) (hn : fspec (blockHead items fin) = none) (t : Block items fin) :
      Block (it :: items) fin

theorem fspec_ne_nil {l v} (h : fspec l = some v) : l ≠ [] := by
  intro e; subst e; simp [fspec] at h

/-! ### the continuation loop -/

theorem followLoop_forward (conts : List (Bytes × Bytes × Bytes)) (next : Bytes)
    (hc : ∀ c ∈ conts, fspec c.1 = some c.2) (hn : fspec next = none) (s s' : Stream)
    (value : List Bytes) (errors : List Err) (l : Bytes) (ls : List Bytes)
    (hl : conts.map (·.1) ++ [next] = l :: ls) (h : Lines s ls s') (fuel : Nat)
    (hf : conts.length < fuel) :
    WarcParser.followLoop fuel l value errors s =
      .ok (next, value ++ conts.map (fun c => strip c.2.1), errors ++ conts.flatMap HItem.contErr) s' := by
  induction conts generalizing s value errors l ls fuel with
  | nil =>
    cases fuel with
    | zero => omega
    | succ fuel =>
      simp only [List.map_nil, List.nil_append, List.cons.injEq] at hl
      obtain ⟨rfl, rfl⟩ := hl
      cases h
      simp [WarcParser.followLoop, pmatch_valueRx, hn]
  | cons c cs ih =>
    cases fuel with
    | zero => omega
    | succ fuel =>
      simp only [List.map_cons, List.cons_append, List.cons.injEq] at hl
      obtain ⟨rfl, rfl⟩ := hl
      have hc0 := hc c (by simp)
      rw [WarcParser.followLoop, pmatch_valueRx, hc0]
      cases hmap : List.map (·.1) cs ++ [next] with
      | nil => simp at hmap
      | cons l2 ls2 =>
        rw [hmap] at h
        cases h with
        | cons h1 h2 =>
          simp only [Option.map_some, M.bind_apply, h1]
          rw [ih (fun c hc' => hc c (by simp [hc'])) _ _ _ _ _ hmap h2 fuel (by simp at hf; omega)]
          simp only [fgrp_nl, fgrp_value, hgrp_nl, hgrp_value, hgrp_name, List.map_cons,
            List.flatMap_cons, List.append_assoc, HItem.contErr]
          by_cases hcr : c.2.2 = CRLF
          · simp [hcr]
          · simp [hcr]

theorem followLoop_inv (fuel : Nat) (l : Bytes) (value : List Bytes) (errors : List Err)
    (s s' : Stream) (next : Bytes) (value' : List Bytes) (errors' : List Err)
    (h : WarcParser.followLoop fuel l value errors s = .ok (next, value', errors') s') :
    ∃ (conts : List (Bytes × Bytes × Bytes)) (ls : List Bytes), (∀ c ∈ conts, fspec c.1 = some c.2) ∧ fspec next = none ∧
      conts.map (·.1) ++ [next] = l :: ls ∧ Lines s ls s' ∧ conts.length < fuel ∧
      value' = value ++ conts.map (fun c => strip c.2.1) ∧
      errors' = errors ++ conts.flatMap HItem.contErr := by
  induction fuel generalizing l value errors s with
  | zero => simp [WarcParser.followLoop] at h
  | succ fuel ih =>
    rw [WarcParser.followLoop, pmatch_valueRx] at h
    cases hl : fspec l with
    | none =>
      simp only [hl, Option.map_none, M.pure_apply, Res.ok.injEq, Prod.mk.injEq] at h
      obtain ⟨⟨rfl, rfl, rfl⟩, rfl⟩ := h
      exact ⟨[], [], by simp, hl, rfl, .nil _, by simp, by simp, by simp⟩
    | some c =>
      simp only [hl, Option.map_some, M.bind_apply] at h
      cases hr : Stream.readline none s with
      | hang => simp [hr] at h
      | raise e s1 => simp [hr] at h
      | ok l2 s1 =>
        simp only [hr] at h
        obtain ⟨conts, ls, h1, h2, h3, h4, h5, h6, h7⟩ := ih _ _ _ _ h
        refine ⟨(l, c) :: conts, l2 :: ls, ?_, h2, by simp [h3], .cons hr h4, by simp; omega, ?_, ?_⟩
        · intro c' hc'
          rcases List.mem_cons.1 hc' with rfl | hc'
          · exact hl
          · exact h1 c' hc'
        · rw [h6]; simp
        · rw [h7]
          simp only [fgrp_nl, fgrp_value, hgrp_nl, hgrp_value, hgrp_name,
            List.flatMap_cons, HItem.contErr]
          by_cases hcr : c.2 = CRLF
          · simp [hcr]
          · simp [hcr]

/-! ### the header loop -/

theorem blockTail_ne {items fin} (h : Block items fin) :
    ∀ l ∈ blockTail items fin, l ≠ [] ∨ l = fin := by
  induction h with
  | nil => simp [blockTail]
  | @cons it items fin h hn t ih =>
    intro l hl
    simp only [blockTail, List.mem_append, List.mem_cons, HItem.contLines, List.mem_map] at hl
    rcases hl with ⟨c, hc, rfl⟩ | rfl | hl
    · exact Or.inl (fspec_ne_nil (h.conts c hc))
    · cases t with
      | nil => exact Or.inr rfl
      | cons h' _ _ => exact Or.inl h'.ne
    · exact ih l hl

theorem headerLoop_forward (items : List HItem) (fin : Bytes) (hb : Block items fin)
    (s s' : Stream) (st : WarcParser.HState) (h : Lines s (blockTail items fin) s') (fuel : Nat)
    (hf : items.length < fuel) :
    WarcParser.headerLoop fuel (blockHead items fin) st s =
      .ok (items.foldl HItem.apply st) s' := by
  induction hb generalizing s st fuel with
  | nil hfin =>
    cases fuel with
    | zero => omega
    | succ fuel =>
      cases h
      show WarcParser.headerLoop (fuel + 1) _ st _ = _
      rw [WarcParser.headerLoop, nlRx_isBlank, if_pos (by exact hfin)]; rfl
  | @cons it items fin hit hn hb ih =>
    cases fuel with
    | zero => omega
    | succ fuel =>
      simp only [blockTail] at h
      rw [show blockHead (it :: items) fin = it.line from rfl]
      rw [WarcParser.headerLoop, nlRx_isBlank, if_neg (by simp [hit.ne, hit.blank]),
        pmatch_headerRx, hit.h]
      have h' : Lines s ((it.contLines ++ [blockHead items fin]) ++ blockTail items fin) s' := by
        simpa using h
      obtain ⟨s1, h1, h2⟩ := Lines.split h'
      cases hmap : it.contLines ++ [blockHead items fin] with
      | nil => simp at hmap
      | cons l2 ls2 =>
        rw [hmap] at h1
        cases h1 with
        | cons h11 h12 =>
          simp only [Option.map_some, M.bind_apply, M.get_apply, h11]
          have hlen : it.conts.length < s.fh.rest.length + 2 := by
            obtain ⟨s3, h3, h4⟩ := Lines.split h
            have := h3.rest_length (by
              intro l hl
              simp only [HItem.contLines, List.mem_map] at hl
              obtain ⟨c, hc, rfl⟩ := hl
              exact fspec_ne_nil (hit.conts c hc))
            simp [HItem.contLines] at this
            omega
          rw [followLoop_forward it.conts (blockHead items fin) hit.conts hn _ _ _ _ l2 ls2 hmap h12
            _ hlen]
          simp only
          rw [ih _ _ h2 fuel (by simp at hf; omega)]
          simp only [fgrp_nl, fgrp_value, hgrp_nl, hgrp_value, hgrp_name, List.foldl_cons, HItem.apply,
            HItem.header, HItem.errs]
          by_cases hcr : it.nl = CRLF
          · simp [hcr]
          · simp [hcr]

theorem headerLoop_inv (fuel : Nat) (line : Bytes) (st st' : WarcParser.HState) (s s' : Stream)
    (h : WarcParser.headerLoop fuel line st s = .ok st' s') :
    ∃ items fin, Block items fin ∧ blockHead items fin = line ∧
      Lines s (blockTail items fin) s' ∧ st' = items.foldl HItem.apply st := by
  induction fuel generalizing line st s with
  | zero => simp [WarcParser.headerLoop] at h
  | succ fuel ih =>
    rw [WarcParser.headerLoop, nlRx_isBlank] at h
    by_cases hbl : line = [] ∨ isBlank line = true
    · rw [if_pos hbl] at h
      simp only [M.pure_apply, Res.ok.injEq] at h
      obtain ⟨rfl, rfl⟩ := h
      exact ⟨[], line, .nil hbl, rfl, .nil _, rfl⟩
    · rw [if_neg hbl, pmatch_headerRx] at h
      cases hs : hspec line with
      | none =>
        simp only [hs, Option.map_none] at h
        exact ih _ _ _ h
      | some p =>
        obtain ⟨n, v, nl⟩ := p
        simp only [hs, Option.map_some, M.bind_apply, M.get_apply] at h
        cases hr : Stream.readline none s with
        | hang => simp [hr] at h
        | raise e s1 => simp [hr] at h
        | ok l2 s1 =>
          simp only [hr] at h
          split at h
          · rename_i a s2 hfol
            obtain ⟨next, value', errors'⟩ := a
            obtain ⟨conts, ls, h1, h2, h3, h4, h5, h6, h7⟩ := followLoop_inv _ _ _ _ _ _ _ _ _ hfol
            simp only at h
            obtain ⟨items, fin, hb, hhead, hlines, hst⟩ := ih _ _ _ h
            refine ⟨⟨line, n, v, nl, conts⟩ :: items, fin, ?_, rfl, ?_, ?_⟩
            · refine .cons ⟨hs, ?_, ?_, h1⟩ (by rw [hhead]; exact h2) hb
              · intro e; exact hbl (Or.inl e)
              · simpa using fun e => hbl (Or.inr e)
            · simp only [blockTail, HItem.contLines, hhead]
              rw [← List.singleton_append, ← List.append_assoc, h3]
              exact (Lines.cons hr h4).append hlines
            · rw [hst, List.foldl_cons]
              congr 1
              subst h6 h7
              simp only [fgrp_nl, fgrp_value, hgrp_nl, hgrp_value, hgrp_name, HItem.apply,
                HItem.header, HItem.errs]
              by_cases hcr : nl = CRLF
              · simp [hcr]
              · simp [hcr]
          · simp at h
          · simp at h

end Warc
