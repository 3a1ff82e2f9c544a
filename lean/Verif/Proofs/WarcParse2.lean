import Verif.Proofs.WarcParse
/-
  The version line search and the complete WARC parser, in terms of lines.
-/
set_option linter.all false
namespace Warc
open Rx Stream

/-- the errors recorded for the lines before the version line -/
def junkErrs (pre : List Bytes) : List Err :=
  (pre.filter fun l => !isBlank l).map Err.ignoredLine

@[simp] theorem junkErrs_nil : junkErrs [] = [] := rfl

theorem junkErrs_cons_blank {l : Bytes} {pre} (h : isBlank l = true) :
    junkErrs (l :: pre) = junkErrs pre := by simp [junkErrs, h]

theorem junkErrs_cons_junk {l : Bytes} {pre} (h : isBlank l = false) :
    junkErrs (l :: pre) = Err.ignoredLine l :: junkErrs pre := by simp [junkErrs, h]

/-- lines that are skipped while looking for a version line -/
def Skipped (pre : List Bytes) : Prop := ∀ l ∈ pre, l ≠ [] ∧ vspec l = none

def vmatch (p : Bytes × Bytes × Bytes × Bytes) : Match :=
  ⟨[(.nl, p.2.2.2), (.version, p.2.1), (.number, p.2.2.1), (.prefix_, p.1)], []⟩

theorem pmatch_versionRx' (line : Bytes) : pmatch versionRx line = (vspec line).map vmatch :=
  pmatch_versionRx line

/-- total length -/
def lenSum (ls : List Bytes) : Nat := ls.flatten.length

@[simp] theorem lenSum_nil : lenSum [] = 0 := rfl
@[simp] theorem lenSum_cons (l ls) : lenSum (l :: ls) = l.length + lenSum ls := by simp [lenSum]

/-- the outcome of the version search when the skipped lines are `pre` and then comes `last` -/
theorem versionLoop_found (pre : List Bytes) (vl : Bytes) (p) (hpre : Skipped pre)
    (hv : vspec vl = some p) (s s' : Stream) (errors : List Err) (off : Option Nat)
    (hcount : (errors ++ junkErrs pre).length ≤ badLines)
    (l : Bytes) (ls : List Bytes) (hl : pre ++ [vl] = l :: ls) (h : Lines s ls s') (fuel : Nat)
    (hf : pre.length < fuel) :
    WarcParser.versionLoop fuel l errors off s =
      .ok (.found (vmatch p) (errors ++ junkErrs pre)
        (off.map fun o => o + lenSum pre + p.1.length)) s' := by
  induction pre generalizing s errors off l ls fuel with
  | nil =>
    cases fuel with
    | zero => omega
    | succ fuel =>
      simp only [List.nil_append, List.cons.injEq] at hl
      obtain ⟨rfl, rfl⟩ := hl
      cases h
      have hne : vl ≠ [] := by intro e; subst e; simp [vspec] at hv
      rw [WarcParser.versionLoop, if_neg hne, pmatch_versionRx', hv]
      simp [vmatch]
  | cons j pre ih =>
    cases fuel with
    | zero => omega
    | succ fuel =>
      simp only [List.cons_append, List.cons.injEq] at hl
      obtain ⟨rfl, rfl⟩ := hl
      obtain ⟨hne, hv0⟩ := hpre j (by simp)
      rw [WarcParser.versionLoop, if_neg hne, pmatch_versionRx', hv0]
      simp only [Option.map_none, nlRx_isBlank]
      cases hmap : pre ++ [vl] with
      | nil => simp at hmap
      | cons l2 ls2 =>
        rw [hmap] at h
        cases h with
        | cons h1 h2 =>
          have hpre' : Skipped pre := fun l hl => hpre l (by simp [hl])
          by_cases hb : isBlank j = true
          · rw [junkErrs_cons_blank hb] at hcount ⊢
            rw [if_pos hb]
            simp only [M.bind_apply, h1]
            rw [ih hpre' _ _ _ hcount _ _ hmap h2 fuel (by simp at hf; omega)]
            cases off <;> simp [Nat.add_assoc]
          · have hb' : isBlank j = false := by simpa using hb
            rw [junkErrs_cons_junk hb'] at hcount ⊢
            rw [if_neg hb]
            rw [if_neg (by simp at hcount ⊢; omega)]
            simp only [M.bind_apply, h1]
            rw [ih hpre' _ _ _ (by simpa using hcount) _ _ hmap h2 fuel (by simp at hf; omega)]
            cases off <;> simp [Nat.add_assoc]

theorem versionLoop_giveUp (pre : List Bytes) (j : Bytes) (hpre : Skipped (pre ++ [j]))
    (s s' : Stream) (errors : List Err) (off : Option Nat)
    (hcount : (errors ++ junkErrs pre).length = badLines) (hj : isBlank j = false)
    (l : Bytes) (ls : List Bytes) (hl : pre ++ [j] = l :: ls) (h : Lines s ls s') (fuel : Nat)
    (hf : pre.length < fuel) :
    WarcParser.versionLoop fuel l errors off s =
      .ok (.giveUp (errors ++ junkErrs (pre ++ [j]) ++ [Err.tooMany])
        (off.map fun o => o + lenSum (pre ++ [j]))) s' := by
  induction pre generalizing s errors off l ls fuel with
  | nil =>
    cases fuel with
    | zero => omega
    | succ fuel =>
      simp only [List.nil_append, List.cons.injEq] at hl
      obtain ⟨rfl, rfl⟩ := hl
      cases h
      obtain ⟨hne, hv0⟩ := hpre j (by simp)
      rw [WarcParser.versionLoop, if_neg hne, pmatch_versionRx', hv0]
      simp only [Option.map_none, nlRx_isBlank]
      rw [if_neg (by simp [hj])]
      rw [if_pos (by simp at hcount ⊢; omega)]
      rw [List.nil_append, junkErrs_cons_junk hj]
      simp
  | cons k pre ih =>
    cases fuel with
    | zero => omega
    | succ fuel =>
      simp only [List.cons_append, List.cons.injEq] at hl
      obtain ⟨rfl, rfl⟩ := hl
      obtain ⟨hne, hv0⟩ := hpre k (by simp)
      rw [WarcParser.versionLoop, if_neg hne, pmatch_versionRx', hv0]
      simp only [Option.map_none, nlRx_isBlank]
      cases hmap : pre ++ [j] with
      | nil => simp at hmap
      | cons l2 ls2 =>
        rw [hmap] at h
        cases h with
        | cons h1 h2 =>
          have hpre' : Skipped (pre ++ [j]) := fun l hl => hpre l (by rw [List.cons_append]; exact List.mem_cons_of_mem _ hl)
          by_cases hb : isBlank k = true
          · rw [junkErrs_cons_blank hb] at hcount
            rw [if_pos hb]
            simp only [M.bind_apply, h1]
            rw [ih hpre' _ _ _ hcount _ _ hmap h2 fuel (by simp at hf; omega)]
            rw [List.cons_append, junkErrs_cons_blank hb]
            cases off <;> simp [Nat.add_assoc, hmap]
          · have hb' : isBlank k = false := by simpa using hb
            rw [junkErrs_cons_junk hb'] at hcount
            rw [if_neg hb]
            rw [if_neg (by simp at hcount ⊢; omega)]
            simp only [M.bind_apply, h1]
            rw [ih hpre' _ _ _ (by simpa using hcount) _ _ hmap h2 fuel (by simp at hf; omega)]
            rw [List.cons_append, junkErrs_cons_junk hb']
            cases off <;> simp [Nat.add_assoc, hmap]

theorem versionLoop_eof (pre : List Bytes) (hpre : Skipped pre)
    (s s' : Stream) (errors : List Err) (off : Option Nat)
    (hcount : (errors ++ junkErrs pre).length ≤ badLines)
    (l : Bytes) (ls : List Bytes) (hl : pre ++ [[]] = l :: ls) (h : Lines s ls s') (fuel : Nat)
    (hf : pre.length < fuel) :
    WarcParser.versionLoop fuel l errors off s =
      .ok (.eof (errors ++ junkErrs pre) (off.map fun o => o + lenSum pre)) s' := by
  induction pre generalizing s errors off l ls fuel with
  | nil =>
    cases fuel with
    | zero => omega
    | succ fuel =>
      simp only [List.nil_append, List.cons.injEq] at hl
      obtain ⟨rfl, rfl⟩ := hl
      cases h
      rw [WarcParser.versionLoop, if_pos rfl]
      cases off <;> simp
  | cons k pre ih =>
    cases fuel with
    | zero => omega
    | succ fuel =>
      simp only [List.cons_append, List.cons.injEq] at hl
      obtain ⟨rfl, rfl⟩ := hl
      obtain ⟨hne, hv0⟩ := hpre k (by simp)
      rw [WarcParser.versionLoop, if_neg hne, pmatch_versionRx', hv0]
      simp only [Option.map_none, nlRx_isBlank]
      cases hmap : pre ++ [[]] with
      | nil => simp at hmap
      | cons l2 ls2 =>
        rw [hmap] at h
        cases h with
        | cons h1 h2 =>
          have hpre' : Skipped pre := fun l hl => hpre l (by simp [hl])
          by_cases hb : isBlank k = true
          · rw [junkErrs_cons_blank hb] at hcount ⊢
            rw [if_pos hb]
            simp only [M.bind_apply, h1]
            rw [ih hpre' _ _ _ hcount _ _ hmap h2 fuel (by simp at hf; omega)]
            cases off <;> simp [Nat.add_assoc]
          · have hb' : isBlank k = false := by simpa using hb
            rw [junkErrs_cons_junk hb'] at hcount ⊢
            rw [if_neg hb]
            rw [if_neg (by simp at hcount ⊢; omega)]
            simp only [M.bind_apply, h1]
            rw [ih hpre' _ _ _ (by simpa using hcount) _ _ hmap h2 fuel (by simp at hf; omega)]
            cases off <;> simp [Nat.add_assoc]

/-- every way the version search can end -/
theorem versionLoop_inv (fuel : Nat) (l : Bytes) (errors : List Err) (off : Option Nat)
    (s s' : Stream) (v : WarcParser.VLoop) (hcount0 : errors.length ≤ badLines)
    (h : WarcParser.versionLoop fuel l errors off s = .ok v s') :
    ∃ pre last ls, Skipped pre ∧ pre ++ [last] = l :: ls ∧ Lines s ls s' ∧
      (errors ++ junkErrs pre).length ≤ badLines ∧
      ((∃ p, vspec last = some p ∧ v = .found (vmatch p) (errors ++ junkErrs pre)
          (off.map fun o => o + lenSum pre + p.1.length)) ∨
       (last ≠ [] ∧ vspec last = none ∧ isBlank last = false ∧ (errors ++ junkErrs pre).length = badLines ∧
          v = .giveUp (errors ++ junkErrs (pre ++ [last]) ++ [Err.tooMany])
            (off.map fun o => o + lenSum (pre ++ [last]))) ∨
       (last = [] ∧ v = .eof (errors ++ junkErrs pre) (off.map fun o => o + lenSum pre))) := by
  induction fuel generalizing l errors off s with
  | zero => simp [WarcParser.versionLoop] at h
  | succ fuel ih =>
    rw [WarcParser.versionLoop] at h
    by_cases hne : l = []
    · rw [if_pos hne] at h
      simp only [M.pure_apply, Res.ok.injEq] at h
      obtain ⟨rfl, rfl⟩ := h
      refine ⟨[], l, [], by simp [Skipped], rfl, .nil _, by simpa using hcount0, Or.inr (Or.inr ⟨hne, ?_⟩)⟩
      cases off <;> simp
    · rw [if_neg hne, pmatch_versionRx'] at h
      cases hv : vspec l with
      | some p =>
        simp only [hv, Option.map_some, M.pure_apply, Res.ok.injEq] at h
        obtain ⟨rfl, rfl⟩ := h
        exact ⟨[], l, [], by simp [Skipped], rfl, .nil _, by simpa using hcount0,
          Or.inl ⟨p, hv, by cases off <;> simp [vmatch]⟩⟩
      | none =>
        simp only [hv, Option.map_none, nlRx_isBlank] at h
        -- common continuation
        have next : ∀ errs', errs' = errors ++ junkErrs [l] → errs'.length ≤ badLines →
            (Stream.readline none >>= fun line =>
              WarcParser.versionLoop fuel line errs' (off.map (· + l.length))) s = .ok v s' →
            ∃ pre last ls, Skipped pre ∧ pre ++ [last] = l :: ls ∧ Lines s ls s' ∧
              (errors ++ junkErrs pre).length ≤ badLines ∧
              ((∃ p, vspec last = some p ∧ v = .found (vmatch p) (errors ++ junkErrs pre)
                  (off.map fun o => o + lenSum pre + p.1.length)) ∨
               (last ≠ [] ∧ vspec last = none ∧ isBlank last = false ∧
                  (errors ++ junkErrs pre).length = badLines ∧
                  v = .giveUp (errors ++ junkErrs (pre ++ [last]) ++ [Err.tooMany])
                    (off.map fun o => o + lenSum (pre ++ [last]))) ∨
               (last = [] ∧ v = .eof (errors ++ junkErrs pre) (off.map fun o => o + lenSum pre))) := by
          intro errs' he hle h
          simp only [M.bind_apply] at h
          cases hr : Stream.readline none s with
          | hang => simp [hr] at h
          | raise e s1 => simp [hr] at h
          | ok l2 s1 =>
            simp only [hr] at h
            obtain ⟨pre, last, ls, h1, h2, h3, h4, h5⟩ := ih _ _ _ _ hle h
            have hj : ∀ x, junkErrs (l :: x) = junkErrs [l] ++ junkErrs x := by
              intro x; by_cases hb : isBlank l = true
              · simp [junkErrs, hb]
              · simp [junkErrs, hb]
            have hassoc : ∀ x, errors ++ junkErrs (l :: x) = errs' ++ junkErrs x := by
              intro x; rw [hj, he]; simp
            refine ⟨l :: pre, last, l2 :: ls, ?_, by simp [h2], .cons hr h3, ?_, ?_⟩
            · intro x hx
              rcases List.mem_cons.1 hx with rfl | hx
              · exact ⟨hne, hv⟩
              · exact h1 x hx
            · rw [hassoc]; exact h4
            · rcases h5 with ⟨p, hp, rfl⟩ | ⟨a, b, c, d, rfl⟩ | ⟨a, rfl⟩
              · refine Or.inl ⟨p, hp, ?_⟩
                rw [hassoc]; cases off <;> simp [Nat.add_assoc]
              · refine Or.inr (Or.inl ⟨a, b, c, by rw [hassoc]; exact d, ?_⟩)
                rw [List.cons_append, hassoc]; cases off <;> simp [Nat.add_assoc]
              · refine Or.inr (Or.inr ⟨a, ?_⟩)
                rw [hassoc]; cases off <;> simp [Nat.add_assoc]
        by_cases hb : isBlank l = true
        · rw [if_pos hb] at h
          exact next errors (by simp [junkErrs, hb]) hcount0 h
        · rw [if_neg hb] at h
          split at h
          · rename_i hgt
            simp only [M.pure_apply, Res.ok.injEq] at h
            obtain ⟨rfl, rfl⟩ := h
            refine ⟨[], l, [], by simp [Skipped], rfl, .nil _, by simpa using hcount0,
              Or.inr (Or.inl ⟨hne, hv, by simpa using hb, ?_, ?_⟩)⟩
            · simp at hgt ⊢; omega
            · simp [junkErrs, hb]
          · rename_i hle
            exact next _ (by simp [junkErrs, hb]) (by omega) h

theorem versionLoop_no_hang (fuel : Nat) (l : Bytes) (errors : List Err) (off : Option Nat)
    (s : Stream) (hf : s.fh.rest.length + 1 < fuel) :
    WarcParser.versionLoop fuel l errors off s ≠ .hang := by
  induction fuel generalizing l errors off s with
  | zero => omega
  | succ fuel ih =>
    rw [WarcParser.versionLoop]
    by_cases hne : l = []
    · rw [if_pos hne]; simp
    · rw [if_neg hne]
      have next : ∀ errs' off', (Stream.readline none >>= fun line =>
          WarcParser.versionLoop fuel line errs' off') s ≠ .hang := by
        intro errs' off'
        simp only [M.bind_apply]
        cases hr : Stream.readline none s with
        | hang => exact absurd hr (readline_no_hang _ _)
        | raise e s1 => simp
        | ok l2 s1 =>
          simp only
          by_cases h2 : l2 = []
          · subst h2
            cases fuel with
            | zero => omega
            | succ fuel => simp [WarcParser.versionLoop]
          · apply ih
            have := (Lines.cons hr (.nil _)).rest_length (by simpa using h2)
            simp at this; omega
      cases pmatch versionRx l with
      | some mt => simp
      | none =>
        simp only
        by_cases hb : rxTest nlRx l = true
        · rw [if_pos hb]; exact next _ _
        · rw [if_neg hb]
          by_cases hg : badLines < (errors ++ [Err.ignoredLine l]).length
          · rw [if_pos hg]; simp
          · rw [if_neg hg]; exact next _ _

/-! ### the whole parser -/

/-- the record built from a version match, errors and headers -/
def warcRec (version : Bytes) (st : WarcParser.HState) : Rec :=
  { cls := .warc, version := version, headers := st.headers, errors := st.errors, content := none,
    cfile := .stream, cfileValid := true }

/-- the errors of a version line with parts (prefix, version, number, newline) -/
def versionErrs (p : Bytes × Bytes × Bytes × Bytes) : List Err :=
  (if p.2.2.2 ≠ CRLF then [Err.badNlVersion p.2.2.2] else []) ++
  (if p.1 ≠ [] then [Err.badPrefix p.1] else [])

theorem versionErrors_known (p) (errors : List Err) (h : p.2.2.1 ∈ knownVersions) :
    WarcParser.versionErrors (vmatch p) errors = some (errors ++ versionErrs p) := by
  have hc : knownVersions.contains p.2.2.1 = true := by simpa using h
  simp only [WarcParser.versionErrors, vmatch, vgrp_nl, vgrp_number, vgrp_prefix, hc, versionErrs]
  by_cases h1 : p.2.2.2 = CRLF <;> by_cases h2 : p.1 = [] <;> simp [h1, h2]

theorem versionErrors_unknown (p) (errors : List Err) (h : p.2.2.1 ∉ knownVersions) :
    WarcParser.versionErrors (vmatch p) errors = none := by
  have hc : knownVersions.contains p.2.2.1 = false := by simpa using h
  simp only [WarcParser.versionErrors, vmatch, vgrp_number, hc]; rfl

/-- initial state of the header loop -/
def hinit (errors : List Err) : WarcParser.HState := ⟨[], errors, 0⟩

theorem block_length_le {items fin s s'} (h : Lines s (blockHead items fin :: blockTail items fin) s')
    (hb : Block items fin) : items.length ≤ s.fh.rest.length := by
  have : ∃ pre, blockHead items fin :: blockTail items fin = pre ++ [fin] ∧
      items.length ≤ pre.length ∧ ∀ l ∈ pre, l ≠ [] := by
    clear h
    induction hb with
    | nil => exact ⟨[], by simp [blockHead, blockTail], by simp, by simp⟩
    | @cons it items fin hit hn hb ih =>
      obtain ⟨pre, h1, h2, h3⟩ := ih
      refine ⟨it.line :: it.contLines ++ pre, ?_, ?_, ?_⟩
      · show it.line :: (it.contLines ++ (blockHead items fin :: blockTail items fin)) = _
        rw [h1]; simp
      · simp; omega
      · intro l hl
        simp only [List.cons_append, List.mem_cons, List.mem_append, HItem.contLines, List.mem_map] at hl
        rcases hl with rfl | ⟨c, hc, rfl⟩ | hl
        · exact hit.ne
        · exact fspec_ne_nil (hit.conts c hc)
        · exact h3 l hl
  obtain ⟨pre, h1, h2, h3⟩ := this
  rw [h1] at h
  obtain ⟨s1, ha, _⟩ := h.split
  have := ha.rest_length h3
  omega

/-- forward: skipped lines, a version line, a header block -/
theorem parse_forward (off : Option Nat) (pre : List Bytes) (vl : Bytes) (p) (hpre : Skipped pre)
    (hv : vspec vl = some p) (hknown : p.2.2.1 ∈ knownVersions)
    (hcount : (junkErrs pre).length ≤ badLines) (items : List HItem) (fin : Bytes)
    (hb : Block items fin) (s s' : Stream) (l : Bytes) (ls : List Bytes)
    (hl : pre ++ vl :: blockHead items fin :: blockTail items fin = l :: ls)
    (h : Lines s ls s') :
    WarcParser.parse off l s =
      (let st := items.foldl HItem.apply (hinit (junkErrs pre ++ versionErrs p))
       .ok (some (warcRec p.2.1 st), [], off.map fun o => o + lenSum pre + p.1.length)
        { s' with eoc := some st.contentLength }) := by
  obtain ⟨ls1, hls1⟩ : ∃ ls1, pre ++ [vl] = l :: ls1 := by
    cases pre with
    | nil => simp at hl; exact ⟨[], by simp [hl.1]⟩
    | cons a pre => simp at hl; exact ⟨pre ++ [vl], by simp [hl.1]⟩
  have hls : ls = ls1 ++ blockHead items fin :: blockTail items fin := by
    have : (pre ++ [vl]) ++ (blockHead items fin :: blockTail items fin) = l :: ls := by simpa using hl
    rw [hls1] at this
    simpa using this.symm
  rw [hls] at h
  obtain ⟨s1, h1, h2⟩ := h.split
  have hflen : pre.length < s.fh.rest.length + 2 := by
    cases pre with
    | nil => simp
    | cons a pre =>
      simp only [List.cons_append, List.cons.injEq] at hls1
      obtain ⟨rfl, rfl⟩ := hls1
      obtain ⟨_, ha, _⟩ := h1.split
      have := ha.rest_length (fun l hl => (hpre l (by simp [hl])).1)
      simp at this ⊢; omega
  simp only [WarcParser.parse, M.bind_apply, M.get_apply]
  rw [versionLoop_found pre vl p hpre hv s s1 [] off (by simpa using hcount) l ls1 hls1 h1 _ hflen]
  simp only [List.nil_append, versionErrors_known p _ hknown, M.bind_apply, M.get_apply]
  have hitems := block_length_le h2 hb
  cases h2 with
  | cons h21 h22 =>
    simp only [h21]
    rw [headerLoop_forward items fin hb _ s' _ h22 _ (by omega)]
    simp [warcRec, vmatch, hinit]

/-- backward: a record came out -/
theorem parse_record_inv (off : Option Nat) (l : Bytes) (s s' : Stream) (r : Rec) (es : List Err)
    (off' : Option Nat) (h : WarcParser.parse off l s = .ok (some r, es, off') s') :
    ∃ pre vl p items fin ls s1, Skipped pre ∧ vspec vl = some p ∧ p.2.2.1 ∈ knownVersions ∧
      (junkErrs pre).length ≤ badLines ∧ Block items fin ∧
      pre ++ vl :: blockHead items fin :: blockTail items fin = l :: ls ∧ Lines s ls s1 ∧
      (let st := items.foldl HItem.apply (hinit (junkErrs pre ++ versionErrs p))
       r = warcRec p.2.1 st ∧ s' = { s1 with eoc := some st.contentLength }) ∧
      off' = (off.map fun o => o + lenSum pre + p.1.length) ∧ es = [] := by
  simp only [WarcParser.parse, M.bind_apply, M.get_apply] at h
  cases hvl : WarcParser.versionLoop (s.fh.rest.length + 2) l [] off s with
  | hang => simp [hvl] at h
  | raise e s1 => simp [hvl] at h
  | ok v s1 =>
    simp only [hvl] at h
    obtain ⟨pre, last, ls, h1, h2, h3, h4, h5⟩ := versionLoop_inv _ _ _ _ _ _ _ (by simp [badLines]) hvl
    rcases h5 with ⟨p, hp, rfl⟩ | ⟨a, b, c, d, rfl⟩ | ⟨a, rfl⟩
    · simp only [List.nil_append] at h h4
      by_cases hk : p.2.2.1 ∈ knownVersions
      · simp only [versionErrors_known p _ hk, M.bind_apply, M.get_apply] at h
        cases hr : Stream.readline none s1 with
        | hang => simp [hr] at h
        | raise e s2 => simp [hr] at h
        | ok l2 s2 =>
          simp only [hr] at h
          cases hh : WarcParser.headerLoop (s1.fh.rest.length + 2) l2
              { headers := [], errors := junkErrs pre ++ versionErrs p, contentLength := 0 } s2 with
          | hang => simp [hh] at h
          | raise e s3 => simp [hh] at h
          | ok st s3 =>
            simp only [hh, M.modify_apply, M.pure_apply, Res.ok.injEq, Prod.mk.injEq,
              Option.some.injEq] at h
            obtain ⟨⟨rfl, rfl, rfl⟩, rfl⟩ := h
            obtain ⟨items, fin, hb, hhead, hlines, hst⟩ := headerLoop_inv _ _ _ _ _ _ hh
            refine ⟨pre, last, p, items, fin, ls ++ l2 :: blockTail items fin, s3, h1, hp, hk, h4, hb,
              ?_, ?_, ?_, rfl, rfl⟩
            · rw [hhead, List.append_cons, h2]; simp
            · exact h3.append (.cons hr hlines)
            · simp only
              rw [hst]
              exact ⟨by simp [warcRec, vmatch, hinit], by simp [hinit]⟩
      · simp [versionErrors_unknown p _ hk] at h
    · simp at h
    · simp at h

/-- backward: no record came out -/
theorem parse_none_inv (off : Option Nat) (l : Bytes) (s s' : Stream) (es : List Err)
    (off' : Option Nat) (h : WarcParser.parse off l s = .ok (none, es, off') s') :
    ∃ pre last ls, Skipped pre ∧ pre ++ [last] = l :: ls ∧ Lines s ls s' ∧
      (junkErrs pre).length ≤ badLines ∧
      ((last ≠ [] ∧ vspec last = none ∧ isBlank last = false ∧ (junkErrs pre).length = badLines ∧
          es = junkErrs (pre ++ [last]) ++ [Err.tooMany] ∧
          off' = off.map fun o => o + lenSum (pre ++ [last])) ∨
       (last = [] ∧ es = junkErrs pre ∧ off' = off.map fun o => o + lenSum pre)) := by
  simp only [WarcParser.parse, M.bind_apply, M.get_apply] at h
  cases hvl : WarcParser.versionLoop (s.fh.rest.length + 2) l [] off s with
  | hang => simp [hvl] at h
  | raise e s1 => simp [hvl] at h
  | ok v s1 =>
    simp only [hvl] at h
    obtain ⟨pre, last, ls, h1, h2, h3, h4, h5⟩ := versionLoop_inv _ _ _ _ _ _ _ (by simp [badLines]) hvl
    rcases h5 with ⟨p, hp, rfl⟩ | ⟨a, b, c, d, rfl⟩ | ⟨a, rfl⟩
    · simp only [List.nil_append] at h h4
      by_cases hk : p.2.2.1 ∈ knownVersions
      · simp only [versionErrors_known p _ hk, M.bind_apply, M.get_apply] at h
        cases hr : Stream.readline none s1 with
        | hang => simp [hr] at h
        | raise e s2 => simp [hr] at h
        | ok l2 s2 =>
          simp only [hr] at h
          cases hh : WarcParser.headerLoop (s1.fh.rest.length + 2) l2
              { headers := [], errors := junkErrs pre ++ versionErrs p, contentLength := 0 } s2 with
          | hang => simp [hh] at h
          | raise e s3 => simp [hh] at h
          | ok st s3 => simp [hh] at h
      · simp [versionErrors_unknown p _ hk] at h
    · simp only [M.pure_apply, Res.ok.injEq, Prod.mk.injEq, List.nil_append, true_and] at h
      obtain ⟨⟨rfl, rfl⟩, rfl⟩ := h
      exact ⟨pre, last, ls, h1, h2, h3, by simpa using h4, Or.inl ⟨a, b, c, by simpa using d, rfl, rfl⟩⟩
    · simp only [M.pure_apply, Res.ok.injEq, Prod.mk.injEq, List.nil_append, true_and] at h
      obtain ⟨⟨rfl, rfl⟩, rfl⟩ := h
      exact ⟨pre, last, ls, h1, h2, h3, by simpa using h4, Or.inr ⟨a, rfl, rfl⟩⟩

end Warc
