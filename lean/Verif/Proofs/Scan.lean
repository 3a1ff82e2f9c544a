import Verif.Proofs.Write
import Verif.Spec.Scan
/-
  Whole-archive scans.
-/
set_option linter.all false
namespace Warc
open Rx Stream Spec

namespace Stream

/-- more fuel does not change the outcome of the terminator loop -/
theorem blankLoop_mono (offsets : Bool) (fuel k : Nat) (s : Stream)
    (h : blankLoop offsets fuel s ≠ .hang) : blankLoop offsets (fuel + k) s = blankLoop offsets fuel s := by
  induction fuel generalizing s with
  | zero => simp [blankLoop] at h
  | succ fuel ih =>
    rw [Nat.succ_add]
    simp only [blankLoop, M.bind_apply, M.get_apply] at h ⊢
    cases hr : onFile (File.readline none) s with
    | hang => rfl
    | raise e s1 => rfl
    | ok l s1 =>
      simp only [hr] at h ⊢
      split
      · rename_i ht
        rw [if_pos ht] at h
        exact ih s1 h
      · rfl

/-- terminator lines are skipped -/
theorem blankLoop_skip (offsets : Bool) (fuel : Nat) (T more : Bytes) (s : Stream)
    (hT : ∀ c ∈ T, isCRLF c = true) (hlast : T = [] ∨ T.getLast? = some 10)
    (hr : s.fh.rest = T ++ more) :
    ∃ k, k ≤ T.length ∧ blankLoop offsets (fuel + k) s = blankLoop offsets fuel (s.adv T.length) := by
  generalize hn : T.length = n
  induction n using Nat.strongRecOn generalizing T s with
  | _ n ih =>
    by_cases hT0 : T = []
    · subst hT0; simp at hn; subst hn
      exact ⟨0, Nat.le_refl _, rfl⟩
    · have h10 : (10 : UInt8) ∈ T := by
        rcases hlast with h | h
        · exact absurd h hT0
        · exact List.mem_of_getLast? h
      obtain ⟨u, T', hx, hu⟩ := List.eq_append_cons_of_mem h10
      have hlen : T'.length < n := by rw [← hn, hx]; simp; omega
      have hlast' : T' = [] ∨ T'.getLast? = some 10 := by
        by_cases h' : T' = []
        · exact Or.inl h'
        · right
          rcases hlast with h | h
          · exact absurd h hT0
          · rw [hx] at h
            cases T' with
            | nil => exact absurd rfl h'
            | cons a b => simpa [List.getLast?_append, List.getLast?_cons_cons] using h
      obtain ⟨k, hk, hb⟩ := ih T'.length hlen T' (s.adv (u.length + 1))
        (fun c hc => hT c (by rw [hx]; simp [hc])) hlast'
        (by rw [adv_fh, File.advance_rest, hr, hx]; simp [List.drop_append]) rfl
      refine ⟨k + 1, by omega, ?_⟩
      rw [← Nat.add_assoc]
      simp only [blankLoop, M.bind_apply, M.get_apply]
      rw [onFile_readline_line s u (T' ++ more) hu (by rw [hr, hx]; simp)]
      have hterm : isTerm (u ++ [10]) = true := by
        simp only [isTerm, List.all_append, List.all_cons, List.all_nil, Bool.and_true]
        have : u.all isCRLF = true := List.all_eq_true.2 (fun c hc => hT c (by rw [hx]; simp [hc]))
        simp [this, isCRLF]
      simp only [blankLineRx_isTerm, hterm, if_true]
      rw [hb, adv_adv]
      congr 2
      rw [← hn, hx]; simp; omega

end Stream

theorem terminator_isCRLF {T : Bytes} (hT : Terminator T) : ∀ c ∈ T, isCRLF c = true := fun c hc => by
  rcases hT.1 c hc with h | h <;> simp [h, isCRLF]

/-- reading a record at a terminator is reading it behind the terminator: for every kind of stream
and parser, and whatever follows -/
theorem readRecord_terminator (offs : Bool) (T more : Bytes) (s : Stream) (he : s.eoc = none)
    (hT : Terminator T) (hr : s.fh.rest = T ++ more) :
    readRecord offs s = readRecord offs (s.adv T.length) := by
  have hset : ∀ s : Stream, s.eoc = none → { s with eoc := none } = s := by
    intro s he; obtain ⟨fh, eoc, kind, parser⟩ := s; simp at he; subst he; rfl
  have hlen : (s.adv T.length).fh.rest.length + T.length = s.fh.rest.length := by
    rw [adv_fh, File.advance_rest, hr]; simp [Nat.add_comm]
  have hb : ∀ o, blankLoop o (s.fh.rest.length + 2) s =
      blankLoop o ((s.adv T.length).fh.rest.length + 2) (s.adv T.length) := by
    intro o
    obtain ⟨k, hk, h⟩ := blankLoop_skip o ((s.adv T.length).fh.rest.length + 2) T more s
      (terminator_isCRLF hT) hT.2 hr
    have hne := blankLoop_no_hang o ((s.adv T.length).fh.rest.length + 2) (s.adv T.length) (by omega)
    rw [← h] at hne
    rw [← h, ← blankLoop_mono o _ (T.length - k) s hne]
    congr 1
    omega
  have h2 : (s.adv T.length).eoc = none := he
  simp only [readRecord, M.bind_apply, M.get_apply, he, h2, M.pure_apply, M.modify_apply]
  rw [hset s he, hset (s.adv T.length) he]
  cases hkind : s.kind <;> simp only [adv_kind, hkind, M.bind_apply, hb]

/-- at the end of a healthy file: the final entry -/
theorem readRecord_eof (offs : Bool) (s : Stream) (hk : s.kind ≠ .gzipFile) (he : s.eoc = none)
    (hf : s.fh.fault = none) (hr : s.fh.rest = []) :
    readRecord offs s = .ok ⟨reported s.kind offs s.fh.pos, none, []⟩ s := by
  have hset : { s with eoc := none } = s := by
    obtain ⟨fh, eoc, kind, parser⟩ := s; simp at he; subst he; rfl
  have hbl : ∀ o, blankLoop o (s.fh.rest.length + 2) s =
      .ok (if o then some s.fh.pos else none, []) s := by
    intro o
    have := blankLoop_spec o (s.fh.rest.length + 2) [] [] s (by simp) (Or.inl rfl) hr
      (by simp [File.firstLine, isTerm]) (Or.inl hf) (by simp)
    simpa [File.firstLine] using this
  have hpw : ∀ o, parseWith o [] s = .ok (none, [], o) s := by
    intro o
    unfold parseWith
    cases hpp : s.parser with
    | warc =>
      simp [hpp, WarcParser.parse, WarcParser.versionLoop, hr]
    | arc st =>
      have : rstrip [] = [] := rfl
      simp [hpp, ArcParser.parse, ArcParser.skipBlank, hr, this]
    | mixed st =>
      simp [hpp, MixedParser.parse, hr]
  simp only [readRecord, M.bind_apply, M.get_apply, he, M.pure_apply, M.modify_apply, hset]
  cases hkind : s.kind with
  | plain => simp only [M.bind_apply, hbl, hpw]; simp [reported]
  | gzipRecord => simp only [M.bind_apply, hbl, hpw]; simp [reported]
  | gzipFile => exact absurd hkind hk

theorem headBytes_length_pos (v : Bytes) (hs : List Header) : 0 < (headBytes v hs).length := by
  simp [headBytes]; omega

/-- one well formed record, its payload consumed in any way, then the next step of the scan -/
theorem scan_step (offs : Bool) (plan : Nat → List ReadOp) (fuel i : Nat) (s : Stream) (r : R)
    (T more : Bytes) (hk : s.kind ≠ .gzipFile) (he : s.eoc = none) (hok : r.Ok) (hT : Terminator T)
    (hm : WarcMode s (r.version ++ CRLF)) (hr : s.fh.rest = r.core ++ T ++ more) :
    scan offs plan (fuel + 1) i s =
      (let q := scan offs plan fuel (i + 1) (s.adv (r.core ++ T).length)
       (⟨⟨reported s.kind offs s.fh.pos, some (parsed r.version r.headers), []⟩,
          results (plan i) r.body⟩ :: q.1, q.2)) := by
  have hhead := readRecord_head offs [] r.version r.headers (r.body ++ T ++ more) s hk he
    ⟨by simp, Or.inl rfl⟩ hok.version hok.headers hm (by rw [hr]; simp [R.core])
  rw [hok.length] at hhead
  simp only [List.length_nil, Nat.zero_add, Nat.add_zero] at hhead
  simp only [scan, hhead]
  have hrest : (s.adv (headBytes r.version r.headers).length).fh.rest = r.body ++ T ++ more := by
    rw [adv_fh, File.advance_rest, hr]; simp [R.core]
  have hlen : r.body.length ≤ (s.adv (headBytes r.version r.headers).length).fh.rest.length := by
    rw [hrest]; simp
  have htake : (s.adv (headBytes r.version r.headers).length).fh.rest.take r.body.length = r.body := by
    rw [hrest]; simp
  generalize hs1 : ({ s.adv (headBytes r.version r.headers).length with
      eoc := some (r.body.length : Int) } : Stream) = s1
  have hs1fh : s1.fh = (s.adv (headBytes r.version r.headers).length).fh := by rw [← hs1]
  have hs1e : s1.eoc = some (r.body.length : Int) := by rw [← hs1]
  have hrun := runOps_ok (plan i) s1 r.body.length hs1e (Or.inl (by rw [hs1fh]; exact hlen))
  rw [hs1fh, htake] at hrun
  simp only [hrun]
  have hnext := readRecord_after_ops offs (plan i) s1 r.body.length hs1e (by rw [hs1fh]; exact hlen) _ _ hrun
  have hskip := readRecord_skip offs r.body.length s1 hs1e (by rw [hs1fh]; exact hlen)
  have hs2 : ({ s1.adv r.body.length with eoc := none } : Stream) = s.adv r.core.length := by
    rw [← hs1]
    obtain ⟨fh, eoc, kind, parser⟩ := s
    simp at he; subst he
    simp [adv, R.core]
  have hterm := readRecord_terminator offs T more (s.adv r.core.length) he hT (by
    rw [adv_fh, File.advance_rest, hr]; simp)
  rw [hskip, hs2, hterm, adv_adv] at hnext
  have hcong : ∀ s a, readRecord offs s = readRecord offs a → scan offs plan fuel (i + 1) s = scan offs plan fuel (i + 1) a := by
    intro s a h
    cases fuel with
    | zero => rfl
    | succ fuel => simp only [scan, h]
  rw [hcong _ _ hnext]
  simp

/-- a scan over any well formed archive that is followed by anything -/
theorem scan_archive (offs : Bool) (plan : Nat → List ReadOp) (fuel i : Nat) (s : Stream)
    (rs : List RT) (more : Bytes) (hk : s.kind ≠ .gzipFile) (he : s.eoc = none) (hok : OkT rs)
    (hm : ∀ r ∈ rs, WarcMode s (r.1.version ++ CRLF)) (hr : s.fh.rest = archiveT rs ++ more) :
    scan offs plan (rs.length + fuel) i s =
      (let q := scan offs plan fuel (i + rs.length) (s.adv (archiveT rs).length)
       (expect (reported s.kind offs) plan i s.fh.pos rs ++ q.1, q.2)) := by
  induction rs generalizing i s with
  | nil => simp [expect, archiveT]
  | cons r rs ih =>
    have hr' : s.fh.rest = r.1.core ++ r.2 ++ (archiveT rs ++ more) := by rw [hr]; simp [archiveT]
    have h1 := scan_step offs plan (rs.length + fuel) i s r.1 r.2 (archiveT rs ++ more) hk he
      (hok r (by simp)).1 (hok r (by simp)).2 (hm r (by simp)) hr'
    have h2 := ih (i + 1) (s.adv (r.1.core ++ r.2).length) hk he (fun x hx => hok x (by simp [hx]))
      (fun x hx => hm x (by simp [hx])) (by
        rw [adv_fh, File.advance_rest, hr', List.drop_left])
    rw [show (r :: rs).length + fuel = rs.length + fuel + 1 by simp; omega, h1, h2]
    have hA : archiveT (r :: rs) = (r.1.core ++ r.2) ++ archiveT rs := by simp [archiveT]
    simp only [expect, List.length_cons, adv_fh, File.advance_pos, adv_kind, List.cons_append,
      adv_adv, hA, List.length_append (as := r.1.core ++ r.2)]
    rw [show i + 1 + rs.length = i + (rs.length + 1) by omega]

/-- the end of the scan -/
theorem scan_eof (offs : Bool) (plan : Nat → List ReadOp) (fuel i : Nat) (s : Stream)
    (hk : s.kind ≠ .gzipFile) (he : s.eoc = none) (hf : s.fh.fault = none) (hr : s.fh.rest = []) :
    scan offs plan (fuel + 1) i s = ([⟨⟨reported s.kind offs s.fh.pos, none, []⟩, []⟩], .done) := by
  simp [scan, readRecord_eof offs s hk he hf hr]

/-- a complete scan of a well formed archive -/
theorem scan_complete (offs : Bool) (plan : Nat → List ReadOp) (fuel i : Nat) (s : Stream)
    (T : Bytes) (rs : List RT) (hk : s.kind ≠ .gzipFile) (he : s.eoc = none)
    (hf : s.fh.fault = none) (hT : Terminator T) (hok : OkT rs)
    (hm : ∀ r ∈ rs, WarcMode s (r.1.version ++ CRLF)) (hr : s.fh.rest = T ++ archiveT rs)
    (hfuel : rs.length < fuel) :
    scan offs plan fuel i s =
      (expect (reported s.kind offs) plan i (s.fh.pos + T.length) rs ++
        [⟨⟨reported s.kind offs (s.fh.pos + T.length + (archiveT rs).length), none, []⟩, []⟩], .done) := by
  obtain ⟨fuel, rfl⟩ : ∃ k, fuel = rs.length + (k + 1) := ⟨fuel - rs.length - 1, by omega⟩
  have h0 : scan offs plan (rs.length + (fuel + 1)) i s =
      scan offs plan (rs.length + (fuel + 1)) i (s.adv T.length) := by
    rw [← Nat.add_assoc]
    simp only [scan, readRecord_terminator offs T (archiveT rs) s he hT hr]
  rw [h0, scan_archive offs plan (fuel + 1) i (s.adv T.length) rs [] hk he hok hm (by
    rw [adv_fh, File.advance_rest, hr]; simp)]
  rw [scan_eof offs plan fuel _ ((s.adv T.length).adv (archiveT rs).length) hk he hf (by
    rw [adv_adv, adv_fh, File.advance_rest, hr, ← List.length_append]; simp)]
  simp [Nat.add_assoc]

end Warc
