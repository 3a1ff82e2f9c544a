import Verif.Proofs.Shift
import Verif.Proofs.Grow
import Verif.Proofs.Reread
import Verif.Spec.Append
/-
  Where one file ends and another begins: looking for the next record from inside the blank lines at the end of a file.
-/
set_option linter.all false
namespace Warc
open Rx Stream Spec

/-- a stream between records of a WARC file -/
structure Between (t : Stream) : Prop where
  eoc : t.eoc = none
  parser : t.parser = .warc
  fault : t.fh.fault = none
  kind : t.kind ≠ .gzipFile

theorem Between.adv {t : Stream} (h : Between t) (n : Nat) : Between (t.adv n) := ⟨h.eoc, h.parser, h.fault, h.kind⟩

/-- read a line and give it to the parser, without the loop over blank lines -/
def direct (offs : Bool) (t : Stream) : Res Stream Entry :=
  let line := File.firstLine t.fh.rest
  match WarcParser.parse (if offs && t.kind == .plain then some t.fh.pos else none) line (t.adv line.length) with
  | .ok (r, es, o) s => .ok ⟨if t.kind = .plain then o else none, r, es⟩ s
  | .raise e s => .raise e s
  | .hang => .hang

theorem firstLine_ne {x : Bytes} (h : x ≠ []) : File.firstLine x ≠ [] := by
  cases x with
  | nil => exact absurd rfl h
  | cons c cs => simp only [File.firstLine]; by_cases hc : (c == 10) = true <;> simp [hc]

theorem firstLine_pos {x : Bytes} (h : x ≠ []) : 0 < (File.firstLine x).length := List.length_pos_iff.2 (firstLine_ne h)

/-- enough fuel is enough -/
theorem versionLoop_fuel (n m : Nat) (u : Stream) (line : Bytes) (es : List Err) (o : Option Nat) (he : u.eoc = none) (hf : u.fh.fault = none)
    (hn : u.fh.rest.length + 2 ≤ n) (hm : u.fh.rest.length + 2 ≤ m) :
    WarcParser.versionLoop n line es o u = WarcParser.versionLoop m line es o u := by
  induction n generalizing m u line es o with
  | zero => omega
  | succ n ih =>
    obtain ⟨m, rfl⟩ : ∃ k, m = k + 1 := ⟨m - 1, by omega⟩
    have next : ∀ es o, (Stream.readline none >>= fun l => WarcParser.versionLoop n l es o) u =
        (Stream.readline none >>= fun l => WarcParser.versionLoop m l es o) u := by
      intro es o
      simp only [M.bind_apply, readline_ok u he (Or.inl hf)]
      by_cases hr : u.fh.rest = []
      · have hl : File.firstLine u.fh.rest = [] := by rw [hr]; rfl
        obtain ⟨n', rfl⟩ : ∃ k, n = k + 1 := ⟨n - 1, by omega⟩
        obtain ⟨m', rfl⟩ : ∃ k, m = k + 1 := ⟨m - 1, by omega⟩
        simp [hl, WarcParser.versionLoop]
      · have := firstLine_pos hr
        have h2 := File.firstLine_length_le u.fh.rest
        exact ih m _ _ _ _ he hf (by simp only [adv_fh, File.advance_rest, List.length_drop]; omega)
          (by simp only [adv_fh, File.advance_rest, List.length_drop]; omega)
    simp only [WarcParser.versionLoop]
    by_cases h1 : line = []
    · simp [h1]
    · simp only [if_neg h1]
      cases pmatch versionRx line with
      | some mt => rfl
      | none =>
        simp only
        by_cases h2 : rxTest nlRx line = true
        · simp only [if_pos h2]; exact next _ _
        · simp only [if_neg h2]
          by_cases h3 : badLines < (es ++ [Err.ignoredLine line]).length
          · simp only [if_pos h3]
          · simp only [if_neg h3]; exact next _ _

theorem blankLoop_fuel (offs : Bool) (n m : Nat) (u : Stream) (hf : u.fh.fault = none)
    (hn : u.fh.rest.length + 1 ≤ n) (hm : u.fh.rest.length + 1 ≤ m) :
    blankLoop offs n u = blankLoop offs m u := by
  induction n generalizing m u with
  | zero => omega
  | succ n ih =>
    obtain ⟨m, rfl⟩ : ∃ k, m = k + 1 := ⟨m - 1, by omega⟩
    simp only [blankLoop, M.bind_apply, M.get_apply, onFile_readline_ok u (Or.inl hf)]
    by_cases h : rxTest blankLineRx (File.firstLine u.fh.rest) = true
    · simp only [if_pos h]
      have hr : u.fh.rest ≠ [] := by
        intro hr
        rw [hr, blankLineRx_isTerm] at h
        simp [File.firstLine, isTerm] at h
      have := firstLine_pos hr
      have h2 := File.firstLine_length_le u.fh.rest
      exact ih m _ hf (by simp only [adv_fh, File.advance_rest, List.length_drop]; omega)
        (by simp only [adv_fh, File.advance_rest, List.length_drop]; omega)
    · simp only [if_neg h]

/-- a blank line makes no difference -/
theorem direct_blank (offs : Bool) (t : Stream) (ht : Between t) (hr : t.fh.rest ≠ []) (hv : vspec (File.firstLine t.fh.rest) = none)
    (hb : isBlank (File.firstLine t.fh.rest) = true) :
    direct offs t = direct offs (t.adv (File.firstLine t.fh.rest).length) := by
  have hne := firstLine_ne hr
  have hle := File.firstLine_length_le t.fh.rest
  have hpos := firstLine_pos hr
  generalize hl : File.firstLine t.fh.rest = l at *
  have hrest : (t.adv l.length).fh.rest = t.fh.rest.drop l.length := by simp
  simp only [direct, hl]
  generalize ho : (if offs && t.kind == .plain then some t.fh.pos else none) = o
  have ho' : (if offs && (t.adv l.length).kind == .plain then some (t.adv l.length).fh.pos else none) = o.map (· + l.length) := by
    rw [← ho]
    simp only [adv_kind, adv_fh, File.advance_pos]
    by_cases h : (offs && t.kind == .plain) = true
    · simp [h]
    · simp [h]
  rw [ho']
  have hkind : (t.adv l.length).kind = t.kind := rfl
  rw [hkind]
  have key : WarcParser.parse o l (t.adv l.length) =
      WarcParser.parse (o.map (· + l.length)) (File.firstLine (t.adv l.length).fh.rest)
        ((t.adv l.length).adv (File.firstLine (t.adv l.length).fh.rest).length) := by
    have hstep : WarcParser.versionLoop ((t.adv l.length).fh.rest.length + 2) l [] o (t.adv l.length) =
        WarcParser.versionLoop (((t.adv l.length).adv (File.firstLine (t.adv l.length).fh.rest).length).fh.rest.length + 2)
          (File.firstLine (t.adv l.length).fh.rest) [] (o.map (· + l.length))
          ((t.adv l.length).adv (File.firstLine (t.adv l.length).fh.rest).length) := by
      rw [WarcParser.versionLoop]
      rw [if_neg hne, pmatch_versionRx', hv]
      simp only [Option.map_none]
      rw [if_pos (by rw [nlRx_isBlank]; exact hb)]
      simp only [M.bind_apply, readline_ok (t.adv l.length) ht.eoc (Or.inl ht.fault)]
      by_cases hr2 : (t.adv l.length).fh.rest = []
      · have hl2 : File.firstLine (t.adv l.length).fh.rest = [] := by rw [hr2]; rfl
        rw [hl2]
        simp only [WarcParser.versionLoop, if_true]
      · have h1 := firstLine_pos hr2
        have h2 := File.firstLine_length_le (t.adv l.length).fh.rest
        refine versionLoop_fuel _ _ _ _ _ _ ht.eoc ht.fault ?_ (Nat.le_refl _)
        simp only [adv_fh, File.advance_rest, List.length_drop] at h1 h2 ⊢
        omega
    simp only [WarcParser.parse, M.bind_apply, M.get_apply]
    rw [hstep]
  rw [key]

theorem term_blank {l : Bytes} (h : isTerm l = true) (hl : ∃ x, l = File.firstLine x) : isBlank l = true ∧ vspec l = none ∧ l ≠ [] := by
  have hv : vspec l = none := by
    cases hv : vspec l with
    | none => rfl
    | some p => rw [vspec_not_term hv] at h; cases h
  simp only [isTerm, Bool.and_eq_true] at h
  obtain ⟨x, hx⟩ := hl
  cases l with
  | nil => simp at h
  | cons c cs =>
    refine ⟨?_, hv, by simp⟩
    have hc : isCRLF c = true := by have := h.2; simp only [List.all_cons, Bool.and_eq_true] at this; exact this.1
    by_cases h13 : c = 13
    · subst h13; simp [isBlank]
    · have h10 : c = 10 := by simpa [isCRLF, h13] using hc
      subst h10
      cases x with
      | nil => simp [File.firstLine] at hx
      | cons d ds =>
        simp only [File.firstLine] at hx
        by_cases hd : (d == 10) = true
        · simp only [hd, if_true] at hx
          cases hx; rfl
        · simp only [hd] at hx
          simp only [Bool.false_eq_true, if_false, List.cons.injEq] at hx
          exact absurd (by simp [← hx.1]) hd

/-- the loop over blank lines in front of the WARC parser is redundant -/
theorem readFresh_direct (offs : Bool) (t : Stream) (ht : Between t) : readFresh offs t = direct offs t := by
  have hset : ({ t with eoc := none } : Stream) = t := by
    obtain ⟨fh, eoc, kind, parser⟩ := t; have := ht.eoc; simp at this; subst this; rfl
  suffices H : ∀ n (t : Stream), Between t → t.fh.rest.length ≤ n → readFresh offs t = direct offs t from H _ t ht (Nat.le_refl _)
  intro n
  induction n with
  | zero =>
    intro t ht hn
    have hr : t.fh.rest = [] := List.length_eq_zero_iff.1 (Nat.le_zero.1 hn)
    have hset : ({ t with eoc := none } : Stream) = t := by
      obtain ⟨fh, eoc, kind, parser⟩ := t; have := ht.eoc; simp at this; subst this; rfl
    have hl : File.firstLine t.fh.rest = [] := by rw [hr]; rfl
    have hbl : ∀ o m, blankLoop o (m + 1) t = .ok (if o then some t.fh.tell else none, []) t := by
      intro o m
      simp only [blankLoop, M.bind_apply, M.get_apply, onFile_readline_ok t (Or.inl ht.fault), hl]
      simp only [blankLineRx_isTerm]
      simp [isTerm]
    simp only [readFresh, M.bind_apply, M.modify_apply, M.get_apply, hset, direct, hl, List.length_nil, adv_zero]
    cases hk : t.kind with
    | gzipFile => exact absurd hk ht.kind
    | plain =>
      simp only [M.bind_apply, hbl, parseWith, M.get_apply, ht.parser, File.tell]
      simp
      cases WarcParser.parse (if offs = true then some t.fh.pos else none) [] t <;> rfl
    | gzipRecord =>
      have e : (Kind.gzipRecord == Kind.plain) = false := rfl
      simp only [M.bind_apply, hbl, parseWith, M.get_apply, ht.parser, File.tell, e, Bool.and_false, Bool.false_eq_true, if_false]
      cases WarcParser.parse none [] t <;> rfl
  | succ n ih =>
    intro t ht hn
    have hset : ({ t with eoc := none } : Stream) = t := by
      obtain ⟨fh, eoc, kind, parser⟩ := t; have := ht.eoc; simp at this; subst this; rfl
    have hset2 : ∀ k, ({ t.adv k with eoc := none } : Stream) = t.adv k := by
      intro k
      obtain ⟨fh, eoc, kind, parser⟩ := t; have := ht.eoc; simp at this; subst this; rfl
    by_cases hterm : isTerm (File.firstLine t.fh.rest) = true
    · obtain ⟨hb, hv, hne⟩ := term_blank hterm ⟨_, rfl⟩
      have hr : t.fh.rest ≠ [] := by intro hr; rw [hr] at hne; exact hne rfl
      have hpos := firstLine_pos hr
      have hle := File.firstLine_length_le t.fh.rest
      rw [direct_blank offs t ht hr hv hb]
      rw [← ih _ (ht.adv _) (by simp only [adv_fh, File.advance_rest, List.length_drop]; omega)]
      have hbl : ∀ o, blankLoop o (t.fh.rest.length + 2) t =
          blankLoop o ((t.adv (File.firstLine t.fh.rest).length).fh.rest.length + 2) (t.adv (File.firstLine t.fh.rest).length) := by
        intro o
        rw [blankLoop]
        simp only [M.bind_apply, M.get_apply, onFile_readline_ok t (Or.inl ht.fault)]
        rw [if_pos (by rw [blankLineRx_isTerm]; exact hterm)]
        refine blankLoop_fuel o _ _ _ ht.fault ?_ (by omega)
        simp only [adv_fh, File.advance_rest, List.length_drop]; omega
      simp only [readFresh, M.bind_apply, M.modify_apply, M.get_apply, hset, hset2]
      have hkk : (t.adv (File.firstLine t.fh.rest).length).kind = t.kind := rfl
      rw [hkk]
      cases hk : t.kind with
      | gzipFile => exact absurd hk ht.kind
      | plain => simp only [M.bind_apply, hbl]
      | gzipRecord => simp only [M.bind_apply, hbl]
    · have hbl : ∀ o m, blankLoop o (m + 1) t = .ok (if o then some t.fh.tell else none, File.firstLine t.fh.rest)
          (t.adv (File.firstLine t.fh.rest).length) := by
        intro o m
        simp only [blankLoop, M.bind_apply, M.get_apply, onFile_readline_ok t (Or.inl ht.fault)]
        rw [if_neg (by rw [blankLineRx_isTerm]; exact hterm)]
        rfl
      simp only [readFresh, M.bind_apply, M.modify_apply, M.get_apply, hset, direct]
      cases hk : t.kind with
      | gzipFile => exact absurd hk ht.kind
      | plain =>
        simp only [M.bind_apply, hbl, parseWith, M.get_apply, adv_parser, ht.parser, File.tell]
        simp
        cases WarcParser.parse (if offs = true then some t.fh.pos else none) (File.firstLine t.fh.rest) (t.adv (File.firstLine t.fh.rest).length) <;> rfl
      | gzipRecord =>
        have e : (Kind.gzipRecord == Kind.plain) = false := rfl
        simp only [M.bind_apply, hbl, parseWith, M.get_apply, adv_parser, ht.parser, File.tell, e, Bool.and_false, Bool.false_eq_true, if_false]
        cases WarcParser.parse none (File.firstLine t.fh.rest) (t.adv (File.firstLine t.fh.rest).length) <;> rfl


theorem longer_rest {t : Stream} (B : Bytes) (hp : t.fh.pos ≤ t.fh.data.length) : (longer B t).fh.rest = t.fh.rest ++ B := by
  simp only [longer, File.rest]
  rw [List.drop_append_of_le_length hp]

theorem getLast_app (a : Bytes) {b : Bytes} (h : b ≠ []) : (a ++ b).getLast? = b.getLast? := by
  rw [List.getLast?_append]
  cases hb : b.getLast? with
  | none => exact absurd (List.getLast?_eq_none_iff.1 hb) h
  | some c => rfl

theorem getLast_mem {x : Bytes} (h : x.getLast? = some 10) : 10 ∈ x := List.mem_of_getLast? h

/-- from the blank lines at the end of the file on into what follows -/
theorem direct_junction (offs : Bool) (B : Bytes) (t t' : Stream) (o : Option Nat) (ht : Between t) (hp : t.fh.pos ≤ t.fh.data.length)
    (hlast : t.fh.rest = [] ∨ t.fh.rest.getLast? = some 10) (h : direct offs t = .ok ⟨o, none, []⟩ t') :
    direct offs (longer B t) = direct offs ((longer B t).adv t.fh.rest.length) := by
  suffices H : ∀ n (t : Stream), t.fh.rest.length ≤ n → Between t → t.fh.pos ≤ t.fh.data.length →
      (t.fh.rest = [] ∨ t.fh.rest.getLast? = some 10) → direct offs t = .ok ⟨o, none, []⟩ t' →
      direct offs (longer B t) = direct offs ((longer B t).adv t.fh.rest.length) from H _ t (Nat.le_refl _) ht hp hlast h
  clear h hlast hp ht t
  intro n
  induction n with
  | zero =>
    intro t hn ht hp hlast h
    have hr : t.fh.rest = [] := List.length_eq_zero_iff.1 (Nat.le_zero.1 hn)
    rw [hr]; rfl
  | succ n ih =>
    intro t hn ht hp hlast h
    by_cases hr : t.fh.rest = []
    · rw [hr]; rfl
    · have hl10 : t.fh.rest.getLast? = some 10 := by rcases hlast with h | h; exact absurd h hr; exact h
      have h10 : 10 ∈ t.fh.rest := getLast_mem hl10
      have hne := firstLine_ne hr
      have hpos := firstLine_pos hr
      have hle := File.firstLine_length_le t.fh.rest
      -- the first line is blank
      have hbv : vspec (File.firstLine t.fh.rest) = none ∧ isBlank (File.firstLine t.fh.rest) = true := by
        have h0 := h
        simp only [direct] at h0
        cases hparse : WarcParser.parse (if offs && t.kind == .plain then some t.fh.pos else none) (File.firstLine t.fh.rest)
            (t.adv (File.firstLine t.fh.rest).length) with
        | hang => simp only [hparse] at h0; cases h0
        | raise e s => simp only [hparse] at h0; cases h0
        | ok q s =>
          obtain ⟨r, es, o'⟩ := q
          simp only [hparse, Res.ok.injEq, Entry.mk.injEq] at h0
          obtain ⟨⟨_, rfl, rfl⟩, rfl⟩ := h0
          obtain ⟨pre, last, ls, hsk, hcons, _, _, halt⟩ := parse_none_inv _ _ _ _ _ _ hparse
          rcases halt with ⟨_, _, _, _, hes, _⟩ | ⟨hlast, hes, _⟩
          · simp at hes
          · cases pre with
            | nil =>
              simp only [List.nil_append, List.cons.injEq] at hcons
              rw [hlast] at hcons
              exact absurd hcons.1.symm hne
            | cons a pre =>
              simp only [List.cons_append, List.cons.injEq] at hcons
              obtain ⟨ha, _⟩ := hcons
              subst ha
              refine ⟨(hsk _ (by simp)).2, ?_⟩
              cases hb : isBlank (File.firstLine t.fh.rest) with
              | true => rfl
              | false => rw [junkErrs_cons_junk hb] at hes; simp at hes
      obtain ⟨hv, hb⟩ := hbv
      rw [direct_blank offs t ht hr hv hb] at h
      have hlr := longer_rest (t := t) B hp
      have hfl : File.firstLine (longer B t).fh.rest = File.firstLine t.fh.rest := by
        rw [hlr]; exact firstLine_ext _ _ (firstLine_nl _ h10)
      have hbt : Between (longer B t) := ⟨ht.eoc, ht.parser, ht.fault, ht.kind⟩
      have h1 := direct_blank offs (longer B t) hbt (by rw [hlr]; simp [hr]) (by rw [hfl]; exact hv) (by rw [hfl]; exact hb)
      rw [hfl] at h1
      have hpl : t.fh.rest.length = t.fh.data.length - t.fh.pos := by simp [File.rest]
      have h2 := ih (t.adv (File.firstLine t.fh.rest).length) (by simp only [adv_fh, File.advance_rest, List.length_drop]; omega) (ht.adv _)
        (by simp only [adv_fh, File.advance_pos, File.advance_data]; omega)
        (by
          simp only [adv_fh, File.advance_rest]
          by_cases hd : t.fh.rest.drop (File.firstLine t.fh.rest).length = []
          · exact Or.inl hd
          · refine Or.inr ?_
            have hs : t.fh.rest = t.fh.rest.take (File.firstLine t.fh.rest).length ++ t.fh.rest.drop (File.firstLine t.fh.rest).length :=
              (List.take_append_drop _ _).symm
            rw [hs, getLast_app _ hd] at hl10
            exact hl10) h
      have e1 : longer B (t.adv (File.firstLine t.fh.rest).length) = (longer B t).adv (File.firstLine t.fh.rest).length := rfl
      rw [e1] at h2
      rw [h1, h2, adv_adv]
      congr 2
      simp only [adv_fh, File.advance_rest, List.length_drop]
      omega

theorem at_end (B : Bytes) (t : Stream) (he : t.eoc = none) (hp : t.fh.pos ≤ t.fh.data.length) :
    (longer B t).adv t.fh.rest.length = behind t.fh.data (anew B t) := by
  have hpl : t.fh.rest.length = t.fh.data.length - t.fh.pos := by simp [File.rest]
  obtain ⟨⟨d, p, n, f⟩, eo, ki, pa⟩ := t
  simp only at he hp hpl
  subst he
  simp only [longer, adv, File.advance, behind, anew, Stream.mk.injEq, File.mk.injEq, true_and, and_true]
  omega

/-- Looking for the next record when there is none in the rest of the file: if more follows, it is read as if it stood alone. -/
theorem readFresh_junction (offs : Bool) (B : Bytes) (t t' : Stream) (o : Option Nat) (ht : Between t) (hp : t.fh.pos ≤ t.fh.data.length)
    (hlast : t.fh.rest = [] ∨ t.fh.rest.getLast? = some 10) (h : readFresh offs t = .ok ⟨o, none, []⟩ t') :
    readFresh offs (longer B t) = (readRecord offs (anew B t)).behind t.fh.data (Entry.later t.fh.data.length) := by
  rw [readFresh_direct offs t ht] at h
  have hbt : Between (longer B t) := ⟨ht.eoc, ht.parser, ht.fault, ht.kind⟩
  rw [readFresh_direct offs _ hbt, direct_junction offs B t t' o ht hp hlast h, at_end B t ht.eoc hp]
  have hbf : Between (behind t.fh.data (anew B t)) := ⟨rfl, ht.parser, ht.fault, ht.kind⟩
  rw [← readFresh_direct offs _ hbf, readRecord_fresh]
  have he : (anew B t).eoc = none := rfl
  simp only [he]
  exact late_readFresh offs

theorem skip_longer (B : Bytes) (s s0 : Stream) (hf : s.fh.fault = none) (hp : s.fh.pos ≤ s.fh.data.length) (h : skipToEoc s = .ok () s0) :
    skipToEoc (longer B s) = .ok () (longer B s0) ∧ s0.fh.pos ≤ s0.fh.data.length ∧ SameSrc true s s0 ∧ s0.fh.rest <:+ s.fh.rest := by
  have hlr := longer_rest (t := s) B hp
  have hpl : s.fh.rest.length = s.fh.data.length - s.fh.pos := by simp [File.rest]
  cases he : s.eoc with
  | none => simp [skipToEoc, he] at h
  | some e =>
    have he' : (longer B s).eoc = some e := he
    by_cases hneg : e ≤ 0
    · rw [skipToEoc_neg e s he hneg] at h
      cases h
      exact ⟨skipToEoc_neg e _ he' hneg, hp, SameSrc.refl _, List.suffix_refl _⟩
    · obtain ⟨m, rfl⟩ : ∃ m : Nat, e = (m : Int) := ⟨e.toNat, by omega⟩
      by_cases hm : m ≤ s.fh.rest.length
      · rw [skipToEoc_ok m s he hm] at h
        cases h
        refine ⟨?_, ?_, ⟨rfl, rfl, rfl, rfl, fun _ => rfl⟩, ?_⟩
        · rw [skipToEoc_ok m _ he' (by rw [hlr]; simp; omega)]
          rfl
        · simp only [adv_fh, File.advance_pos, File.advance_data]; omega
        · simp only [adv_fh, File.advance_rest]; exact List.drop_suffix _ _
      · obtain ⟨exc, k, hx, _⟩ := skipToEoc_short m s he (by omega)
        rw [hx] at h; cases h

theorem readRecord_junction (offs : Bool) (B : Bytes) (s s' : Stream) (o : Option Nat) (hk : s.kind ≠ .gzipFile) (hpar : s.parser = .warc)
    (hf : s.fh.fault = none) (hp : s.fh.pos ≤ s.fh.data.length) (hlast : s.fh.rest = [] ∨ s.fh.rest.getLast? = some 10)
    (h : readRecord offs s = .ok ⟨o, none, []⟩ s') :
    readRecord offs (longer B s) = (readRecord offs (anew B s)).behind s.fh.data (Entry.later s.fh.data.length) := by
  rw [readRecord_fresh] at h
  rw [readRecord_fresh offs (longer B s)]
  have hel : (longer B s).eoc = s.eoc := rfl
  rw [hel]
  cases he : s.eoc with
  | none =>
    simp only [he] at h ⊢
    exact readFresh_junction offs B s s' o ⟨he, hpar, hf, hk⟩ hp hlast h
  | some e =>
    simp only [he] at h ⊢
    simp only [M.bind_apply] at h ⊢
    cases hsk : skipToEoc s with
    | hang => simp [hsk] at h
    | raise x s1 => simp [hsk] at h
    | ok u s0 =>
      simp only [hsk] at h
      obtain ⟨h1, h2, h3, h4⟩ := skip_longer B s s0 hf hp hsk
      simp only [h1]
      have hlast0 : s0.fh.rest = [] ∨ s0.fh.rest.getLast? = some 10 := by
        by_cases h0 : s0.fh.rest = []
        · exact Or.inl h0
        · obtain ⟨u, hu⟩ := h4
          rcases hlast with h | h
          · rw [h] at hu; simp at hu; exact absurd hu.2 h0
          · rw [← hu, getLast_app _ h0] at h; exact Or.inr h
      have hset : ∀ t : Stream, readFresh offs { t with eoc := none } = readFresh offs t := by
        intro t; simp only [readFresh, M.bind_apply, M.modify_apply]
      have hbt : Between { s0 with eoc := none } := ⟨rfl, (h3.2.2.2.2 rfl).trans hpar, h3.2.2.1.trans hf, by rw [show ({ s0 with eoc := none } : Stream).kind = s0.kind from rfl, h3.1]; exact hk⟩
      rw [← hset] at h
      have := readFresh_junction offs B _ s' o hbt h2 hlast0 h
      have e1 : longer B { s0 with eoc := none } = { longer B s0 with eoc := none } := rfl
      rw [e1, hset] at this
      rw [this]
      have e2 : anew B { s0 with eoc := none } = anew B s := by
        simp only [anew, h3.1, h3.2.2.1, h3.2.2.2.1, h3.2.2.2.2 rfl]
      rw [e2]
      show _ = (readRecord offs (anew B s)).behind s.fh.data (Entry.later s.fh.data.length)
      rw [show ({ s0 with eoc := none } : Stream).fh.data = s.fh.data from h3.2.1]

end Warc
