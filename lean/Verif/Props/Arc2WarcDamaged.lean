import Verif.Proofs.Arc2WarcDamaged
import Verif.Props.Arc2WarcAny
import Verif.Props.ArcDamaged
set_option linter.all false
/-
  C118: what arc2warc writes for any files, damaged ones included.
-/
namespace Warc
open Rx Stream Spec

/-- **C118** `arc2warc` on any list of files, whatever is in them and however damaged the compressed ones are, with any transformer: what is written, how the run ends and the
state of the transformer are what `Spec.convertAnyFiles` says. -/
theorem C118_convert (c : Codec) (fs : FS) (g : Arc2Warc.Cfg) (gzip : Bool) (names : List Bytes) (out : Bytes) (st : Arc2Warc.St) :
    RanTo out (Arc2Warc.main c fs g gzip names (out, st)) (convertAnyFiles c fs g gzip st names) := by
  have h := Arc2Warc.Any.main_all c fs g gzip names out st
  unfold RanTo
  cases hs : (convertAnyFiles c fs g gzip st names).1.stop with
  | done => rw [hs] at h; exact h
  | raised e => rw [hs] at h; exact h
  | hangs => rw [hs] at h; exact h

/-- **C118** The command line. -/
theorem C118_command (c : Codec) (fs : FS) (sha1 : Bytes → Bytes) (clock : Nat → DateTime) (fields : Bytes) (gzip : Bool) (names : List Bytes) :
    RanTo [] (Arc2Warc.cli c fs sha1 clock fields none gzip [] [] names ([], {}))
      (convertAnyFiles c fs { sha1 := sha1, now := clock, warcinfoFields := fields } gzip {} names) := by
  have h := C118_convert c fs { sha1 := sha1, now := clock, warcinfoFields := fields } gzip names [] {}
  simpa [Arc2Warc.cli] using h

theorem dropWhile_white_more (ls t : List Bytes) (l : Bytes) (behind : List Bytes) (h : ls.dropWhile white = l :: behind) :
    (ls ++ t).dropWhile white = l :: (behind ++ t) := by
  induction ls with
  | nil => simp at h
  | cons x xs ih =>
    rw [List.cons_append, List.dropWhile_cons]
    rw [List.dropWhile_cons] at h
    by_cases hw : white x = true
    · rw [if_pos hw] at h ⊢; exact ih h
    · rw [if_neg hw] at h ⊢; simp only [List.cons.injEq] at h; rw [h.1, h.2]

/-- where the end of the data is not known, the reader does not say that there is no record, unless it reports errors -/
theorem nothing_damaged_errors {mixed : Bool} {names : List Bytes} {data : Bytes} {p size : Nat} {es : List Err}
    (h : nextInDamaged mixed names data = some (.nothing p es size)) : es ≠ [] := by
  unfold nextInDamaged at h
  by_cases hw : mixed = true ∧ b! "WARC" <+: (dropTerminators (wholeLines data)).headD []
  · rw [if_pos hw] at h
    cases hn : nextDamaged data with
    | none => rw [hn] at h; simp at h
    | some n =>
      rw [hn] at h
      cases n with
      | none es' size' =>
        simp only [Option.map_some, ofWarc, Option.some.injEq, Meant.nothing.injEq] at h
        rw [← h.2.1]; exact damaged_none_errors hn
      | record a b c d e => simp [ofWarc] at h
      | unknown => simp [ofWarc] at h
      | stuck => simp [ofWarc] at h
  · rw [if_neg hw] at h
    exfalso
    unfold nextArcDamaged at h
    cases hd : (dropTerminators (wholeLines data)).dropWhile white with
    | nil => rw [hd] at h; simp at h
    | cons l behind =>
      rw [hd] at h
      simp only at h
      by_cases hfd : b! "filedesc:" <+: l ∧ behind.length < 2
      · rw [if_pos hfd] at h; cases h
      · rw [if_neg hfd] at h
        simp only [Option.some.injEq] at h
        obtain ⟨t, ht⟩ := lines_whole data.length data (Nat.le_refl _)
        have hne : dropTerminators (wholeLines data) ≠ [] := by intro hz; rw [hz] at hd; simp at hd
        have hd2 : (dropTerminators (Spec.lines data)).dropWhile white = l :: (behind ++ t) := by
          rw [ht, dropTerminators_more _ _ hne]; exact dropWhile_white_more _ _ _ _ hd
        unfold nextArc at h
        rw [hd2] at h
        simp only at h
        by_cases hq : b! "filedesc:" <+: l
        · rw [if_pos hq] at h
          revert h
          generalize (behind ++ t).headD [] = v
          generalize ((behind ++ t).drop 1).headD [] = n
          intro h
          unfold fileDesc at h
          by_cases hv : white v = true ∨ white n = true
          · rw [if_pos hv] at h; cases h
          · rw [if_neg hv] at h
            cases hl : lineHeaders (splitWs n) l with
            | none => rw [hl] at h; cases h
            | some hs =>
              rw [hl] at h
              simp only at h
              cases ha : arcLength hs with
              | none => rw [ha] at h; cases h
              | some len => rw [ha] at h; cases h
        · rw [if_neg hq] at h
          unfold plainRecord at h
          by_cases hv : names = []
          · rw [if_pos hv] at h; cases h
          · rw [if_neg hv] at h
            cases hl : lineHeaders names l with
            | none => rw [hl] at h; cases h
            | some hs => rw [hl] at h; cases h

/-- **C118** A damaged compressed file is never converted without an exception. -/
theorem C118_damaged_stops (e : Exc) (c : Codec) (g : Arc2Warc.Cfg) (gzip : Bool) (rounds : Nat) (st : Arc2Warc.St) (ns : List Bytes) (data : Bytes) :
    (convertDamaged e c g gzip rounds st ns data).1.stop ≠ .done := by
  induction rounds generalizing st ns data with
  | zero => simp [convertDamaged]
  | succ rounds ih =>
    unfold convertDamaged
    cases hm : nextInDamaged true ns data with
    | none => simp
    | some m =>
      cases m with
      | stuck => simp
      | raises x => simp
      | nothing p es size =>
        simp only [strictTail, if_neg (nothing_damaged_errors hm)]
        simp
      | record f =>
        simp only
        cases convertedDamaged e c g gzip st f (data.drop f.size) with
        | never => simp
        | stops text exc => simp
        | goes text st' =>
          simp only [Output.after]
          generalize List.drop _ _ = d
          have := ih st' f.names d
          cases hc : convertDamaged e c g gzip rounds st' f.names d with | mk a b => rw [hc] at this; simpa using this

/-! ### concrete cases -/

/-- the content is there completely; cut; there with the length -1, which wants the rest of the file; and a header line that is cut: behind the filedesc record, which is converted,
the exception comes through, and so it does behind a record that is converted -/
theorem lengthArc_damaged :
    (convertDamaged .eofError toy plainCfg false 999 {} [] (lengthArc (b! "4"))).1.stop = .raised .eofError ∧
    (convertDamaged .eofError toy plainCfg false 999 {} [] (lengthArc (b! "4"))).1.text = (convertOn toy plainCfg false 999 {} [] (lengthArc (b! "4"))).1.text ∧
    (convertDamaged .eofError toy plainCfg false 999 {} [] (lengthArc (b! "5"))).1.stop = .raised .eofError ∧
    (convertDamaged .eofError toy plainCfg false 999 {} [] (lengthArc (b! "5"))).1.text ≠ [] ∧
    (convertDamaged .eofError toy plainCfg false 999 {} [] (lengthArc (b! "-1"))).1 = (convertDamaged .eofError toy plainCfg false 999 {} [] (lengthArc (b! "5"))).1 ∧
    (convertDamaged .eofError toy plainCfg false 999 {} [] (lengthArc (b! "-2"))).1.stop = .raised .valueError ∧
    (convertDamaged .eofError toy plainCfg false 999 {} [] (lengthArc (b! "3"))).1.stop = .raised .eofError := by decide +kernel

/-- a compressed ARC file whose second member is cut -/
def cutMember : Bytes := toy.enc (lengthArc (b! "4")) ++ (toy.enc (b! "abc\n\n")).take 4

theorem cutMember_dec : toy.dec cutMember = (lengthArc (b! "4") ++ b! "a", some .eofError) := by decide +kernel

def cutMemberFS : FS := fun n => if n = b! "a.arc.gz" then some cutMember else none

/-- what was converted before the exception is written -/
theorem cutMember_converted :
    (convertAnyFiles toy cutMemberFS plainCfg false {} [b! "a.arc.gz", b! "a.arc.gz"]).1.stop = .raised .eofError ∧
    b! "WARC-Date: 2010-01-01T00:00:00Z\r\nWARC-Type: response\r\nContent-Type: x\r\nContent-Length: 4\r\n\r\nabcd\r\n\r\n" <:+
      (convertAnyFiles toy cutMemberFS plainCfg false {} [b! "a.arc.gz", b! "a.arc.gz"]).1.text := by decide +kernel

example := C118_convert toy cutMemberFS plainCfg false [b! "a.arc.gz", b! "b"] [] {}
example := C118_command toy cutMemberFS plainCfg.sha1 plainCfg.now (b! "f") false [b! "a.arc.gz", b! "b"]

end Warc
