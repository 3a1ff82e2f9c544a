import Verif.Spec.ReadAll
/-
  What the bytes of a damaged compressed file mean: the decompressor gives `data` and raises an exception as soon as a read has to go past the end of it.
-/
namespace Warc.Spec
open _root_.Warc.Stream

/-- the lines that are there completely -/
def wholeLines (data : Bytes) : List Bytes := (lines data).filter fun l => l.getLast? == some 10

/-- What the bytes mean when nobody knows what would have come behind them; `none`: the exception of the decompressor.  A record is found only if its version line, all lines of
its header block and the blank line that ends it are there completely; with junk only, the reader gives up after six lines, if there are so many. -/
def nextDamaged (data : Bytes) : Option Next :=
  match look 0 (dropTerminators (wholeLines data)) with
  | .nothing _ => none
  | .tooMany _ => some (next data)
  | .found _ line rest =>
    if versionNumber line ∈ [some (b! "1.0"), some (b! "0.17"), some (b! "0.18")] then
      if Spec.stuck false rest then some .stuck
      else if (blockLines false rest).length = rest.length then none
      else some (next data)
    else some .unknown

/-- What a program that reads every record with its content gets, `e` being the exception of the decompressor: a content that is not there completely raises, and so does one
that reaches to the end of the file. -/
def meaningDamaged (e : Exc) : Nat → Bytes → Collected
  | 0, _ => ⟨[], none, .hangs⟩
  | rounds + 1, data =>
    match nextDamaged data with
    | none => ⟨[], none, .raised e⟩
    | some .stuck => ⟨[], none, .hangs⟩
    | some .unknown => ⟨[], none, .raised .typeError⟩
    | some (.none errors _) => ⟨[], some ⟨none, none, errors⟩, .done⟩
    | some (.record _ version headers errors size) =>
      if declaredLength headers < -1 then ⟨[], none, .raised .valueError⟩
      else if declaredLength headers = -1 ∨ (data.drop size).length < (declaredLength headers).toNat then ⟨[], none, .raised e⟩
      else
        Collected.behind
          [⟨none, version, headers, errors,
            (firstValue (b! "Content-Type") headers, some ((data.drop size).take (declaredLength headers).toNat))⟩]
          (meaningDamaged e rounds ((data.drop size).drop (declaredLength headers).toNat))

end Warc.Spec
