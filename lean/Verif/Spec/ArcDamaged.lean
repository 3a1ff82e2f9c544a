import Verif.Spec.ArcGrammar
import Verif.Spec.GrammarDamaged
/-
  What the bytes of a damaged compressed ARC file, or of a damaged compressed file that mixes ARC and WARC records, mean: the decompressor gives `data` and raises an
  exception as soon as a read has to go past the end of it.
-/
namespace Warc.Spec
open _root_.Warc.Stream

/-- An ARC record when nobody knows what would have come behind the data; `none`: the exception of the decompressor.  The first line that is not white must be there completely,
and so must, of a filedesc record, the two lines behind it; then the bytes mean what they mean in an undamaged file. -/
def nextArcDamaged (names : List Bytes) (data : Bytes) : Option Meant :=
  match (dropTerminators (wholeLines data)).dropWhile white with
  | [] => none
  | l :: behind => if b! "filedesc:" <+: l ∧ behind.length < 2 then none else some (nextArc names data)

/-- a record of a damaged ARC file or mixed file -/
def nextInDamaged (mixed : Bool) (names : List Bytes) (data : Bytes) : Option Meant :=
  if mixed = true ∧ b! "WARC" <+: (dropTerminators (wholeLines data)).headD [] then (nextDamaged data).map (ofWarc names) else nextArcDamaged names data

/-- What a program that reads every record with its content gets, `e` being the exception of the decompressor: a payload that is not there completely, that has no announced
length or that reaches to the end of the file raises. -/
def meaningInDamaged (e : Exc) (mixed : Bool) : Nat → List Bytes → Bytes → Collected
  | 0, _, _ => ⟨[], none, .hangs⟩
  | rounds + 1, names, data =>
    match nextInDamaged mixed names data with
    | none => ⟨[], none, .raised e⟩
    | some .stuck => ⟨[], none, .hangs⟩
    | some (.raises x) => ⟨[], none, .raised x⟩
    | some (.nothing _ errors _) => ⟨[], some ⟨none, none, errors⟩, .done⟩
    | some (.record f) =>
      match f.length with
      | none => ⟨[], none, .raised e⟩
      | some n =>
        if n < -1 then ⟨[], none, .raised .valueError⟩
        else if n = -1 ∨ (data.drop f.size).length < n.toNat then ⟨[], none, .raised e⟩
        else
          Collected.behind [f.got (fun _ => none) 0 ((data.drop f.size).take n.toNat)]
            (meaningInDamaged e mixed rounds f.names ((data.drop f.size).drop n.toNat))

end Warc.Spec
