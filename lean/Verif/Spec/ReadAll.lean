import Verif.Spec.Grammar
import Verif.Spec.Crash
/-
  What a program that reads every record of a WARC file with its content gets, for every sequence of bytes, in terms of what the bytes mean (`Spec.next`).
-/
namespace Warc.Spec
open _root_.Warc.Stream

/-- What the bytes from position `pos` on give: the records with their contents, what stands behind the last one, and how the loop ends.
* A length of -2 or less ends the loop with ValueError, a length of -1 takes the rest of the file;
* with a payload shorter than announced, the next record is asked for in vain. -/
def meaning (report : Nat → Option Nat) : Nat → Nat → Bytes → Collected
  | 0, _, _ => ⟨[], none, .hangs⟩
  | rounds + 1, pos, data =>
    match next data with
    | .stuck => ⟨[], none, .hangs⟩
    | .unknown => ⟨[], none, .raised .typeError⟩
    | .none errors size => ⟨[], some ⟨report (pos + size), none, errors⟩, .done⟩
    | .record start version headers errors size =>
      if declaredLength headers < -1 then ⟨[], none, .raised .valueError⟩
      else if declaredLength headers = -1 then
        ⟨[⟨report (pos + start), version, headers, errors, (firstValue (b! "Content-Type") headers, some (data.drop size))⟩],
          some ⟨report (pos + data.length), none, []⟩, .done⟩
      else if (data.drop size).length < (declaredLength headers).toNat then
        ⟨[⟨report (pos + start), version, headers, errors, (firstValue (b! "Content-Type") headers, some (data.drop size))⟩],
          none, .raised (.generic "expected more bytes")⟩
      else
        Collected.behind
          [⟨report (pos + start), version, headers, errors,
            (firstValue (b! "Content-Type") headers, some ((data.drop size).take (declaredLength headers).toNat))⟩]
          (meaning report rounds (pos + size + (declaredLength headers).toNat) ((data.drop size).drop (declaredLength headers).toNat))

end Warc.Spec
