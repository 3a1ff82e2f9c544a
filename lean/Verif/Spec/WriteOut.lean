import Verif.Model.WriteOut
import Verif.Spec.Write
/-
  Writing to a device that becomes full (property C77).
-/
namespace Warc.Spec

/-- Number of payload bytes that have been taken from the content file when a device becomes full that had room for `room` bytes, for a record
with a head of `head` bytes and a payload of `n` bytes: none while the head is written, then blocks of 8192. -/
def lost (room head n : Nat) : Nat := if room < head then 0 else min n (8192 * ((room - head) / 8192 + 1))

/-- `for record in records: record.write_to(out)` on a device with room for `room` bytes: what the device contains when the program ends,
normally or with an exception -/
def writeUntil (room : Nat) : List Item → Bytes → Bytes
  | [], out => out
  | it :: its, out =>
    match World.writeToVia (World.limited room) CRLF ⟨⟨File.ofBytes [], none, .plain, .warc⟩, it.record, out⟩ with
    | .ok () w => writeUntil room its w.out
    | .raise _ w => w.out
    | .hang => out

end Warc.Spec
