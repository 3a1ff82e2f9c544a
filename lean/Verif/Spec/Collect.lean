import Verif.Spec.Write
import Verif.Spec.Reads
import Verif.Model.Open
/-
  A program that reads every record of an archive with its content, and what it should return.
-/
namespace Warc.Spec
open _root_.Warc.Stream

/-- what the program notes about a record: reported offset, `record.version`, `record.headers`,
`record.errors`, `record.content` -/
structure Got where
  offset : Option Nat
  version : Bytes
  headers : List Header
  errors : List Err
  content : Option Bytes × Option Bytes
  deriving DecidableEq

/-- what the program collected: the records, the final entry without a record (if one was
reached), and how the loop ended -/
structure Collected where
  records : List Got
  last : Option Entry
  fin : End
  deriving DecidableEq

/--
```
for offset, record, errors in stream.read_records(limit=None, offsets=offs):
    if record: records.append((offset, record.version, record.headers, record.errors, record.content))
    else:      last = (offset, record, errors)
```
Fuel bounds the number of rounds. -/
def collect (offs : Bool) : Nat → Stream → Collected
  | 0, _ => ⟨[], none, .hangs⟩
  | fuel + 1, s =>
    match readRecord offs s with
    | .hang => ⟨[], none, .hangs⟩
    | .raise e _ => ⟨[], none, .raised e⟩
    | .ok e s' =>
      match e.rcd with
      | none => ⟨[], some e, .done⟩
      | some r =>
        match World.content ⟨s', r, []⟩ with
        | .hang => ⟨[], none, .hangs⟩
        | .raise ex _ => ⟨[], none, .raised ex⟩
        | .ok c w =>
          let q := collect offs fuel w.strm
          { q with records := ⟨e.offset, r.version, r.headers, r.errors, c⟩ :: q.records }

/-- value of the first header with that name, in any letter case -/
def firstValue (name : Bytes) : List Header → Option Bytes
  | [] => none
  | h :: hs => if lower h.1 = lower name then some h.2 else firstValue name hs

/-- what should be noted about the records of a list when the first one starts at `pos` -/
def expectGot (report : Nat → Option Nat) : Nat → List R → List Got
  | _, [] => []
  | pos, r :: rs =>
    ⟨report pos, r.version, r.headers, [], (firstValue (b! "Content-Type") r.headers, some r.body)⟩ ::
      expectGot report (pos + r.bytes.length) rs

/-- Assumptions on the gzip library: a member starts with the gzip signature, and decompressing
the concatenation of members gives the concatenation of what was compressed, followed by a normal
end of file. -/
structure Codec.Laws (c : Codec) : Prop where
  magic : ∀ b, ∃ t, c.enc b = 0x1f :: 0x8b :: t
  members : ∀ bs : List Bytes, c.dec (bs.flatMap c.enc) = (bs.flatten, none)

/-- `for record in records: record.write_to(out, gzip=True)` -/
def writeAllGz (c : Codec) : List Item → Bytes → Option Bytes
  | [], out => some out
  | it :: its, out =>
    match World.writeToGz c.enc CRLF ⟨⟨File.ofBytes [], none, .plain, .warc⟩, it.record, out⟩ with
    | .ok () w => writeAllGz c its w.out
    | _ => none

end Warc.Spec
