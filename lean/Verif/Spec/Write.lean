import Verif.Spec.Warc
/-
  What the writer should produce, and programs that write several records.
-/
namespace Warc.Spec

/-- The headers of a record written from a content tuple `(ctype, body)`: supplied Content-Type and
Content-Length headers are dropped, those of the tuple come last. -/
def writtenHeaders (hs : List Header) (ctype : Option Bytes) (body : Bytes) : List Header :=
  hs.filter (fun h => h.1 != b! "Content-Type" && h.1 != b! "Content-Length") ++
  (match ctype with
    | some t => if t = [] then [] else [(b! "Content-Type", t)]
    | none => []) ++
  [(b! "Content-Length", decimal body.length)]

/-- a record to be written: version, headers, content tuple -/
structure Item where
  version : Bytes
  headers : List Header
  ctype : Option Bytes
  body : Bytes

/-- the `WarcRecord` object -/
def Item.record (it : Item) : Rec := Rec.mkWarc it.version it.headers it.ctype (some it.body)

/-- what a reader should see -/
def Item.R (it : Item) : R :=
  ⟨it.version, writtenHeaders it.headers it.ctype it.body, it.body⟩

/-- the record can be represented in the format -/
structure Item.Ok (it : Item) : Prop where
  version : VersionOk it.version
  headers : ∀ h ∈ it.headers, HeaderOk h
  ctype : ∀ t, it.ctype = some t → 10 ∉ t ∧ strip t = t

/-- `for record in records: record.write_to(out)` where every record has a content tuple; the
result is the contents of `out`, or `none` if some call raised -/
def writeAll : List Item → Bytes → Option Bytes
  | [], out => some out
  | it :: its, out =>
    match World.writeTo CRLF ⟨⟨File.ofBytes [], none, .plain, .warc⟩, it.record, out⟩ with
    | .ok () w => writeAll its w.out
    | _ => none

end Warc.Spec
