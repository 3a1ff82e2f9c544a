import Verif.Spec.Collect
import Verif.Model.Builders
/-
  Calls of the record builders and what a reader of the written records should see.
-/
namespace Warc.Spec

/-- a call of one of the builders, with its arguments -/
inductive Build where
  | response (id date url : Bytes) (content : Option Bytes × Bytes) (requestId : Option Bytes)
  | request (id date url : Bytes) (content : Option Bytes × Bytes) (responseId : Option Bytes)
  | metadata (id date : Bytes) (content : Option Bytes × Bytes) (concurrentTo url : Option Bytes)
  | conversion (id date : Bytes) (content : Option Bytes × Bytes) (refersTo url : Option Bytes)

namespace Build

/-- the record that the call returns -/
def record : Build → Rec
  | response i d u c q => makeResponse i d u c q
  | request i d u c q => makeRequest i d u c q
  | metadata i d c q u => makeMetadata i d c q u
  | conversion i d c q u => makeConversion i d c q u

/-- an optional argument counts as given when it is not empty -/
def given : Option Bytes → Option Bytes
  | some [] => none
  | x => x

/-- the facts the caller gave: record type, id, date, url, Concurrent-To link, Refers-To link, content -/
structure Facts where
  type : Option Bytes
  id : Option Bytes
  date : Option Bytes
  url : Option Bytes
  concurrentTo : Option Bytes
  refersTo : Option Bytes
  content : Option Bytes × Bytes
  deriving DecidableEq

/-- what was asked for -/
def facts : Build → Facts
  | response i d u c q => ⟨some (b! "response"), some i, some d, some u, given q, none, c⟩
  | request i d u c q => ⟨some (b! "request"), some i, some d, some u, given q, none, c⟩
  | metadata i d c q u => ⟨some (b! "metadata"), some i, some d, given u, given q, none, c⟩
  | conversion i d c q u => ⟨some (b! "conversion"), some i, some d, given u, none, given q, c⟩

/-- what a reader notes about a record in the same terms -/
def factsOf (g : Got) : Facts :=
  ⟨firstValue (b! "WARC-Type") g.headers, firstValue (b! "WARC-Record-ID") g.headers,
    firstValue (b! "WARC-Date") g.headers, firstValue (b! "WARC-Target-URI") g.headers,
    firstValue (b! "WARC-Concurrent-To") g.headers, firstValue (b! "WARC-Refers-To") g.headers,
    (g.content.1, g.content.2.getD [])⟩

/-- the text can stand in a header: no newline, no blanks at the ends -/
def Plain (v : Bytes) : Prop := 10 ∉ v ∧ strip v = v

/-- all texts in the facts are plain; a content type is not empty -/
structure Facts.Ok (f : Facts) : Prop where
  id : ∀ v, f.id = some v → Plain v
  date : ∀ v, f.date = some v → Plain v
  url : ∀ v, f.url = some v → Plain v
  concurrentTo : ∀ v, f.concurrentTo = some v → Plain v
  refersTo : ∀ v, f.refersTo = some v → Plain v
  ctype : ∀ v, f.content.1 = some v → Plain v ∧ v ≠ []

end Build

/-- `for record in records: record.write_to(out)`; the result is the contents of `out`, or `none` if some call
raised -/
def writeRecords : List Rec → Bytes → Option Bytes
  | [], out => some out
  | r :: rs, out =>
    match World.writeTo CRLF ⟨⟨File.ofBytes [], none, .plain, .warc⟩, r, out⟩ with
    | .ok () w => writeRecords rs w.out
    | _ => none

end Warc.Spec
