import Verif.Spec.Tools
/-
  What the collecting program came across before it stopped.
-/
namespace Warc.Spec
open _root_.Warc.Stream

/-- version and headers of every record that the collecting program (`collect`) came across, with a last one whose content could
perhaps not be read; the `body` given here is not the content but everything that can be read from the file behind the headers -/
def met (offs : Bool) : Nat → Stream → List R
  | 0, _ => []
  | fuel + 1, s =>
    match readRecord offs s with
    | .ok e s' =>
      match e.rcd with
      | none => []
      | some r =>
        ⟨r.version, r.headers, s'.fh.rest⟩ ::
        match World.content ⟨s', r, []⟩ with
        | .ok _ w => met offs fuel w.strm
        | _ => []
    | _ => []

/-- the exception with which iterating over the records (`for record in stream`) ends: the exception that reading raises, or
"Errors while decoding" if there are errors but no record at the end -/
def Collected.stop (q : Collected) : Option Exc :=
  match q.fin, q.last with
  | .raised ex, _ => some ex
  | .done, some l => if l.errors = [] then none else some (.generic "Errors while decoding")
  | _, _ => none

/-- the exception with which `read_records` ends -/
def Collected.exc (q : Collected) : Option Exc :=
  match q.fin with
  | .raised ex => some ex
  | _ => none

/-- the first part of a record -/
def PartOf (r : R) (p : Bytes) : Prop := p <+: headBytes r.version r.headers ++ r.body

/-- an index line, or nothing -/
def LineOf (name : Bytes) (o : Option Nat) (r : R) (p : Bytes) : Prop := p = [] ∨ p = indexLine name o r

/-- the first Content-Length, if any, is a number -/
def NumericLength (hs : List Header) : Prop :=
  ∀ v, firstValue (b! "Content-Length") hs = some v → (pyInt 10 v).isSome = true

/-- What may stand in the output after the records that a reader gets from the stream: nothing; or, if decompressing the file raised the
exception that ended the loop, `part` of the record in which this happened (`m`: its headers and all that could be decompressed behind them,
which is less than the headers announce). -/
def Leftover (part : R → Bytes → Prop) (s : Stream) (stop : Option Exc) (m : Option R) (p : Bytes) : Prop :=
  p = [] ∨ ∃ ex r, s.fh.fault = some ex ∧ stop = some ex ∧ m = some r ∧
    (r.body.length : Int) < declaredLength r.headers ∧ part r p

end Warc.Spec
