import Verif.Spec.Arc2WarcAny
import Verif.Spec.ArcDamaged
import Verif.Spec.ToolDamaged
/-
  What arc2warc writes for a compressed file that the decompressor fails on (property C118): as in C111, with the exception `e` of the decompressor wherever bytes are wanted that
  are not there.
-/
namespace Warc.Spec
open _root_.Warc.Stream
open Arc2Warc (Cfg St)

/-- the content, or the exception that asking for it gives: without an announced length, and with the length -1, all bytes to the end of the file are wanted -/
def contentOfDamaged (e : Exc) (length : Option Int) (behind : Bytes) : Except Exc Bytes :=
  match length with
  | none => .error e
  | some n => if n < -1 then .error .valueError else if 0 ≤ n ∧ n.toNat ≤ behind.length then .ok (behind.take n.toNat) else .error e

/-- a WARC record is copied -/
def convertedWarcDamaged (e : Exc) (c : Codec) (gzip : Bool) (st : St) (version : Bytes) (hs : List Header) (behind : Bytes) : Conv :=
  match (if gzip then compressingDamaged e c.enc ⟨none, version, hs, [], behind⟩ else copyingDamaged e ⟨none, version, hs, [], behind⟩) with
  | .stops text exc => .stops text exc
  | .goes text _ => .goes text st
  | .never => .never

/-- any record -/
def convertedDamaged (e : Exc) (c : Codec) (g : Cfg) (gzip : Bool) (st : St) (f : Located) (behind : Bytes) : Conv :=
  match f.cls with
  | .warc => convertedWarcDamaged e c gzip st f.version f.headers behind
  | .arcHeader => convertedFiledesc c g gzip st f.headers f.raw (contentOfDamaged e f.length behind)
  | .arc => convertedData c g gzip st f.headers (contentOfDamaged e f.length behind)

/-- Damaged data, from some place on; a record is converted only if its content is there completely, so the next one is looked for behind it. -/
def convertDamaged (e : Exc) (c : Codec) (g : Cfg) (gzip : Bool) : Nat → St → List Bytes → Bytes → Output × St
  | 0, st, _, _ => (⟨[], .hangs⟩, st)
  | rounds + 1, st, names, data =>
    match nextInDamaged true names data with
    | none => (⟨[], .raised e⟩, st)
    | some .stuck => (⟨[], .hangs⟩, st)
    | some (.raises x) => (⟨[], .raised x⟩, st)
    | some (.nothing _ errors _) => (strictTail none errors, st)
    | some (.record f) =>
      match convertedDamaged e c g gzip st f (data.drop f.size) with
      | .stops text exc => (⟨text, .raised exc⟩, st)
      | .never => (⟨[], .hangs⟩, st)
      | .goes text st' =>
        let rest := convertDamaged e c g gzip rounds st' f.names ((data.drop f.size).drop (f.length.getD 0).toNat)
        (Output.after text rest.1, rest.2)

/-- any one file -/
def convertAnyFile (c : Codec) (fs : FS) (g : Cfg) (gzip : Bool) (st : St) (name : Bytes) : Output × St :=
  match fs name with
  | none => (⟨[], .raised .osError⟩, st)
  | some stored =>
    if Compressed name stored then
      match (c.dec stored).2 with
      | none => convertOn c g gzip ((c.dec stored).1.length + 2) st [] (c.dec stored).1
      | some e => convertDamaged e c g gzip ((c.dec stored).1.length + 2) st [] (c.dec stored).1
    else convertOn c g gzip (stored.length + 2) st [] stored

/-- any list of files -/
def convertAnyFiles (c : Codec) (fs : FS) (g : Cfg) (gzip : Bool) : St → List Bytes → Output × St
  | st, [] => (⟨[], .done⟩, st)
  | st, name :: names =>
    let a := convertAnyFile c fs g gzip st name
    if a.1.stop = .done then
      let b := convertAnyFiles c fs g gzip a.2 names
      (Output.after a.1.text b.1, b.2)
    else a

end Warc.Spec
