import Verif.Model.GzSeek
import Verif.Spec.Damage
/-
  Seeking in compressed archives (property C74).
-/
namespace Warc.Spec
open _root_.Warc.Stream

/-- Assumption on the gzip library: what follows a complete member is decompressed as if it were a file of its own (zero bytes behind a
member are skipped as padding, so they are excluded). -/
structure Codec.Next (c : Codec) : Prop where
  next : ∀ a x : Bytes, x.head? ≠ some 0 → c.dec (c.enc a ++ x) = (a ++ (c.dec x).1, (c.dec x).2)

/-- a compressed archive: one gzip member per record -/
def gzArchive (c : Codec) (rs : List RT) : Bytes := (perRecord rs).flatMap c.enc

/-- a program that reads as many records as the list has entries, and makes the calls of the entry on the content file of each;
the stream behind it -/
def readSome : List (List ReadOp) → Stream → Option Stream
  | [], s => some s
  | ops :: more, s =>
    match readRecord false s with
    | .ok e s1 =>
      match e.rcd with
      | none => none
      | some _ =>
        match runOps ops s1 with
        | .ok _ s2 => readSome more s2
        | _ => none
    | _ => none

theorem toy_next : Codec.Next toy where
  next := by
    intro a x _
    show toyDec false (toyEnc a ++ x) = _
    simp only [toyEnc, List.cons_append, List.append_assoc, List.nil_append, toyDec]
    exact toyDec_body a x

end Warc.Spec
