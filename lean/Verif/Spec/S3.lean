import Verif.Model.S3
/-
  What an S3 server does with range requests and listings.
-/
namespace Warc.Spec.S3
open _root_.Warc.S3

/-- The bytes of an object that a `Range` header asks for (RFC 7233): both ends are inclusive, the end may be
missing or beyond the end of the object. `none`: refused (unreadable header, or nothing there). -/
def asked : Option Bytes → Bytes → Option Bytes
  | none, obj => some obj
  | some h, obj =>
    if startsWith h (b! "bytes=") then
      match splitOnce 45 (h.drop 6) with
      | none => none
      | some (a, b) =>
        match pyInt 10 a with
        | some (.ofNat x) =>
          if obj.length ≤ x then none
          else if b = [] then some (obj.drop x)
          else match pyInt 10 b with
            | some (.ofNat y) => if x ≤ y then some ((obj.drop x).take (y + 1 - x)) else none
            | _ => none
        | _ => none
    else none

/-- `b` lists the keys `ks`: each page holds at least one of the keys after the marker that start with the prefix, if there
are any, the smallest first, and says whether there are more. -/
def Lists (b : Bucket) (ks : List Bytes) : Prop :=
  ∀ pre marker, ∃ n, 1 ≤ n ∧
    let due := ks.filter fun k => startsWith k pre && decide (marker < k)
    b.page pre marker = (due.take n, decide (n < due.length))

end Warc.Spec.S3
