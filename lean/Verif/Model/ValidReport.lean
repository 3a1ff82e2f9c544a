import Verif.Model.Tools
/-
  What warcvalid prints on stderr.  Model/Tools has its exit code only.
-/
namespace Warc
open _root_.Warc.Stream

namespace WarcValid

/-- A message on stderr.  The text of an exception (`str(e)`) is not modelled. -/
inductive Msg where
  /-- `print("warc errors at %s:%d"%(name, offset)); print(errors)` (/repo/hanzo/warcvalid.py:40-41, 46-47) -/
  | errorsAt (name : Bytes) (offset : Nat) (errors : List Err)
  /-- `print("Exception: %s"%(str(e)))` (/repo/hanzo/warcvalid.py:53) -/
  | exception
  deriving DecidableEq

/-- The loop over the entries of one file (/repo/hanzo/warcvalid.py:38-51): what is printed before the `break`, or nothing.  `%d` raises TypeError when the offset is
None. `record.validate()` is `record.errors` (/repo/hanzo/warctools/warc.py:132-133). -/
def tellEntries : Nat → M Stream (Option (Nat × List Err))
  | 0 => M.diverge
  | fuel + 1 => do
    let e ← readRecord true
    if e.errors ≠ [] then
      match e.offset with
      | none => M.throw .typeError
      | some o => pure (some (o, e.errors))
    else match e.rcd with
      | none => pure none
      | some r =>
        if r.errors ≠ [] then
          match e.offset with
          | none => M.throw .typeError
          | some o => pure (some (o, r.errors))
        else tellEntries fuel

/-- The loop over the files, inside `try` (/repo/hanzo/warcvalid.py:34-54): the messages and the exit code; `none` when the tool does not terminate. -/
def tell (c : Codec) (fs : FS) : Bool → List Bytes → Option (List Msg × Int)
  | correct, [] => some ([], if correct then 0 else -1)
  | correct, name :: names =>
    match openName c fs .warc none name with
    | .error _ => some ([.exception], -1)
    | .ok s =>
      match tellEntries (s.fh.rest.length + 2) s with
      | .hang => none
      | .raise _ _ => some ([.exception], -1)
      | .ok none _ => tell c fs correct names
      | .ok (some p) _ => (tell c fs false names).map fun q => (.errorsAt name p.1 p.2 :: q.1, q.2)

/-- `warcvalid name ...`: messages and exit code -/
def report (c : Codec) (fs : FS) (names : List Bytes) : Option (List Msg × Int) := tell c fs true names

end WarcValid
end Warc
