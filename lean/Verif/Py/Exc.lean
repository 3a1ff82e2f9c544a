import Verif.Py.Bytes
/-
  Exceptions as values, and a small state monad in which a computation may
  return, raise or not terminate.
-/
namespace Warc

/-- Python exceptions that the modelled code can raise.  Messages are kept only where a caller
could tell two exceptions of the same class apart. -/
inductive Exc where
  | typeError
  | valueError
  | indexError
  | attributeError
  | nameError
  | eofError
  | osError
  | zlibError
  | brokenChunks
  /-- an HTTPException of `http.client`, with a tag for its kind -/
  | httpException (tag : String)
  /-- `Exception('...')` raised explicitly by the repo; the string is a tag for the message -/
  | generic (tag : String)
  deriving DecidableEq, Repr

/-- Result of running Python code on a mutable state: a value, an exception or divergence. -/
inductive Res (σ α : Type) where
  | ok (a : α) (s : σ)
  | raise (e : Exc) (s : σ)
  | hang
  deriving Repr, DecidableEq

/-- Stateful Python code. -/
abbrev M (σ α : Type) := σ → Res σ α

namespace M
variable {σ τ α β : Type}

/-- return a value -/
@[inline] def pure (a : α) : M σ α := fun s => .ok a s

/-- sequencing: exceptions and divergence propagate -/
@[inline] def bind (x : M σ α) (f : α → M σ β) : M σ β := fun s =>
  match x s with
  | .ok a s' => f a s'
  | .raise e s' => .raise e s'
  | .hang => .hang

instance : Monad (M σ) where
  pure := M.pure
  bind := M.bind

/-- `raise e` -/
@[inline] def throw (e : Exc) : M σ α := fun s => .raise e s

/-- a `while` loop that did not finish -/
@[inline] def diverge : M σ α := fun _ => .hang

/-- read the state -/
@[inline] def get : M σ σ := fun s => .ok s s

/-- replace the state -/
@[inline] def set (s : σ) : M σ Unit := fun _ => .ok () s

/-- update the state -/
@[inline] def modify (f : σ → σ) : M σ Unit := fun s => .ok () (f s)

@[simp] theorem pure_apply (a : α) (s : σ) : (Pure.pure a : M σ α) s = .ok a s := rfl
@[simp] theorem bind_apply (x : M σ α) (f : α → M σ β) (s : σ) :
    (x >>= f) s = match x s with
      | .ok a s' => f a s'
      | .raise e s' => .raise e s'
      | .hang => .hang := rfl
@[simp] theorem throw_apply (e : Exc) (s : σ) : (M.throw e : M σ α) s = .raise e s := rfl
@[simp] theorem diverge_apply (s : σ) : (M.diverge : M σ α) s = .hang := rfl
@[simp] theorem get_apply (s : σ) : (M.get : M σ σ) s = .ok s s := rfl
@[simp] theorem set_apply (s t : σ) : (M.set t : M σ Unit) s = .ok () t := rfl
@[simp] theorem modify_apply (f : σ → σ) (s : σ) : (M.modify f : M σ Unit) s = .ok () (f s) := rfl

end M
end Warc
