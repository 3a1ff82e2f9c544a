import Verif.Proofs.HttpParsed
import Verif.Spec.Toy
/-
  Concrete HTTP messages, for the examples beside the theorems.
-/
set_option linter.all false
namespace Warc
open Rx Stream Spec Http

/-- to read off the outcome of a call on concrete input -/
theorem ok_of_check {α : Type} [DecidableEq α] {r : Res Msg α} {l : α} {P : Msg → Prop} [DecidablePred P]
    (h : (match r with | .ok l' m => decide (l' = l ∧ P m) | _ => false) = true) : ∃ m, r = .ok l m ∧ P m := by
  cases r with
  | ok l' m =>
    have := of_decide_eq_true h
    exact ⟨m, by rw [this.1], this.2⟩
  | raise e m => cases h
  | hang => cases h

theorem raise_of_check {α : Type} {r : Res Msg α} {e : Exc}
    (h : (match r with | .raise e' _ => decide (e' = e) | _ => false) = true) : ∃ m, r = .raise e m := by
  cases r with
  | ok l' m => cases h
  | raise e' m =>
    have := of_decide_eq_true h
    exact ⟨m, by rw [this]⟩
  | hang => cases h

/-! ### concrete messages -/

/-- a chunked response with two chunks, an extension, a leading zero and a trailer field; the Content-Length does not count -/
def Spec.demoChunked : Message where
  start := .response (b! "HTTP/1.1") 200 (b! "OK then")
  fields := [(b! "Content-Length", b! "7"), (b! "transfer-ENCODING", b! "x, Chunked"), (b! "X", [])]
  payload := .chunked ⟨[⟨b! "5", b! ";a=b", b! "hello"⟩, ⟨b! "0A", [], b! "\r\n3456\n78\n"⟩], b! "00", [], [(b! "X-T", b! "v")]⟩

theorem demoChunked_ok (rm : PyStr) (hrm : rm ≠ .bytes (b! "HEAD")) : demoChunked.Ok (.response rm) [] where
  fits := trivial
  start := by unfold Start.Ok demoChunked; decide
  fields := by
    intro f hf
    simp only [demoChunked, List.mem_cons, List.not_mem_nil, or_false] at hf
    rcases hf with rfl | rfl | rfl <;> exact ⟨by decide, by decide, by decide, by decide, by decide⟩
  framed := by
    refine ⟨.chunked, by decide, ⟨hrm, by decide, by decide, by decide⟩, rfl, ?_, ?_, ?_⟩
    · intro c hc
      simp only [List.mem_cons, List.not_mem_nil, or_false] at hc
      rcases hc with rfl | rfl
      · exact ⟨SizeOk.hex (size := b! "5") (by decide) (by decide) (Or.inr ⟨_, rfl⟩) (by decide), by decide⟩
      · exact ⟨SizeOk.hex (size := b! "0A") (by decide) (by decide) (Or.inl rfl) (by decide), by decide⟩
    · exact SizeOk.hex (size := b! "00") (by decide) (by decide) (Or.inl rfl) (by decide)
    · intro f hf
      simp only [List.mem_cons, List.not_mem_nil, or_false] at hf
      subst hf
      exact ⟨by decide, by decide, by decide, by decide, by decide⟩
  gzip := by rintro ⟨b, hb⟩; cases hb
  final := by intro v p h; cases h

/-- a request with a body -/
def Spec.demoPost : Message where
  start := .request (b! "POST") (b! "/a?b") (b! "HTTP/1.1")
  fields := [(b! "Host", b! "h:1"), (b! "Content-Length", b! "4"), (b! "Content-Length", b! "99"), (b! "Expect", b! "100-continue")]
  payload := .sized (b! "a\r\nb")

theorem demoPost_ok : demoPost.Ok .request [] where
  fits := trivial
  start := by
    refine ⟨by decide, by decide, by decide, ?_⟩
    intro h
    exact absurd h (by decide)
  fields := by
    intro f hf
    simp only [demoPost, List.mem_cons, List.not_mem_nil, or_false] at hf
    rcases hf with rfl | rfl | rfl | rfl <;> exact ⟨by decide, by decide, by decide, by decide, by decide⟩
  framed := ⟨.length 4, by decide, by simp [hasBody], rfl⟩
  gzip := by
    rintro - ⟨e, he, -⟩
    exact absurd he (by simp [show encodingOf [] demoPost.fields = none from by decide])
  final := by intro v p h; cases h

/-- a response to HEAD -/
def Spec.demoHead : Message where
  start := .response (b! "HTTP/1.0") 200 []
  fields := [(b! "Content-Length", b! "7"), (b! "Transfer-Encoding", b! "chunked"), (b! "Content-Encoding", b! "gzip")]
  payload := .none

theorem demoHead_ok : demoHead.Ok (.response (.bytes (b! "HEAD"))) [] where
  fits := trivial
  start := by unfold Start.Ok demoHead; decide
  fields := by
    intro f hf
    simp only [demoHead, List.mem_cons, List.not_mem_nil, or_false] at hf
    rcases hf with rfl | rfl | rfl <;> exact ⟨by decide, by decide, by decide, by decide, by decide⟩
  framed := ⟨.chunked, by decide, by simp [Message.Framed, demoHead, hasBody]⟩
  gzip := by rintro ⟨b, hb⟩; cases hb
  final := by intro v p h; cases h

/-- a response that ends with the connection -/
def Spec.demoClose : Message where
  start := .response (b! "HTTP/1.1") 404 (b! "No")
  fields := [(b! "Server", b! "s")]
  payload := .toEnd (b! "\r\n0\r\n")

theorem demoClose_ok (rm : PyStr) (hrm : rm ≠ .bytes (b! "HEAD")) : demoClose.Ok (.response rm) [] where
  fits := trivial
  start := by unfold Start.Ok demoClose; decide
  fields := by
    intro f hf
    simp only [demoClose, List.mem_cons, List.not_mem_nil, or_false] at hf
    subst hf
    exact ⟨by decide, by decide, by decide, by decide, by decide⟩
  framed := ⟨.close, by decide, ⟨hrm, by decide, by decide, by decide⟩, rfl⟩
  gzip := by rintro ⟨b, hb⟩; cases hb
  final := by intro v p h; cases h

end Warc
