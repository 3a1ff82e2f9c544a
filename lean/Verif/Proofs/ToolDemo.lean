import Verif.Proofs.ToolRecords
import Verif.Spec.Toy
/-
  Concrete files used in the examples beside the theorems about the tools.
-/
set_option linter.all false
namespace Warc
open Rx Stream Spec

theorem crlf2_terminator : Terminator (CRLF ++ CRLF) := by
  refine ⟨?_, Or.inr (by decide)⟩
  intro c hc
  simp only [List.mem_append, List.mem_cons, List.not_mem_nil, or_false] at hc
  rcases hc with (rfl | rfl) | (rfl | rfl) <;> simp

/-- two records with their terminators -/
def demoRT : List RT := [(demo1.R, CRLF ++ CRLF), (demo2.R, CRLF ++ CRLF)]

theorem demoRT_ok : OkT demoRT := by
  intro r hr
  simp only [demoRT, List.mem_cons, List.not_mem_nil, or_false] at hr
  rcases hr with rfl | rfl
  · exact ⟨item_R_ok _ demo1_ok, crlf2_terminator⟩
  · exact ⟨item_R_ok _ demo2_ok, crlf2_terminator⟩

/-- a plain file and a compressed one, record by record -/
def demoFS : FS := fun n =>
  if n = b! "a.warc" then some (archiveT demoRT)
  else if n = b! "b.warc.gz" then some (toy.enc demo1.R.bytes ++ toy.enc demo2.R.bytes)
  else none

theorem demo_plain : Stored toy demoFS (b! "a.warc") false demoRT := by
  refine ⟨demoRT_ok, ?_⟩
  simp only [Bool.false_eq_true, if_false]
  exact ⟨by simp [demoFS], by decide⟩

theorem demo_gz : Stored toy demoFS (b! "b.warc.gz") true demoRT := by
  refine ⟨demoRT_ok, ?_⟩
  simp only [if_true]
  exact ⟨[demo1.R.bytes, demo2.R.bytes], by simp [archiveT, R.core, R.bytes, recordBytes, demoRT], by simp [demoFS], Or.inl (by simp)⟩

end Warc
