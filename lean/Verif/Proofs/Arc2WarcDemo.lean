import Verif.Props.Arc
import Verif.Proofs.Arc2WarcOk
import Verif.Proofs.HttpDemo
import Verif.Spec.Toy
/-
  A concrete ARC file for arc2warc.
-/
set_option linter.all false
namespace Warc
open Rx Stream Spec

namespace Spec

def demoPage : Http.Message := ⟨.response (b! "HTTP/1.0") 200 (b! "OK"), [], .toEnd (b! "hi")⟩
def demoShort : Http.Message := ⟨.response (b! "HTTP/1.0") 200 (b! "OK"), [(b! "Content-Length", b! "3")], .sized (b! "hi!")⟩

/-- filedesc record, a DNS record, an HTTP response, a truncated HTTP response, a record without content type -/
def demo2Warc : List ArcItem :=
  [.filedesc [b! "filedesc://a.arc", b! "0.0.0.0", b! "20000101000000", b! "text/plain", b! "74"] (b! "1 0 Archive") v1Names
      (b! "hello\n") (b! "\n"),
   .data [b! "dns:h", b! "0.0.0.0", b! "20120229", b! "text/dns", b! "19"] (b! "20120101 h 1.2.3.4\n") (b! "\n"),
   .data [b! "http://h/a b", b! "1.2.3.4", b! "20000101000001", b! "text/html", b! "21"] demoPage.text (b! "\n"),
   .data [b! "http://h/", b! "1.2.3.4", b! "20000101000002", b! "text/html", b! "40"] (demoShort.text.take 40) (b! "\n")]

def demoCfg : Arc2Warc.Cfg :=
  { sha1 := fun t => (t ++ List.replicate 20 0).take 20, now := fun k => ⟨2013, 1, 1, 0, 0, k % 60, 5, none⟩,
    outputFilename := some (.bytes (b! "out.warc")), resources := [.bytes (b! "ftp")] }

def demo2FS : FS := fun n => if n = b! "a.arc" then some (demo2Warc.flatMap ArcItem.bytes) else none

def demo2File : MixedFile := ⟨b! "a.arc", false, demo2Warc⟩

end Spec

theorem demoPage_ok : demoPage.Ok (.response (.str "")) [] where
  fits := trivial
  start := by unfold Http.Start.Ok demoPage; decide
  fields := by intro f hf; cases hf
  framed := ⟨.close, by decide, ⟨by decide, by decide, by decide, by decide⟩, rfl⟩
  gzip := by rintro ⟨b, hb⟩; cases hb
  final := by intro v p h; cases h

theorem demoShort_ok : demoShort.Ok (.response (.str "")) [] where
  fits := trivial
  start := by unfold Http.Start.Ok demoShort; decide
  fields := by
    intro f hf
    simp only [demoShort, List.mem_cons, List.not_mem_nil, or_false] at hf
    subst hf
    exact ⟨by decide, by decide, by decide, by decide, by decide⟩
  framed := ⟨.length 3, by decide, ⟨by decide, by decide, by decide, by decide⟩, rfl⟩
  gzip := by
    rintro - ⟨e, he, -⟩
    have : Http.encodingOf [] demoShort.fields = none := by decide
    rw [this] at he; cases he
  final := by intro v p h; cases h

theorem demo2Warc_ok : ArcItem.AllOk true [] demo2Warc := by
  have hn : NamesOk v1Names := by unfold NamesOk; decide
  have t : Terminator [10] := ⟨by decide, Or.inr rfl⟩
  refine ⟨⟨hn, ⟨rfl, ⟨Or.inl ⟨_, rfl, by decide⟩, Or.inl ⟨_, rfl, by decide⟩, Or.inl ⟨_, rfl, by decide⟩,
      Or.inl ⟨_, rfl, by decide⟩, trivial⟩, by decide, ?_⟩, by decide, by decide, by decide, by decide, by decide, t⟩,
    ⟨hn, ⟨rfl, ⟨Or.inl ⟨_, rfl, by decide⟩, Or.inl ⟨_, rfl, by decide⟩, Or.inl ⟨_, rfl, by decide⟩,
      Or.inl ⟨_, rfl, by decide⟩, trivial⟩, by decide, ?_⟩, by decide, by decide, by decide, by decide, t⟩,
    ⟨hn, ⟨rfl, ⟨Or.inl ⟨_, rfl, by decide⟩, Or.inl ⟨_, rfl, by decide⟩, Or.inl ⟨_, rfl, by decide⟩,
      Or.inl ⟨_, rfl, by decide⟩, trivial⟩, by decide, ?_⟩, by decide, by decide, by decide, by decide, t⟩,
    ⟨hn, ⟨rfl, ⟨Or.inr ⟨_, rfl, by decide⟩, Or.inl ⟨_, rfl, by decide⟩, Or.inl ⟨_, rfl, by decide⟩,
      Or.inl ⟨_, rfl, by decide⟩, trivial⟩, by decide, ?_⟩, by decide, by decide, by decide, by decide, t⟩, trivial⟩
  · intro v0 h; cases h; left; decide
  · intro v0 h; cases h; left; decide
  · intro v0 h; cases h; right; decide
  · intro v0 h; cases h; left; decide

theorem demo2Warc_tidy : ∀ it ∈ demo2Warc, Tidy it := by
  intro it h
  simp only [demo2Warc, List.mem_cons, List.not_mem_nil, or_false] at h
  rcases h with rfl | rfl | rfl | rfl
  · unfold Tidy; decide
  · unfold Tidy; decide
  · unfold Tidy; decide
  · unfold Tidy; decide

theorem demoCfg_ok : CfgOk demoCfg where
  now := by
    intro k
    refine ⟨⟨?_, ?_, ?_, ?_, ?_, ?_, ?_, ?_⟩, rfl⟩
    · show 1 ≤ 2013 ∧ 2013 ≤ 9999; decide
    · show 1 ≤ 1 ∧ 1 ≤ 12; decide
    · show 1 ≤ 1 ∧ 1 ≤ daysInMonth 2013 1; decide
    · show 0 < 24; decide
    · show 0 < 60; decide
    · show k % 60 < 60; omega
    · show 5 < 1000000; decide
    · intro z hz; cases hz
  filename := by
    intro f hf
    have : b! "out.warc" = f := by simpa [demoCfg] using hf
    subst this
    exact ⟨by decide, by decide⟩

theorem demo2_stored : demo2File.Stored toy demo2FS := by
  refine ⟨demo2Warc_ok, ?_⟩
  simp only [demo2File, Bool.false_eq_true, if_false]
  exact ⟨by simp [demo2FS], by decide, by decide +kernel⟩

end Warc
