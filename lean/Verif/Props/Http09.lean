import Verif.Spec.Http09
import Verif.Proofs.Http09
import Verif.Props.Http
/-
  C63: The HTTP/0.9 fallback.
-/
set_option linter.all false
namespace Warc
open Rx Stream Spec Http

/-- **C63** A response fed in any pieces and then turned into an HTTP/0.9 response, which is fed with the text given back and with
anything else: its body, its message and its decoded message are everything that was fed; it takes all it is fed (nothing is given
back); it is complete after `close()` and not before.  (With the exceptions of C31: `Splittable`.) -/
theorem C63_everything (c : Codec) (rm : PyStr) (ig : List PyStr) (us ts : List Bytes) (l : Bytes) (m : Msg)
    (hs : SplittableResponse (feedResponse c us.flatten (Msg.response rm ig)))
    (h : feedAll (feedResponse c) us (Msg.response rm ig) = .ok l m) :
    (m.asHttp09.feedAll (l :: ts)).getBody = us.flatten ++ ts.flatten ∧ (m.asHttp09.feedAll (l :: ts)).complete = false ∧
    (m.asHttp09.feedAll (l :: ts)).close.complete = true ∧
    (m.asHttp09.feedAll (l :: ts)).close.getBody = us.flatten ++ ts.flatten ∧
    (∀ t, ((m.asHttp09.feedAll (l :: ts)).feed t).1 = []) := by
  have := C32_conservation_pieces c (.response rm) ig us l m hs h
  have hb : m.buffer ++ l = us.flatten := this
  rw [feedAll09]
  refine ⟨?_, rfl, rfl, ?_, fun t => rfl⟩ <;> (show m.buffer ++ (l :: ts).flatten = _; rw [List.flatten_cons, ← List.append_assoc, hb])

example : ∃ m, feedAll (feedResponse toy) [b! "<html", b! ">hello</html>"] (Msg.response (.bytes (b! "GET")) []) = .ok [] m ∧
    SplittableResponse (feedResponse toy (b! "<html>hello</html>") (Msg.response (.bytes (b! "GET")) [])) := by
  refine ⟨_, rfl, ⟨fun _ => rfl, rfl, fun h => nomatch h.1⟩, ?_⟩
  rintro l m ⟨⟩
  decide +kernel

/-- **C63** (defect) When the response begins with a line that is not a status line, `feed` raises ValueError, and the fallback has only that
line: whatever else was in the text is lost. -/
theorem C63_rest_lost (c : Codec) (rm : PyStr) (ig : List PyStr) (u rest : Bytes) (hu : 10 ∉ u) (hne : u ≠ [] ∧ u ≠ [13])
    (hbad : ¬ StatusLine u) :
    ∃ m, feedResponse c (u ++ 10 :: rest) (Msg.response rm ig) = .raise .valueError m ∧ m.asHttp09.getBody = u ++ [10] := by
  obtain ⟨h, hh⟩ := setStatusLine_bad (h := Hdr.response rm ig) hbad hu
  exact feedResponse_bad c rest hu hne hh

example : 10 ∉ b! "<html>" ∧ ¬ StatusLine (b! "<html>") := ⟨by decide, notStatus_noSpace (by decide)⟩

/-- **C63** Only such a line is refused: after a status line parsing goes on. -/
theorem C63_status_line (c : Codec) (rm : PyStr) (ig : List PyStr) (u : Bytes) (hu : 10 ∉ u) (hok : StatusLine u) :
    ∃ m, feedResponse c (u ++ [10]) (Msg.response rm ig) = .ok [] m ∧ m.getMessage = u ++ [10] :=
  feedResponse_status c hu hok

example : StatusLine (b! "HTTP/1.0 200 OK\r") := ⟨b! "HTTP/1.0", b! "200", b! " OK", 200, by decide, by decide, by decide, Or.inr ⟨_, rfl⟩, by decide⟩

end Warc
