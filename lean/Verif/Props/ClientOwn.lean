import Verif.Proofs.ClientOwn
import Verif.Props.Client
/-
  C93: what warcpayload does depends on the payload of the record alone.
-/
set_option linter.all false
namespace Warc
open Rx Stream Spec Http
namespace HttpClient

/-- **C93** For every payload there is one sequence of bytes `d`, made of bytes of the payload in their order, such that warcpayload either always writes
`d` and ends normally or always writes `d` and raises: for every file, plain or compressed, at every offset, whatever stands before and behind the record,
and whatever its other header fields are.  In particular nothing of the following records is ever written, not even for malformed responses. -/
theorem C93_payload_only (body : Bytes) :
    ∃ d : Bytes, d.Sublist body ∧
      ((∀ (c : Codec), Codec.Laws c → ∀ (fs : FS) (name : Bytes) (off : Nat), HttpAt c fs name off body →
          ∀ out, WarcPayload.tool c fs name off out = .ok () (out ++ d)) ∨
       (∀ (c : Codec), Codec.Laws c → ∀ (fs : FS) (name : Bytes) (off : Nat), HttpAt c fs name off body →
          ∀ out, ∃ e, WarcPayload.tool c fs name off out = .raise e (out ++ d))) := by
  obtain ⟨d, hsub, h | h⟩ := dump_settled body
  · exact ⟨d, hsub, Or.inl fun c hc fs name off hat out => tool_writes c hc fs name off body d hat h out⟩
  · refine ⟨d, hsub, Or.inr fun c hc fs name off hat out => ?_⟩
    obtain ⟨w, h1, rfl, h3⟩ := tool_run c hc fs dump name off body hat out
    obtain ⟨e, w', k1, k2⟩ := h w h1
    exact ⟨e, by rw [WarcPayload.tool, h3, k1, ← k2]⟩

/-- **C93** The same payload in two files: the same bytes are written, and both runs end normally or both raise. -/
theorem C93_same (c c' : Codec) (hc : Codec.Laws c) (hc' : Codec.Laws c') (fs fs' : FS) (name name' : Bytes) (off off' : Nat) (body : Bytes)
    (h : HttpAt c fs name off body) (h' : HttpAt c' fs' name' off' body) (out : Bytes) :
    (∃ o, WarcPayload.tool c fs name off out = .ok () o ∧ WarcPayload.tool c' fs' name' off' out = .ok () o) ∨
    (∃ o e e', WarcPayload.tool c fs name off out = .raise e o ∧ WarcPayload.tool c' fs' name' off' out = .raise e' o) := by
  obtain ⟨d, _, k | k⟩ := C93_payload_only body
  · exact Or.inl ⟨out ++ d, k c hc fs name off h out, k c' hc' fs' name' off' h' out⟩
  · obtain ⟨e, h1⟩ := k c hc fs name off h out
    obtain ⟨e', h2⟩ := k c' hc' fs' name' off' h' out
    exact Or.inr ⟨out ++ d, e, e', h1, h2⟩

/-! ### a concrete case: a negative chunk size, for which the client reads beyond the record -/

def negText : Bytes := b! "HTTP/1.1 200 OK\r\ntransfer-encoding: chunked\r\n\r\n3\r\nabc\r\n-5\r\nxyz"
def negItem : Item := ⟨b! "WARC/1.0", [(b! "WARC-Type", b! "response")], some (b! "application/http"), negText⟩
def negFS (more : Bytes) : FS := fun n => if n = b! "h" then some (negItem.R.bytes ++ more) else none

theorem negItem_ok : negItem.Ok where
  version := ⟨[], b! "WARC/", b! "1.0", rfl, by decide⟩
  headers := by intro h hh; simp only [negItem, List.mem_singleton] at hh; subst hh; decide
  ctype := by intro t ht; simp only [negItem, Option.some.injEq] at ht; subst ht; decide

theorem neg_at (more : Bytes) : HttpAt toy (negFS more) (b! "h") 0 negText := by
  refine ⟨negItem.R, Or.inl ⟨item_R_ok _ negItem_ok, by decide, [], CRLF ++ CRLF ++ more, ?_, rfl, ?_⟩, rfl, ?_, b! "application/http", ?_, ?_⟩
  · simp [negFS, R.bytes, R.core, recordBytes]
  · rw [List.nil_append]; exact core_not_gzip _ (item_R_ok _ negItem_ok) _
  · rfl
  · rfl
  · decide

/-- whatever follows, it raises and writes nothing -/
example (more out : Bytes) : ∃ e, WarcPayload.tool toy (negFS more) (b! "h") 0 out = .raise e out := by
  have h0 : ∃ e, WarcPayload.tool toy (negFS []) (b! "h") 0 [] = .raise e [] := by
    have : (match WarcPayload.tool toy (negFS []) (b! "h") 0 [] with | .raise e o => decide (o = []) | _ => false) = true := by decide +kernel
    cases h : WarcPayload.tool toy (negFS []) (b! "h") 0 [] with
    | ok a o => simp [h] at this
    | hang => simp [h] at this
    | raise e o => simp only [h, decide_eq_true_eq] at this; exact ⟨e, by rw [this]⟩
  obtain ⟨e, h0⟩ := h0
  obtain ⟨d, _, k | k⟩ := C93_payload_only negText
  · rw [k toy toy_laws _ _ _ (neg_at [])] at h0; cases h0
  · obtain ⟨e1, h1⟩ := k toy toy_laws _ _ _ (neg_at []) []
    rw [h1] at h0
    simp only [Res.raise.injEq, List.nil_append] at h0
    obtain ⟨e2, h2⟩ := k toy toy_laws _ _ _ (neg_at more) out
    exact ⟨e2, by rw [h2, h0.2, List.append_nil]⟩

end HttpClient
end Warc
