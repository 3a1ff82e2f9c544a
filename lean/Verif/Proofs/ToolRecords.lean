import Verif.Proofs.Tools
/-
  What the loop bodies of the tools do with one well formed record.
-/
set_option linter.all false
namespace Warc
open Rx Stream Spec

theorem consumed_zero (s : Stream) (n : Nat) (he : s.eoc = some (n : Int)) : consumed s n 0 = s := by
  obtain ⟨fh, eoc, kind, parser⟩ := s
  simp at he; subst he
  simp [consumed, adv, File.advance]

/-- the record after its content was read -/
def withContent (v : Bytes) (hs : List Header) (body : Bytes) : Rec :=
  { parsed v hs with content := some (firstValue (b! "Content-Type") hs, some body), cfile := .none, cfileValid := false }

namespace Tool

theorem content_read (s : Stream) (r : R) (out : Bytes) (he : s.eoc = some (r.body.length : Int))
    (hr : ∃ more, s.fh.rest = r.body ++ more) :
    World.content ⟨s, parsed r.version r.headers, out⟩ =
      .ok (firstValue (b! "Content-Type") r.headers, some r.body)
        ⟨consumed s r.body.length r.body.length, withContent r.version r.headers r.body, out⟩ := by
  obtain ⟨more, hr⟩ := hr
  have hn : r.body.length ≤ s.fh.rest.length := by rw [hr]; simp
  have ht : s.fh.rest.take r.body.length = r.body := by rw [hr]; simp
  have hop := op_run (.read none) s r.body.length he (Or.inl hn)
  simp only [ReadOp.run, ReadOp.result, Option.map_none, ht, Nat.sub_self] at hop
  simp only [World.content, parsed, World.cfileRead, World.onStream, hop, Rec.getHeader, lookupHeader_eq,
    Cls.contentTypeName, World.clearCfile, withContent, consumed, Nat.sub_self]
  rfl

theorem content_again (s : Stream) (v : Bytes) (hs : List Header) (body out : Bytes) :
    World.content ⟨s, withContent v hs body, out⟩ =
      .ok (firstValue (b! "Content-Type") hs, some body) ⟨s, withContent v hs body, out⟩ := by
  simp [World.content, withContent]

/-- `record.content_type` is the first Content-Type header; the content is read only if there is none -/
theorem contentType_read (s : Stream) (r : R) (out : Bytes) (he : s.eoc = some (r.body.length : Int))
    (hr : ∃ more, s.fh.rest = r.body ++ more) :
    (∃ t, firstValue (b! "Content-Type") r.headers = some t ∧
      World.contentType ⟨s, parsed r.version r.headers, out⟩ = .ok (some t) ⟨s, parsed r.version r.headers, out⟩) ∨
    (firstValue (b! "Content-Type") r.headers = none ∧
      World.contentType ⟨s, parsed r.version r.headers, out⟩ = .ok none
        ⟨consumed s r.body.length r.body.length, withContent r.version r.headers r.body, out⟩) := by
  have hg : (parsed r.version r.headers).getHeader (parsed r.version r.headers).cls.contentTypeName =
      firstValue (b! "Content-Type") r.headers := by
    simp [Rec.getHeader, lookupHeader_eq, parsed, Cls.contentTypeName, WH.CONTENT_TYPE]
  have hn : (parsed r.version r.headers).content = none := rfl
  cases ht : firstValue (b! "Content-Type") r.headers with
  | some t =>
    left; refine ⟨t, rfl, ?_⟩
    simp only [World.contentType, hn, hg, ht]
  | none =>
    right; refine ⟨rfl, ?_⟩
    simp only [World.contentType, hn, hg, ht, content_read s r out he hr]

theorem handles_pure (r : R) : Handles (pure ()) r [] := by
  intro s out he hr
  refine ⟨parsed r.version r.headers, 0, Nat.zero_le _, ?_⟩
  simp [consumed_zero s _ he]

/-- streaming a record out of the archive copies its version, headers and payload -/
theorem handles_writeTo (r : R) : Handles (World.writeTo CRLF) r r.bytes := by
  intro s out he ⟨more, hr⟩
  have hn : r.body.length ≤ s.fh.rest.length := by rw [hr]; simp
  have ht : s.fh.rest.take r.body.length = r.body := by rw [hr]; simp
  have h := World.writeTo_stream ⟨s, parsed r.version r.headers, out⟩ r.body.length rfl rfl rfl he (Or.inl hn)
  simp only [ht] at h
  exact ⟨_, r.body.length, Nat.le_refl _, h⟩

theorem writeTo_withContent (s : Stream) (r : R) (out : Bytes) :
    World.writeTo CRLF ⟨s, withContent r.version r.headers r.body, out⟩ =
      .ok () ⟨s, withContent r.version r.headers r.body, out ++ r.rewritten.bytes⟩ := by
  have := World.writeTo_tuple ⟨s, withContent r.version r.headers r.body, out⟩
    (firstValue (b! "Content-Type") r.headers) (some r.body) rfl rfl rfl
  simpa [R.rewritten, R.bytes, withContent, parsed] using this

/-- writing a record compressed -/
theorem handles_writeToGz (c : Codec) (r : R) : Handles (World.writeToGz c.enc CRLF) r (c.enc r.bytes) := by
  intro s out he hr
  obtain ⟨r', k, hk, h⟩ := handles_writeTo r s [] he hr
  refine ⟨r', k, hk, ?_⟩
  simp only [World.writeToGz, h, List.nil_append]

theorem writeToGz_withContent (c : Codec) (s : Stream) (r : R) (out : Bytes) :
    World.writeToGz c.enc CRLF ⟨s, withContent r.version r.headers r.body, out⟩ =
      .ok () ⟨s, withContent r.version r.headers r.body, out ++ c.enc r.rewritten.bytes⟩ := by
  simp only [World.writeToGz, writeTo_withContent, List.nil_append]

theorem contentLength_read (s : Stream) (r : R) (out : Bytes) (he : s.eoc = some (r.body.length : Int))
    (hr : ∃ more, s.fh.rest = r.body ++ more) (v : Bytes) (n : Int)
    (hv : firstValue (b! "Content-Length") r.headers = some v) (hi : pyInt 10 v = some n) :
    World.contentLength ⟨s, parsed r.version r.headers, out⟩ = .ok n ⟨s, parsed r.version r.headers, out⟩ := by
  have hg : (parsed r.version r.headers).getHeader (parsed r.version r.headers).cls.contentLengthName =
      firstValue (b! "Content-Length") r.headers := by
    simp [Rec.getHeader, lookupHeader_eq, parsed, Cls.contentLengthName, WH.CONTENT_LENGTH]
  have hn : (parsed r.version r.headers).content = none := rfl
  simp only [World.contentLength, hn, hg, hv, hi]

theorem firstValue_mem (name : Bytes) (hs : List Header) (v : Bytes) (h : firstValue name hs = some v) :
    ∃ k, (k, v) ∈ hs ∧ lower k = lower name := by
  induction hs with
  | nil => simp [firstValue] at h
  | cons x xs ih =>
    simp only [firstValue] at h
    by_cases hx : lower x.1 = lower name
    · rw [if_pos hx] at h; simp at h; subst h
      exact ⟨x.1, by simp, hx⟩
    · rw [if_neg hx] at h
      obtain ⟨k, h1, h2⟩ := ih h
      exact ⟨k, by simp [h1], h2⟩

theorem orDash_shown (name : Bytes) (hs : List Header) : WarcIndex.orDash (firstValue name hs) = shown name hs := by
  unfold shown
  cases h : firstValue name hs with
  | none => rfl
  | some v => cases v <;> simp [WarcIndex.orDash]

theorem offsetText_eq (o : Option Nat) :
    WarcIndex.offsetText o = (match o with | some n => decimal n | none => b! "None") := by
  cases o <;> rfl

/-- the index line of a record -/
theorem handles_index (name : Bytes) (o : Option Nat) (r : R) (hok : r.Ok) :
    Handles (WarcIndex.indexRecord name o) r (indexLine name o r) := by
  intro s out he hr
  have ht : (parsed r.version r.headers).type = firstValue (b! "WARC-Type") r.headers := by
    simp [Rec.type, parsed, Rec.getHeader, lookupHeader_eq, WH.TYPE]
  have hu : (parsed r.version r.headers).url = firstValue (b! "WARC-Target-URI") r.headers := by
    simp [Rec.url, parsed, Rec.getHeader, lookupHeader_eq, WH.URL, Cls.urlName]
  have hi : (parsed r.version r.headers).id = firstValue (b! "WARC-Record-ID") r.headers := by
    simp [Rec.id, parsed, Rec.getHeader, lookupHeader_eq, WH.ID]
  have hwc : ∀ s out, World.contentLength ⟨s, withContent r.version r.headers r.body, out⟩ =
      .ok (r.body.length : Int) ⟨s, withContent r.version r.headers r.body, out⟩ := by
    intro s out
    have h1 : (withContent r.version r.headers r.body).content = some (firstValue (b! "Content-Type") r.headers, some r.body) := rfl
    simp only [World.contentLength, h1, World.lenContent, M.bind_apply, content_again, M.pure_apply]
  have hline : ∀ ct : Option Bytes, ct = firstValue (b! "Content-Type") r.headers →
      join [32] [name, WarcIndex.offsetText o, WarcIndex.orDash (parsed r.version r.headers).type,
        WarcIndex.orDash (parsed r.version r.headers).url, WarcIndex.orDash (parsed r.version r.headers).id,
        WarcIndex.orDash ct, decimalInt (shownLength r)] ++ [10] = indexLine name o r := by
    intro ct hct
    rw [ht, hu, hi, hct, orDash_shown, orDash_shown, orDash_shown, orDash_shown, offsetText_eq]
    simp only [join, indexLine, List.append_assoc]
    cases o <;> rfl
  rcases contentType_read s r out he hr with ⟨t, h1, h2⟩ | ⟨h1, h2⟩
  · cases hl : firstValue (b! "Content-Length") r.headers with
    | some v =>
      obtain ⟨k, hk1, hk2⟩ := firstValue_mem _ _ _ hl
      have hsome := (hok.headers _ hk1).lengthOk hk2
      obtain ⟨n, hn⟩ := Option.isSome_iff_exists.1 hsome
      have h3 := contentLength_read s r out he hr v n hl hn
      have h4 : shownLength r = n := by simp only [shownLength, h1, hl]; rw [hn]; rfl
      refine ⟨parsed r.version r.headers, 0, Nat.zero_le _, ?_⟩
      rw [consumed_zero s _ he, ← hline (some t) h1.symm, h4]
      simp only [WarcIndex.indexRecord, M.bind_apply, M.get_apply, h2, h3, World.write, M.modify_apply]
    | none =>
      have h3 : World.contentLength ⟨s, parsed r.version r.headers, out⟩ = .ok (r.body.length : Int)
          ⟨consumed s r.body.length r.body.length, withContent r.version r.headers r.body, out⟩ := by
        have hg : (parsed r.version r.headers).getHeader (parsed r.version r.headers).cls.contentLengthName =
            firstValue (b! "Content-Length") r.headers := by
          simp [Rec.getHeader, lookupHeader_eq, parsed, Cls.contentLengthName, WH.CONTENT_LENGTH]
        have hn : (parsed r.version r.headers).content = none := rfl
        simp only [World.contentLength, hn, hg, hl, World.lenContent, M.bind_apply, content_read s r out he hr, M.pure_apply]
      have h4 : shownLength r = r.body.length := by simp only [shownLength, h1, hl]
      refine ⟨withContent r.version r.headers r.body, r.body.length, Nat.le_refl _, ?_⟩
      rw [← hline (some t) h1.symm, h4]
      simp only [WarcIndex.indexRecord, M.bind_apply, M.get_apply, h2, h3, World.write, M.modify_apply]
  · have h4 : shownLength r = r.body.length := by simp only [shownLength, h1]
    refine ⟨withContent r.version r.headers r.body, r.body.length, Nat.le_refl _, ?_⟩
    rw [← hline none h1.symm, h4]
    simp only [WarcIndex.indexRecord, M.bind_apply, M.get_apply, h2, hwc, World.write, M.modify_apply]

end Tool
end Warc
