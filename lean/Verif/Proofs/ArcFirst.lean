import Verif.Proofs.Arc
import Verif.Proofs.ToolRecords
/-
  The first record of a mixed or ARC stream, and what comes after it however much of it is consumed.
-/
set_option linter.all false
namespace Warc
open Rx Stream Spec

/-- however much of a payload was consumed, the next call reads on behind it -/
theorem skip_rest (offs : Bool) (s1 : Stream) (body T more : Bytes) (hT : Terminator T)
    (hrest : s1.fh.rest = body ++ (T ++ more)) (k : Nat) (hk : k ≤ body.length) :
    readRecord offs (consumed s1 body.length k) =
      readRecord offs { s1.adv (body.length + T.length) with eoc := none } := by
  have hr1 : (s1.adv k).fh.rest.length = body.length - k + (T ++ more).length := by
    rw [adv_fh, File.advance_rest, hrest, List.length_drop]
    simp only [List.length_append]; omega
  have h1 := readRecord_skip offs (body.length - k) (consumed s1 body.length k) rfl (by
    show body.length - k ≤ (s1.adv k).fh.rest.length
    rw [hr1]; omega)
  have hterm := readRecord_terminator offs T more { s1.adv body.length with eoc := none } rfl hT (by
    show (s1.adv body.length).fh.rest = T ++ more
    rw [adv_fh, File.advance_rest, hrest, List.drop_left])
  have e1 : ({ (consumed s1 body.length k).adv (body.length - k) with eoc := none } : Stream) =
      { s1.adv body.length with eoc := none } := by
    simp only [consumed, adv, File.advance_advance]
    congr 2
    omega
  have e2 : ({ s1.adv body.length with eoc := none } : Stream).adv T.length =
      { s1.adv (body.length + T.length) with eoc := none } := by
    simp [adv]
  rw [h1, e1, hterm, e2]

namespace Spec.ArcItem

/-- the record object for the item -/
def rcd (before : List Bytes) : ArcItem → Rec
  | filedesc values version ns _ _ => arcHeaderRec ns values version
  | data values _ _ => arcRec before values
  | warc r => parsed r.version r.headers

/-- the bytes that the content file of the item delivers -/
def body : ArcItem → Bytes
  | filedesc _ _ _ body _ => body
  | data _ body _ => body
  | warc r => r.body

end Spec.ArcItem

/-- first record of a healthy ARC or mixed stream -/
theorem item_first (s : Stream) (it : ArcItem) (st : ArcSt) (more : Bytes)
    (hk : s.kind ≠ .gzipFile) (he : s.eoc = none) (hp : s.parser.arcSt? = some st)
    (hok : it.Ok s.parser.isMixed st.headers) (hr : s.fh.rest = it.bytes ++ more) :
    ∃ o s1 s2 st', readRecord false s = .ok ⟨o, some (it.rcd st.headers), []⟩ s1 ∧
      s1.eoc = some (it.body.length : Int) ∧ (∃ x, s1.fh.rest = it.body ++ x) ∧
      (∀ k, k ≤ it.body.length → readRecord false (consumed s1 it.body.length k) = readRecord false s2) ∧
      s2.kind = s.kind ∧ s2.eoc = none ∧ s2.fh = s.fh.advance it.bytes.length ∧ s2.parser.arcSt? = some st' ∧
      s2.parser.isMixed = s.parser.isMixed ∧ st'.headers = it.names st.headers := by
  cases it with
  | data values body T =>
    obtain ⟨h1, h2, h3, h4, h5, h6, h7⟩ := hok
    have hr' : s.fh.rest = [] ++ (arcLine values ++ (body ++ (T ++ more))) := by
      rw [hr]; simp [ArcItem.bytes]
    have hread := readRecord_data false [] values body.length (body ++ (T ++ more)) s st hk he hp h4
      ⟨by simp, Or.inl rfl⟩ h1 h2 h3 h5 h6 hr'
    have hrest : ({ s.adv (([] : Bytes).length + (arcLine values).length) with eoc := some (body.length : Int) } : Stream).fh.rest =
        body ++ (T ++ more) := by
      show (s.adv _).fh.rest = _
      rw [adv_fh, File.advance_rest, hr', ← List.append_assoc, ← List.length_append, List.drop_left]
    refine ⟨_, _, _, st, hread, rfl, ⟨_, hrest⟩, fun k hk => skip_rest false _ body T more h7 hrest k hk, rfl, rfl, ?_, hp, rfl, rfl⟩
    simp only [adv, File.advance_advance]
    congr 1
    simp [ArcItem.bytes]
  | filedesc values version names body T =>
    obtain ⟨h1, h2, h3, h4, h5, h6, h7, h8⟩ := hok
    have hr' : s.fh.rest = [] ++ (arcLine values ++ (ArcItem.preamble version names ++ (body ++ (T ++ more)))) := by
      rw [hr]; simp [ArcItem.bytes]
    have hread := readRecord_filedesc false [] values names version _ (body ++ (T ++ more)) s st hk he hp
      ⟨by simp, Or.inl rfl⟩ h1 h2 h3 h4 h5 h6 h7 hr'
    have hsub : (((ArcItem.preamble version names).length + body.length : Nat) : Int) - (ArcItem.preamble version names).length
        = (body.length : Int) := by omega
    rw [hsub] at hread
    have hrest : ({ s.adv (([] : Bytes).length + (arcLine values).length + (ArcItem.preamble version names).length) with
          parser := s.parser.withArc ⟨(splitWs (strip version)).head?, names⟩, eoc := some (body.length : Int) } : Stream).fh.rest =
        body ++ (T ++ more) := by
      show (s.adv _).fh.rest = _
      rw [adv_fh, File.advance_rest, hr', ← List.append_assoc, ← List.append_assoc, ← List.length_append,
        ← List.length_append, List.drop_left]
    refine ⟨_, _, _, ⟨(splitWs (strip version)).head?, names⟩, hread, rfl, ⟨_, hrest⟩,
      fun k hk => skip_rest false _ body T more h8 hrest k hk, rfl, rfl, ?_, withArc_arcSt _ st _ hp, withArc_isMixed _ _, rfl⟩
    simp only [adv, File.advance_advance]
    congr 1
    simp [ArcItem.bytes]; omega
  | warc r =>
    obtain ⟨h1, h2, h3⟩ := hok
    have hm : WarcMode s (r.version ++ CRLF) := by
      right
      constructor
      · cases hpp : s.parser with
        | warc => simp [hpp, Parser.isMixed] at h1
        | arc x => simp [hpp, Parser.isMixed] at h1
        | mixed x => exact ⟨x, rfl⟩
      · obtain ⟨t, ht⟩ := h3
        exact List.isPrefixOf_iff_prefix.2 ⟨t ++ CRLF, by rw [← ht]; simp⟩
    have hr' : s.fh.rest = [] ++ (headBytes r.version r.headers ++ (r.body ++ ((CRLF ++ CRLF) ++ more))) := by
      rw [hr]; simp [ArcItem.bytes, R.bytes, recordBytes]
    have hread := readRecord_head false [] r.version r.headers (r.body ++ ((CRLF ++ CRLF) ++ more)) s hk he
      ⟨by simp, Or.inl rfl⟩ h2.version h2.headers hm hr'
    rw [h2.length] at hread
    have hrest : ({ s.adv (([] : Bytes).length + (headBytes r.version r.headers).length) with eoc := some (r.body.length : Int) } : Stream).fh.rest =
        r.body ++ ((CRLF ++ CRLF) ++ more) := by
      show (s.adv _).fh.rest = _
      rw [adv_fh, File.advance_rest, hr', ← List.append_assoc, ← List.length_append, List.drop_left]
    refine ⟨_, _, _, st, hread, rfl, ⟨_, hrest⟩, fun k hk => skip_rest false _ r.body (CRLF ++ CRLF) more terminator_crlf2 hrest k hk,
      rfl, rfl, ?_, hp, rfl, rfl⟩
    simp only [adv, File.advance_advance]
    congr 1
    simp [ArcItem.bytes, R.bytes, recordBytes]

end Warc
