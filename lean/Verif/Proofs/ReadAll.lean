import Verif.Proofs.Grammar2
import Verif.Proofs.Salvage
import Verif.Spec.ReadAll
set_option linter.all false
namespace Warc
open Rx Stream Spec

/-- a record takes at least one byte, and no more than there are -/
theorem look_found (bad : Nat) (ls over rest : List Bytes) (line : Bytes) (h : look bad ls = .found over line rest) :
    ls = over ++ line :: rest ∧ (versionNumber line).isSome = true := by
  induction ls generalizing bad over with
  | nil => simp [look] at h
  | cons l ls ih =>
    rw [look] at h
    by_cases h1 : (versionNumber l).isSome = true
    · rw [if_pos h1] at h; simp only [Looked.found.injEq] at h; obtain ⟨rfl, rfl, rfl⟩ := h; exact ⟨rfl, h1⟩
    · rw [if_neg h1] at h
      by_cases h2 : blankLine l = true
      · rw [if_pos h2] at h
        cases hq : look bad ls with
        | nothing o => rw [hq] at h; simp [Looked.behind] at h
        | tooMany o => rw [hq] at h; simp [Looked.behind] at h
        | found o a b =>
          rw [hq] at h; simp only [Looked.behind, Looked.found.injEq] at h; obtain ⟨rfl, rfl, rfl⟩ := h
          obtain ⟨e, e2⟩ := ih _ _ hq; exact ⟨by rw [e]; rfl, e2⟩
      · rw [if_neg h2] at h
        by_cases h3 : bad = 5
        · rw [if_pos h3] at h; simp at h
        · rw [if_neg h3] at h
          cases hq : look (bad + 1) ls with
          | nothing o => rw [hq] at h; simp [Looked.behind] at h
          | tooMany o => rw [hq] at h; simp [Looked.behind] at h
          | found o a b =>
            rw [hq] at h; simp only [Looked.behind, Looked.found.injEq] at h; obtain ⟨rfl, rfl, rfl⟩ := h
            obtain ⟨e, e2⟩ := ih _ _ hq; exact ⟨by rw [e]; rfl, e2⟩

theorem sizeOf_append (a b : List Bytes) : Spec.sizeOf (a ++ b) = Spec.sizeOf a + Spec.sizeOf b := by simp [Spec.sizeOf]

theorem blockSize_le (ls : List Bytes) : blockSize ls ≤ Spec.sizeOf ls := by
  unfold blockSize
  have h := congrArg Spec.sizeOf (List.take_append_drop ((blockLines false ls).length + 1) ls)
  rw [sizeOf_append] at h
  have : Spec.sizeOf (ls.take ((blockLines false ls).length + 1)) = ((ls.take ((blockLines false ls).length + 1)).map List.length).sum := rfl
  omega

theorem next_size {data : Bytes} {start v hs es size} (h : next data = .record start v hs es size) : 0 < size ∧ size ≤ data.length := by
  unfold next at h
  cases hlk : look 0 (dropTerminators (Spec.lines data)) with
  | nothing o => rw [hlk] at h; simp at h
  | tooMany o => rw [hlk] at h; simp at h
  | found over line rest =>
    rw [hlk] at h
    simp only at h
    obtain ⟨e, hn⟩ := look_found _ _ _ _ _ hlk
    have hsz := sizeOf_dropTerminators data
    split at h
    · split at h
      · simp at h
      · simp only [Next.record.injEq] at h
        have hb := blockSize_le rest
        have hl : line ≠ [] := by intro e; rw [e] at hn; simp [versionNumber] at hn; revert hn; decide
        have := List.length_pos_iff.2 hl
        rw [e, sizeOf_append, sizeOf_cons] at hsz
        rw [e, sizeOf_append, sizeOf_cons] at h
        omega
    · simp at h

/-- nothing left of the last record: the next record does not care about the old limit -/
theorem collect_eoc (offs : Bool) (rounds : Nat) (s : Stream) (e : Int) (he : e ≤ 0) :
    collect offs rounds { s with eoc := some e } = collect offs rounds { s with eoc := none } := by
  cases rounds with
  | zero => rfl
  | succ n => rw [collect, collect, readRecord_neg offs e { s with eoc := some e } rfl he]

theorem readRecord_missing (offs : Bool) (s : Stream) (m : Nat) (he : s.eoc = some (m : Int)) (hm : 0 < m) (hr : s.fh.rest = []) (hf : s.fh.fault = none) :
    ∃ s', readRecord offs s = .raise (.generic "expected more bytes") s' := by
  have h : skipToEoc s = .raise (.generic "expected more bytes") { s.adv 0 with eoc := some (m : Int) } := by
    have hlt : (0 : Int) < (m : Int) := by omega
    have h0 : (0 : Int) ≤ min CHUNK_SIZE (m : Int) := by simp only [CHUNK_SIZE]; omega
    have h1 : (0 : Int) < min CHUNK_SIZE (m : Int) := by simp only [CHUNK_SIZE]; omega
    simp only [skipToEoc, skipLoop, M.bind_apply, M.get_apply, he, if_pos hlt, rawRead, onFile, File.read, if_pos h0, File.deliver, hr, hf, List.take_nil,
      consume, M.modify_apply, M.pure_apply]
    cases decide (([] : Bytes).length < (min CHUNK_SIZE (m : Int)).toNat) <;>
      simp [he, Stream.adv, File.advance, h1]
  refine ⟨{ s.adv 0 with eoc := some (m : Int) }, ?_⟩
  simp only [readRecord, M.bind_apply, M.get_apply, he, h]

/-- what `record.content` gives right behind the head of a record -/
theorem content_exact (s : Stream) (v : Bytes) (hs : List Header) (es : List Err) (hf : s.fh.fault = none) (hneg : s.fh.strictNeg = true)
    (he : s.eoc = some (declaredLength hs)) :
    (declaredLength hs < -1 → ∃ w, World.content ⟨s, { parsed v hs with errors := es }, []⟩ = .raise .valueError w) ∧
    (declaredLength hs = -1 → ∃ w, World.content ⟨s, { parsed v hs with errors := es }, []⟩ =
        .ok (firstValue (b! "Content-Type") hs, some s.fh.rest) w ∧ w.strm = { s.adv s.fh.rest.length with eoc := some (-1 - (s.fh.rest.length : Int)) }) ∧
    (0 ≤ declaredLength hs → (s.fh.rest).length < (declaredLength hs).toNat → ∃ w m, World.content ⟨s, { parsed v hs with errors := es }, []⟩ =
        .ok (firstValue (b! "Content-Type") hs, some s.fh.rest) w ∧ 0 < m ∧ w.strm = { s.adv s.fh.rest.length with eoc := some ((m : Nat) : Int) }) ∧
    (0 ≤ declaredLength hs → ¬ (s.fh.rest).length < (declaredLength hs).toNat → ∃ w, World.content ⟨s, { parsed v hs with errors := es }, []⟩ =
        .ok (firstValue (b! "Content-Type") hs, some (s.fh.rest.take (declaredLength hs).toNat)) w ∧
        w.strm = { s.adv (declaredLength hs).toNat with eoc := some ((0 : Nat) : Int) }) := by
  have hgt : ({ parsed v hs with errors := es } : Rec).getHeader ({ parsed v hs with errors := es } : Rec).cls.contentTypeName = firstValue (b! "Content-Type") hs := by
    simp [Rec.getHeader, lookupHeader_eq, parsed, Cls.contentTypeName, WH.CONTENT_TYPE]
  have hc : ({ parsed v hs with errors := es } : Rec).content = none := rfl
  have hcf : ({ parsed v hs with errors := es } : Rec).cfile = .stream := rfl
  refine ⟨fun h => ?_, fun h => ?_, fun h hn => ?_, fun h hn => ?_⟩
  · have hr : Stream.read none s = .raise .valueError s := by
      have h0 : ¬ (0 : Int) ≤ declaredLength hs := by omega
      have h1 : ¬ (declaredLength hs = -1 ∨ s.fh.strictNeg = false) := by rw [hneg]; simp; omega
      simp only [Stream.read, M.bind_apply, M.get_apply, he, limitOf, rawRead, onFile, File.read, if_neg h0, if_neg h1]
      rw [← he]
    simp only [World.content, hc, World.cfileRead, hcf, World.onStream, hr]
    exact ⟨_, rfl⟩
  · have hr : Stream.read none s = .ok s.fh.rest { s.adv s.fh.rest.length with eoc := some (-1 - (s.fh.rest.length : Int)) } := by
      have h0 : ¬ (0 : Int) ≤ declaredLength hs := by omega
      simp only [Stream.read, M.bind_apply, M.get_apply, he, limitOf, rawRead, onFile, File.read, if_neg h0, if_pos (Or.inl h), File.deliver, hf,
        consume, M.modify_apply, M.pure_apply, Option.map_some]
      rw [h]; rfl
    simp only [World.content, hc, World.cfileRead, hcf, World.onStream, hr, hgt]
    exact ⟨_, rfl, rfl⟩
  · obtain ⟨n, hn'⟩ : ∃ n : Nat, declaredLength hs = (n : Int) := ⟨_, (Int.toNat_of_nonneg h).symm⟩
    rw [hn'] at he
    have ht : (declaredLength hs).toNat = n := by rw [hn']; rfl
    have hop := op_run (.read none) s n he (Or.inr hf)
    simp only [ReadOp.run, ReadOp.result, Option.map_none] at hop
    have hl : s.fh.rest.take n = s.fh.rest := List.take_of_length_le (by omega)
    simp only [hl] at hop
    simp only [World.content, hc, World.cfileRead, hcf, World.onStream, hop, hgt]
    exact ⟨_, n - s.fh.rest.length, rfl, by omega, rfl⟩
  · obtain ⟨n, hn'⟩ : ∃ n : Nat, declaredLength hs = (n : Int) := ⟨_, (Int.toNat_of_nonneg h).symm⟩
    rw [hn'] at he
    have ht : (declaredLength hs).toNat = n := by rw [hn']; rfl
    have hop := op_run (.read none) s n he (Or.inr hf)
    simp only [ReadOp.run, ReadOp.result, Option.map_none] at hop
    have hl : (s.fh.rest.take n).length = n := by simp; omega
    simp only [hl, Nat.sub_self] at hop
    rw [ht]
    simp only [World.content, hc, World.cfileRead, hcf, World.onStream, hop, hgt]
    exact ⟨_, rfl, rfl⟩

/-- reading the whole of any file -/
theorem collect_exact (offs : Bool) (rounds : Nat) (s : Stream) (hp : s.parser = .warc) (hk : s.kind ≠ .gzipFile) (he : s.eoc = none)
    (hf : s.fh.fault = none) (hneg : s.fh.strictNeg = true) (hr : s.fh.rest.length < rounds) :
    collect offs rounds s = meaning (reported s.kind offs) rounds s.fh.pos s.fh.rest := by
  induction rounds generalizing s with
  | zero => omega
  | succ rounds ih =>
    have hx := readRecord_exact offs s hp hk he hf
    rw [collect, meaning]
    cases hn : next s.fh.rest with
    | stuck => rw [hn] at hx; simp only at hx ⊢; rw [hx]
    | unknown => rw [hn] at hx; simp only at hx ⊢; obtain ⟨s', hx⟩ := hx; rw [hx]
    | none es size => rw [hn] at hx; simp only at hx ⊢; rw [hx]
    | record start v hs es size =>
      rw [hn] at hx; simp only at hx ⊢; rw [hx]
      simp only
      obtain ⟨hsz1, hsz2⟩ := next_size hn
      have hrest : ({ s.adv size with eoc := some (declaredLength hs) } : Stream).fh.rest = s.fh.rest.drop size := by simp
      obtain ⟨c1, c2, c3, c4⟩ := content_exact ({ s.adv size with eoc := some (declaredLength hs) } : Stream) v hs es hf hneg rfl
      rw [hrest] at c2 c3 c4
      by_cases h1 : declaredLength hs < -1
      · obtain ⟨w, hw⟩ := c1 h1
        rw [if_pos h1, hw]
      · rw [if_neg h1]
        by_cases h2 : declaredLength hs = -1
        · obtain ⟨w, hw, hws⟩ := c2 h2
          rw [if_pos h2, hw]
          simp only [hws]
          have e := collect_eoc offs rounds (({ s.adv size with eoc := some (declaredLength hs) } : Stream).adv (s.fh.rest.drop size).length)
            (-1 - ((s.fh.rest.drop size).length : Int)) (by omega)
          rw [e]
          generalize ht : ({ ({ s.adv size with eoc := some (declaredLength hs) } : Stream).adv (s.fh.rest.drop size).length with eoc := none } : Stream) = t
          have ht1 : t.fh.rest = [] := by subst ht; simp; omega
          have ht2 : t.fh.pos = s.fh.pos + s.fh.rest.length := by subst ht; simp [Stream.adv, File.advance]; omega
          have ht3 : t.kind = s.kind := by subst ht; rfl
          cases rounds with
          | zero => omega
          | succ n =>
            rw [ih t (by subst ht; exact hp) (by subst ht; exact hk) (by subst ht; rfl) (by subst ht; exact hf) (by subst ht; exact hneg)
              (by rw [ht1]; simp), ht1, ht2, ht3, meaning]
            simp [next, Spec.lines, dropTerminators, look, ignored, parsed]
        · rw [if_neg h2]
          by_cases h3 : (s.fh.rest.drop size).length < (declaredLength hs).toNat
          · obtain ⟨w, m, hw, hm, hws⟩ := c3 (by omega) h3
            rw [if_pos h3, hw]
            simp only [hws]
            cases rounds with
            | zero => omega
            | succ n =>
              obtain ⟨s', hs'⟩ := readRecord_missing offs
                { ({ s.adv size with eoc := some (declaredLength hs) } : Stream).adv (s.fh.rest.drop size).length with eoc := some ((m : Nat) : Int) } m rfl hm
                (by simp; omega) hf
              rw [collect, hs']
              rfl
          · obtain ⟨w, hw, hws⟩ := c4 (by omega) h3
            rw [if_neg h3, hw]
            simp only [hws]
            have e := collect_eoc offs rounds (({ s.adv size with eoc := some (declaredLength hs) } : Stream).adv (declaredLength hs).toNat)
              ((0 : Nat) : Int) (by omega)
            rw [e]
            generalize ht : ({ ({ s.adv size with eoc := some (declaredLength hs) } : Stream).adv (declaredLength hs).toNat with eoc := none } : Stream) = t
            have ht1 : t.fh.rest = (s.fh.rest.drop size).drop (declaredLength hs).toNat := by subst ht; simp
            have ht2 : t.fh.pos = s.fh.pos + size + (declaredLength hs).toNat := by subst ht; simp [Stream.adv, File.advance]
            have ht3 : t.kind = s.kind := by subst ht; rfl
            rw [ih t (by subst ht; exact hp) (by subst ht; exact hk) (by subst ht; rfl) (by subst ht; exact hf) (by subst ht; exact hneg)
              (by rw [ht1]; simp; omega), ht1, ht2, ht3]
            rfl

end Warc
