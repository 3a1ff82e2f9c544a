import Verif.Proofs.ReadAll
import Verif.Proofs.GrammarDamaged
import Verif.Spec.SurveyAny
set_option linter.all false
namespace Warc
open Rx Stream Spec

/-- a length below -1: the content cannot be read, and nothing is read -/
theorem content_negative (s : Stream) (v : Bytes) (hs : List Header) (es : List Err) (hneg : s.fh.strictNeg = true)
    (he : s.eoc = some (declaredLength hs)) (h : declaredLength hs < -1) :
    ∃ w, World.content ⟨s, { parsed v hs with errors := es }, []⟩ = .raise .valueError w ∧ w.strm = s := by
  have hc : ({ parsed v hs with errors := es } : Rec).content = none := rfl
  have hcf : ({ parsed v hs with errors := es } : Rec).cfile = .stream := rfl
  have hr : Stream.read none s = .raise .valueError s := by
    have h0 : ¬ (0 : Int) ≤ declaredLength hs := by omega
    have h1 : ¬ (declaredLength hs = -1 ∨ s.fh.strictNeg = false) := by rw [hneg]; simp; omega
    simp only [Stream.read, M.bind_apply, M.get_apply, he, limitOf, rawRead, onFile, File.read, if_neg h0, if_neg h1]
    rw [← he]
  simp only [World.content, hc, World.cfileRead, hcf, World.onStream, hr]
  exact ⟨_, rfl, rfl⟩

/-- a content that is not there: all that is left is gone -/
theorem content_lost {e : Exc} (s : Stream) (v : Bytes) (hs : List Header) (es : List Err) (h : Bad e s) (hneg : s.fh.strictNeg = true)
    (he : s.eoc = some (declaredLength hs)) (h1 : declaredLength hs = -1 ∨ ¬ declaredLength hs < -1 ∧ (s.fh.rest).length < (declaredLength hs).toNat) :
    ∃ w, World.content ⟨s, { parsed v hs with errors := es }, []⟩ = .raise e w ∧ w.strm = s.adv s.fh.rest.length := by
  have hc : ({ parsed v hs with errors := es } : Rec).content = none := rfl
  have hcf : ({ parsed v hs with errors := es } : Rec).cfile = .stream := rfl
  have hr : Stream.read none s = .raise e (s.adv s.fh.rest.length) := by
    by_cases h2 : declaredLength hs = -1
    · have h0 : ¬ (0 : Int) ≤ declaredLength hs := by omega
      simp only [Stream.read, M.bind_apply, M.get_apply, he, limitOf, rawRead, onFile, File.read, if_neg h0, if_pos (Or.inl h2), File.deliver, h.fault]
      rw [← he]; rfl
    · obtain ⟨h3, h4⟩ := h1.resolve_left h2
      have h0 : (0 : Int) ≤ declaredLength hs := by omega
      simp only [Stream.read, M.bind_apply, M.get_apply, he, limitOf, rawRead, onFile, File.read, if_pos h0, File.deliver, h.fault]
      rw [decide_eq_true h4]
      simp only
      rw [← he]; rfl
  simp only [World.content, hc, World.cfileRead, hcf, World.onStream, hr]
  exact ⟨_, rfl, rfl⟩

/-- the rest of the content cannot be skipped -/
theorem readRecord_lost {e : Exc} (offs : Bool) (s : Stream) (m : Int) (he : s.eoc = some m) (hm : 0 < m) (hr : s.fh.rest = []) (hf : s.fh.fault = some e) :
    ∃ s', readRecord offs s = .raise e s' := by
  have h : ∃ t, skipToEoc s = .raise e t := by
    have h0 : (0 : Int) ≤ min CHUNK_SIZE m := by simp only [CHUNK_SIZE]; omega
    have h2 : (([] : Bytes).length < (min CHUNK_SIZE m).toNat) := by simp only [CHUNK_SIZE, List.length_nil]; omega
    simp only [skipToEoc, skipLoop, M.bind_apply, M.get_apply, he, if_pos hm, rawRead, onFile, File.read, if_pos h0, File.deliver, hr, hf,
      decide_eq_true h2]
    exact ⟨_, rfl⟩
  obtain ⟨t, h⟩ := h
  exact ⟨t, by simp only [readRecord, M.bind_apply, M.get_apply, he, Option.isSome_some, if_true, h]⟩

theorem survey_eoc (rounds : Nat) (s : Stream) (e : Int) (he : e ≤ 0) : survey rounds { s with eoc := some e } = survey rounds { s with eoc := none } := by
  cases rounds with
  | zero => rfl
  | succ n => rw [survey, survey, readRecord_neg true e { s with eoc := some e } rfl he]

/-- any data -/
theorem survey_exact (rounds : Nat) (s : Stream) (hp : s.parser = .warc) (hk : s.kind ≠ .gzipFile) (he : s.eoc = none)
    (hf : s.fh.fault = none) (hneg : s.fh.strictNeg = true) (hr : s.fh.rest.length < rounds) : survey rounds s = surveyOn rounds s.fh.rest := by
  induction rounds generalizing s with
  | zero => omega
  | succ rounds ih =>
    have hx := readRecord_exact true s hp hk he hf
    rw [survey, surveyOn]
    cases hn : next s.fh.rest with
    | stuck => rw [hn] at hx; simp only at hx ⊢; rw [hx]
    | unknown => rw [hn] at hx; simp only at hx ⊢; obtain ⟨s', hx⟩ := hx; rw [hx]
    | none es size => rw [hn] at hx; simp only at hx ⊢; rw [hx]
    | record start v hs es size =>
      rw [hn] at hx; simp only at hx ⊢; rw [hx]
      simp only
      obtain ⟨hsz1, hsz2⟩ := next_size hn
      have hrest : ({ s.adv size with eoc := some (declaredLength hs) } : Stream).fh.rest = s.fh.rest.drop size := by simp
      obtain ⟨c1, c2, c3, c4⟩ := content_exact ({ s.adv size with eoc := some (declaredLength hs) } : Stream) v hs es hf hneg rfl
      rw [hrest] at c2 c3 c4
      by_cases h1 : declaredLength hs < -1
      · obtain ⟨w, hw, hws⟩ := content_negative ({ s.adv size with eoc := some (declaredLength hs) } : Stream) v hs es hneg rfl h1
        rw [if_pos h1, hw]
        simp only [hws]
        rw [survey_eoc rounds (s.adv size) _ (by omega)]
        generalize ht : ({ s.adv size with eoc := none } : Stream) = t
        have ht1 : t.fh.rest = s.fh.rest.drop size := by subst ht; simp
        rw [ih t (by subst ht; exact hp) (by subst ht; exact hk) (by subst ht; rfl) (by subst ht; exact hf) (by subst ht; exact hneg) (by rw [ht1]; simp; omega), ht1]
      · rw [if_neg h1]
        by_cases h2 : declaredLength hs = -1
        · obtain ⟨w, hw, hws⟩ := c2 h2
          rw [if_pos h2, hw]
          simp only [hws]
          have e := survey_eoc rounds (({ s.adv size with eoc := some (declaredLength hs) } : Stream).adv (s.fh.rest.drop size).length)
            (-1 - ((s.fh.rest.drop size).length : Int)) (by omega)
          rw [e]
          generalize ht : ({ ({ s.adv size with eoc := some (declaredLength hs) } : Stream).adv (s.fh.rest.drop size).length with eoc := none } : Stream) = t
          have ht1 : t.fh.rest = [] := by subst ht; simp; omega
          cases rounds with
          | zero => omega
          | succ n =>
            rw [ih t (by subst ht; exact hp) (by subst ht; exact hk) (by subst ht; rfl) (by subst ht; exact hf) (by subst ht; exact hneg)
              (by rw [ht1]; simp), ht1, surveyOn]
            simp [next, Spec.lines, dropTerminators, look, ignored]
        · rw [if_neg h2]
          by_cases h3 : (s.fh.rest.drop size).length < (declaredLength hs).toNat
          · obtain ⟨w, m, hw, hm, hws⟩ := c3 (by omega) h3
            rw [if_pos h3, hw]
            simp only [hws]
            cases rounds with
            | zero => omega
            | succ n =>
              obtain ⟨s', hs'⟩ := readRecord_missing true _ m
                (show ({ ({ s.adv size with eoc := some (declaredLength hs) } : Stream).adv (s.fh.rest.drop size).length with eoc := some ((m : Nat) : Int) } : Stream).eoc = _ from rfl)
                hm (by simp; omega) hf
              rw [survey, hs']
          · obtain ⟨w, hw, hws⟩ := c4 (by omega) h3
            rw [if_neg h3, hw]
            simp only [hws]
            rw [survey_eoc rounds (({ s.adv size with eoc := some (declaredLength hs) } : Stream).adv (declaredLength hs).toNat) ((0 : Nat) : Int) (by omega)]
            generalize ht : ({ ({ s.adv size with eoc := some (declaredLength hs) } : Stream).adv (declaredLength hs).toNat with eoc := none } : Stream) = t
            have ht1 : t.fh.rest = (s.fh.rest.drop size).drop (declaredLength hs).toNat := by subst ht; simp
            rw [ih t (by subst ht; exact hp) (by subst ht; exact hk) (by subst ht; rfl) (by subst ht; exact hf) (by subst ht; exact hneg)
              (by rw [ht1]; simp; omega), ht1]

/-- data behind which the decompressor raises -/
theorem survey_damaged {e : Exc} (rounds : Nat) (s : Stream) (hp : s.parser = .warc) (hk : s.kind = .gzipRecord) (he : s.eoc = none)
    (h : Bad e s) (hneg : s.fh.strictNeg = true) (hr : s.fh.rest.length < rounds) : survey rounds s = surveyDamaged e rounds s.fh.rest := by
  induction rounds generalizing s with
  | zero => omega
  | succ rounds ih =>
    have hx := readRecord_damaged true s h hp (by rw [hk]; simp) he
    rw [survey, surveyDamaged]
    cases hd : nextDamaged s.fh.rest with
    | none => rw [hd] at hx; obtain ⟨s', hx⟩ := hx; rw [hx]
    | some n =>
      cases n with
      | stuck => rw [hd] at hx; simp only at hx ⊢; rw [hx]
      | unknown => rw [hd] at hx; simp only at hx ⊢; obtain ⟨s', hx⟩ := hx; rw [hx]
      | none es size => rw [hd] at hx; simp only at hx ⊢; rw [hx.1]
      | record start v hs es size =>
        rw [hd] at hx; simp only at hx ⊢
        obtain ⟨hx, hb, hn⟩ := hx
        rw [hx]
        simp only
        obtain ⟨hsz1, hsz2⟩ := next_size hn
        have hrest : ({ s.adv size with eoc := some (declaredLength hs) } : Stream).fh.rest = s.fh.rest.drop size := by simp
        have hb2 : Bad e ({ s.adv size with eoc := some (declaredLength hs) } : Stream) := ⟨hb.fault, hb.pos⟩
        obtain ⟨c1, c2, c4⟩ := content_damaged ({ s.adv size with eoc := some (declaredLength hs) } : Stream) v hs es hb2 hneg rfl
        rw [hrest] at c2 c4
        by_cases h1 : declaredLength hs < -1
        · obtain ⟨w, hw, hws⟩ := content_negative ({ s.adv size with eoc := some (declaredLength hs) } : Stream) v hs es hneg rfl h1
          rw [if_pos h1, hw]
          simp only [hws]
          rw [survey_eoc rounds (s.adv size) _ (by omega)]
          generalize ht : ({ s.adv size with eoc := none } : Stream) = t
          have ht1 : t.fh.rest = s.fh.rest.drop size := by subst ht; simp
          rw [ih t (by subst ht; exact hp) (by subst ht; exact hk) (by subst ht; rfl) (by subst ht; exact ⟨hb.fault, hb.pos⟩) (by subst ht; exact hneg)
            (by rw [ht1]; simp; omega), ht1]
        · rw [if_neg h1]
          by_cases h3 : declaredLength hs = -1 ∨ (s.fh.rest.drop size).length < (declaredLength hs).toNat
          · obtain ⟨w, hw, hws⟩ := content_lost ({ s.adv size with eoc := some (declaredLength hs) } : Stream) v hs es hb2 hneg rfl
              (by rw [hrest]; exact h3.imp id fun h3 => ⟨h1, h3⟩)
            rw [if_pos h3, hw]
            simp only [hws, hrest]
            cases rounds with
            | zero => omega
            | succ n =>
              by_cases h2 : declaredLength hs = -1
              · generalize hu : (s.adv size).adv (s.fh.rest.drop size).length = u
                have hu0 : ({ s.adv size with eoc := some (declaredLength hs) } : Stream).adv (s.fh.rest.drop size).length = { u with eoc := some (declaredLength hs) } := by
                  subst hu; rfl
                have hu1 : u.fh.rest = [] := by subst hu; simp; omega
                rw [hu0, survey_eoc (n + 1) u _ (by omega)]
                rw [ih { u with eoc := none } (by subst hu; exact hp) (by subst hu; exact hk) rfl
                  (by
                    subst hu
                    refine ⟨h.fault, ?_⟩
                    have h5 := h.pos
                    simp only [Stream.adv, File.advance, File.rest, List.length_drop] at hsz2 ⊢
                    omega) (by subst hu; exact hneg) (by show u.fh.rest.length < _; rw [hu1]; simp)]
                show surveyDamaged e (n + 1) u.fh.rest = _
                rw [hu1, surveyDamaged]
                simp [nextDamaged, wholeLines, Spec.lines, dropTerminators, look]
              · obtain ⟨s', hs'⟩ := readRecord_lost (e := e) true
                  (({ s.adv size with eoc := some (declaredLength hs) } : Stream).adv (s.fh.rest.drop size).length) (declaredLength hs) rfl
                  (by have := h3.resolve_left h2; omega) (by simp; omega) h.fault
                rw [survey, hs']
          · have h4 : ¬ (s.fh.rest.drop size).length < (declaredLength hs).toNat := fun h => h3 (Or.inr h)
            obtain ⟨w, hw, hws⟩ := c4 (by have : ¬ declaredLength hs = -1 := fun h => h3 (Or.inl h); omega) h4
            rw [if_neg h3, hw]
            simp only [hws]
            rw [survey_eoc rounds (({ s.adv size with eoc := some (declaredLength hs) } : Stream).adv (declaredLength hs).toNat) ((0 : Nat) : Int) (by omega)]
            generalize ht : ({ ({ s.adv size with eoc := some (declaredLength hs) } : Stream).adv (declaredLength hs).toNat with eoc := none } : Stream) = t
            have ht1 : t.fh.rest = (s.fh.rest.drop size).drop (declaredLength hs).toNat := by subst ht; simp
            have htb : Bad e t := by
              subst ht
              refine ⟨h.fault, ?_⟩
              have h5 := h.pos
              simp only [Stream.adv, File.advance, File.rest, List.length_drop] at h4 hsz2 ⊢
              omega
            rw [ih t (by subst ht; exact hp) (by subst ht; exact hk) (by subst ht; rfl) htb (by subst ht; exact hneg)
              (by rw [ht1]; simp; omega), ht1]

end Warc
