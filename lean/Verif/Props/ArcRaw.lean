import Verif.Proofs.AnyRecord
import Verif.Proofs.Arc
import Verif.Proofs.ArcMore
import Verif.Proofs.Payload
import Verif.Proofs.Lines
import Verif.Proofs.Hang
import Verif.Model.Arc2Warc
import Verif.Spec.Toy
import Verif.Proofs.Open
/-
  C76: the raw form of an ARC filedesc record.
-/
set_option linter.all false
namespace Warc
open Rx Stream Spec

theorem dropWhile_nil {p : Byte → Bool} : ∀ {l : Bytes}, l.dropWhile p = [] → ∀ c ∈ l, p c = true
  | [], _, c, hc => by cases hc
  | a :: l, h, c, hc => by
    by_cases ha : p a = true
    · rw [List.dropWhile_cons_of_pos ha] at h
      rcases List.mem_cons.1 hc with rfl | hc
      · exact ha
      · exact dropWhile_nil h c hc
    · rw [List.dropWhile_cons_of_neg ha] at h; cases h

theorem rstrip_blank {l : Bytes} (h : rstrip l = []) : ∀ c ∈ l, isWs c = true := by
  simp only [rstrip, rstripP, List.reverse_eq_nil_iff] at h
  intro c hc
  exact dropWhile_nil h c (by simpa using hc)

/-- a line, and the text behind it -/
theorem readline_text {s s' : Stream} {l : Bytes} (he : s.eoc = none) (h : Stream.readline none s = .ok l s') :
    s.fh.rest = l ++ s'.fh.rest ∧ s'.eoc = none ∧ s'.kind = s.kind ∧ s'.parser = s.parser ∧ s'.fh.data = s.fh.data := by
  obtain ⟨rfl, h2⟩ := readline_shape h
  refine ⟨?_, by simp [he], rfl, rfl, rfl⟩
  obtain ⟨t, ht⟩ := h2
  show _ = _ ++ (s.fh.advance l.length).rest
  rw [File.advance_rest, ← ht, List.drop_left]

theorem skipBlank_text (fuel : Nat) : ∀ (line : Bytes) (s s' : Stream) (out : Bytes), s.eoc = none →
    ArcParser.skipBlank fuel line s = .ok (some out) s' →
    LineLike line → ∃ blank, line ++ s.fh.rest = blank ++ (out ++ s'.fh.rest) ∧ (∀ c ∈ blank, isWs c = true) ∧ s'.eoc = none ∧ LineLike out := by
  induction fuel with
  | zero => intro line s s' out _ h; cases h
  | succ fuel ih =>
    intro line s s' out he h hll
    simp only [ArcParser.skipBlank] at h
    by_cases h1 : rstrip line = []
    · by_cases h2 : line = []
      · subst h2; simp [h1] at h
      · simp only [h1, h2, if_true, if_false, M.bind_apply] at h
        cases hr : Stream.readline none s with
        | hang => rw [hr] at h; cases h
        | raise e t => rw [hr] at h; cases h
        | ok l t =>
          rw [hr] at h
          obtain ⟨g1, g2, _⟩ := readline_text he hr
          obtain ⟨blank, i1, i2, i3⟩ := ih l t s' out g2 h (readline_lineLike he hr)
          refine ⟨line ++ blank, ?_, ?_, i3⟩
          · rw [g1, i1]; simp
          · intro c hc
            rcases List.mem_append.1 hc with hc | hc
            · exact rstrip_blank h1 c hc
            · exact i2 c hc
    · simp only [h1, if_false] at h
      cases h
      exact ⟨[], by simp, by simp, he, hll⟩

/-- `text` is blank characters, the three lines of the filedesc record, and `after` -/
def RawText (text after : Bytes) (r : Rec) : Prop :=
  ∃ blank l v n, r.rawHeaders = [l, v, n] ∧ text = blank ++ (l ++ (v ++ (n ++ after))) ∧ (∀ c ∈ blank, isWs c = true) ∧ LineLike l ∧ b! "filedesc:" <+: l ∧
    r.content = none ∧ r.cfile = .stream

theorem RawText.before {text after : Bytes} {r : Rec} (h : RawText text after r) (b : Bytes) (hb : ∀ c ∈ b, isWs c = true) : RawText (b ++ text) after r := by
  obtain ⟨blank, l, v, n, g1, g2, g3, g4⟩ := h
  refine ⟨b ++ blank, l, v, n, g1, by rw [g2]; simp, ?_, g4⟩
  intro c hc
  rcases List.mem_append.1 hc with hc | hc
  · exact hb c hc
  · exact g3 c hc

/-- what the ARC parser says of a filedesc record -/
theorem arc_parse_raw (st : ArcSt) (set : ArcSt → M Stream Unit) (hset : ∀ a t, ∃ p, set a t = .ok () { t with parser := p }) (offset : Option Nat) (line : Bytes)
    (s s' : Stream) (r : Rec) (es : List Err) (o : Option Nat) (he : s.eoc = none) (hll : LineLike line)
    (h : ArcParser.parse st set offset line s = .ok (some r, es, o) s') (hc : r.cls = .arcHeader) :
    RawText (line ++ s.fh.rest) s'.fh.rest r := by
  simp only [ArcParser.parse, M.bind_apply, M.get_apply] at h
  cases hk : ArcParser.skipBlank (s.fh.rest.length + 2) line s with
  | hang => rw [hk] at h; cases h
  | raise e t => rw [hk] at h; cases h
  | ok lo t =>
    rw [hk] at h
    cases lo with
    | none => simp at h
    | some l =>
      obtain ⟨blank, g1, g2, g3, gl⟩ := skipBlank_text _ _ _ _ _ he hk hll
      simp only at h
      by_cases hf : startsWith l ArcParser.filedescTag = true
      · simp only [hf, if_true, M.bind_apply] at h
        cases hr1 : Stream.readline none t with
        | hang => rw [hr1] at h; cases h
        | raise e t => rw [hr1] at h; cases h
        | ok v t1 =>
          rw [hr1] at h
          obtain ⟨i1, i2, _⟩ := readline_text g3 hr1
          simp only at h
          cases hr2 : Stream.readline none t1 with
          | hang => rw [hr2] at h; cases h
          | raise e t => rw [hr2] at h; cases h
          | ok n t2 =>
            rw [hr2] at h
            obtain ⟨j1, j2, _⟩ := readline_text i2 hr2
            simp only at h
            cases hs : splitWs (strip v) with
            | nil => rw [hs] at h; cases h
            | cons v0 vs =>
              rw [hs] at h
              simp only [M.bind_apply] at h
              obtain ⟨p, hp⟩ := hset ⟨some v0, splitWs (strip n)⟩ t2
              rw [hp] at h
              simp only at h
              cases hh : ArcParser.parseHeaderList (splitWs (strip n)) l with
              | error e => rw [hh] at h; cases h
              | ok hs' =>
                rw [hh] at h
                simp only at h
                cases hcn : ArcParser.contentHeaders hs' (none, []) with
                | mk len errs =>
                  rw [hcn] at h
                  cases len with
                  | none => cases h
                  | some len =>
                    simp only [M.bind_apply, M.modify_apply, M.pure_apply] at h
                    cases h
                    exact ⟨blank, l, v, n, rfl, by rw [g1, i1, j1], g2, gl, List.isPrefixOf_iff_prefix.1 hf, rfl, rfl⟩
      · simp only [hf, if_false] at h
        by_cases hst : st.headers = []
        · simp [hst] at h
        · cases hh : ArcParser.parseHeaderList st.headers l with
          | error e => simp [hst, hh] at h
          | ok hs' =>
            simp [hst, hh] at h
            obtain ⟨⟨rfl, _⟩, _⟩ := h
            cases hc

theorem mixed_parse_raw (st : ArcSt) (set : ArcSt → M Stream Unit) (hset : ∀ a t, ∃ p, set a t = .ok () { t with parser := p }) (offset : Option Nat)
    (r : Rec) (es : List Err) (o : Option Nat) (hc : r.cls = .arcHeader) (fuel : Nat) :
    ∀ (line : Bytes) (s s' : Stream), s.eoc = none → LineLike line → MixedParser.parse st set offset fuel line s = .ok (some r, es, o) s' →
    RawText (line ++ s.fh.rest) s'.fh.rest r := by
  induction fuel with
  | zero => intro line s s' _ _ h; cases h
  | succ fuel ih =>
    intro line s s' he hll h
    simp only [MixedParser.parse] at h
    by_cases h1 : line = []
    · simp [h1] at h
    · by_cases h2 : startsWith line (b! "WARC") = true
      · simp only [h1, h2, if_true, if_false] at h
        have := warcParse_cls _ _ _ _ _ _ _ h r rfl
        rw [hc] at this; cases this
      · by_cases h3 : line ≠ [10] ∧ line ≠ [13, 10] ∧ line ≠ [13]
        · rw [if_neg h1, if_neg h2, if_pos h3] at h
          exact arc_parse_raw st set hset offset line s s' r es o he hll h hc
        · rw [if_neg h1, if_neg h2, if_neg h3] at h
          have hb : ∀ c ∈ line, isWs c = true := by
            have : line = [10] ∨ line = [13, 10] ∨ line = [13] := by
              by_cases a : line = [10]
              · exact Or.inl a
              · by_cases b : line = [13, 10]
                · exact Or.inr (Or.inl b)
                · by_cases c : line = [13]
                  · exact Or.inr (Or.inr c)
                  · exact absurd ⟨a, b, c⟩ h3
            rcases this with rfl | rfl | rfl <;> decide
          simp only [M.bind_apply] at h
          cases hr : Stream.readline none s with
          | hang => rw [hr] at h; cases h
          | raise e t => rw [hr] at h; cases h
          | ok l t =>
            rw [hr] at h
            obtain ⟨g1, g2, _⟩ := readline_text he hr
            rw [g1]
            exact (ih l t s' g2 (readline_lineLike he hr) h).before line hb

theorem parseWith_raw (offset : Option Nat) (line : Bytes) (s s' : Stream) (r : Rec) (es : List Err) (o : Option Nat) (he : s.eoc = none) (hll : LineLike line)
    (h : parseWith offset line s = .ok (some r, es, o) s') (hc : r.cls = .arcHeader) :
    RawText (line ++ s.fh.rest) s'.fh.rest r := by
  simp only [parseWith, M.bind_apply, M.get_apply] at h
  cases hp : s.parser with
  | warc =>
    simp only [hp] at h
    have := warcParse_cls _ _ _ _ _ _ _ h r rfl
    rw [hc] at this; cases this
  | arc st =>
    simp only [hp] at h
    exact arc_parse_raw st _ (fun a t => ⟨_, rfl⟩) offset line s s' r es o he hll h hc
  | mixed st =>
    simp only [hp] at h
    exact mixed_parse_raw st _ (fun a t => ⟨_, rfl⟩) offset r es o hc _ line s s' he hll h

theorem blank_parse_raw (offs : Bool) (fuel : Nat) (s s1 s' : Stream) (off : Option Nat) (line : Bytes) (r : Rec) (es : List Err) (o o' : Option Nat)
    (he : s.eoc = none) (hb : blankLoop offs fuel s = .ok (off, line) s1) (h : parseWith o line s1 = .ok (some r, es, o') s') (hc : r.cls = .arcHeader) :
    RawText s.fh.rest s'.fh.rest r := by
  obtain ⟨T, more, g1, g2, g3, g4, g5, g6⟩ := blankLoop_inv offs fuel s s1 off line hb
  have he1 : s1.eoc = none := by rw [g5]; simp [Stream.adv, he]
  have hm : more = line ++ s1.fh.rest := by
    rw [g5, g3]
    show _ = _ ++ (s.fh.advance _).rest
    rw [File.advance_rest, g1, ← List.drop_drop, List.drop_left]
    exact (File.firstLine_append_drop more).symm
  have hll : LineLike line := by rw [g3]; exact firstLine_lineLike more
  rw [g1, hm]
  refine (parseWith_raw o line s1 s' r es o' he1 hll h hc).before T ?_
  intro c hc'
  have := g2 c hc'
  simp only [isCRLF, Bool.or_eq_true, beq_iff_eq] at this
  rcases this with rfl | rfl <;> decide

theorem readRecord_raw (offs : Bool) (s s' : Stream) (e : Entry) (r : Rec) (he : s.eoc = none) (h : readRecord offs s = .ok e s') (hr : e.rcd = some r)
    (hc : r.cls = .arcHeader) :
    RawText s.fh.rest s'.fh.rest r := by
  simp only [readRecord, M.bind_apply, M.get_apply, he, M.pure_apply, M.modify_apply] at h
  have hs : ({ s with eoc := none } : Stream) = s := by cases s; cases he; rfl
  rw [hs] at h
  cases hk : s.kind with
  | plain =>
    simp only [hk, M.bind_apply] at h
    cases hb : blankLoop offs (s.fh.rest.length + 2) s with
    | hang => rw [hb] at h; cases h
    | raise x t => rw [hb] at h; cases h
    | ok p t =>
      obtain ⟨off, line⟩ := p
      rw [hb] at h
      simp only at h
      cases hp : parseWith off line t with
      | hang => rw [hp] at h; cases h
      | raise x t => rw [hp] at h; cases h
      | ok q t' =>
        obtain ⟨r', es, o⟩ := q
        rw [hp] at h
        cases h
        cases hr
        exact blank_parse_raw offs _ s t s' off line r es off o he hb hp hc
  | gzipRecord =>
    simp only [hk, M.bind_apply] at h
    cases hb : blankLoop false (s.fh.rest.length + 2) s with
    | hang => rw [hb] at h; cases h
    | raise x t => rw [hb] at h; cases h
    | ok p t =>
      obtain ⟨off, line⟩ := p
      rw [hb] at h
      simp only at h
      cases hp : parseWith none line t with
      | hang => rw [hp] at h; cases h
      | raise x t => rw [hp] at h; cases h
      | ok q t' =>
        obtain ⟨r', es, o⟩ := q
        rw [hp] at h
        cases h
        cases hr
        exact blank_parse_raw false _ s t s' off line r es none o he hb hp hc
  | gzipFile =>
    simp only [hk, M.bind_apply] at h
    cases hb : blankLoop false (s.fh.rest.length + 2) s with
    | hang => rw [hb] at h; cases h
    | raise x t => rw [hb] at h; cases h
    | ok p t =>
      obtain ⟨off, line⟩ := p
      rw [hb] at h
      simp only at h
      cases hp : parseWith none line t with
      | hang => rw [hp] at h; cases h
      | raise x t => rw [hp] at h; cases h
      | ok q t' => rw [hp] at h; cases h

/-- `raw()` on a record whose content has not been asked for -/
theorem raw_fresh (s : Stream) (r : Rec) (out : Bytes) (t : Arc2Warc.St) (n : Nat) (hr1 : r.content = none) (hr2 : r.cfile = .stream)
    (he : s.eoc = some (n : Int)) (hn : n ≤ s.fh.rest.length ∨ s.fh.fault = none) :
    ∃ r' s', Arc2Warc.raw (⟨s, r, out⟩, t) = .ok (r.rawHeaders.flatten ++ s.fh.rest.take n) (⟨s', r', out⟩, t) ∧
      s'.fh.rest = s.fh.rest.drop n ∧ r'.rawHeaders = r.rawHeaders ∧ (∃ ct, r'.content = some (ct, some (s.fh.rest.take n))) := by
  have hop := op_run (.read none) s n he hn
  simp only [ReadOp.run, ReadOp.result, Option.map_none] at hop
  generalize hs1 : ({ s.adv (s.fh.rest.take n).length with eoc := some ((n - (s.fh.rest.take n).length : Nat) : Int) } : Stream) = s1 at hop
  have hrest : s1.fh.rest = s.fh.rest.drop n := by
    subst hs1
    show (s.fh.advance _).rest = _
    rw [File.advance_rest, List.length_take]
    rcases Nat.le_total n s.fh.rest.length with h | h
    · rw [Nat.min_eq_left h]
    · rw [Nat.min_eq_right h, List.drop_of_length_le (Nat.le_refl _), List.drop_of_length_le h]
  have hc : World.content ⟨s, r, out⟩ = .ok (r.getHeader r.cls.contentTypeName, some (s.fh.rest.take n))
      (World.clearCfile ⟨s1, { r with content := some (r.getHeader r.cls.contentTypeName, some (s.fh.rest.take n)) }, out⟩) := by
    simp only [World.content, hr1, World.cfileRead, hr2, World.onStream, hop]
  refine ⟨(World.clearCfile ⟨s1, { r with content := some (r.getHeader r.cls.contentTypeName, some (s.fh.rest.take n)) }, out⟩).rcd, s1, ?_, hrest, rfl, _, rfl⟩
  simp only [Arc2Warc.raw, M.bind_apply, M.get_apply, Arc2Warc.onWorld, WarcFilter.contentBytes, hc, M.pure_apply]
  rfl

/-- `raw()` of a filedesc record that has just been read gives the bytes of the record as they are in the file: its first line, and as many bytes behind it
as it declares; the stream then stands behind them, and later calls give the same, whatever was done with the stream in between. -/
theorem C76_raw {c : Codec} (offs : Bool) (s s' : Stream) (e : Entry) (r : Rec) (out : Bytes) (t : Arc2Warc.St) (pending : Nat) (len : Int)
    (hl : Live c s) (hp : s.eoc.getD 0 = (pending : Int)) (hp' : pending ≤ s.fh.rest.length)
    (hread : readRecord offs s = .ok e s') (hr : e.rcd = some r) (hc : r.cls = .arcHeader)
    (hlen : arcLength r.headers = some len) (hmin : ((r.rawHeaders.drop 1).flatten.length : Int) ≤ len)
    (hfull : len ≤ ((r.rawHeaders.drop 1).flatten.length : Int) + s'.fh.rest.length) :
    ∃ blank line body after s2 r2, s.fh.rest.drop pending = blank ++ (line ++ body) ++ after ∧ (∀ c ∈ blank, isWs c = true) ∧
      b! "filedesc:" <+: line ∧ 10 ∉ line.dropLast ∧ (body.length : Int) = len ∧
      Arc2Warc.raw (⟨s', r, out⟩, t) = .ok (line ++ body) (⟨s2, r2, out⟩, t) ∧ s2.fh.rest = after ∧
      ∀ s3 out3 t3, Arc2Warc.raw (⟨s3, r2, out3⟩, t3) = .ok (line ++ body) (⟨s3, r2, out3⟩, t3) := by
  have key : RawText (s.fh.rest.drop pending) s'.fh.rest r := by
    cases he : s.eoc with
    | none =>
      rw [he] at hp
      have : pending = 0 := by simpa using hp.symm
      subst this
      simpa using readRecord_raw offs s s' e r he hread hr hc
    | some m =>
      rw [he] at hp
      have hm : m = (pending : Int) := hp
      rw [hm] at he
      rw [readRecord_skip offs pending s he hp'] at hread
      have := readRecord_raw offs { s.adv pending with eoc := none } s' e r rfl hread hr hc
      simpa [Stream.adv, File.advance_rest] using this
  obtain ⟨blank, l, v, nm, k0, k1, k2, kl, k3, k4, k5⟩ := key
  have hann := (live_announces hl offs s' e r hread hr).1
  rw [k0] at hmin hfull
  simp only [payloadLength, hc, hlen, k0, Option.map_some] at hann
  generalize hw : ((List.drop 1 [l, v, nm]).flatten.length : Nat) = w at hann hmin hfull
  have hw' : w = v.length + nm.length := by rw [← hw]; simp
  obtain ⟨n, hn⟩ := Int.eq_ofNat_of_zero_le (show 0 ≤ len - (w : Int) by omega)
  rw [hn] at hann
  obtain ⟨r2, s2, g1, g2, g3, ct, g4⟩ := raw_fresh s' r out t n k4 k5 hann (Or.inl (by omega))
  have hnl : n ≤ s'.fh.rest.length := by omega
  have hflat : r.rawHeaders.flatten ++ s'.fh.rest.take n = l ++ (v ++ (nm ++ s'.fh.rest.take n)) := by rw [k0]; simp
  rw [hflat] at g1
  refine ⟨blank, l, v ++ (nm ++ s'.fh.rest.take n), s'.fh.rest.drop n, s2, r2, ?_, k2, k3, kl, ?_, g1, g2, ?_⟩
  · rw [k1]; simp only [List.append_assoc, List.take_append_drop]
  · simp only [List.length_append, List.length_take, Nat.min_eq_left hnl]; omega
  · intro s3 out3 t3
    simp [Arc2Warc.raw, Arc2Warc.onWorld, WarcFilter.contentBytes, World.content, g4, g3, k0]

/-- an ARC file that begins with a blank line, and whose filedesc record has five bytes of payload -/
def Spec.arcRawText : Bytes :=
  b! "\r\nfiledesc://a 0.0.0.0 20000101000001 text/plain 67\n1 0 x\nURL IP-address Archive-date Content-type Archive-length\nhello" ++
  b! "http://h/ 1.2.3.4 20000101000001 text/html 6\nhello\nworld"

/-- `C76_raw` applies to it, read as an ARC file or as a mixed file -/
example (cls : RecClass) (hcls : cls = .arc ∨ cls = .mixed) : ∃ s s' e r, Live toy s ∧ s.eoc.getD 0 = ((0 : Nat) : Int) ∧ readRecord true s = .ok e s' ∧ e.rcd = some r ∧ r.cls = .arcHeader ∧
    arcLength r.headers = some 67 ∧ ((r.rawHeaders.drop 1).flatten.length : Int) ≤ 67 ∧ (67 : Int) ≤ ((r.rawHeaders.drop 1).flatten.length : Int) + s'.fh.rest.length := by
  have key : ∀ cls : Option RecClass, (match openArchive toy cls false .off none arcRawText with
      | .ok s => (match readRecord true s with
        | .ok e s1 => (match e.rcd with
          | some r => decide (r.cls = .arcHeader) && decide (arcLength r.headers = some 67) && decide (((r.rawHeaders.drop 1).flatten.length : Int) ≤ 67) &&
              decide ((67 : Int) ≤ ((r.rawHeaders.drop 1).flatten.length : Int) + s1.fh.rest.length) && decide (s.eoc.getD 0 = 0)
          | none => false)
        | _ => false)
      | .error _ => false) = true →
      ∃ s s' e r, Live toy s ∧ s.eoc.getD 0 = ((0 : Nat) : Int) ∧ readRecord true s = .ok e s' ∧ e.rcd = some r ∧ r.cls = .arcHeader ∧
    arcLength r.headers = some 67 ∧ ((r.rawHeaders.drop 1).flatten.length : Int) ≤ 67 ∧ (67 : Int) ≤ ((r.rawHeaders.drop 1).flatten.length : Int) + s'.fh.rest.length := by
    intro cls h
    cases h0 : openArchive toy cls false .off none arcRawText with
    | error e => simp [h0] at h
    | ok s =>
      simp only [h0] at h
      cases hx : readRecord true s with
      | hang => simp [hx] at h
      | raise e t => simp [hx] at h
      | ok e s1 =>
        simp only [hx] at h
        cases hr : e.rcd with
        | none => simp [hr] at h
        | some r =>
          simp only [hr, Bool.and_eq_true, decide_eq_true_eq] at h
          exact ⟨s, s1, e, r, .opened h0, h.2, hx, hr, h.1.1.1.1, h.1.1.1.2, h.1.1.2, h.1.2⟩
  rcases hcls with rfl | rfl
  · exact key (some .arc) (by decide +kernel)
  · exact key (some .mixed) (by decide +kernel)

end Warc
