import Verif.Proofs.ArcGrammar2
set_option linter.all false
namespace Warc
open Rx Stream Spec

/-- what asking the stream `s` for the next record does, if the bytes in front of it mean `m` -/
def Spec.Meant.Describes (m : Meant) (offs : Bool) (s : Stream) : Prop :=
  match m with
  | .nothing place errors size => readRecord offs s = .ok ⟨reported s.kind offs (s.fh.pos + place), Option.none, errors⟩ (s.adv size)
  | .record f => ∃ ver, readRecord offs s = .ok ⟨reported s.kind offs (s.fh.pos + f.start), some f.rcd, []⟩
      { s.adv f.size with eoc := f.length, parser := s.parser.withArc ⟨ver, f.names⟩ }
  | .raises e => ∃ s', readRecord offs s = .raise e s'
  | .stuck => readRecord offs s = .hang

theorem dropWhile_first {α : Type} (p : α → Bool) (l : List α) (a : α) (t : List α) (h : l.dropWhile p = a :: t) : p a = false := by
  induction l with
  | nil => simp at h
  | cons b l ih =>
    rw [List.dropWhile_cons] at h
    by_cases hb : p b = true
    · rw [if_pos hb] at h; exact ih h
    · rw [if_neg hb] at h; simp only [List.cons.injEq] at h; rw [← h.1]; simpa using hb

theorem nextArc_start (names : List Bytes) (d : Bytes) :
    (∀ f, nextArc names d = .record f → f.start = d.length - Spec.sizeOf (dropTerminators (Spec.lines d))) ∧
    (∀ p e n, nextArc names d = .nothing p e n → p = d.length - Spec.sizeOf (dropTerminators (Spec.lines d))) := by
  unfold nextArc
  cases hd : (dropTerminators (Spec.lines d)).dropWhile white with
  | nil =>
    simp only
    refine ⟨fun f h => (by cases h), fun p e n h => ?_⟩
    simp only [Meant.nothing.injEq] at h; exact h.1.symm
  | cons l ls =>
    simp only
    generalize d.length - Spec.sizeOf (dropTerminators (Spec.lines d)) = a
    generalize d.length - Spec.sizeOf ls = z
    have hd1 : ∀ (a z : Nat) (l v n : Bytes), (∀ f, fileDesc a z l v n = .record f → f.start = a) ∧ (∀ p e m, fileDesc a z l v n = .nothing p e m → p = a) := by
      intro a z l v n
      unfold fileDesc
      by_cases hw : white v = true ∨ white n = true
      · rw [if_pos hw]; exact ⟨fun f h => (by cases h), fun p e m h => by cases h⟩
      · rw [if_neg hw]
        cases lineHeaders (splitWs n) l with
        | none => exact ⟨fun f h => (by cases h), fun p e m h => by cases h⟩
        | some hs =>
          simp only
          cases arcLength hs with
          | none => exact ⟨fun f h => (by cases h), fun p e m h => by cases h⟩
          | some len => exact ⟨fun f h => (by simp only [Meant.record.injEq] at h; rw [← h]), fun p e m h => by cases h⟩
    have hd2 : ∀ (a z : Nat) (l : Bytes), (∀ f, plainRecord a z names l = .record f → f.start = a) ∧ (∀ p e m, plainRecord a z names l = .nothing p e m → p = a) := by
      intro a z l
      unfold plainRecord
      by_cases hw : names = []
      · rw [if_pos hw]; exact ⟨fun f h => (by cases h), fun p e m h => by cases h⟩
      · rw [if_neg hw]
        cases lineHeaders names l with
        | none => exact ⟨fun f h => (by cases h), fun p e m h => by cases h⟩
        | some hs => exact ⟨fun f h => (by simp only [Meant.record.injEq] at h; rw [← h]), fun p e m h => by cases h⟩
    by_cases hfd : b! "filedesc:" <+: l
    · rw [if_pos hfd]; exact hd1 _ _ _ _ _
    · rw [if_neg hfd]; exact hd2 _ _ _

/-- the next record of an ARC file or of a mixed file -/
theorem readRecord_arc_exact (offs : Bool) (s : Stream) (st : ArcSt) (hp : s.parser.arcSt? = some st) (hn : ∀ n ∈ st.headers, 10 ∉ n)
    (hk : s.kind ≠ .gzipFile) (he : s.eoc = none) (hfa : s.fh.fault = none) :
    (nextIn s.parser.isMixed st.headers s.fh.rest).Describes offs s := by
  unfold nextIn
  by_cases hw : s.parser.isMixed = true ∧ b! "WARC" <+: (dropTerminators (Spec.lines s.fh.rest)).headD []
  · rw [if_pos hw]
    have hmix : ∃ st, s.parser = .mixed st := by
      cases hq : s.parser with
      | warc => rw [hq] at hw; simp [Parser.isMixed] at hw
      | arc x => rw [hq] at hw; simp [Parser.isMixed] at hw
      | mixed x => exact ⟨x, rfl⟩
    have h := readRecord_exact' offs s (Or.inr ⟨hmix, hw.2⟩) hk he hfa
    cases hx : next s.fh.rest with
    | none a b => rw [hx] at h; exact h
    | record a b c d e =>
      rw [hx] at h
      refine ⟨st.version, ?_⟩
      rw [withArc_self _ _ hp]
      exact h
    | unknown => rw [hx] at h; exact h
    | stuck => rw [hx] at h; exact h
  · rw [if_neg hw]
    have hset : { s with eoc := none } = s := by
      obtain ⟨fh, eoc, kind, parser⟩ := s; simp at he; subst he; rfl
    have hlen : (Spec.lines s.fh.rest).length < s.fh.rest.length + 2 := by
      have := lines_length s.fh.rest; omega
    have hsz := sizeOf_dropTerminators s.fh.rest
    obtain ⟨sk, hsk⟩ : ∃ sk, sk = s.fh.rest.length - Spec.sizeOf (dropTerminators (Spec.lines s.fh.rest)) := ⟨_, rfl⟩
    have key : ∀ offs2, ∃ l k, blankLoop offs2 (s.fh.rest.length + 2) s = .ok (if offs2 then some (s.fh.pos + sk) else none, l) (s.adv k) ∧
        ∀ o, (nextArc st.headers s.fh.rest).Ran o s (parseWith o l (s.adv k)) := by
      intro offs2
      obtain ⟨l, k, h1, h2, h3, h4⟩ := blankLoop_exact offs2 _ s he hfa hlen
      rw [← hsk] at h1
      refine ⟨l, k, h1, fun o => ?_⟩
      have hszl : l.length + (s.adv k).fh.rest.length = Spec.sizeOf (dropTerminators (Spec.lines s.fh.rest)) := by
        rw [← h3, sizeOf_lines, List.length_append]
      have hkk : k + (s.adv k).fh.rest.length = s.fh.rest.length := by omega
      have hmain := arcParse_exact st o s l k hp hn h2 h3 hkk
      by_cases hl : l = []
      · cases hpp : s.parser with
        | warc => rw [hpp] at hp; simp [Parser.arcSt?] at hp
        | arc x =>
          rw [hpp] at hp; simp only [Parser.arcSt?, Option.some.injEq] at hp; subst hp
          have : parseWith o l (s.adv k) = ArcParser.parse x (fun st' => M.modify fun t => { t with parser := s.parser.withArc st' }) o l (s.adv k) := by
            have hpk : (s.adv k).parser = .arc x := hpp
            simp only [parseWith, M.bind_apply, M.get_apply, hpk, hpp, Parser.withArc]
          rw [this]; exact hmain
        | mixed x =>
          rw [hpp] at hp; simp only [Parser.arcSt?, Option.some.injEq] at hp; subst hp
          have hpk : (s.adv k).parser = .mixed x := hpp
          have hr := h2.nil hl
          rw [hr] at hkk
          have hdt : dropTerminators (Spec.lines s.fh.rest) = [] := by
            rw [← h3, hr, hl]; rfl
          simp only [parseWith, M.bind_apply, M.get_apply, hpk, hl, MixedParser.parse, if_true, M.pure_apply, nextArc, hdt, List.dropWhile_nil, Spec.Meant.Ran]
          have : k = s.fh.rest.length := by simpa using hkk
          rw [this]
      · have hhead : (dropTerminators (Spec.lines s.fh.rest)) = l :: Spec.lines (s.adv k).fh.rest := by rw [← h3, h2.lines hl]
        have hnt := dropWhile_first _ _ _ _ hhead
        have hb : l ≠ [10] ∧ l ≠ [13, 10] ∧ l ≠ [13] := by
          refine ⟨?_, ?_, ?_⟩ <;> (rintro rfl; simp at hnt)
        rw [hhead] at hw
        have := parseWith_arc (s.adv k) st o l hp hl (fun hm hpre => hw ⟨hm, hpre⟩) hb
        rw [this]; exact hmain
    have hst := nextArc_start st.headers s.fh.rest
    rw [← hsk] at hst
    unfold Spec.Meant.Describes readRecord
    simp only [M.bind_apply, M.get_apply, he, M.pure_apply, M.modify_apply, hset]
    have hkk : s.kind = .plain ∨ s.kind = .gzipRecord := by cases h : s.kind <;> simp_all
    rcases hkk with hkind | hkind
    · rw [hkind]
      obtain ⟨l, k, hb, hq⟩ := key offs
      simp only [M.bind_apply, hb]
      have hq := hq (if offs = true then some (s.fh.pos + sk) else none)
      have hrep : (if offs = true then some (s.fh.pos + sk) else none) = reported .plain offs (s.fh.pos + sk) := rfl
      cases hx : nextArc st.headers s.fh.rest with
      | nothing p e n =>
        rw [hx] at hq; simp only [Spec.Meant.Ran] at hq ⊢
        rw [hq, hst.2 p e n hx]; rfl
      | record f =>
        rw [hx] at hq; simp only [Spec.Meant.Ran] at hq ⊢
        obtain ⟨ver, hq⟩ := hq
        refine ⟨ver, ?_⟩
        rw [hq, hst.1 f hx]; rfl
      | raises e =>
        rw [hx] at hq; simp only [Spec.Meant.Ran] at hq ⊢
        obtain ⟨s', hq⟩ := hq
        exact ⟨s', by rw [hq]⟩
      | stuck => rw [hx] at hq; simp only [Spec.Meant.Ran] at hq ⊢; rw [hq]
    · rw [hkind]
      obtain ⟨l, k, hb, hq⟩ := key false
      simp only [M.bind_apply, hb]
      have hq := hq none
      cases hx : nextArc st.headers s.fh.rest with
      | nothing p e n =>
        rw [hx] at hq; simp only [Spec.Meant.Ran] at hq ⊢
        rw [hq]; rfl
      | record f =>
        rw [hx] at hq; simp only [Spec.Meant.Ran] at hq ⊢
        obtain ⟨ver, hq⟩ := hq
        refine ⟨ver, ?_⟩
        rw [hq]; rfl
      | raises e =>
        rw [hx] at hq; simp only [Spec.Meant.Ran] at hq ⊢
        obtain ⟨s', hq⟩ := hq
        exact ⟨s', by rw [hq]⟩
      | stuck => rw [hx] at hq; simp only [Spec.Meant.Ran] at hq ⊢; rw [hq]

/-! ### a whole file -/

theorem sizeOf_headD (ls : List Bytes) : (ls.headD []).length + Spec.sizeOf (ls.drop 1) = Spec.sizeOf ls := by
  cases ls with
  | nil => rfl
  | cons a b => rw [sizeOf_cons]; rfl

/-- a record takes at least one byte, and no more than there are; field names have no line end -/
theorem nextIn_size {mixed : Bool} {names : List Bytes} {data : Bytes} {f : Located} (hn : ∀ n ∈ names, 10 ∉ n) (h : nextIn mixed names data = .record f) :
    0 < f.size ∧ f.size ≤ data.length ∧ (∀ n ∈ f.names, 10 ∉ n) ∧ (f.cls.contentTypeName = b! "Content-Type" ∨ f.cls.contentTypeName = b! "Content-type") := by
  unfold nextIn at h
  by_cases hw : mixed = true ∧ b! "WARC" <+: (dropTerminators (Spec.lines data)).headD []
  · rw [if_pos hw] at h
    cases hx : next data with
    | none a b => rw [hx] at h; cases h
    | unknown => rw [hx] at h; cases h
    | stuck => rw [hx] at h; cases h
    | record a b c d e =>
      rw [hx] at h
      simp only [ofWarc, Meant.record.injEq] at h
      obtain ⟨h1, h2⟩ := next_size hx
      subst h
      exact ⟨h1, h2, hn, Or.inl rfl⟩
  · rw [if_neg hw] at h
    unfold nextArc at h
    cases hd : (dropTerminators (Spec.lines data)).dropWhile white with
    | nil => rw [hd] at h; cases h
    | cons l ls =>
      rw [hd] at h
      simp only at h
      have hlw := dropWhile_first _ _ _ _ hd
      have hl : 0 < l.length := by
        apply List.length_pos_iff.2
        rintro rfl; cases hlw
      have h1 := sizeOf_dropWhile white (dropTerminators (Spec.lines data))
      have h2 := sizeOf_dropTerminators data
      rw [hd, sizeOf_cons] at h1
      by_cases hfd : b! "filedesc:" <+: l
      · rw [if_pos hfd] at h
        unfold fileDesc at h
        split at h
        · cases h
        · split at h
          · cases h
          · split at h
            · cases h
            · simp only [Meant.record.injEq] at h
              have e1 := sizeOf_headD ls
              have e2 := sizeOf_headD (ls.drop 1)
              subst h
              refine ⟨?_, ?_, splitWs_noLF _, Or.inr rfl⟩
              · show 0 < data.length - Spec.sizeOf ls + _ + _; omega
              · show data.length - Spec.sizeOf ls + _ + _ ≤ _; omega
      · rw [if_neg hfd] at h
        unfold plainRecord at h
        split at h
        · cases h
        · split at h
          · cases h
          · simp only [Meant.record.injEq] at h
            subst h
            refine ⟨?_, ?_, hn, Or.inr rfl⟩
            · show 0 < data.length - Spec.sizeOf ls; omega
            · show data.length - Spec.sizeOf ls ≤ _; omega

/-- what `record.content` gives right behind the head of a record -/
theorem content_located (s : Stream) (f : Located) (hct : f.cls.contentTypeName = b! "Content-Type" ∨ f.cls.contentTypeName = b! "Content-type")
    (hf : s.fh.fault = none) (hneg : s.fh.strictNeg = true) (he : s.eoc = f.length) :
    ((f.length = none ∨ f.length = some (-1)) → ∃ w e, World.content ⟨s, f.rcd, []⟩ = .ok (firstValue (b! "Content-Type") f.headers, some s.fh.rest) w ∧
        w.strm = { s.adv s.fh.rest.length with eoc := e } ∧ (e = none ∨ ∃ i, e = some i ∧ i ≤ 0)) ∧
    (∀ n, f.length = some n → n < -1 → ∃ w, World.content ⟨s, f.rcd, []⟩ = .raise .valueError w) ∧
    (∀ n, f.length = some n → 0 ≤ n → s.fh.rest.length < n.toNat → ∃ w m, World.content ⟨s, f.rcd, []⟩ =
        .ok (firstValue (b! "Content-Type") f.headers, some s.fh.rest) w ∧ 0 < m ∧ w.strm = { s.adv s.fh.rest.length with eoc := some ((m : Nat) : Int) }) ∧
    (∀ n, f.length = some n → 0 ≤ n → ¬ s.fh.rest.length < n.toNat → ∃ w, World.content ⟨s, f.rcd, []⟩ =
        .ok (firstValue (b! "Content-Type") f.headers, some (s.fh.rest.take n.toNat)) w ∧ w.strm = { s.adv n.toNat with eoc := some 0 }) := by
  have hgt : f.rcd.getHeader f.rcd.cls.contentTypeName = firstValue (b! "Content-Type") f.headers := by
    have h1 : f.rcd.getHeader f.rcd.cls.contentTypeName = firstValue f.cls.contentTypeName f.headers := by
      simp [Rec.getHeader, lookupHeader_eq, Spec.Located.rcd]
    rw [h1]
    have h2 : ∀ (a b : Bytes) (hs : List Header), lower a = lower b → firstValue a hs = firstValue b hs := by
      intro a b hs e
      induction hs with
      | nil => rfl
      | cons h hs ih => simp only [firstValue, e, ih]
    rcases hct with h | h
    · rw [h]
    · rw [h]; exact h2 _ _ _ (by decide)
  have hc : f.rcd.content = none := rfl
  have hcf : f.rcd.cfile = .stream := rfl
  refine ⟨fun h => ?_, fun n h hn => ?_, fun n h h0 hlt => ?_, fun n h h0 hlt => ?_⟩
  · rcases h with h | h
    · rw [h] at he
      have hr : Stream.read none s = .ok s.fh.rest { s.adv s.fh.rest.length with eoc := none } := by
        simp only [Stream.read, M.bind_apply, M.get_apply, he, limitOf, rawRead, onFile, File.read, File.deliver, hf,
          consume, M.modify_apply, M.pure_apply, Option.map_none]
        rfl
      simp only [World.content, hc, World.cfileRead, hcf, World.onStream, hr, hgt]
      exact ⟨_, none, rfl, rfl, Or.inl rfl⟩
    · rw [h] at he
      have hr : Stream.read none s = .ok s.fh.rest { s.adv s.fh.rest.length with eoc := some (-1 - (s.fh.rest.length : Int)) } := by
        have h0 : ¬ (0 : Int) ≤ -1 := by omega
        simp only [Stream.read, M.bind_apply, M.get_apply, he, limitOf, rawRead, onFile, File.read, if_neg h0, true_or, if_true, File.deliver, hf,
          consume, M.modify_apply, M.pure_apply, Option.map_some]
        rfl
      simp only [World.content, hc, World.cfileRead, hcf, World.onStream, hr, hgt]
      exact ⟨_, some (-1 - (s.fh.rest.length : Int)), rfl, rfl, Or.inr ⟨_, rfl, by omega⟩⟩
  · rw [h] at he
    have hr : Stream.read none s = .raise .valueError s := by
      have h0 : ¬ (0 : Int) ≤ n := by omega
      have h1 : ¬ (n = -1 ∨ s.fh.strictNeg = false) := by rw [hneg]; simp; omega
      simp only [Stream.read, M.bind_apply, M.get_apply, he, limitOf, rawRead, onFile, File.read, if_neg h0, if_neg h1]
      rw [← he]
    simp only [World.content, hc, World.cfileRead, hcf, World.onStream, hr]
    exact ⟨_, rfl⟩
  · obtain ⟨m, rfl⟩ : ∃ m : Nat, n = (m : Int) := ⟨_, (Int.toNat_of_nonneg h0).symm⟩
    rw [h] at he
    have hop := op_run (.read none) s m he (Or.inr hf)
    simp only [ReadOp.run, ReadOp.result, Option.map_none] at hop
    simp only [Int.toNat_natCast] at hlt
    have hl : s.fh.rest.take m = s.fh.rest := List.take_of_length_le (by omega)
    simp only [hl] at hop
    simp only [World.content, hc, World.cfileRead, hcf, World.onStream, hop, hgt]
    exact ⟨_, m - s.fh.rest.length, rfl, by omega, rfl⟩
  · obtain ⟨m, rfl⟩ : ∃ m : Nat, n = (m : Int) := ⟨_, (Int.toNat_of_nonneg h0).symm⟩
    rw [h] at he
    have hop := op_run (.read none) s m he (Or.inr hf)
    simp only [ReadOp.run, ReadOp.result, Option.map_none] at hop
    simp only [Int.toNat_natCast] at hlt ⊢
    have hl : (s.fh.rest.take m).length = m := by simp; omega
    simp only [hl, Nat.sub_self] at hop
    simp only [World.content, hc, World.cfileRead, hcf, World.onStream, hop, hgt]
    exact ⟨_, rfl, rfl⟩

/-- reading the whole of any file with the parser for ARC files or mixed files -/
theorem collect_arc_exact (offs : Bool) (rounds : Nat) (s : Stream) (st : ArcSt) (hp : s.parser.arcSt? = some st) (hn : ∀ n ∈ st.headers, 10 ∉ n)
    (hk : s.kind ≠ .gzipFile) (he : s.eoc = none) (hf : s.fh.fault = none) (hneg : s.fh.strictNeg = true) (hr : s.fh.rest.length < rounds) :
    collect offs rounds s = meaningIn s.parser.isMixed (reported s.kind offs) rounds s.fh.pos st.headers s.fh.rest := by
  induction rounds generalizing s st with
  | zero => omega
  | succ rounds ih =>
    have hx := readRecord_arc_exact offs s st hp hn hk he hf
    rw [collect, meaningIn]
    cases hm : nextIn s.parser.isMixed st.headers s.fh.rest with
    | stuck => rw [hm] at hx; simp only [Spec.Meant.Describes] at hx ⊢; rw [hx]
    | raises e => rw [hm] at hx; simp only [Spec.Meant.Describes] at hx ⊢; obtain ⟨s', hx⟩ := hx; rw [hx]
    | nothing p es size => rw [hm] at hx; simp only [Spec.Meant.Describes] at hx ⊢; rw [hx]
    | record f =>
      rw [hm] at hx; simp only [Spec.Meant.Describes] at hx ⊢
      obtain ⟨ver, hx⟩ := hx
      rw [hx]
      simp only
      obtain ⟨hsz1, hsz2, hnames, hct⟩ := nextIn_size hn hm
      generalize hs1 : ({ s.adv f.size with eoc := f.length, parser := s.parser.withArc ⟨ver, f.names⟩ } : Stream) = s1
      have hrest : s1.fh.rest = s.fh.rest.drop f.size := by subst hs1; simp
      have hpos : s1.fh.pos = s.fh.pos + f.size := by subst hs1; rfl
      have hk1 : s1.kind = s.kind := by subst hs1; rfl
      have hp1 : s1.parser.arcSt? = some ⟨ver, f.names⟩ := by subst hs1; exact withArc_arcSt _ st _ hp
      have hm1 : s1.parser.isMixed = s.parser.isMixed := by subst hs1; exact withArc_isMixed _ _
      have hf1 : s1.fh.fault = none := by subst hs1; exact hf
      have hneg1 : s1.fh.strictNeg = true := by subst hs1; exact hneg
      have he1 : s1.eoc = f.length := by subst hs1; rfl
      clear hs1
      obtain ⟨c1, c2, c3, c4⟩ := content_located s1 f hct hf1 hneg1 he1
      -- the next round, from a stream with nothing left of the payload
      have step : ∀ (n : Nat) (e : Option Int), n ≤ s1.fh.rest.length → (e = none ∨ ∃ i, e = some i ∧ i ≤ 0) →
          collect offs rounds { s1.adv n with eoc := e } =
            meaningIn s.parser.isMixed (reported s.kind offs) rounds (s1.fh.pos + n) f.names (s1.fh.rest.drop n) := by
        intro n e hnl hee
        have e1 : collect offs rounds { s1.adv n with eoc := e } = collect offs rounds { s1.adv n with eoc := none } := by
          rcases hee with rfl | ⟨i, rfl, hi⟩
          · rfl
          · exact collect_eoc offs rounds (s1.adv n) i hi
        rw [e1]
        generalize ht : ({ s1.adv n with eoc := none } : Stream) = t
        have ht1 : t.fh.rest = s1.fh.rest.drop n := by subst ht; simp
        have ht2 : t.fh.pos = s1.fh.pos + n := by subst ht; rfl
        have ht3 : t.kind = s.kind := by subst ht; exact hk1
        have ht4 : t.parser.isMixed = s.parser.isMixed := by subst ht; exact hm1
        rw [ih t ⟨ver, f.names⟩ (by subst ht; exact hp1) hnames (by rw [ht3]; exact hk) (by subst ht; rfl) (by subst ht; exact hf1) (by subst ht; exact hneg1)
          (by rw [ht1, List.length_drop, hrest, List.length_drop]; omega), ht1, ht2, ht3, ht4]
      by_cases h1 : f.length = none ∨ f.length = some (-1)
      · obtain ⟨w, e, hw, hws, hee⟩ := c1 h1
        rw [if_pos h1, hw]
        simp only [hws]
        have hl : s1.fh.rest.length = s.fh.rest.length - f.size := by rw [hrest, List.length_drop]
        rw [step s1.fh.rest.length e (Nat.le_refl _) hee, List.drop_length, hpos, hl, show s.fh.pos + f.size + (s.fh.rest.length - f.size) = s.fh.pos + s.fh.rest.length by omega,
          hrest]
        rfl
      · rw [if_neg h1]
        obtain ⟨n, hlen⟩ : ∃ n, f.length = some n := by
          cases hq : f.length with
          | none => exact absurd (Or.inl hq) h1
          | some n => exact ⟨n, rfl⟩
        have hg : f.length.getD 0 = n := by rw [hlen]; rfl
        have hm1' : n ≠ -1 := by intro e; exact h1 (Or.inr (by rw [hlen, e]))
        rw [hg]
        by_cases h2 : n < 0
        · obtain ⟨w, hw⟩ := c2 n hlen (by omega)
          rw [if_pos h2, hw]
        · rw [if_neg h2]
          by_cases h3 : (s.fh.rest.drop f.size).length < n.toNat
          · obtain ⟨w, m, hw, hmm, hws⟩ := c3 n hlen (by omega) (by rw [hrest]; exact h3)
            rw [if_pos h3, hw]
            simp only [hws]
            cases rounds with
            | zero => omega
            | succ j =>
              obtain ⟨s', hs'⟩ := readRecord_missing offs { s1.adv s1.fh.rest.length with eoc := some ((m : Nat) : Int) } m rfl hmm (by simp) hf1
              rw [collect, hs', hrest]
              rfl
          · obtain ⟨w, hw, hws⟩ := c4 n hlen (by omega) (by rw [hrest]; exact h3)
            rw [if_neg h3, hw]
            simp only [hws]
            rw [step n.toNat (some 0) (by rw [hrest]; omega) (Or.inr ⟨0, rfl, by omega⟩), hpos, hrest]
            rfl

end Warc
