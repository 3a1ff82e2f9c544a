import Verif.Proofs.Extend
/-
  Reading an ordinary file that has more data behind its end: nothing changes as long as the end is not reached.
-/
set_option linter.all false
namespace Warc
open Rx Stream Spec

/-- a stream on an ordinary file, not moved past its end -/
structure Ord (s : Stream) : Prop where
  fault : s.fh.fault = none
  pos : s.fh.pos ≤ s.fh.data.length

theorem ord_rest {s : Stream} (hb : Ord s) (more : Bytes) (g : Option Exc) :
    (ext more g s).fh.rest = s.fh.rest ++ more := by
  simp only [ext, File.rest]
  rw [List.drop_append_of_le_length hb.pos]

theorem ord_rest_length {s : Stream} (hb : Ord s) (more : Bytes) (g : Option Exc) :
    s.fh.rest.length ≤ (ext more g s).fh.rest.length := by
  rw [ord_rest hb]; simp

/-- what running `p` on the file has to do with running `q` on the longer one: the same, unless `p` comes to the end -/
def Grow {α : Type} (more : Bytes) (s : Stream) (p q : M Stream α) : Prop :=
  match p s with
  | .ok a s' => Ord s' ∧ s'.fh.rest.length ≤ s.fh.rest.length ∧ (s'.fh.rest ≠ [] → q (ext more none s) = .ok a (ext more none s'))
  | .raise e s' => Ord s' ∧ s'.fh.rest.length ≤ s.fh.rest.length ∧ (s'.fh.rest ≠ [] → q (ext more none s) = .raise e (ext more none s'))
  | .hang => True

theorem rest_ne {s s' : Stream} (h : s'.fh.rest.length ≤ s.fh.rest.length) (hn : s'.fh.rest ≠ []) : s.fh.rest ≠ [] := by
  intro h0
  rw [h0] at h
  exact hn (List.length_eq_zero_iff.1 (Nat.le_zero.1 h))

namespace Grow
variable {α β : Type} {more : Bytes} {s : Stream}

theorem pure (hb : Ord s) (a : α) : Grow more s (pure a : M Stream α) (Pure.pure a) := ⟨hb, Nat.le_refl _, fun _ => rfl⟩
theorem throw (hb : Ord s) (e' : Exc) : Grow more s (M.throw e' : M Stream α) (M.throw e') := ⟨hb, Nat.le_refl _, fun _ => rfl⟩

theorem modify {f : Stream → Stream} (hb : Ord (f s)) (h : f (ext more none s) = ext more none (f s)) (hr : (f s).fh = s.fh) :
    Grow more s (M.modify f) (M.modify f) := by
  simp only [Grow, M.modify_apply, h]
  exact ⟨hb, by rw [hr]; exact Nat.le_refl _, fun _ => trivial⟩

theorem bind {p q : M Stream α} {f k : α → M Stream β} (hp : Grow more s p q)
    (hf : ∀ a s', p s = .ok a s' → Ord s' → Grow more s' (f a) (k a)) :
    Grow more s (p >>= f) (q >>= k) := by
  simp only [Grow, M.bind_apply] at hp ⊢
  cases hq : p s with
  | hang => trivial
  | raise e' s1 =>
    simp only [hq] at hp
    refine ⟨hp.1, hp.2.1, fun hn => ?_⟩
    rw [hp.2.2 hn]
  | ok a s1 =>
    simp only [hq] at hp
    obtain ⟨h1, h2, h3⟩ := hp
    have h := hf a s1 hq h1
    simp only [Grow] at h ⊢
    cases hr : f a s1 with
    | hang => trivial
    | raise e' s2 =>
      simp only [hr] at h ⊢
      refine ⟨h.1, Nat.le_trans h.2.1 h2, fun hn => ?_⟩
      rw [h3 (rest_ne h.2.1 hn)]
      exact h.2.2 hn
    | ok b s2 =>
      simp only [hr] at h ⊢
      refine ⟨h.1, Nat.le_trans h.2.1 h2, fun hn => ?_⟩
      rw [h3 (rest_ne h.2.1 hn)]
      exact h.2.2 hn

theorem get {f k : Stream → M Stream β} (h : Grow more s (f s) (k (ext more none s))) :
    Grow more s (M.get >>= f) (M.get >>= k) := h

theorem ite {c : Prop} [Decidable c] {p q p' q' : M Stream α} (h1 : Grow more s p p') (h2 : Grow more s q q') :
    Grow more s (if c then p else q) (if c then p' else q') := by
  by_cases h : c
  · rw [if_pos h, if_pos h]; exact h1
  · rw [if_neg h, if_neg h]; exact h2

theorem diverge (q : M Stream α) : Grow more s (M.diverge : M Stream α) q := trivial

end Grow

section
variable {more : Bytes} {s : Stream}

/-! file operations -/

/-- delivering a prefix of what is left; if something is left afterwards the longer file delivers the same -/
theorem grow_onFile (hb : Ord s) (out out' : Bytes) (short short' : Bool)
    (hle : out <+: s.fh.rest) (hout : out.length < s.fh.rest.length → out' = out) :
    Grow more s (onFile (File.deliver out short)) (onFile (File.deliver out' short')) := by
  have hl : out.length ≤ s.fh.rest.length := hle.length_le
  have hf : File.deliver out short s.fh = .ok out (s.fh.advance out.length) := by
    simp only [File.deliver, hb.fault]
  have hf' : File.deliver out' short' (ext more none s).fh = .ok out' ((ext more none s).fh.advance out'.length) := by
    simp only [File.deliver, ext]
  simp only [Grow, onFile, hf, hf']
  have hp := hb.pos
  have hrl : s.fh.rest.length = s.fh.data.length - s.fh.pos := by simp [File.rest]
  refine ⟨⟨hb.fault, ?_⟩, ?_, fun hn => ?_⟩
  · simp only [File.advance]; omega
  · simp only [File.advance, File.rest, List.length_drop]; omega
  · have : out.length < s.fh.rest.length := by
      have := List.length_pos_iff.2 hn
      simp only [File.advance, File.rest, List.length_drop] at this
      omega
    rw [hout this]
    simp [ext, File.advance]

theorem firstLine_short (x : Bytes) (h : (File.firstLine x).length < x.length) : (File.firstLine x).getLast? = some 10 := by
  induction x with
  | nil => simp at h
  | cons c cs ih =>
    simp only [File.firstLine] at h ⊢
    by_cases hc : (c == 10) = true
    · simp only [hc, if_true] at h ⊢
      have : c = 10 := by simpa using hc
      simp [this]
    · simp only [hc] at h ⊢
      have := ih (by simpa using h)
      cases hf : File.firstLine cs with
      | nil => rw [hf] at this; simp at this
      | cons d ds => rw [hf] at this; simpa using this

theorem firstLine_nl (x : Bytes) (h : 10 ∈ x) : (File.firstLine x).getLast? = some 10 := by
  induction x with
  | nil => simp at h
  | cons c cs ih =>
    simp only [File.firstLine]
    by_cases hc : (c == 10) = true
    · have : c = 10 := by simpa using hc
      simp [this]
    · have hc' : ¬ c = 10 := by simpa using hc
      have := ih (by rcases List.mem_cons.1 h with h | h; exact absurd h.symm hc'; exact h)
      simp only [hc]
      cases hf : File.firstLine cs with
      | nil => rw [hf] at this; simp at this
      | cons d ds => rw [hf] at this; simpa using this

theorem grow_fileReadline (hb : Ord s) (lim : Option Int) :
    Grow more s (onFile (File.readline lim)) (onFile (File.readline lim)) := by
  have key : ∀ p q : M File Bytes, (∀ f, f = s.fh → File.readline lim f = p f) →
      (∀ f, f = (ext more none s).fh → File.readline lim f = q f) → Grow more s (onFile p) (onFile q) →
      Grow more s (onFile (File.readline lim)) (onFile (File.readline lim)) := by
    intro p q h1 h2 h
    simpa only [Grow, onFile, h1 _ rfl, h2 _ rfl] using h
  have hr := ord_rest hb more none
  have free : ∀ b b', Grow more s (onFile (File.deliver (File.firstLine s.fh.rest) b))
      (onFile (File.deliver (File.firstLine (s.fh.rest ++ more)) b')) := by
    intro b b'
    exact grow_onFile hb _ _ _ _ (File.firstLine_prefix _) fun h => firstLine_ext _ _ (firstLine_short _ h)
  cases lim with
  | none => exact key _ _ (fun f hf => by subst hf; rfl) (fun f hf => by subst hf; simp only [File.readline]; rw [hr]) (free _ _)
  | some k =>
    by_cases hk : 0 ≤ k
    · refine key (File.deliver ((File.firstLine s.fh.rest).take k.toNat)
          (decide ((File.firstLine s.fh.rest).getLast? ≠ some 10 ∧ (File.firstLine s.fh.rest).length < k.toNat)))
        (File.deliver ((File.firstLine (s.fh.rest ++ more)).take k.toNat)
          (decide ((File.firstLine (s.fh.rest ++ more)).getLast? ≠ some 10 ∧ (File.firstLine (s.fh.rest ++ more)).length < k.toNat)))
        (fun f hf => by subst hf; simp only [File.readline, if_pos hk]) (fun f hf => by subst hf; simp only [File.readline, if_pos hk]; rw [hr]) ?_
      refine grow_onFile hb _ _ _ _ ((List.take_prefix _ _).trans (File.firstLine_prefix _)) fun h => ?_
      by_cases hl : (File.firstLine s.fh.rest).length < s.fh.rest.length
      · rw [firstLine_ext _ _ (firstLine_short _ hl)]
      · have hle := File.firstLine_length_le s.fh.rest
        have hk2 : k.toNat ≤ (File.firstLine s.fh.rest).length := by
          simp only [List.length_take] at h
          omega
        obtain ⟨t, ht⟩ := firstLine_prefix_ext s.fh.rest more
        rw [← ht]
        exact List.take_append_of_le_length hk2
    · exact key _ _ (fun f hf => by subst hf; simp only [File.readline, if_neg hk]; rfl)
        (fun f hf => by subst hf; simp only [File.readline, if_neg hk]; rw [hr]) (free _ _)

theorem grow_fileRead (hb : Ord s) (n : Option Int) :
    Grow more s (onFile (File.read n)) (onFile (File.read n)) := by
  have hr := ord_rest hb more none
  have key : ∀ p q : M File Bytes, (∀ f, f = s.fh → File.read n f = p f) →
      (∀ f, f = (ext more none s).fh → File.read n f = q f) → Grow more s (onFile p) (onFile q) →
      Grow more s (onFile (File.read n)) (onFile (File.read n)) := by
    intro p q h1 h2 h
    simpa only [Grow, onFile, h1 _ rfl, h2 _ rfl] using h
  have all : Grow more s (onFile (File.deliver s.fh.rest true)) (onFile (File.deliver (s.fh.rest ++ more) true)) :=
    grow_onFile hb _ _ _ _ (List.prefix_refl _) fun h => absurd h (Nat.lt_irrefl _)
  cases n with
  | none => exact key _ _ (fun f hf => by subst hf; rfl) (fun f hf => by subst hf; simp only [File.read]; rw [hr]) all
  | some n =>
    by_cases hn : 0 ≤ n
    · refine key (File.deliver (s.fh.rest.take n.toNat) (decide (s.fh.rest.length < n.toNat)))
        (File.deliver ((s.fh.rest ++ more).take n.toNat) (decide ((s.fh.rest ++ more).length < n.toNat)))
        (fun f hf => by subst hf; simp only [File.read, if_pos hn]) (fun f hf => by subst hf; simp only [File.read, if_pos hn]; rw [hr]) ?_
      refine grow_onFile hb _ _ _ _ (List.take_prefix _ _) fun h => ?_
      exact List.take_append_of_le_length (by simp only [List.length_take] at h; omega)
    · by_cases hs : n = -1 ∨ s.fh.strictNeg = false
      · exact key _ _ (fun f hf => by subst hf; simp only [File.read, if_neg hn, if_pos hs])
          (fun f hf => by
            subst hf
            have hs' : n = -1 ∨ (ext more none s).fh.strictNeg = false := hs
            simp only [File.read, if_neg hn, if_pos hs']; rw [hr]) all
      · have e1 : File.read (some n) s.fh = .raise .valueError s.fh := by
          simp only [File.read, if_neg hn, if_neg hs]
        have e2 : File.read (some n) (ext more none s).fh = .raise .valueError (ext more none s).fh := by
          have hs' : ¬ (n = -1 ∨ (ext more none s).fh.strictNeg = false) := hs
          simp only [File.read, if_neg hn, if_neg hs']
        simp only [Grow, onFile, e1, e2]
        exact ⟨⟨hb.fault, hb.pos⟩, Nat.le_refl _, fun _ => trivial⟩

theorem grow_consume (hb : Ord s) (n : Nat) : Grow more s (consume n) (consume n) :=
  Grow.modify ⟨hb.fault, hb.pos⟩ rfl rfl

theorem grow_rawRead (hb : Ord s) (n : Option Int) : Grow more s (rawRead n) (rawRead n) :=
  (grow_fileRead hb n).bind fun a s' _ hb' => (grow_consume hb' _).bind fun _ _ _ hb2 => Grow.pure hb2 _

theorem grow_read (hb : Ord s) (n : Option Int) : Grow more s (Stream.read n) (Stream.read n) :=
  Grow.get (grow_rawRead hb _)

theorem grow_readline (hb : Ord s) (n : Option Int) : Grow more s (Stream.readline n) (Stream.readline n) :=
  Grow.get ((grow_fileReadline hb _).bind fun a s' _ hb' => (grow_consume hb' _).bind fun _ _ _ hb2 => Grow.pure hb2 _)

theorem grow_skipLoop (n m : Nat) (hb : Ord s) (hm : n ≤ m) : Grow more s (skipLoop n) (skipLoop m) := by
  induction n generalizing m s with
  | zero => exact Grow.diverge _
  | succ n ih =>
    obtain ⟨m, rfl⟩ : ∃ k, m = k + 1 := ⟨m - 1, by omega⟩
    simp only [skipLoop]
    refine Grow.get ?_
    show Grow more s (match s.eoc with | some e => _ | none => _) (match s.eoc with | some e => _ | none => _)
    cases s.eoc with
    | none => exact Grow.throw hb _
    | some k =>
      exact Grow.ite ((grow_rawRead hb _).bind fun buf s1 hq hb1 => Grow.ite (Grow.throw hb1 _) (ih m hb1 (by omega))) (Grow.pure hb _)

theorem grow_skipToEoc (hb : Ord s) : Grow more s skipToEoc skipToEoc := by
  refine Grow.get ?_
  show Grow more s (match s.eoc with | none => _ | some e => _) (match s.eoc with | none => _ | some e => _)
  cases s.eoc with
  | none => exact Grow.throw hb _
  | some k => exact grow_skipLoop _ _ hb (by have := ord_rest_length hb more none; omega)

theorem grow_blankLoop (offs : Bool) (n m : Nat) (hb : Ord s) (hm : n ≤ m) : Grow more s (blankLoop offs n) (blankLoop offs m) := by
  induction n generalizing m s with
  | zero => exact Grow.diverge _
  | succ n ih =>
    obtain ⟨m, rfl⟩ : ∃ k, m = k + 1 := ⟨m - 1, by omega⟩
    simp only [blankLoop]
    exact Grow.get ((grow_fileReadline hb none).bind fun l s1 hq hb1 => Grow.ite (ih m hb1 (by omega)) (Grow.pure hb1 _))

theorem grow_versionLoop (n m : Nat) (line : Bytes) (errs : List Err) (off : Option Nat) (hb : Ord s) (hm : n ≤ m) :
    Grow more s (WarcParser.versionLoop n line errs off) (WarcParser.versionLoop m line errs off) := by
  induction n generalizing m s line errs off with
  | zero => exact Grow.diverge _
  | succ n ih =>
    obtain ⟨m, rfl⟩ : ∃ k, m = k + 1 := ⟨m - 1, by omega⟩
    simp only [WarcParser.versionLoop]
    refine Grow.ite (Grow.pure hb _) ?_
    cases pmatch versionRx line with
    | some mt => exact Grow.pure hb _
    | none =>
      have next : ∀ errs off, Grow more s (Stream.readline none >>= fun l => WarcParser.versionLoop n l errs off)
          (Stream.readline none >>= fun l => WarcParser.versionLoop m l errs off) := by
        intro errs off
        exact (grow_readline hb none).bind fun l s1 hq hb1 => ih m _ _ _ hb1 (by omega)
      exact Grow.ite (next _ _) (Grow.ite (Grow.pure hb _) (next _ _))

theorem grow_followLoop (n m : Nat) (line : Bytes) (v : List Bytes) (errs : List Err) (hb : Ord s) (hm : n ≤ m) :
    Grow more s (WarcParser.followLoop n line v errs) (WarcParser.followLoop m line v errs) := by
  induction n generalizing m s line v errs with
  | zero => exact Grow.diverge _
  | succ n ih =>
    obtain ⟨m, rfl⟩ : ∃ k, m = k + 1 := ⟨m - 1, by omega⟩
    simp only [WarcParser.followLoop]
    cases pmatch valueRx line with
    | none => exact Grow.pure hb _
    | some mt => exact (grow_readline hb none).bind fun l s1 hq hb1 => ih m _ _ _ hb1 (by omega)

theorem grow_headerLoop (n m : Nat) (line : Bytes) (st : WarcParser.HState) (hb : Ord s) (hm : n ≤ m) :
    Grow more s (WarcParser.headerLoop n line st) (WarcParser.headerLoop m line st) := by
  induction n generalizing m s line st with
  | zero => exact Grow.diverge _
  | succ n ih =>
    obtain ⟨m, rfl⟩ : ∃ k, m = k + 1 := ⟨m - 1, by omega⟩
    by_cases h1 : line = [] ∨ rxTest nlRx line = true
    · simp only [WarcParser.headerLoop, if_pos h1]; exact Grow.pure hb _
    · cases h2 : pmatch headerRx line with
      | none => simp only [Grow, headerLoop_stuck _ _ _ _ h1 h2]
      | some mt =>
        simp only [WarcParser.headerLoop, if_neg h1, h2]
        have hrl := ord_rest_length hb more none
        exact Grow.get ((grow_readline hb none).bind fun l s1 hq hb1 =>
          (grow_followLoop _ _ _ _ _ hb1 (by omega)).bind fun a s2 hq2 hb2 => ih m _ _ hb2 (by omega))

theorem grow_warcParse (off : Option Nat) (line : Bytes) (hb : Ord s) :
    Grow more s (WarcParser.parse off line) (WarcParser.parse off line) := by
  have hrl := ord_rest_length hb more none
  refine Grow.get ((grow_versionLoop _ _ _ _ _ hb (by omega)).bind fun v s1 hq hb1 => ?_)
  cases v with
  | eof es o => exact Grow.pure hb1 _
  | giveUp es o => exact Grow.pure hb1 _
  | found mt es o =>
    simp only
    cases WarcParser.versionErrors mt es with
    | none => exact Grow.throw hb1 _
    | some es =>
      have hrl1 := ord_rest_length hb1 more none
      refine Grow.get ((grow_readline hb1 none).bind fun l s2 hq2 hb2 => ?_)
      refine (grow_headerLoop _ _ _ _ hb2 (by omega)).bind fun st s3 hq3 hb3 => ?_
      refine (Grow.modify (f := fun s => { s with eoc := some st.contentLength }) ⟨hb3.fault, hb3.pos⟩ rfl rfl).bind fun _ s4 _ hb4 => ?_
      exact Grow.pure hb4 _

theorem grow_skipBlank (n m : Nat) (line : Bytes) (hb : Ord s) (hm : n ≤ m) :
    Grow more s (ArcParser.skipBlank n line) (ArcParser.skipBlank m line) := by
  induction n generalizing m s line with
  | zero => exact Grow.diverge _
  | succ n ih =>
    obtain ⟨m, rfl⟩ : ∃ k, m = k + 1 := ⟨m - 1, by omega⟩
    simp only [ArcParser.skipBlank]
    exact Grow.ite (Grow.ite (Grow.pure hb _) ((grow_readline hb none).bind fun l s1 hq hb1 => ih m _ hb1 (by omega))) (Grow.pure hb _)

theorem grow_set {setSt : ArcSt → M Stream Unit} (hs : SetsOnly setSt) (st : ArcSt) (hb : Ord s) : Grow more s (setSt st) (setSt st) := by
  obtain ⟨f, hf⟩ := hs.eq st
  rw [hf]
  exact Grow.modify ⟨hb.fault, hb.pos⟩ rfl rfl

theorem grow_arcParse (st : ArcSt) (setSt : ArcSt → M Stream Unit) (hs : SetsOnly setSt) (off : Option Nat) (line : Bytes) (hb : Ord s) :
    Grow more s (ArcParser.parse st setSt off line) (ArcParser.parse st setSt off line) := by
  have hrl := ord_rest_length hb more none
  refine Grow.get ((grow_skipBlank _ _ _ hb (by omega)).bind fun v s1 hq hb1 => ?_)
  cases v with
  | none => exact Grow.pure hb1 _
  | some line =>
    simp only
    refine Grow.ite ?_ (Grow.ite (Grow.throw hb1 _) ?_)
    · refine (grow_readline hb1 none).bind fun l1 s2 hq2 hb2 => (grow_readline hb2 none).bind fun l2 s3 hq3 hb3 => ?_
      cases splitWs (strip l1) with
      | nil => exact Grow.throw hb3 _
      | cons v vs =>
        refine (grow_set hs _ hb3).bind fun _ s4 _ hb4 => ?_
        cases ArcParser.parseHeaderList (splitWs (strip l2)) line with
        | error e => exact Grow.throw hb4 _
        | ok hs =>
          simp only
          cases ArcParser.contentHeaders hs (none, []) with
          | mk len es =>
            cases len with
            | none => exact Grow.throw hb4 _
            | some n =>
              refine (Grow.modify (f := fun s => { s with eoc := some (n - l1.length - l2.length) }) ⟨hb4.fault, hb4.pos⟩ rfl rfl).bind fun _ _ _ hb5 => ?_
              exact Grow.pure hb5 _
    · cases ArcParser.parseHeaderList st.headers line with
      | error e => exact Grow.throw hb1 _
      | ok hs =>
        simp only
        refine (Grow.modify (f := fun s => { s with eoc := (ArcParser.contentHeaders hs (none, [])).1 }) ⟨hb1.fault, hb1.pos⟩ rfl rfl).bind fun _ _ _ hb5 => ?_
        exact Grow.pure hb5 _

theorem grow_mixedParse (st : ArcSt) (setSt : ArcSt → M Stream Unit) (hs : SetsOnly setSt) (off : Option Nat) (n m : Nat) (line : Bytes)
    (hb : Ord s) (hm : n ≤ m) :
    Grow more s (MixedParser.parse st setSt off n line) (MixedParser.parse st setSt off m line) := by
  induction n generalizing m s line with
  | zero => exact Grow.diverge _
  | succ n ih =>
    obtain ⟨m, rfl⟩ : ∃ k, m = k + 1 := ⟨m - 1, by omega⟩
    simp only [MixedParser.parse]
    exact Grow.ite (Grow.pure hb _) (Grow.ite (grow_warcParse _ _ hb) (Grow.ite (grow_arcParse st setSt hs off line hb)
      ((grow_readline hb none).bind fun l s1 hq hb1 => ih m _ hb1 (by omega))))

theorem grow_parseWith (off : Option Nat) (line : Bytes) (hb : Ord s) : Grow more s (parseWith off line) (parseWith off line) := by
  have hrl := ord_rest_length hb more none
  refine Grow.get ?_
  show Grow more s (match s.parser with | .warc => _ | .arc st => _ | .mixed st => _) (match s.parser with | .warc => _ | .arc st => _ | .mixed st => _)
  cases s.parser with
  | warc => exact grow_warcParse off line hb
  | arc st => exact grow_arcParse st _ sets_arc off line hb
  | mixed st => exact grow_mixedParse st _ sets_mixed off _ _ line hb (by omega)

theorem grow_readFresh (offs : Bool) (hb : Ord s) : Grow more s (readFresh offs) (readFresh offs) := by
  refine (Grow.modify (f := fun s => { s with eoc := none }) ⟨hb.fault, hb.pos⟩ rfl rfl).bind fun _ s1 hq1 hb1 => Grow.get ?_
  have hrl := ord_rest_length hb1 more none
  show Grow more s1 (match s1.kind with | .plain => _ | .gzipRecord => _ | .gzipFile => _) (match s1.kind with | .plain => _ | .gzipRecord => _ | .gzipFile => _)
  have part : ∀ o, Grow more s1 (blankLoop o (s1.fh.rest.length + 2)) (blankLoop o ((ext more none s1).fh.rest.length + 2)) :=
    fun o => grow_blankLoop o _ _ hb1 (by omega)
  cases s1.kind with
  | plain => exact (part offs).bind fun q s2 hq hb2 => (grow_parseWith _ _ hb2).bind fun _ _ _ hb3 => Grow.pure hb3 _
  | gzipRecord => exact (part false).bind fun q s2 hq hb2 => (grow_parseWith _ _ hb2).bind fun _ _ _ hb3 => Grow.pure hb3 _
  | gzipFile => exact (part false).bind fun q s2 hq hb2 => (grow_parseWith _ _ hb2).bind fun _ _ _ hb3 => Grow.throw hb3 _

theorem grow_readRecord (offs : Bool) (hb : Ord s) : Grow more s (readRecord offs) (readRecord offs) := by
  have he : (ext more none s).eoc = s.eoc := rfl
  simp only [Grow, readRecord_fresh, he]
  cases s.eoc with
  | none => exact grow_readFresh offs hb
  | some n => exact (grow_skipToEoc hb).bind fun _ s1 _ hb1 => grow_readFresh offs hb1

theorem grow_op (op : ReadOp) (hb : Ord s) : Grow more s op.run op.run := by
  cases op with
  | read n => exact grow_read hb _
  | readline n => exact grow_readline hb _
  | readinto n => exact grow_read hb _

theorem grow_runOps (ops : List ReadOp) (hb : Ord s) : Grow more s (runOps ops) (runOps ops) := by
  induction ops generalizing s with
  | nil => exact Grow.pure hb _
  | cons op ops ih =>
    exact (grow_op op hb).bind fun a s1 _ hb1 => (ih hb1).bind fun _ _ _ hb2 => Grow.pure hb2 _

end
end Warc
