import Verif.Proofs.Ends
/-
  Reading a damaged compressed file does what reading any continuation of its data does, until the
  decompressor raises.
-/
set_option linter.all false
namespace Warc
open Rx Stream Spec

/-- the same stream on a file with more data -/
def ext (more : Bytes) (g : Option Exc) (s : Stream) : Stream :=
  ⟨⟨s.fh.data ++ more, s.fh.pos, s.fh.strictNeg, g⟩, s.eoc, s.kind, s.parser⟩

/-- a stream on a damaged file, not moved past the end of its data -/
structure Bad (x : Exc) (s : Stream) : Prop where
  fault : s.fh.fault = some x
  pos : s.fh.pos ≤ s.fh.data.length

theorem ext_rest {x : Exc} {s : Stream} (hb : Bad x s) (more : Bytes) (g : Option Exc) :
    (ext more g s).fh.rest = s.fh.rest ++ more := by
  simp only [ext, File.rest]
  rw [List.drop_append_of_le_length hb.pos]

theorem ext_rest_length {x : Exc} {s : Stream} (hb : Bad x s) (more : Bytes) (g : Option Exc) :
    s.fh.rest.length ≤ (ext more g s).fh.rest.length := by
  rw [ext_rest hb]; simp

/-- what running `p` on the damaged file has to do with running `q` on the longer one -/
def Like {α : Type} (more : Bytes) (g : Option Exc) (e : Exc) (s : Stream) (p q : M Stream α) : Prop :=
  match p s with
  | .ok a s' => q (ext more g s) = .ok a (ext more g s') ∧ Bad e s' ∧ s'.fh.rest.length ≤ s.fh.rest.length
  | .raise e' _ => e' = e ∨ ∃ t, q (ext more g s) = .raise e' t
  | .hang => q (ext more g s) = .hang

namespace Like
variable {α β : Type} {more : Bytes} {g : Option Exc} {e : Exc} {s : Stream}

theorem pure (hb : Bad e s) (a : α) : Like more g e s (pure a : M Stream α) (Pure.pure a) := ⟨rfl, hb, Nat.le_refl _⟩
theorem throw (e' : Exc) : Like more g e s (M.throw e' : M Stream α) (M.throw e') := Or.inr ⟨_, rfl⟩

theorem modify {f : Stream → Stream} (hb : Bad e (f s)) (h : f (ext more g s) = ext more g (f s)) (hr : (f s).fh = s.fh) :
    Like more g e s (M.modify f) (M.modify f) := by
  simp only [Like, M.modify_apply, h]
  exact ⟨trivial, hb, by rw [hr]; exact Nat.le_refl _⟩

theorem bind {p q : M Stream α} {f k : α → M Stream β} (hp : Like more g e s p q)
    (hf : ∀ a s', p s = .ok a s' → Bad e s' → s'.fh.rest.length ≤ s.fh.rest.length → Like more g e s' (f a) (k a)) :
    Like more g e s (p >>= f) (q >>= k) := by
  simp only [Like, M.bind_apply] at hp ⊢
  cases hq : p s with
  | hang => simp only [hq] at hp; simp only [hp]
  | raise e' s1 =>
    simp only [hq] at hp
    simp only
    rcases hp with h | ⟨t, h⟩
    · exact Or.inl h
    · exact Or.inr ⟨t, by simp only [h]⟩
  | ok a s1 =>
    simp only [hq] at hp
    obtain ⟨h1, h2, h3⟩ := hp
    have h := hf a s1 hq h2 h3
    simp only [h1]
    simp only [Like] at h
    cases hr : f a s1 with
    | hang => simp only [hr] at h; exact h
    | raise e' s2 => simp only [hr] at h; exact h
    | ok b s2 => simp only [hr] at h; exact ⟨h.1, h.2.1, Nat.le_trans h.2.2 h3⟩

theorem get {f k : Stream → M Stream β} (h : Like more g e s (f s) (k (ext more g s))) :
    Like more g e s (M.get >>= f) (M.get >>= k) := h

theorem ite {c : Prop} [Decidable c] {p q p' q' : M Stream α} (h1 : Like more g e s p p') (h2 : Like more g e s q q') :
    Like more g e s (if c then p else q) (if c then p' else q') := by
  by_cases h : c
  · rw [if_pos h, if_pos h]; exact h1
  · rw [if_neg h, if_neg h]; exact h2

end Like

/-! file operations -/

theorem firstLine_ext (x more : Bytes) (h : (File.firstLine x).getLast? = some 10) :
    File.firstLine (x ++ more) = File.firstLine x := by
  induction x with
  | nil => simp [File.firstLine] at h
  | cons c cs ih =>
    simp only [File.firstLine, List.cons_append] at h ⊢
    by_cases hc : (c == 10) = true
    · simp [hc]
    · simp only [hc] at h ⊢
      rw [ih]
      · cases hcs : File.firstLine cs with
        | nil =>
          rw [hcs] at h
          simp at h
          simp [h] at hc
        | cons d ds => rw [hcs] at h; simpa using h

theorem firstLine_prefix_ext (x more : Bytes) : File.firstLine x <+: File.firstLine (x ++ more) := by
  induction x with
  | nil => simp [File.firstLine]
  | cons c cs ih =>
    simp only [File.firstLine, List.cons_append]
    by_cases hc : (c == 10) = true
    · simp [hc]
    · simp only [hc, if_false]
      simpa using ih

theorem like_onFile {more : Bytes} {g : Option Exc} {e : Exc} {s : Stream} (hb : Bad e s) (out out' : Bytes) (short short' : Bool)
    (hout : short = false → out' = out ∧ short' = false) (hle : out <+: s.fh.rest) :
    Like more g e s (onFile (File.deliver out short)) (onFile (File.deliver out' short')) := by
  have hl : out.length ≤ s.fh.rest.length := hle.length_le
  simp only [Like, onFile, File.deliver, hb.fault]
  cases short with
  | true => exact Or.inl rfl
  | false =>
    obtain ⟨h1, h2⟩ := hout rfl
    subst h1 h2
    have hp := hb.pos
    have : s.fh.rest.length = s.fh.data.length - s.fh.pos := by simp [File.rest]
    refine ⟨?_, ⟨hb.fault, ?_⟩, ?_⟩
    · simp [ext, File.advance]
    · simp only [File.advance]; omega
    · simp only [File.advance, File.rest, List.length_drop]; omega

/-- reading a line from a damaged file -/
theorem like_fileReadline {more : Bytes} {g : Option Exc} {e : Exc} {s : Stream} (hb : Bad e s) (lim : Option Int) :
    Like more g e s (onFile (File.readline lim)) (onFile (File.readline lim)) := by
  have key : ∀ p q : M File Bytes, (∀ f, f = s.fh → File.readline lim f = p f) →
      (∀ f, f = (ext more g s).fh → File.readline lim f = q f) → Like more g e s (onFile p) (onFile q) →
      Like more g e s (onFile (File.readline lim)) (onFile (File.readline lim)) := by
    intro p q h1 h2 h
    simpa only [Like, onFile, h1 _ rfl, h2 _ rfl] using h
  have hr := ext_rest hb more g
  have free : Like more g e s (onFile (File.deliver (File.firstLine s.fh.rest) (decide ((File.firstLine s.fh.rest).getLast? ≠ some 10))))
      (onFile (File.deliver (File.firstLine (s.fh.rest ++ more)) (decide ((File.firstLine (s.fh.rest ++ more)).getLast? ≠ some 10)))) := by
    refine like_onFile hb _ _ _ _ (fun h => ?_) (File.firstLine_prefix _)
    have h := Decidable.not_not.1 (of_decide_eq_false h)
    rw [firstLine_ext _ _ h]
    simp [h]
  cases lim with
  | none => exact key _ _ (fun f hf => by subst hf; rfl) (fun f hf => by subst hf; simp only [File.readline]; rw [hr]) free
  | some k =>
    by_cases hk : 0 ≤ k
    · refine key (File.deliver ((File.firstLine s.fh.rest).take k.toNat)
          (decide ((File.firstLine s.fh.rest).getLast? ≠ some 10 ∧ (File.firstLine s.fh.rest).length < k.toNat)))
        (File.deliver ((File.firstLine (s.fh.rest ++ more)).take k.toNat)
          (decide ((File.firstLine (s.fh.rest ++ more)).getLast? ≠ some 10 ∧ (File.firstLine (s.fh.rest ++ more)).length < k.toNat)))
        (fun f hf => by subst hf; simp only [File.readline, if_pos hk]) (fun f hf => by subst hf; simp only [File.readline, if_pos hk]; rw [hr]) ?_
      refine like_onFile hb _ _ _ _ (fun h => ?_) ((List.take_prefix _ _).trans (File.firstLine_prefix _))
      have h : (File.firstLine s.fh.rest).getLast? = some 10 ∨ k.toNat ≤ (File.firstLine s.fh.rest).length := by
        have h := of_decide_eq_false h
        by_cases hx : (File.firstLine s.fh.rest).getLast? = some 10
        · exact Or.inl hx
        · exact Or.inr (Nat.not_lt.1 fun hl => h ⟨hx, hl⟩)
      rcases h with h | h
      · rw [firstLine_ext _ _ h]; simp [h]
      · have hpre := firstLine_prefix_ext s.fh.rest more
        obtain ⟨t, ht⟩ := hpre
        rw [← ht]
        refine ⟨List.take_append_of_le_length h, ?_⟩
        refine decide_eq_false fun hx => ?_
        have := hx.2
        simp only [List.length_append] at this
        omega
    · exact key _ _ (fun f hf => by subst hf; simp only [File.readline, if_neg hk])
        (fun f hf => by subst hf; simp only [File.readline, if_neg hk]; rw [hr]) free

/-- reading bytes from a damaged file -/
theorem like_fileRead {more : Bytes} {g : Option Exc} {e : Exc} {s : Stream} (hb : Bad e s) (n : Option Int) :
    Like more g e s (onFile (File.read n)) (onFile (File.read n)) := by
  have all : ∀ q : M Stream Bytes, Like more g e s (onFile (File.deliver s.fh.rest true)) q := by
    intro q
    simp only [Like, onFile, File.deliver, hb.fault]
    exact Or.inl trivial
  have key : ∀ (p : M File Bytes) (q : M Stream Bytes), File.read n s.fh = p s.fh →
      onFile (File.read n) (ext more g s) = q (ext more g s) → Like more g e s (onFile p) q →
      Like more g e s (onFile (File.read n)) (onFile (File.read n)) := by
    intro p q h1 h2 h
    simp only [Like, h2]
    simpa only [Like, onFile, h1] using h
  cases n with
  | none => exact key _ _ rfl rfl (all _)
  | some n =>
    by_cases hn : 0 ≤ n
    · refine key (File.deliver (s.fh.rest.take n.toNat) (decide (s.fh.rest.length < n.toNat)))
        (onFile (File.deliver ((s.fh.rest ++ more).take n.toNat) (decide ((s.fh.rest ++ more).length < n.toNat)))) ?_ ?_ ?_
      · simp only [File.read, if_pos hn]
      · simp only [onFile, File.read, if_pos hn, ext_rest hb more g]
      · refine like_onFile hb _ _ _ _ (fun h => ?_) (List.take_prefix _ _)
        simp only [decide_eq_false_iff_not, Nat.not_lt] at h
        refine ⟨List.take_append_of_le_length h, ?_⟩
        simp only [decide_eq_false_iff_not, Nat.not_lt, List.length_append]; omega
    · by_cases hs : n = -1 ∨ s.fh.strictNeg = false
      · refine key (File.deliver s.fh.rest true) _ ?_ rfl (all _)
        simp only [File.read, if_neg hn, if_pos hs]
      · have e1 : File.read (some n) s.fh = .raise .valueError s.fh := by
          simp only [File.read, if_neg hn, if_neg hs]
        have e2 : File.read (some n) (ext more g s).fh = .raise .valueError (ext more g s).fh := by
          have hs' : ¬ (n = -1 ∨ (ext more g s).fh.strictNeg = false) := hs
          simp only [File.read, if_neg hn, if_neg hs']
        simp only [Like, onFile, e1, e2]
        exact Or.inr ⟨_, rfl⟩

/-- what a line read from a damaged file looks like -/
theorem bad_fileReadline {e : Exc} {s s' : Stream} {l : Bytes} (hb : Bad e s) (h : onFile (File.readline none) s = .ok l s') :
    l ≠ [] ∧ l.getLast? = some 10 ∧ s'.fh.rest.length < s.fh.rest.length := by
  simp only [onFile, File.readline, File.deliver, hb.fault] at h
  by_cases hl : (File.firstLine s.fh.rest).getLast? = some 10
  · simp only [hl, ne_eq, not_true_eq_false, decide_false] at h
    cases h
    have hne : File.firstLine s.fh.rest ≠ [] := by intro h; rw [h] at hl; simp at hl
    refine ⟨hne, hl, ?_⟩
    have h1 := List.length_pos_iff.2 hne
    have h2 := File.firstLine_length_le s.fh.rest
    simp only [File.rest, List.length_drop, File.advance] at *
    omega
  · simp [hl] at h

section
variable {more : Bytes} {g : Option Exc} {e : Exc} {s : Stream}

theorem like_consume (hb : Bad e s) (n : Nat) : Like more g e s (consume n) (consume n) :=
  Like.modify ⟨hb.fault, hb.pos⟩ rfl rfl

theorem like_rawRead (hb : Bad e s) (n : Option Int) : Like more g e s (rawRead n) (rawRead n) :=
  (like_fileRead hb n).bind fun a s' _ hb' _ => (like_consume hb' _).bind fun _ _ _ hb2 _ => Like.pure hb2 _

theorem like_read (hb : Bad e s) (n : Option Int) : Like more g e s (Stream.read n) (Stream.read n) :=
  Like.get (like_rawRead hb _)

theorem like_readline (hb : Bad e s) (n : Option Int) : Like more g e s (Stream.readline n) (Stream.readline n) :=
  Like.get ((like_fileReadline hb _).bind fun a s' _ hb' _ => (like_consume hb' _).bind fun _ _ _ hb2 _ => Like.pure hb2 _)

/-- the line read by the parsers (no limit is set while they run) -/
theorem bad_readline {s' : Stream} {l : Bytes} (hb : Bad e s) (he : s.eoc = none) (h : Stream.readline none s = .ok l s') :
    l ≠ [] ∧ s'.fh.rest.length < s.fh.rest.length ∧ s'.eoc = none := by
  simp only [Stream.readline, M.bind_apply, M.get_apply, he, limitOf] at h
  cases hq : onFile (File.readline none) s with
  | hang => simp [hq] at h
  | raise e' s1 => simp [hq] at h
  | ok a s1 =>
    simp only [hq, consume, M.modify_apply, M.pure_apply] at h
    cases h
    have := bad_fileReadline hb hq
    have e1 : s1.eoc = s.eoc := by
      simp only [onFile] at hq
      cases hx : File.readline none s.fh <;> simp only [hx] at hq <;> cases hq <;> rfl
    exact ⟨this.1, this.2.2, by simp [e1, he]⟩

theorem like_skipLoop (n m : Nat) (hb : Bad e s) (hn : s.fh.rest.length + 1 < n) (hm : n ≤ m) :
    Like more g e s (skipLoop n) (skipLoop m) := by
  induction n generalizing m s with
  | zero => omega
  | succ n ih =>
    obtain ⟨m, rfl⟩ : ∃ k, m = k + 1 := ⟨m - 1, by omega⟩
    simp only [skipLoop]
    refine Like.get ?_
    show Like more g e s (match s.eoc with | some e => _ | none => _) (match s.eoc with | some e => _ | none => _)
    cases s.eoc with
    | none => exact Like.throw _
    | some k =>
      simp only
      by_cases hk : 0 < k
      · simp only [if_pos hk]
        refine (like_rawRead hb _).bind fun buf s1 hq hb1 hle => ?_
        by_cases hlt : (buf.length : Int) < min CHUNK_SIZE k
        · simp only [if_pos hlt]; exact Like.throw _
        · simp only [if_neg hlt]
          have hshort : s1.fh.rest.length + buf.length ≤ s.fh.rest.length := by
            have h0 : (0 : Int) ≤ min CHUNK_SIZE k := by unfold CHUNK_SIZE; omega
            simp only [rawRead, M.bind_apply, onFile, File.read, if_pos h0, File.deliver, hb.fault] at hq
            by_cases hd : s.fh.rest.length < (min CHUNK_SIZE k).toNat
            · simp [hd] at hq
            · simp only [hd, decide_false, consume, M.modify_apply, M.pure_apply] at hq
              cases hq
              have := hb.pos
              simp only [File.rest, List.length_drop, File.advance, List.length_take] at *
              omega
          have hpos : 0 < buf.length := by unfold CHUNK_SIZE at hlt; omega
          exact ih m hb1 (by omega) (by omega)
      · simp only [if_neg hk]; exact Like.pure hb _

theorem like_skipToEoc (hb : Bad e s) : Like more g e s skipToEoc skipToEoc := by
  refine Like.get ?_
  show Like more g e s (match s.eoc with | none => _ | some e => _) (match s.eoc with | none => _ | some e => _)
  cases s.eoc with
  | none => exact Like.throw _
  | some k => exact like_skipLoop _ _ hb (by omega) (by have := ext_rest_length hb more g; omega)

theorem like_blankLoop (offs : Bool) (n m : Nat) (hb : Bad e s) (hn : s.fh.rest.length < n) (hm : n ≤ m) :
    Like more g e s (blankLoop offs n) (blankLoop offs m) := by
  induction n generalizing m s with
  | zero => omega
  | succ n ih =>
    obtain ⟨m, rfl⟩ : ∃ k, m = k + 1 := ⟨m - 1, by omega⟩
    simp only [blankLoop]
    refine Like.get ((like_fileReadline hb none).bind fun l s1 hq hb1 hle => ?_)
    have h := bad_fileReadline hb hq
    exact Like.ite (ih m hb1 (by omega) (by omega)) (Like.pure hb1 _)

theorem like_versionLoop (n m : Nat) (line : Bytes) (errs : List Err) (off : Option Nat) (hb : Bad e s) (he : s.eoc = none)
    (hn : s.fh.rest.length < n) (hm : n ≤ m) :
    Like more g e s (WarcParser.versionLoop n line errs off) (WarcParser.versionLoop m line errs off) := by
  induction n generalizing m s line errs off with
  | zero => omega
  | succ n ih =>
    obtain ⟨m, rfl⟩ : ∃ k, m = k + 1 := ⟨m - 1, by omega⟩
    simp only [WarcParser.versionLoop]
    refine Like.ite (Like.pure hb _) ?_
    cases pmatch versionRx line with
    | some mt => exact Like.pure hb _
    | none =>
      have next : ∀ errs off, Like more g e s (Stream.readline none >>= fun l => WarcParser.versionLoop n l errs off)
          (Stream.readline none >>= fun l => WarcParser.versionLoop m l errs off) := by
        intro errs off
        refine (like_readline hb none).bind fun l s1 hq hb1 hle => ?_
        have h := bad_readline hb he hq
        exact ih m _ _ _ hb1 h.2.2 (by omega) (by omega)
      exact Like.ite (next _ _) (Like.ite (Like.pure hb _) (next _ _))

theorem like_followLoop (n m : Nat) (line : Bytes) (v : List Bytes) (errs : List Err) (hb : Bad e s) (he : s.eoc = none)
    (hn : s.fh.rest.length < n) (hm : n ≤ m) :
    Like more g e s (WarcParser.followLoop n line v errs) (WarcParser.followLoop m line v errs) := by
  induction n generalizing m s line v errs with
  | zero => omega
  | succ n ih =>
    obtain ⟨m, rfl⟩ : ∃ k, m = k + 1 := ⟨m - 1, by omega⟩
    simp only [WarcParser.followLoop]
    cases pmatch valueRx line with
    | none => exact Like.pure hb _
    | some mt =>
      refine (like_readline hb none).bind fun l s1 hq hb1 hle => ?_
      have h := bad_readline hb he hq
      exact ih m _ _ _ hb1 h.2.2 (by omega) (by omega)

theorem headerLoop_stuck (n : Nat) (line : Bytes) (st : WarcParser.HState) (s : Stream)
    (h1 : ¬ (line = [] ∨ rxTest nlRx line = true)) (h2 : pmatch headerRx line = none) :
    WarcParser.headerLoop n line st s = .hang := by
  induction n with
  | zero => rfl
  | succ n ih =>
    simp only [WarcParser.headerLoop, if_neg h1, h2]
    exact ih

theorem followLoop_eoc (n : Nat) (line : Bytes) (v : List Bytes) (errs : List Err) (hb : Bad e s) (he : s.eoc = none)
    {a : Bytes × List Bytes × List Err} {s' : Stream} (h : WarcParser.followLoop n line v errs s = .ok a s') : s'.eoc = none := by
  induction n generalizing s line v errs with
  | zero => cases h
  | succ n ih =>
    simp only [WarcParser.followLoop] at h
    cases hm : pmatch valueRx line with
    | none => simp only [hm, M.pure_apply] at h; cases h; exact he
    | some mt =>
      simp only [hm, M.bind_apply] at h
      cases hq : Stream.readline none s with
      | hang => simp [hq] at h
      | raise e' s1 => simp [hq] at h
      | ok l s1 =>
        simp only [hq] at h
        have hl : Like [] none e s (Stream.readline none) (Stream.readline none) := like_readline hb none
        simp only [Like, hq] at hl
        exact ih _ _ _ hl.2.1 (bad_readline hb he hq).2.2 h

theorem like_headerLoop (n m : Nat) (line : Bytes) (st : WarcParser.HState) (hb : Bad e s) (he : s.eoc = none)
    (hn : s.fh.rest.length < n) (hm : n ≤ m) :
    Like more g e s (WarcParser.headerLoop n line st) (WarcParser.headerLoop m line st) := by
  induction n generalizing m s line st with
  | zero => omega
  | succ n ih =>
    obtain ⟨m, rfl⟩ : ∃ k, m = k + 1 := ⟨m - 1, by omega⟩
    by_cases h1 : line = [] ∨ rxTest nlRx line = true
    · simp only [WarcParser.headerLoop, if_pos h1]; exact Like.pure hb _
    · cases h2 : pmatch headerRx line with
      | none =>
        simp only [Like, headerLoop_stuck _ _ _ _ h1 h2]
      | some mt =>
        simp only [WarcParser.headerLoop, if_neg h1, h2]
        refine Like.get ((like_readline hb none).bind fun l s1 hq hb1 hle => ?_)
        have h := bad_readline hb he hq
        have hrl := ext_rest_length hb more g
        refine (like_followLoop _ _ _ _ _ hb1 h.2.2 (by omega) (by omega)).bind fun a s2 hq2 hb2 hle2 => ?_
        exact ih m _ _ hb2 (followLoop_eoc _ _ _ _ hb1 h.2.2 hq2) (by omega) (by omega)

theorem versionLoop_eoc (n : Nat) (line : Bytes) (errs : List Err) (off : Option Nat) (hb : Bad e s) (he : s.eoc = none) (hl : line ≠ [])
    {v : WarcParser.VLoop} {s' : Stream} (h : WarcParser.versionLoop n line errs off s = .ok v s') :
    s'.eoc = none ∧ (∀ es o, v ≠ .eof es o) ∧ (∀ es o, v = .giveUp es o → es ≠ []) := by
  induction n generalizing s line errs off with
  | zero => cases h
  | succ n ih =>
    simp only [WarcParser.versionLoop, if_neg hl] at h
    cases hm : pmatch versionRx line with
    | some mt => simp only [hm, M.pure_apply] at h; cases h; exact ⟨he, by simp, by simp⟩
    | none =>
      simp only [hm] at h
      have next : ∀ errs off, (Stream.readline none >>= fun l => WarcParser.versionLoop n l errs off) s = .ok v s' →
          s'.eoc = none ∧ (∀ es o, v ≠ .eof es o) ∧ (∀ es o, v = .giveUp es o → es ≠ []) := by
        intro errs off h
        simp only [M.bind_apply] at h
        cases hq : Stream.readline none s with
        | hang => simp [hq] at h
        | raise e' s1 => simp [hq] at h
        | ok l s1 =>
          simp only [hq] at h
          have hl : Like [] none e s (Stream.readline none) (Stream.readline none) := like_readline hb none
          simp only [Like, hq] at hl
          have hr := bad_readline hb he hq
          exact ih _ _ _ hl.2.1 hr.2.2 hr.1 h
      by_cases hnl : rxTest nlRx line = true
      · rw [if_pos hnl] at h; exact next _ _ h
      · rw [if_neg hnl] at h
        by_cases hbad : badLines < (errs ++ [Err.ignoredLine line]).length
        · rw [if_pos hbad] at h
          cases h
          exact ⟨he, by simp, by intro es o h; cases h; simp⟩
        · rw [if_neg hbad] at h; exact next _ _ h

theorem like_warcParse (off : Option Nat) (line : Bytes) (hb : Bad e s) (he : s.eoc = none) (hl : line ≠ []) :
    Like more g e s (WarcParser.parse off line) (WarcParser.parse off line) := by
  have hrl := ext_rest_length hb more g
  refine Like.get ((like_versionLoop _ _ _ _ _ hb he (by omega) (by omega)).bind fun v s1 hq hb1 hle => ?_)
  have hv := versionLoop_eoc _ _ _ _ hb he hl hq
  cases v with
  | eof es o => exact Like.pure hb1 _
  | giveUp es o => exact Like.pure hb1 _
  | found mt es o =>
    simp only
    cases WarcParser.versionErrors mt es with
    | none => exact Like.throw _
    | some es =>
      have hrl1 := ext_rest_length hb1 more g
      refine Like.get ((like_readline hb1 none).bind fun l s2 hq2 hb2 hle2 => ?_)
      refine (like_headerLoop _ _ _ _ hb2 (bad_readline hb1 hv.1 hq2).2.2 (by omega) (by omega)).bind fun st s3 hq3 hb3 hle3 => ?_
      refine (Like.modify (f := fun s => { s with eoc := some st.contentLength }) ⟨hb3.fault, hb3.pos⟩ rfl rfl).bind fun _ s4 _ hb4 _ => ?_
      exact Like.pure hb4 _

/-- the WARC parser does not take the end of damaged data for the end of the archive -/
theorem warcParse_bad (off : Option Nat) (line : Bytes) (hb : Bad e s) (he : s.eoc = none) (hl : line ≠ [])
    {r : Option Rec} {es : List Err} {o : Option Nat} {s' : Stream} (h : WarcParser.parse off line s = .ok (r, es, o) s') (hr : r = none) : es ≠ [] := by
  simp only [WarcParser.parse, M.bind_apply, M.get_apply] at h
  cases hq : WarcParser.versionLoop (s.fh.rest.length + 2) line [] off s with
  | hang => simp [hq] at h
  | raise e' s1 => simp [hq] at h
  | ok v s1 =>
    simp only [hq] at h
    have hv := versionLoop_eoc _ _ _ _ hb he hl hq
    cases v with
    | eof es o => exact absurd rfl (hv.2.1 es o)
    | giveUp es' o' =>
      simp only [M.pure_apply] at h
      cases h
      exact hv.2.2 _ _ rfl
    | found mt es' o' =>
      simp only at h
      cases hve : WarcParser.versionErrors mt es' with
      | none => simp [hve] at h
      | some es2 =>
        simp only [hve, M.bind_apply, M.get_apply] at h
        cases h1 : Stream.readline none s1 with
        | hang => simp [h1] at h
        | raise e' s2 => simp [h1] at h
        | ok l s2 =>
          simp only [h1] at h
          cases h2 : WarcParser.headerLoop (s1.fh.rest.length + 2) l ⟨[], es2, 0⟩ s2 with
          | hang => simp [h2] at h
          | raise e' s3 => simp [h2] at h
          | ok st s3 =>
            simp only [h2, M.modify_apply, M.pure_apply] at h
            cases h
            cases hr

theorem like_skipBlank (n m : Nat) (line : Bytes) (hb : Bad e s) (he : s.eoc = none) (hn : s.fh.rest.length < n) (hm : n ≤ m) :
    Like more g e s (ArcParser.skipBlank n line) (ArcParser.skipBlank m line) := by
  induction n generalizing m s line with
  | zero => omega
  | succ n ih =>
    obtain ⟨m, rfl⟩ : ∃ k, m = k + 1 := ⟨m - 1, by omega⟩
    simp only [ArcParser.skipBlank]
    refine Like.ite (Like.ite (Like.pure hb _) ?_) (Like.pure hb _)
    refine (like_readline hb none).bind fun l s1 hq hb1 hle => ?_
    have h := bad_readline hb he hq
    exact ih m _ hb1 h.2.2 (by omega) (by omega)

theorem skipBlank_some (n : Nat) (line : Bytes) (hb : Bad e s) (he : s.eoc = none) (hl : line ≠ [])
    {v : Option Bytes} {s' : Stream} (h : ArcParser.skipBlank n line s = .ok v s') : v ≠ none ∧ s'.eoc = none := by
  induction n generalizing s line with
  | zero => cases h
  | succ n ih =>
    simp only [ArcParser.skipBlank, if_neg hl] at h
    by_cases hs : rstrip line = []
    · simp only [if_pos hs, M.bind_apply] at h
      cases hq : Stream.readline none s with
      | hang => simp [hq] at h
      | raise e' s1 => simp [hq] at h
      | ok l s1 =>
        simp only [hq] at h
        have hl : Like [] none e s (Stream.readline none) (Stream.readline none) := like_readline hb none
        simp only [Like, hq] at hl
        have hr := bad_readline hb he hq
        exact ih _ hl.2.1 hr.2.2 hr.1 h
    · simp only [if_neg hs, M.pure_apply] at h
      cases h
      exact ⟨by simp, he⟩

/-- a change of the parser's state does not touch the file -/
structure SetsOnly (setSt : ArcSt → M Stream Unit) : Prop where
  eq : ∀ st, ∃ f : Parser → Parser, setSt st = M.modify fun s => { s with parser := f s.parser }

theorem like_set {setSt : ArcSt → M Stream Unit} (hs : SetsOnly setSt) (st : ArcSt) (hb : Bad e s) : Like more g e s (setSt st) (setSt st) := by
  obtain ⟨f, hf⟩ := hs.eq st
  rw [hf]
  exact Like.modify ⟨hb.fault, hb.pos⟩ rfl rfl

theorem like_arcParse (st : ArcSt) (setSt : ArcSt → M Stream Unit) (hs : SetsOnly setSt) (off : Option Nat) (line : Bytes) (hb : Bad e s)
    (he : s.eoc = none) : Like more g e s (ArcParser.parse st setSt off line) (ArcParser.parse st setSt off line) := by
  have hrl := ext_rest_length hb more g
  refine Like.get ((like_skipBlank _ _ _ hb he (by omega) (by omega)).bind fun v s1 hq hb1 hle => ?_)
  cases v with
  | none => exact Like.pure hb1 _
  | some line =>
    simp only
    refine Like.ite ?_ (Like.ite (Like.throw _) ?_)
    · refine (like_readline hb1 none).bind fun l1 s2 hq2 hb2 hle2 => (like_readline hb2 none).bind fun l2 s3 hq3 hb3 hle3 => ?_
      cases splitWs (strip l1) with
      | nil => exact Like.throw _
      | cons v vs =>
        refine (like_set hs _ hb3).bind fun _ s4 _ hb4 _ => ?_
        cases ArcParser.parseHeaderList (splitWs (strip l2)) line with
        | error e => exact Like.throw _
        | ok hs =>
          simp only
          cases ArcParser.contentHeaders hs (none, []) with
          | mk len es =>
            cases len with
            | none => exact Like.throw _
            | some n =>
              refine (Like.modify (f := fun s => { s with eoc := some (n - l1.length - l2.length) }) ⟨hb4.fault, hb4.pos⟩ rfl rfl).bind fun _ _ _ hb5 _ => ?_
              exact Like.pure hb5 _
    · cases ArcParser.parseHeaderList st.headers line with
      | error e => exact Like.throw _
      | ok hs =>
        simp only
        refine (Like.modify (f := fun s => { s with eoc := (ArcParser.contentHeaders hs (none, [])).1 }) ⟨hb1.fault, hb1.pos⟩ rfl rfl).bind fun _ _ _ hb5 _ => ?_
        exact Like.pure hb5 _

theorem arcParse_bad (st : ArcSt) (setSt : ArcSt → M Stream Unit) (hs : SetsOnly setSt) (off : Option Nat) (line : Bytes) (hb : Bad e s)
    (he : s.eoc = none) (hl : line ≠ []) {r : Option Rec} {es : List Err} {o : Option Nat} {s' : Stream}
    (h : ArcParser.parse st setSt off line s = .ok (r, es, o) s') : r ≠ none := by
  simp only [ArcParser.parse, M.bind_apply, M.get_apply] at h
  cases hq : ArcParser.skipBlank (s.fh.rest.length + 2) line s with
  | hang => simp [hq] at h
  | raise e' s1 => simp [hq] at h
  | ok v s1 =>
    have hv := (skipBlank_some _ _ hb he hl hq).1
    cases v with
    | none => exact absurd rfl hv
    | some line =>
      simp only [hq] at h
      by_cases h1 : startsWith line ArcParser.filedescTag = true
      · simp only [if_pos h1, M.bind_apply] at h
        cases h2 : Stream.readline none s1 with
        | hang => simp [h2] at h
        | raise e' s2 => simp [h2] at h
        | ok l1 s2 =>
          simp only [h2] at h
          cases h3 : Stream.readline none s2 with
          | hang => simp [h3] at h
          | raise e' s3 => simp [h3] at h
          | ok l2 s3 =>
            simp only [h3] at h
            cases h4 : splitWs (strip l1) with
            | nil => simp [h4] at h
            | cons v vs =>
              obtain ⟨f, hf⟩ := hs.eq ⟨some v, splitWs (strip l2)⟩
              simp only [h4, hf, M.bind_apply, M.modify_apply] at h
              cases h5 : ArcParser.parseHeaderList (splitWs (strip l2)) line with
              | error e => simp [h5] at h
              | ok hs =>
                simp only [h5] at h
                cases h6 : ArcParser.contentHeaders hs (none, []) with
                | mk len es =>
                  cases len with
                  | none => simp [h6] at h
                  | some n =>
                    simp only [h6, M.bind_apply, M.modify_apply, M.pure_apply] at h
                    cases h
                    simp
      · simp only [if_neg h1] at h
        by_cases h2 : st.headers = []
        · simp [h2] at h
        · simp only [if_neg h2] at h
          cases h5 : ArcParser.parseHeaderList st.headers line with
          | error e => simp [h5] at h
          | ok hs =>
            simp only [h5, M.bind_apply, M.modify_apply, M.pure_apply] at h
            cases h
            simp

theorem like_mixedParse (st : ArcSt) (setSt : ArcSt → M Stream Unit) (hs : SetsOnly setSt) (off : Option Nat) (n m : Nat) (line : Bytes)
    (hb : Bad e s) (he : s.eoc = none) (hn : s.fh.rest.length < n) (hm : n ≤ m) :
    Like more g e s (MixedParser.parse st setSt off n line) (MixedParser.parse st setSt off m line) := by
  induction n generalizing m s line with
  | zero => omega
  | succ n ih =>
    obtain ⟨m, rfl⟩ : ∃ k, m = k + 1 := ⟨m - 1, by omega⟩
    simp only [MixedParser.parse]
    by_cases hl : line = []
    · simp only [if_pos hl]; exact Like.pure hb _
    · simp only [if_neg hl]
      refine Like.ite (like_warcParse _ _ hb he hl) (Like.ite (like_arcParse st setSt hs off line hb he) ?_)
      refine (like_readline hb none).bind fun l s1 hq hb1 hle => ?_
      have h := bad_readline hb he hq
      exact ih m _ hb1 h.2.2 (by omega) (by omega)

theorem mixedParse_bad (st : ArcSt) (setSt : ArcSt → M Stream Unit) (hs : SetsOnly setSt) (off : Option Nat) (n : Nat) (line : Bytes)
    (hb : Bad e s) (he : s.eoc = none) (hl : line ≠ []) {r : Option Rec} {es : List Err} {o : Option Nat} {s' : Stream}
    (h : MixedParser.parse st setSt off n line s = .ok (r, es, o) s') (hr : r = none) : es ≠ [] := by
  induction n generalizing s line with
  | zero => cases h
  | succ n ih =>
    simp only [MixedParser.parse, if_neg hl] at h
    by_cases h1 : startsWith line (b! "WARC") = true
    · rw [if_pos h1] at h; exact warcParse_bad off line hb he hl h hr
    · rw [if_neg h1] at h
      by_cases h2 : line ≠ [10] ∧ line ≠ [13, 10] ∧ line ≠ [13]
      · rw [if_pos h2] at h; exact absurd hr (arcParse_bad st setSt hs off line hb he hl h)
      · rw [if_neg h2] at h
        simp only [M.bind_apply] at h
        cases hq : Stream.readline none s with
        | hang => simp [hq] at h
        | raise e' s1 => simp [hq] at h
        | ok l s1 =>
          simp only [hq] at h
          have hl : Like [] none e s (Stream.readline none) (Stream.readline none) := like_readline hb none
          simp only [Like, hq] at hl
          have hr := bad_readline hb he hq
          exact ih _ hl.2.1 hr.2.2 hr.1 h

theorem sets_arc : SetsOnly (fun st' => M.modify fun s : Stream => { s with parser := .arc st' }) := ⟨fun st => ⟨fun _ => .arc st, rfl⟩⟩
theorem sets_mixed : SetsOnly (fun st' => M.modify fun s : Stream => { s with parser := .mixed st' }) := ⟨fun st => ⟨fun _ => .mixed st, rfl⟩⟩

theorem like_parseWith (off : Option Nat) (line : Bytes) (hb : Bad e s) (he : s.eoc = none) (hl : line ≠ []) :
    Like more g e s (parseWith off line) (parseWith off line) := by
  have hrl := ext_rest_length hb more g
  refine Like.get ?_
  show Like more g e s (match s.parser with | .warc => _ | .arc st => _ | .mixed st => _) (match s.parser with | .warc => _ | .arc st => _ | .mixed st => _)
  cases s.parser with
  | warc => exact like_warcParse off line hb he hl
  | arc st => exact like_arcParse st _ sets_arc off line hb he
  | mixed st => exact like_mixedParse st _ sets_mixed off _ _ line hb he (by omega) (by omega)

theorem parseWith_bad (off : Option Nat) (line : Bytes) (hb : Bad e s) (he : s.eoc = none) (hl : line ≠ [])
    {r : Option Rec} {es : List Err} {o : Option Nat} {s' : Stream} (h : parseWith off line s = .ok (r, es, o) s') (hr : r = none) : es ≠ [] := by
  simp only [parseWith, M.bind_apply, M.get_apply] at h
  cases hp : s.parser with
  | warc => simp only [hp] at h; exact warcParse_bad off line hb he hl h hr
  | arc st => simp only [hp] at h; exact absurd hr (arcParse_bad st _ sets_arc off line hb he hl h)
  | mixed st => simp only [hp] at h; exact mixedParse_bad st _ sets_mixed off _ line hb he hl h hr

theorem blankLoop_bad (offs : Bool) (n : Nat) (hb : Bad e s) {q : Option Nat × Bytes} {s' : Stream} (h : blankLoop offs n s = .ok q s') :
    q.2 ≠ [] ∧ s'.eoc = s.eoc := by
  induction n generalizing s with
  | zero => cases h
  | succ n ih =>
    simp only [blankLoop, M.bind_apply, M.get_apply] at h
    cases hq : onFile (File.readline none) s with
    | hang => simp [hq] at h
    | raise e' s1 => simp [hq] at h
    | ok l s1 =>
      simp only [hq] at h
      have hl : Like [] none e s (onFile (File.readline none)) (onFile (File.readline none)) := like_fileReadline hb none
      simp only [Like, hq] at hl
      have e1 : s1.eoc = s.eoc := by
        simp only [onFile] at hq
        cases hx : File.readline none s.fh <;> simp only [hx] at hq <;> cases hq <;> rfl
      by_cases hbl : rxTest blankLineRx l = true
      · rw [if_pos hbl] at h
        have := ih hl.2.1 h
        exact ⟨this.1, by rw [this.2, e1]⟩
      · rw [if_neg hbl] at h
        cases h
        exact ⟨(bad_fileReadline hb hq).1, e1⟩

/-- the part of `_read_record` after the rest of the previous record has been skipped -/
def readFresh (offs : Bool) : M Stream Entry := do
  M.modify fun s => { s with eoc := none }
  let s ← M.get
  match s.kind with
  | .plain =>
    let (offset, line) ← blankLoop offs (s.fh.rest.length + 2)
    let (r, errors, offset) ← parseWith offset line
    pure (⟨offset, r, errors⟩ : Entry)
  | .gzipRecord =>
    let (_, line) ← blankLoop false (s.fh.rest.length + 2)
    let (r, errors, _) ← parseWith none line
    pure ⟨none, r, errors⟩
  | .gzipFile =>
    let (_, line) ← blankLoop false (s.fh.rest.length + 2)
    let _ ← parseWith none line
    M.throw .nameError

theorem like_readFresh (offs : Bool) (hb : Bad e s) : Like more g e s (readFresh offs) (readFresh offs) := by
  refine (Like.modify (f := fun s => { s with eoc := none }) ⟨hb.fault, hb.pos⟩ rfl rfl).bind fun _ s1 hq1 hb1 _ => Like.get ?_
  have he1 : s1.eoc = none := by simp only [M.modify_apply] at hq1; cases hq1; rfl
  have hrl := ext_rest_length hb1 more g
  show Like more g e s1 (match s1.kind with | .plain => _ | .gzipRecord => _ | .gzipFile => _) (match s1.kind with | .plain => _ | .gzipRecord => _ | .gzipFile => _)
  have part : ∀ o, Like more g e s1 (blankLoop o (s1.fh.rest.length + 2)) (blankLoop o ((ext more g s1).fh.rest.length + 2)) :=
    fun o => like_blankLoop o _ _ hb1 (by omega) (by omega)
  cases s1.kind with
  | plain =>
    refine (part offs).bind fun q s2 hq hb2 _ => ?_
    have hbl := blankLoop_bad _ _ hb1 hq
    exact (like_parseWith _ _ hb2 (by rw [hbl.2, he1]) hbl.1).bind fun _ _ _ hb3 _ => Like.pure hb3 _
  | gzipRecord =>
    refine (part false).bind fun q s2 hq hb2 _ => ?_
    have hbl := blankLoop_bad _ _ hb1 hq
    exact (like_parseWith _ _ hb2 (by rw [hbl.2, he1]) hbl.1).bind fun _ _ _ hb3 _ => Like.pure hb3 _
  | gzipFile =>
    refine (part false).bind fun q s2 hq hb2 _ => ?_
    have hbl := blankLoop_bad _ _ hb1 hq
    exact (like_parseWith _ _ hb2 (by rw [hbl.2, he1]) hbl.1).bind fun _ _ _ hb3 _ => Like.throw _

theorem readFresh_bad (offs : Bool) (hb : Bad e s) {en : Entry} {s' : Stream} (h : readFresh offs s = .ok en s') (hr : en.rcd = none) :
    en.errors ≠ [] := by
  obtain ⟨fh, eoc, kind, parser⟩ := s
  simp only [readFresh, M.bind_apply, M.modify_apply, M.get_apply] at h
  have hb1 : Bad e ⟨fh, none, kind, parser⟩ := ⟨hb.fault, hb.pos⟩
  have part : ∀ o (k : Option Nat → Option Nat) (f : Option Nat → Option Nat),
      (blankLoop o (fh.rest.length + 2) >>= fun a => parseWith (k a.1) a.2 >>= fun b =>
        (pure (⟨f b.2.2, b.1, b.2.1⟩ : Entry) : M Stream Entry)) ⟨fh, none, kind, parser⟩ = .ok en s' → en.errors ≠ [] := by
    intro o k f h
    simp only [M.bind_apply, M.pure_apply] at h
    cases hq : blankLoop o (fh.rest.length + 2) ⟨fh, none, kind, parser⟩ with
    | hang => simp [hq] at h
    | raise e' s1 => simp [hq] at h
    | ok q s1 =>
      simp only [hq] at h
      have hbl := blankLoop_bad _ _ hb1 hq
      have hlk : Like [] none e ⟨fh, none, kind, parser⟩ (blankLoop o (fh.rest.length + 2)) (blankLoop o (fh.rest.length + 2)) :=
        like_blankLoop o _ _ hb1 (by show fh.rest.length < _; omega) (Nat.le_refl _)
      simp only [Like, hq] at hlk
      cases hp : parseWith (k q.1) q.2 s1 with
      | hang => simp [hp] at h
      | raise e' s1 => simp [hp] at h
      | ok b s2 =>
        simp only [hp] at h
        cases h
        obtain ⟨r, es, o'⟩ := b
        exact parseWith_bad _ _ hlk.2.1 hbl.2 hbl.1 hp hr
  cases kind with
  | plain => exact part offs (fun o => o) (fun o => o) h
  | gzipRecord => exact part false (fun _ => none) (fun _ => none) h
  | gzipFile =>
    cases hq : blankLoop false (fh.rest.length + 2) ⟨fh, none, .gzipFile, parser⟩ with
    | hang => simp [hq] at h
    | raise e' s1 => simp [hq] at h
    | ok q s1 =>
      simp only [hq, M.bind_apply] at h
      cases hp : parseWith none q.2 s1 with
      | hang => simp [hp] at h
      | raise e' s1 => simp [hp] at h
      | ok b s2 => simp [hp] at h

theorem readRecord_fresh (offs : Bool) (s : Stream) : readRecord offs s =
    match s.eoc with
    | some _ => (skipToEoc >>= fun _ => readFresh offs) s
    | none => readFresh offs s := by
  simp only [readRecord, readFresh, M.bind_apply, M.get_apply]
  cases s.eoc with
  | none => rfl
  | some n => rfl

theorem like_readRecord (offs : Bool) (hb : Bad e s) : Like more g e s (readRecord offs) (readRecord offs) := by
  have he : (ext more g s).eoc = s.eoc := rfl
  simp only [Like, readRecord_fresh, he]
  cases s.eoc with
  | none => exact like_readFresh offs hb
  | some n => exact (like_skipToEoc hb).bind fun _ s1 _ hb1 _ => like_readFresh offs hb1

/-- a damaged file never looks as if the archive ended there -/
theorem readRecord_bad (offs : Bool) (hb : Bad e s) {en : Entry} {s' : Stream} (h : readRecord offs s = .ok en s') (hr : en.rcd = none) :
    en.errors ≠ [] := by
  rw [readRecord_fresh] at h
  cases he : s.eoc with
  | none => simp only [he] at h; exact readFresh_bad offs hb h hr
  | some n =>
    simp only [he, M.bind_apply] at h
    have hl : Like [] none e s skipToEoc skipToEoc := like_skipToEoc hb
    simp only [Like] at hl
    cases hq : skipToEoc s with
    | hang => simp [hq] at h
    | raise e' s1 => simp [hq] at h
    | ok u s1 =>
      simp only [hq] at h hl
      exact readFresh_bad offs hl.2.1 h hr

end
end Warc
