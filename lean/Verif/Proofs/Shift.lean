import Verif.Spec.Concat
import Verif.Proofs.Extend
/-
  Reading a file that has other bytes in front: nothing changes but the reported offsets.
-/
set_option linter.all false
namespace Warc
open Rx Stream Spec

theorem behind_rest (X : Bytes) (s : Stream) : (behind X s).fh.rest = s.fh.rest := by
  simp [behind, File.rest, List.drop_append]

/-- an outcome, `X` further on -/
def Res.behind {α β : Type} (X : Bytes) (f : α → β) : Res Stream α → Res Stream β
  | .ok a s => .ok (f a) (Spec.behind X s)
  | .raise e s => .raise e (Spec.behind X s)
  | .hang => .hang

/-- running `q` behind `X` is running `p`, up to the results, which are related by `f` -/
def Late {α β : Type} (X : Bytes) (f : α → β) (s : Stream) (p : M Stream α) (q : M Stream β) : Prop :=
  q (behind X s) = (p s).behind X f

namespace Late
variable {α β γ δ : Type} {X : Bytes} {s : Stream}

theorem pure (f : α → β) (a : α) (b : β) (h : b = f a) : Late X f s (pure a : M Stream α) (Pure.pure b) := by subst h; rfl
theorem throw (f : α → β) (e : Exc) : Late X f s (M.throw e : M Stream α) (M.throw e) := rfl
theorem diverge (f : α → β) : Late X f s (M.diverge : M Stream α) M.diverge := rfl

theorem modify {g : Stream → Stream} (h : g (behind X s) = behind X (g s)) : Late X id s (M.modify g) (M.modify g) := by
  simp only [Late, M.modify_apply, h, Res.behind]

theorem bind {f : α → β} {g : γ → δ} {p : M Stream α} {q : M Stream β} {h : α → M Stream γ} {k : β → M Stream δ} (hp : Late X f s p q)
    (hk : ∀ a s', Late X g s' (h a) (k (f a))) : Late X g s (p >>= h) (q >>= k) := by
  simp only [Late, M.bind_apply] at hp ⊢
  rw [hp]
  cases p s with
  | hang => rfl
  | raise e s1 => rfl
  | ok a s1 => exact hk a s1

theorem get {g : γ → δ} {f : Stream → M Stream γ} {k : Stream → M Stream δ} (h : Late X g s (f s) (k (behind X s))) :
    Late X g s (M.get >>= f) (M.get >>= k) := h

theorem ite {f : α → β} {c : Prop} [Decidable c] {p q : M Stream α} {p' q' : M Stream β} (h1 : Late X f s p p') (h2 : Late X f s q q') :
    Late X f s (if c then p else q) (if c then p' else q') := by
  by_cases h : c
  · rw [if_pos h, if_pos h]; exact h1
  · rw [if_neg h, if_neg h]; exact h2

end Late

section
variable {X : Bytes} {s : Stream}

theorem late_deliver (out : Bytes) (short : Bool) : Late X id s (onFile (File.deliver out short)) (onFile (File.deliver out short)) := by
  have hr := behind_rest X s
  simp only [Late, onFile, File.deliver]
  rw [hr]
  have hf : (behind X s).fh.fault = s.fh.fault := rfl
  rw [hf]
  cases short <;> cases s.fh.fault <;> simp [Res.behind, behind, File.advance, Nat.add_assoc]

theorem late_fileReadline (lim : Option Int) : Late X id s (onFile (File.readline lim)) (onFile (File.readline lim)) := by
  have hr := behind_rest X s
  have key : ∀ o b, (∀ f : File, f.rest = s.fh.rest → File.readline lim f = File.deliver o b f) →
      Late X id s (onFile (File.readline lim)) (onFile (File.readline lim)) := by
    intro o b h
    have := late_deliver (X := X) (s := s) o b
    simp only [Late, onFile] at this ⊢
    rw [h _ hr, h _ rfl]
    exact this
  cases lim with
  | none => exact key _ _ fun f hf => by simp only [File.readline, hf]; rfl
  | some k =>
    by_cases hk : 0 ≤ k
    · exact key _ _ fun f hf => by simp only [File.readline, hf, if_pos hk]; rfl
    · exact key _ _ fun f hf => by simp only [File.readline, hf, if_neg hk]; rfl

theorem late_fileRead (n : Option Int) : Late X id s (onFile (File.read n)) (onFile (File.read n)) := by
  have hr := behind_rest X s
  have key : ∀ o b, (∀ f : File, f.rest = s.fh.rest → f.strictNeg = s.fh.strictNeg → File.read n f = File.deliver o b f) →
      Late X id s (onFile (File.read n)) (onFile (File.read n)) := by
    intro o b h
    have := late_deliver (X := X) (s := s) o b
    simp only [Late, onFile] at this ⊢
    rw [h _ hr rfl, h _ rfl rfl]
    exact this
  cases n with
  | none => exact key _ _ fun f hf _ => by simp only [File.read, hf]; rfl
  | some n =>
    by_cases hn : 0 ≤ n
    · exact key _ _ fun f hf _ => by simp only [File.read, hf, if_pos hn]; rfl
    · by_cases hs : n = -1 ∨ s.fh.strictNeg = false
      · exact key _ _ fun f hf hg => by simp only [File.read, hf, hg, if_neg hn, if_pos hs]; rfl
      · have hs' : ¬ (n = -1 ∨ (behind X s).fh.strictNeg = false) := hs
        simp only [Late, onFile, File.read, if_neg hn, if_neg hs, if_neg hs', Res.behind]

theorem late_consume (n : Nat) : Late X id s (consume n) (consume n) := Late.modify rfl

theorem late_rawRead (n : Option Int) : Late X id s (rawRead n) (rawRead n) :=
  (late_fileRead n).bind fun a s' => (late_consume _).bind fun _ _ => Late.pure _ _ _ rfl

theorem late_read (n : Option Int) : Late X id s (Stream.read n) (Stream.read n) := Late.get (late_rawRead _)

theorem late_readline (n : Option Int) : Late X id s (Stream.readline n) (Stream.readline n) :=
  Late.get ((late_fileReadline _).bind fun a s' => (late_consume _).bind fun _ _ => Late.pure _ _ _ rfl)

theorem late_skipLoop (n : Nat) : Late X id s (skipLoop n) (skipLoop n) := by
  induction n generalizing s with
  | zero => exact Late.diverge _
  | succ n ih =>
    simp only [skipLoop]
    refine Late.get ?_
    show Late X id s (match s.eoc with | some e => _ | none => _) (match s.eoc with | some e => _ | none => _)
    cases s.eoc with
    | none => exact Late.throw _ _
    | some k => exact Late.ite ((late_rawRead _).bind fun buf s1 => Late.ite (Late.throw _ _) ih) (Late.pure _ _ _ rfl)

theorem late_skipToEoc : Late X id s skipToEoc skipToEoc := by
  refine Late.get ?_
  rw [behind_rest]
  show Late X id s (match s.eoc with | none => _ | some e => _) (match s.eoc with | none => _ | some e => _)
  cases s.eoc with
  | none => exact Late.throw _ _
  | some k => exact late_skipLoop _

/-- an offset, `X` further on -/
abbrev off' (X : Bytes) (o : Option Nat) : Option Nat := o.map (X.length + ·)

theorem late_blankLoop (offs : Bool) (n : Nat) :
    Late X (fun q : Option Nat × Bytes => (off' X q.1, q.2)) s (blankLoop offs n) (blankLoop offs n) := by
  induction n generalizing s with
  | zero => exact Late.diverge _
  | succ n ih =>
    simp only [blankLoop]
    exact Late.get ((late_fileReadline none).bind fun l s1 => Late.ite ih (Late.pure _ _ _ (by cases offs <;> rfl)))

open WarcParser in
/-- the outcome of the search for a version line, further on -/
def vshift (X : Bytes) : VLoop → VLoop
  | .found mt es o => .found mt es (off' X o)
  | .giveUp es o => .giveUp es (off' X o)
  | .eof es o => .eof es (off' X o)

theorem off_add (o : Option Nat) (n : Nat) : (off' X o).map (· + n) = off' X (o.map (· + n)) := by
  cases o with
  | none => rfl
  | some o => simp [off', Nat.add_assoc]

theorem late_versionLoop (n : Nat) (line : Bytes) (errs : List Err) (off : Option Nat) :
    Late X (vshift X) s (WarcParser.versionLoop n line errs off) (WarcParser.versionLoop n line errs (off' X off)) := by
  induction n generalizing s line errs off with
  | zero => exact Late.diverge _
  | succ n ih =>
    simp only [WarcParser.versionLoop]
    refine Late.ite (Late.pure _ _ _ rfl) ?_
    cases pmatch versionRx line with
    | some mt => exact Late.pure _ _ _ (by simp only [vshift, off_add])
    | none =>
      have next : ∀ errs off off2, off2 = off' X off → Late X (vshift X) s (Stream.readline none >>= fun l => WarcParser.versionLoop n l errs off)
          (Stream.readline none >>= fun l => WarcParser.versionLoop n l errs off2) := by
        intro errs off off2 h
        subst h
        exact (late_readline none).bind fun l s1 => ih _ _ _
      exact Late.ite (next _ _ _ (off_add _ _)) (Late.ite (Late.pure _ _ _ (by simp only [vshift, off_add])) (next _ _ _ (off_add _ _)))

theorem late_followLoop (n : Nat) (line : Bytes) (v : List Bytes) (errs : List Err) :
    Late X id s (WarcParser.followLoop n line v errs) (WarcParser.followLoop n line v errs) := by
  induction n generalizing s line v errs with
  | zero => exact Late.diverge _
  | succ n ih =>
    simp only [WarcParser.followLoop]
    cases pmatch valueRx line with
    | none => exact Late.pure _ _ _ rfl
    | some mt => exact (late_readline none).bind fun l s1 => ih _ _ _

theorem late_headerLoop (n : Nat) (line : Bytes) (st : WarcParser.HState) :
    Late X id s (WarcParser.headerLoop n line st) (WarcParser.headerLoop n line st) := by
  induction n generalizing s line st with
  | zero => exact Late.diverge _
  | succ n ih =>
    simp only [WarcParser.headerLoop]
    refine Late.ite (Late.pure _ _ _ rfl) ?_
    cases pmatch headerRx line with
    | none => exact ih _ _
    | some mt =>
      refine Late.get ?_
      rw [behind_rest]
      exact (late_readline none).bind fun l s1 => (late_followLoop _ _ _ _).bind fun a s2 => ih _ _

/-- the result of a parser, further on -/
def pshift (X : Bytes) (q : WarcParser.ParseOut) : WarcParser.ParseOut := (q.1, q.2.1, off' X q.2.2)

theorem late_warcParse (off : Option Nat) (line : Bytes) :
    Late X (pshift X) s (WarcParser.parse off line) (WarcParser.parse (off' X off) line) := by
  refine Late.get ?_
  rw [behind_rest]
  refine (late_versionLoop _ _ _ _).bind fun v s1 => ?_
  cases v with
  | eof es o => exact Late.pure _ _ _ rfl
  | giveUp es o => exact Late.pure _ _ _ rfl
  | found mt es o =>
    simp only [vshift]
    cases WarcParser.versionErrors mt es with
    | none => exact Late.throw _ _
    | some es =>
      refine Late.get ?_
      rw [behind_rest]
      refine (late_readline none).bind fun l s2 => (late_headerLoop _ _ _).bind fun st s3 => ?_
      refine (Late.modify (g := fun s => { s with eoc := some st.contentLength }) rfl).bind fun _ s4 => ?_
      exact Late.pure _ _ _ rfl

theorem late_skipBlank (n : Nat) (line : Bytes) : Late X id s (ArcParser.skipBlank n line) (ArcParser.skipBlank n line) := by
  induction n generalizing s line with
  | zero => exact Late.diverge _
  | succ n ih =>
    simp only [ArcParser.skipBlank]
    exact Late.ite (Late.ite (Late.pure _ _ _ rfl) ((late_readline none).bind fun l s1 => ih _)) (Late.pure _ _ _ rfl)

theorem late_set {setSt : ArcSt → M Stream Unit} (hs : SetsOnly setSt) (st : ArcSt) : Late X id s (setSt st) (setSt st) := by
  obtain ⟨f, hf⟩ := hs.eq st
  rw [hf]
  exact Late.modify rfl

theorem late_arcParse (st : ArcSt) (setSt : ArcSt → M Stream Unit) (hs : SetsOnly setSt) (off : Option Nat) (line : Bytes) :
    Late X (pshift X) s (ArcParser.parse st setSt off line) (ArcParser.parse st setSt (off' X off) line) := by
  refine Late.get ?_
  rw [behind_rest]
  refine (late_skipBlank _ _).bind fun v s1 => ?_
  cases v with
  | none => exact Late.pure _ _ _ rfl
  | some line =>
    simp only [id]
    refine Late.ite ?_ (Late.ite (Late.throw _ _) ?_)
    · refine (late_readline none).bind fun l1 s2 => (late_readline none).bind fun l2 s3 => ?_
      simp only [id]
      cases splitWs (strip l1) with
      | nil => exact Late.throw _ _
      | cons v vs =>
        refine (late_set hs _).bind fun _ s4 => ?_
        cases ArcParser.parseHeaderList (splitWs (strip l2)) line with
        | error e => exact Late.throw _ _
        | ok hs =>
          simp only
          cases ArcParser.contentHeaders hs (none, []) with
          | mk len es =>
            cases len with
            | none => exact Late.throw _ _
            | some n =>
              refine (Late.modify (g := fun s => { s with eoc := some (n - l1.length - l2.length) }) rfl).bind fun _ _ => ?_
              exact Late.pure _ _ _ rfl
    · cases ArcParser.parseHeaderList st.headers line with
      | error e => exact Late.throw _ _
      | ok hs =>
        simp only
        refine (Late.modify (g := fun s => { s with eoc := (ArcParser.contentHeaders hs (none, [])).1 }) rfl).bind fun _ _ => ?_
        exact Late.pure _ _ _ rfl

theorem late_mixedParse (st : ArcSt) (setSt : ArcSt → M Stream Unit) (hs : SetsOnly setSt) (off : Option Nat) (n : Nat) (line : Bytes) :
    Late X (pshift X) s (MixedParser.parse st setSt off n line) (MixedParser.parse st setSt (off' X off) n line) := by
  induction n generalizing s line with
  | zero => exact Late.diverge _
  | succ n ih =>
    simp only [MixedParser.parse]
    exact Late.ite (Late.pure _ _ _ rfl) (Late.ite (late_warcParse _ _) (Late.ite (late_arcParse st setSt hs off line)
      ((late_readline none).bind fun l s1 => ih _)))

theorem late_parseWith (off : Option Nat) (line : Bytes) : Late X (pshift X) s (parseWith off line) (parseWith (off' X off) line) := by
  refine Late.get ?_
  rw [behind_rest]
  show Late X (pshift X) s (match s.parser with | .warc => _ | .arc st => _ | .mixed st => _) (match s.parser with | .warc => _ | .arc st => _ | .mixed st => _)
  cases s.parser with
  | warc => exact late_warcParse off line
  | arc st => exact late_arcParse st _ sets_arc off line
  | mixed st => exact late_mixedParse st _ sets_mixed off _ line

theorem late_readFresh (offs : Bool) : Late X (Entry.later X.length) s (readFresh offs) (readFresh offs) := by
  refine (Late.modify (g := fun s => { s with eoc := none }) rfl).bind fun _ s1 => Late.get ?_
  rw [behind_rest]
  show Late X _ s1 (match s1.kind with | .plain => _ | .gzipRecord => _ | .gzipFile => _) (match s1.kind with | .plain => _ | .gzipRecord => _ | .gzipFile => _)
  cases s1.kind with
  | plain => exact (late_blankLoop offs _).bind fun q s2 => (late_parseWith _ _).bind fun _ _ => Late.pure _ _ _ rfl
  | gzipRecord => exact (late_blankLoop false _).bind fun q s2 => (late_parseWith none _).bind fun _ _ => Late.pure _ _ _ rfl
  | gzipFile => exact (late_blankLoop false _).bind fun q s2 => (late_parseWith none _).bind fun _ _ => Late.throw _ _

theorem late_readRecord (offs : Bool) : Late X (Entry.later X.length) s (readRecord offs) (readRecord offs) := by
  have he : (behind X s).eoc = s.eoc := rfl
  simp only [Late, readRecord_fresh, he]
  cases s.eoc with
  | none => exact late_readFresh offs
  | some n => exact (late_skipToEoc).bind fun _ s1 => late_readFresh offs

theorem late_op (op : ReadOp) : Late X id s op.run op.run := by
  cases op with
  | read n => exact late_read _
  | readline n => exact late_readline _
  | readinto n => exact late_read _

theorem late_runOps (ops : List ReadOp) : Late X id s (runOps ops) (runOps ops) := by
  induction ops generalizing s with
  | nil => exact Late.pure _ _ _ rfl
  | cons op ops ih => exact (late_op op).bind fun a s1 => ih.bind fun _ _ => Late.pure _ _ _ rfl

end
end Warc
