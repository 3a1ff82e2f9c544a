import Verif.Proofs.ArcMore
import Verif.Spec.Payload
/-
  The payload that a record announces is what the stream delivers, for every parser and every history.
-/
set_option linter.all false
namespace Warc
open Rx Stream Spec

/-- the field names in force are words -/
def CleanNames : Parser → Prop
  | .warc => True
  | .arc st => ∀ n ∈ st.headers, (10 : Byte) ∉ n
  | .mixed st => ∀ n ∈ st.headers, (10 : Byte) ∉ n

theorem splitWsAux_clean (x cur : Bytes) (hc : (10 : Byte) ∉ cur) : ∀ n ∈ splitWsAux x cur, (10 : Byte) ∉ n := by
  induction x generalizing cur with
  | nil =>
    cases cur with
    | nil => simp [splitWsAux]
    | cons a b => simp only [splitWsAux, List.mem_singleton]; rintro n rfl; rw [List.mem_reverse]; exact hc
  | cons c cs ih =>
    unfold splitWsAux
    by_cases hw : isWs c = true
    · simp only [if_pos hw]
      cases cur with
      | nil => exact ih [] (by simp)
      | cons a b =>
        intro n hn
        simp only [List.mem_cons] at hn
        rcases hn with rfl | hn
        · rw [List.mem_reverse]; exact hc
        · exact ih [] (by simp) n hn
    · simp only [if_neg hw]
      apply ih
      simp only [List.mem_cons, not_or]
      refine ⟨?_, hc⟩
      rintro rfl
      exact hw (by decide)

theorem splitWs_clean (x : Bytes) : ∀ n ∈ splitWs x, (10 : Byte) ∉ n := splitWsAux_clean x [] (by simp)

/-- a computation that leaves clean names clean, whatever its outcome -/
def Tidies {α : Type} (x : M Stream α) : Prop :=
  ∀ s, CleanNames s.parser → match x s with
    | .ok _ s' => CleanNames s'.parser
    | .raise _ s' => CleanNames s'.parser
    | .hang => True

theorem Keeps.tidies {α : Type} {x : M Stream α} (h : Keeps true x) : Tidies x := by
  intro s hs
  have := h s
  cases hx : x s with
  | hang => trivial
  | ok a s' => rw [hx] at this; simp only; rw [this.2.2.2.2 rfl]; exact hs
  | raise a s' => rw [hx] at this; simp only; rw [this.2.2.2.2 rfl]; exact hs

theorem Tidies.bind {α β : Type} {x : M Stream α} {f : α → M Stream β} (hx : Tidies x) (hf : ∀ a, Tidies (f a)) : Tidies (x >>= f) := by
  intro s hs
  have h := hx s hs
  simp only [M.bind_apply]
  cases hxs : x s with
  | hang => trivial
  | raise e s' => simpa only [hxs] using h
  | ok a s' => simp only [hxs] at h ⊢; exact hf a s' h

theorem tidies_setEoc (f : Stream → Option Int) : Tidies (M.modify fun s => { s with eoc := f s }) := fun s hs => hs

theorem tidies_arcParse (st : ArcSt) (hst : ∀ n ∈ st.headers, (10 : Byte) ∉ n) (set : ArcSt → M Stream Unit)
    (hset : ∀ st', (∀ n ∈ st'.headers, (10 : Byte) ∉ n) → Tidies (set st')) (off : Option Nat) (l : Bytes) :
    Tidies (ArcParser.parse st set off l) := by
  unfold ArcParser.parse
  refine (Keeps.get (p := true)).tidies.bind fun s => ?_
  refine (Keeps.skipBlank (p := true) _ _).tidies.bind fun o => ?_
  cases o with
  | none => exact (Keeps.pure (p := true) _).tidies
  | some line =>
    simp only
    by_cases hf : startsWith line ArcParser.filedescTag = true
    · simp only [if_pos hf]
      refine (Keeps.readline (p := true) _).tidies.bind fun vl => ?_
      refine (Keeps.readline (p := true) _).tidies.bind fun nl => ?_
      cases hv : splitWs (strip vl) with
      | nil => exact (Keeps.throw (p := true) _).tidies
      | cons v vs =>
        simp only
        refine (hset _ (splitWs_clean _)).bind fun _ => ?_
        cases ArcParser.parseHeaderList (splitWs (strip nl)) line with
        | error e => exact (Keeps.throw (p := true) _).tidies
        | ok hs =>
          simp only
          cases hc : ArcParser.contentHeaders hs (none, []) with
          | mk a b =>
          cases a with
          | none => exact (Keeps.throw (p := true) _).tidies
          | some n => exact (tidies_setEoc _).bind fun _ => (Keeps.pure (p := true) _).tidies
    · simp only [if_neg hf]
      by_cases hh : st.headers = []
      · simp only [if_pos hh]; exact (Keeps.throw (p := true) _).tidies
      · simp only [if_neg hh]
        cases ArcParser.parseHeaderList st.headers line with
        | error e => exact (Keeps.throw (p := true) _).tidies
        | ok hs =>
          simp only
          exact (tidies_setEoc fun _ => (ArcParser.contentHeaders hs (none, [])).1).bind fun _ => (Keeps.pure (p := true) _).tidies

theorem tidies_mixedParse (st : ArcSt) (hst : ∀ n ∈ st.headers, (10 : Byte) ∉ n) (set : ArcSt → M Stream Unit)
    (hset : ∀ st', (∀ n ∈ st'.headers, (10 : Byte) ∉ n) → Tidies (set st')) (off : Option Nat) (fuel : Nat) (l : Bytes) :
    Tidies (MixedParser.parse st set off fuel l) := by
  induction fuel generalizing l with
  | zero => exact (Keeps.diverge (p := true)).tidies
  | succ fuel ih =>
    unfold MixedParser.parse
    split
    · exact (Keeps.pure (p := true) _).tidies
    · split
      · exact (Keeps.warcParse (p := true) _ _).tidies
      · split
        · exact tidies_arcParse st hst set hset off l
        · exact (Keeps.readline (p := true) _).tidies.bind fun l => ih l

theorem tidies_parseWith (off : Option Nat) (l : Bytes) : Tidies (parseWith off l) := by
  intro s hs
  simp only [parseWith, M.bind_apply, M.get_apply]
  cases hp : s.parser with
  | warc => exact (Keeps.warcParse (p := true) _ _).tidies s hs
  | arc st => rw [hp] at hs; exact tidies_arcParse st hs _ (fun st' h s' _ => h) off l s (by rw [hp]; exact hs)
  | mixed st => rw [hp] at hs; exact tidies_mixedParse st hs _ (fun st' h s' _ => h) off _ l s (by rw [hp]; exact hs)

theorem tidies_readRecord (offs : Bool) : Tidies (readRecord offs) := by
  unfold readRecord
  refine (Keeps.get (p := true)).tidies.bind fun s => ?_
  have htail : ∀ s : Stream, Tidies (match s.kind with
        | Kind.plain => do
          let (offset, line) ← Stream.blankLoop offs (List.length s.fh.rest + 2)
          let (r, errors, offset) ← Stream.parseWith offset line
          Pure.pure (⟨offset, r, errors⟩ : Entry)
        | Kind.gzipRecord => do
          let (_, line) ← Stream.blankLoop false (List.length s.fh.rest + 2)
          let (r, errors, _) ← Stream.parseWith none line
          Pure.pure (⟨none, r, errors⟩ : Entry)
        | Kind.gzipFile => do
          let (_, line) ← Stream.blankLoop false (List.length s.fh.rest + 2)
          let _ ← Stream.parseWith none line
          M.throw Exc.nameError) := by
    intro s
    cases s.kind with
    | plain => exact (Keeps.blankLoop (p := true) _ _).tidies.bind fun _ => (tidies_parseWith _ _).bind fun _ => (Keeps.pure (p := true) _).tidies
    | gzipRecord => exact (Keeps.blankLoop (p := true) _ _).tidies.bind fun _ => (tidies_parseWith _ _).bind fun _ => (Keeps.pure (p := true) _).tidies
    | gzipFile => exact (Keeps.blankLoop (p := true) _ _).tidies.bind fun _ => (tidies_parseWith _ _).bind fun _ => (Keeps.throw (p := true) _).tidies
  cases s.eoc with
  | none => exact (tidies_setEoc _).bind fun _ => (Keeps.get (p := true)).tidies.bind fun s => htail s
  | some e => exact (Keeps.skipToEoc (p := true)).tidies.bind fun _ => (tidies_setEoc _).bind fun _ => (Keeps.get (p := true)).tidies.bind fun s => htail s

theorem Tidies.ok {α : Type} {x : M Stream α} (h : Tidies x) {s s' : Stream} {a : α} (hs : CleanNames s.parser) (hx : x s = .ok a s') :
    CleanNames s'.parser := by
  have := h s hs; rw [hx] at this; exact this

theorem Tidies.raise {α : Type} {x : M Stream α} (h : Tidies x) {s s' : Stream} {e : Exc} (hs : CleanNames s.parser) (hx : x s = .raise e s') :
    CleanNames s'.parser := by
  have := h s hs; rw [hx] at this; exact this

theorem openArchive_parser (c : Codec) (cls : Option RecClass) (name : Bool) (gz : GzMode) (off : Option Nat) (contents : Bytes) (s : Stream)
    (h : openArchive c cls name gz off contents = .ok s) : ∃ k : RecClass, s.parser = k.makeParser ∧ s.eoc = none := by
  have key : ∀ f f', openRecordStream c cls name gz f = .ok s f' → ∃ k : RecClass, s.parser = k.makeParser ∧ s.eoc = none := by
    intro f f' ho
    have inner : ∀ (k : RecClass) (f f' : File), (do
        let gz ← match gz with
          | .auto =>
            if name then pure GzMode.record
            else do
              let b ← Detect.isGzipFile
              pure (if b then GzMode.record else GzMode.off)
          | g => pure g
        let f ← M.get
        match gz with
        | .record => pure (⟨gzipFileOf c f, none, .gzipRecord, k.makeParser⟩ : Stream)
        | .file => pure ⟨gzipFileOf c f, none, .gzipFile, k.makeParser⟩
        | _ => pure ⟨f, none, .plain, k.makeParser⟩ : M File Stream) f = .ok s f' → ∃ k : RecClass, s.parser = k.makeParser ∧ s.eoc = none := by
      intro k f f' hi
      have fin : ∀ (g : GzMode) (f f' : File), (do
          let f ← M.get
          match g with
          | .record => pure (⟨gzipFileOf c f, none, .gzipRecord, k.makeParser⟩ : Stream)
          | .file => pure ⟨gzipFileOf c f, none, .gzipFile, k.makeParser⟩
          | _ => pure ⟨f, none, .plain, k.makeParser⟩ : M File Stream) f = .ok s f' → ∃ k : RecClass, s.parser = k.makeParser ∧ s.eoc = none := by
        intro g f f' hg
        cases g <;> (simp at hg; obtain ⟨rfl, _⟩ := hg; exact ⟨k, rfl, rfl⟩)
      cases gz with
      | auto =>
        cases name with
        | true => exact fin .record f f' hi
        | false =>
          simp only [M.bind_apply, Bool.false_eq_true, if_false] at hi
          cases hz : Detect.isGzipFile f with
          | hang => simp [hz] at hi
          | raise e t => simp [hz] at hi
          | ok b t =>
            simp only [hz, M.pure_apply] at hi
            exact fin _ t f' hi
      | record => exact fin .record f f' hi
      | file => exact fin .file f f' hi
      | off => exact fin .off f f' hi
    unfold openRecordStream at ho
    cases cls with
    | some k => exact inner k f f' ho
    | none =>
      simp only [M.bind_apply] at ho
      cases hg : Detect.guessRecordType c f with
      | hang => simp [hg] at ho
      | raise e t => simp [hg] at ho
      | ok o t =>
        simp only [hg] at ho
        cases o with
        | none => simp at ho
        | some k => exact inner k t f' ho
  unfold openArchive at h
  cases off with
  | none =>
    simp only [M.bind_apply, M.pure_apply] at h
    cases hx : openRecordStream c cls name gz (File.openFile contents) with
    | hang => simp [hx] at h
    | raise e t => simp [hx] at h
    | ok a t => simp [hx] at h; subst h; exact key _ _ hx
  | some o =>
    simp only [M.bind_apply] at h
    cases hs : File.seek (o : Int) 0 (File.openFile contents) with
    | hang => simp [hs] at h
    | raise e t => simp [hs] at h
    | ok u t =>
      simp only [hs] at h
      cases hx : openRecordStream c cls name gz t with
      | hang => simp [hx] at h
      | raise e t => simp [hx] at h
      | ok a t => simp [hx] at h; subst h; exact key _ _ hx

theorem live_clean {c : Codec} {s : Stream} (h : Live c s) : CleanNames s.parser := by
  have hseek : ∀ o w, Tidies (Stream.seek o w) := by
    intro o w s hs
    unfold Stream.seek onFile
    cases File.seek o w s.fh <;> first | exact hs | trivial
  induction h with
  | opened h =>
    obtain ⟨k, hk, _⟩ := openArchive_parser _ _ _ _ _ _ _ h
    rw [hk]
    cases k <;> simp [RecClass.makeParser, CleanNames, ArcSt.init]
  | record _ h ih => exact (tidies_readRecord _).ok ih h
  | failedRecord _ h ih => exact (tidies_readRecord _).raise ih h
  | read _ h ih => exact (Keeps.read (p := true) _).tidies.ok ih h
  | failedRead _ h ih => exact (Keeps.read (p := true) _).tidies.raise ih h
  | readline _ h ih => exact (Keeps.readline (p := true) _).tidies.ok ih h
  | failedReadline _ h ih => exact (Keeps.readline (p := true) _).tidies.raise ih h
  | seek _ h ih => exact (hseek _ _).ok ih h
  | failedSeek _ h ih => exact (hseek _ _).raise ih h

/-! ### the announced length -/

theorem contentHeaders_length (hs : List Header) (hn : ∀ h ∈ hs, (10 : Byte) ∉ h.1) (acc : Option Int) (es : List Err) :
    (ArcParser.contentHeaders hs (acc, es)).1 = hs.foldl arcStep acc := by
  induction hs generalizing acc es with
  | nil => rfl
  | cons h hs ih =>
    obtain ⟨k, v⟩ := h
    have h10 : 10 ∉ k := hn (k, v) (by simp)
    have ih' := fun acc es => ih (fun h hh => hn h (by simp [hh])) acc es
    simp only [ArcParser.contentHeaders, rxTest_arcType k h10, rxTest_arcLength k h10]
    by_cases ht : lower k = b! "content-type"
    · simp only [ht, decide_true, if_true]
      have hs : hs.foldl arcStep acc = ((k, v) :: hs).foldl arcStep acc := by simp [arcStep, ht]
      rw [← hs]
      by_cases hv : v = []
      · rw [if_neg (by simp [hv]), ih']
      · rw [if_pos hv, ih']
    · simp only [ht, decide_false, Bool.false_eq_true, if_false]
      by_cases hl : lower k = b! "archive-length"
      · simp only [hl, decide_true, if_true]
        cases hp : pyInt 10 v with
        | none => simp only [ih', List.foldl_cons, arcStep, hl, if_true, hp]
        | some n => simp only [ih', List.foldl_cons, arcStep, hl, if_true, hp]
      · simp only [hl, decide_false, Bool.false_eq_true, if_false]
        rw [ih']
        simp [arcStep, hl]

/-- a record fresh from the parser, with the stream in front of the payload -/
def Announces (r : Rec) (s : Stream) : Prop := s.eoc = payloadLength r ∧ r.cfile = .stream ∧ r.content = none ∧ r.cfileValid = true

theorem arcParse_announces (st : ArcSt) (hst : ∀ n ∈ st.headers, (10 : Byte) ∉ n) (set : ArcSt → M Stream Unit) (off : Option Nat) (l : Bytes)
    (s s' : Stream) (r : Rec) (es : List Err) (off' : Option Nat)
    (h : ArcParser.parse st set off l s = .ok (some r, es, off') s') : Announces r s' ∧ es = [] := by
  simp only [ArcParser.parse, M.bind_apply, M.get_apply] at h
  have hnames : ∀ {names : List Bytes} {line hs}, (∀ n ∈ names, (10 : Byte) ∉ n) → ArcParser.parseHeaderList names line = .ok hs →
      ∀ h ∈ hs, (10 : Byte) ∉ h.1 := by
    intro names line hs hn hp h hh
    have := parseHeaderList_names hp
    exact hn _ (by rw [← this]; exact List.mem_map_of_mem hh)
  cases hsb : ArcParser.skipBlank (s.fh.rest.length + 2) l s with
  | hang => simp [hsb] at h
  | raise e t => simp [hsb] at h
  | ok o s1 =>
    simp only [hsb] at h
    cases o with
    | none => simp at h
    | some l =>
      simp only at h
      split at h
      · simp only [M.bind_apply] at h
        cases hr1 : Stream.readline none s1 with
        | hang => simp [hr1] at h
        | raise e t => simp [hr1] at h
        | ok vl s2 =>
          simp only [hr1] at h
          cases hr2 : Stream.readline none s2 with
          | hang => simp [hr2] at h
          | raise e t => simp [hr2] at h
          | ok nl s3 =>
            simp only [hr2] at h
            cases hsw : splitWs (strip vl) with
            | nil => simp [hsw] at h
            | cons v vs =>
              simp only [hsw, M.bind_apply] at h
              cases hset : set ⟨some v, splitWs (strip nl)⟩ s3 with
              | hang => simp [hset] at h
              | raise e t => simp [hset] at h
              | ok u s4 =>
                simp only [hset] at h
                cases hph : ArcParser.parseHeaderList (splitWs (strip nl)) l with
                | error e => simp [hph] at h
                | ok hs =>
                  simp only [hph] at h
                  have hlen := contentHeaders_length hs (hnames (splitWs_clean _) hph) none []
                  cases hch : ArcParser.contentHeaders hs (none, []) with
                  | mk a b =>
                  rw [hch] at hlen
                  simp only at hlen
                  cases a with
                  | none => simp [hch] at h
                  | some n =>
                    simp [hch] at h
                    obtain ⟨⟨rfl, rfl, _⟩, rfl⟩ := h
                    refine ⟨⟨?_, rfl, rfl, rfl⟩, rfl⟩
                    have : arcLength hs = some n := hlen.symm
                    simp only [payloadLength, this, Option.map_some, Option.some.injEq]
                    simp only [List.drop_succ_cons, List.drop_zero, List.flatten_cons, List.flatten_nil, List.append_nil, List.length_append]
                    omega
      · split at h
        · simp at h
        · rename_i hne
          cases hph : ArcParser.parseHeaderList st.headers l with
          | error e => simp [hph] at h
          | ok hs =>
            have hlen := contentHeaders_length hs (hnames hst hph) none []
            simp [hph] at h
            obtain ⟨⟨rfl, rfl, _⟩, rfl⟩ := h
            exact ⟨⟨hlen, rfl, rfl, rfl⟩, rfl⟩

theorem warcParse_announces (off : Option Nat) (l : Bytes) (s s' : Stream) (r : Rec) (es : List Err) (off' : Option Nat)
    (h : WarcParser.parse off l s = .ok (some r, es, off') s') : Announces r s' ∧ es = [] := by
  have h1 := parse_eoc _ _ _ _ _ _ _ h
  have h2 := warcParse_cls _ _ _ _ _ _ _ h r rfl
  obtain ⟨pre, vl, p, items, fin, ls, s1, _, _, _, _, hb, _, _, hst, _, he⟩ := parse_record_inv off l s s' r es off' h
  refine ⟨⟨by rw [h1.1, payloadLength, h2], ?_⟩, h1.2⟩
  rw [hst.1]
  exact ⟨rfl, rfl, rfl⟩

theorem mixedParse_announces (st : ArcSt) (hst : ∀ n ∈ st.headers, (10 : Byte) ∉ n) (set : ArcSt → M Stream Unit) (off : Option Nat) (fuel : Nat) (l : Bytes)
    (s s' : Stream) (r : Rec) (es : List Err) (off' : Option Nat)
    (h : MixedParser.parse st set off fuel l s = .ok (some r, es, off') s') : Announces r s' ∧ es = [] := by
  induction fuel generalizing l s with
  | zero => simp [MixedParser.parse] at h
  | succ fuel ih =>
    unfold MixedParser.parse at h
    split at h
    · simp at h
    · split at h
      · exact warcParse_announces _ _ _ _ _ _ _ h
      · split at h
        · exact arcParse_announces st hst set off l s s' r es off' h
        · simp only [M.bind_apply] at h
          cases hr1 : Stream.readline none s with
          | hang => simp [hr1] at h
          | raise e t => simp [hr1] at h
          | ok vl s2 =>
            simp only [hr1] at h
            exact ih _ _ h

/-- every record that is returned announces the payload in front of which it leaves the stream -/
theorem readRecord_announces (offs : Bool) (s s' : Stream) (e : Entry) (r : Rec) (hc : CleanNames s.parser)
    (h : readRecord offs s = .ok e s') (hr : e.rcd = some r) : Announces r s' ∧ e.errors = [] := by
  obtain ⟨s0, off, line, s1, off', _, _, hpar, _, _, _, _, _, hb, hparse, _⟩ := readRecord_inv offs s s' e h
  have hp1 := Keeps.parserEq (Keeps.blankLoop _ _) hb
  rw [hpar] at hp1
  simp only [parseWith, M.bind_apply, M.get_apply, hr] at hparse
  rw [hp1] at hparse
  cases hpp : s.parser with
  | warc => rw [hpp] at hparse; exact warcParse_announces _ _ _ _ _ _ _ hparse
  | arc st => rw [hpp] at hparse hc; exact arcParse_announces st hc _ _ _ _ _ _ _ _ hparse
  | mixed st => rw [hpp] at hparse hc; exact mixedParse_announces st hc _ _ _ _ _ _ _ _ _ hparse

/-- the same for a stream with any history -/
theorem live_announces {c : Codec} {s : Stream} (hl : Live c s) (offs : Bool) (s' : Stream) (e : Entry) (r : Rec)
    (h : readRecord offs s = .ok e s') (hr : e.rcd = some r) : Announces r s' := (readRecord_announces offs s s' e r (live_clean hl) h hr).1

end Warc
