import Verif.Proofs.Stripped
import Verif.Proofs.Payload
import Verif.Proofs.AnyRecord
import Verif.Proofs.Arc2WarcOk
import Verif.Props.Dates
set_option linter.all false
/-
  What arc2warc makes of ARC records has header values without line feeds, whatever the files hold.
-/
namespace Warc
open Rx Stream Spec

/-! ### values returned by a computation -/

/-- every value it returns is like that -/
def Yields {σ α : Type} (x : M σ α) (P : α → Prop) : Prop := ∀ s a s', x s = .ok a s' → P a

theorem Yields.bind {σ α β : Type} {x : M σ α} {f : α → M σ β} {P : α → Prop} {Q : β → Prop} (hx : Yields x P) (hf : ∀ a, P a → Yields (f a) Q) :
    Yields (x >>= f) Q := by
  intro s b s' h
  simp only [M.bind_apply] at h
  cases hxs : x s with
  | hang => simp [hxs] at h
  | raise e u => simp [hxs] at h
  | ok a u => simp only [hxs] at h; exact hf a (hx s a u hxs) u b s' h

theorem yields_true {σ α : Type} (x : M σ α) : Yields x (fun _ => True) := fun _ _ _ _ => trivial

theorem yields_pure {σ α : Type} {a : α} {P : α → Prop} (h : P a) : Yields (pure a : M σ α) P := by
  intro s b s' hb
  simp only [M.pure_apply, Res.ok.injEq] at hb
  rw [← hb.1]; exact h

theorem yields_throw {σ α : Type} {P : α → Prop} (e : Exc) : Yields (M.throw e : M σ α) P := by
  intro s b s' hb
  simp [M.throw_apply] at hb

theorem lineLike_take {l : Bytes} (h : LineLike l) (k : Nat) : LineLike (l.take k) := by
  unfold LineLike at *
  intro hm
  apply h
  rw [List.dropLast_eq_take] at hm ⊢
  rw [List.take_take] at hm
  have : min ((l.take k).length - 1) k = min ((l.take k).length - 1) (l.length - 1) := by
    rw [List.length_take]; omega
  rw [this, ← List.take_take] at hm
  exact List.mem_of_mem_take hm

theorem fileReadline_like (n : Option Int) : Yields (File.readline n) LineLike := by
  intro f l f' h
  have hd : ∀ x p, File.deliver x p f = .ok l f' → l = x := by
    intro x p hx
    simp only [File.deliver] at hx
    split at hx <;> first | (cases hx; done) | (simp at hx; exact hx.1.symm)
  simp only [File.readline] at h
  cases n with
  | none => rw [hd _ _ h]; exact firstLine_lineLike _
  | some k =>
    simp only at h
    by_cases hk : 0 ≤ k
    · rw [if_pos hk] at h
      rw [hd _ _ h]; exact lineLike_take (firstLine_lineLike _) _
    · rw [if_neg hk] at h
      rw [hd _ _ h]; exact firstLine_lineLike _

theorem onFile_like (n : Option Int) : Yields (onFile (File.readline n)) LineLike := by
  intro s l s' h
  simp only [onFile] at h
  cases hq : File.readline n s.fh with
  | hang => simp [hq] at h
  | raise e f => simp [hq] at h
  | ok a f =>
    simp only [hq, Res.ok.injEq] at h
    rw [← h.1]; exact fileReadline_like n _ _ _ hq

theorem readline_like (n : Option Int) : Yields (Stream.readline n) LineLike := by
  unfold Stream.readline
  refine (yields_true _).bind fun s _ => (onFile_like _).bind fun l hl => (yields_true _).bind fun _ _ => yields_pure hl

theorem skipBlank_like (k : Nat) (l : Bytes) (hl : LineLike l) : Yields (ArcParser.skipBlank k l) fun o => ∀ x, o = some x → LineLike x := by
  induction k generalizing l with
  | zero => intro s a s' h; simp [ArcParser.skipBlank] at h
  | succ k ih =>
    unfold ArcParser.skipBlank
    split
    · split
      · exact yields_pure (by simp)
      · exact (readline_like none).bind fun l' hl' => ih l' hl'
    · refine yields_pure ?_
      intro x hx
      cases hx; exact hl

/-! ### header values -/

theorem rstripCRLF_noLF {l : Bytes} (h : LineLike l) : 10 ∉ rstripCRLF l := by
  unfold LineLike at h
  cases hl : l.getLast? with
  | none =>
    rw [List.getLast?_eq_none_iff] at hl
    subst hl; decide
  | some c =>
    obtain ⟨u, rfl⟩ : ∃ u, l = u ++ [c] := by
      rw [List.getLast?_eq_some_iff] at hl; exact hl
    rw [List.dropLast_concat] at h
    by_cases hc : c = 10
    · subst hc
      have : rstripCRLF (u ++ [10]) = rstripCRLF u := by
        simp [rstripCRLF, rstripP]
      rw [this]
      exact fun hm => h ((rstripP_sublist _ u).subset hm)
    · intro hm
      have := (rstripP_sublist _ (u ++ [c])).subset hm
      simp only [List.mem_append, List.mem_singleton] at this
      rcases this with h1 | h1
      · exact h h1
      · exact hc h1.symm

theorem splitScan_mem (n : Option Nat) (prev : Option Byte) (l cur : Bytes) : ∀ x ∈ splitScan n prev l cur, ∀ c ∈ x, c ∈ cur ∨ c ∈ l := by
  induction l generalizing n prev cur with
  | nil =>
    intro x hx c hc
    simp only [splitScan, List.mem_singleton] at hx
    subst hx
    exact Or.inl (List.mem_reverse.1 hc)
  | cons d ds ih =>
    intro x hx c hc
    rw [splitScan] at hx
    split at hx
    · rcases List.mem_cons.1 hx with rfl | hx
      · exact Or.inl (List.mem_reverse.1 hc)
      · rcases ih _ _ _ x hx c hc with h | h
        · cases h
        · exact Or.inr (List.mem_cons_of_mem _ h)
    · rcases ih _ _ _ x hx c hc with h | h
      · rcases List.mem_cons.1 h with rfl | h
        · exact Or.inr (List.mem_cons_self ..)
        · exact Or.inl h
      · exact Or.inr (List.mem_cons_of_mem _ h)

theorem arcSplit_mem (l : Bytes) (k : Int) : ∀ x ∈ arcSplit l k, ∀ c ∈ x, c ∈ l := by
  have key : ∀ n, ∀ x ∈ splitScan n none l [], ∀ c ∈ x, c ∈ l := by
    intro n x hx c hc
    rcases splitScan_mem n none l [] x hx c hc with h | h
    · cases h
    · exact h
  unfold arcSplit
  split
  · intro x hx c hc
    simp only [List.mem_singleton] at hx
    subst hx; exact hc
  · split
    · exact key _
    · exact key _

theorem headerValues_noLF {names : List Bytes} {l : Bytes} {vs : List Bytes} (hl : LineLike l) (h : ArcParser.headerValues names l = .ok vs) :
    ∀ v ∈ vs, 10 ∉ v := by
  have hn := rstripCRLF_noLF hl
  have base : ∀ k, ∀ v ∈ arcSplit (rstripCRLF l) k, 10 ∉ v := fun k v hv h10 => hn (arcSplit_mem _ k v hv 10 h10)
  unfold ArcParser.headerValues at h
  simp only at h
  split at h
  · cases names with
    | nil => cases h
    | cons n0 ns =>
      simp only at h
      split at h
      · cases h
        intro v hv h10
        simp only [List.mem_map, List.mem_reverse] at hv
        obtain ⟨x, hx, rfl⟩ := hv
        have := arcSplit_mem _ _ x hx 10 (List.mem_reverse.1 h10)
        exact hn (List.mem_reverse.1 this)
      · cases h
        exact base _
  · cases h
    exact base _

theorem parseHeaderList_noLF {names : List Bytes} {l : Bytes} {hs : List Header} (hl : LineLike l) (h : ArcParser.parseHeaderList names l = .ok hs) :
    ∀ x ∈ hs, 10 ∉ x.2 := by
  unfold ArcParser.parseHeaderList at h
  cases hv : ArcParser.headerValues names l with
  | error e => simp [hv] at h
  | ok vs =>
    simp only [hv] at h
    split at h
    · cases h
    · cases h
      rintro ⟨a, b⟩ hx
      exact headerValues_noLF hl hv b (List.of_mem_zip hx).2

/-- an ARC record has header values without line feeds, and its content has not been read -/
def NoBreak (o : Option Rec) : Prop := ∀ r, o = some r → r.cls ≠ .warc → r.content = none ∧ ∀ h ∈ r.headers, 10 ∉ h.2

theorem arcParse_noBreak (st : ArcSt) (set : ArcSt → M Stream Unit) (off : Option Nat) (l : Bytes) (hl : LineLike l) :
    Yields (ArcParser.parse st set off l) fun q => NoBreak q.1 := by
  unfold ArcParser.parse
  refine (yields_true _).bind fun s _ => ?_
  refine (skipBlank_like _ _ hl).bind fun o ho => ?_
  cases o with
  | none => exact yields_pure (by intro r h; cases h)
  | some line =>
    have hline := ho line rfl
    simp only
    by_cases hf : startsWith line ArcParser.filedescTag = true
    · simp only [if_pos hf]
      refine (yields_true _).bind fun vl _ => ?_
      refine (yields_true _).bind fun nl _ => ?_
      cases hv : splitWs (strip vl) with
      | nil => exact yields_throw _
      | cons v vs =>
        simp only
        refine (yields_true _).bind fun _ _ => ?_
        cases hp : ArcParser.parseHeaderList (splitWs (strip nl)) line with
        | error e => exact yields_throw _
        | ok hs =>
          simp only
          cases hc : ArcParser.contentHeaders hs (none, []) with
          | mk a b =>
          cases a with
          | none => exact yields_throw _
          | some n =>
            refine (yields_true _).bind fun _ _ => yields_pure ?_
            intro r h hne
            cases h
            exact ⟨rfl, parseHeaderList_noLF hline hp⟩
    · simp only [if_neg hf]
      by_cases hh : st.headers = []
      · simp only [if_pos hh]; exact yields_throw _
      · simp only [if_neg hh]
        cases hp : ArcParser.parseHeaderList st.headers line with
        | error e => exact yields_throw _
        | ok hs =>
          simp only
          refine (yields_true _).bind fun _ _ => yields_pure ?_
          intro r h hne
          cases h
          exact ⟨rfl, parseHeaderList_noLF hline hp⟩

theorem warcParse_noBreak (off : Option Nat) (l : Bytes) : Yields (WarcParser.parse off l) fun q => NoBreak q.1 := by
  unfold WarcParser.parse
  refine (yields_true _).bind fun s _ => (yields_true _).bind fun v _ => ?_
  cases v with
  | eof es o => exact yields_pure (by intro r h; cases h)
  | giveUp es o => exact yields_pure (by intro r h; cases h)
  | found mt es o =>
    simp only
    cases WarcParser.versionErrors mt es with
    | none => exact yields_throw _
    | some errors =>
      refine (yields_true _).bind fun s _ => (yields_true _).bind fun l _ => (yields_true _).bind fun st _ => (yields_true _).bind fun _ _ => yields_pure ?_
      intro r h hne
      cases h
      exact absurd rfl hne

theorem mixedParse_noBreak (st : ArcSt) (set : ArcSt → M Stream Unit) (off : Option Nat) (k : Nat) (l : Bytes) (hl : LineLike l) :
    Yields (MixedParser.parse st set off k l) fun q => NoBreak q.1 := by
  induction k generalizing l with
  | zero => intro s a s' h; simp [MixedParser.parse] at h
  | succ k ih =>
    unfold MixedParser.parse
    split
    · exact yields_pure (by intro r h; cases h)
    · split
      · exact warcParse_noBreak _ _
      · split
        · exact arcParse_noBreak _ _ _ _ hl
        · exact (readline_like none).bind fun l' hl' => ih l' hl'

theorem parseWith_noBreak (off : Option Nat) (l : Bytes) (hl : LineLike l) : Yields (Stream.parseWith off l) fun q => NoBreak q.1 := by
  unfold Stream.parseWith
  refine (yields_true _).bind fun s _ => ?_
  cases s.parser with
  | warc => exact warcParse_noBreak _ _
  | arc st => exact arcParse_noBreak _ _ _ _ hl
  | mixed st => exact mixedParse_noBreak _ _ _ _ _ hl

theorem blankLoop_like (o : Bool) (k : Nat) : Yields (Stream.blankLoop o k) fun q => LineLike q.2 := by
  induction k with
  | zero => intro s a s' h; simp [Stream.blankLoop] at h
  | succ k ih =>
    unfold Stream.blankLoop
    refine (yields_true _).bind fun s _ => (onFile_like none).bind fun l hl => ?_
    split
    · exact ih
    · exact yields_pure hl

theorem readRecord_noBreak (o : Bool) : Yields (readRecord o) fun q => NoBreak q.rcd := by
  unfold readRecord
  refine (yields_true _).bind fun s _ => ?_
  have rest : Yields (do
      M.modify fun s : Stream => { s with eoc := none }
      let s ← M.get
      match s.kind with
      | .plain =>
        let (offset, line) ← blankLoop o (s.fh.rest.length + 2)
        let (r, errors, offset) ← parseWith offset line
        pure ⟨offset, r, errors⟩
      | .gzipRecord =>
        let (_, line) ← blankLoop false (s.fh.rest.length + 2)
        let (r, errors, _) ← parseWith none line
        pure ⟨none, r, errors⟩
      | .gzipFile =>
        let (_, line) ← blankLoop false (s.fh.rest.length + 2)
        let _ ← parseWith none line
        M.throw .nameError) fun q : Entry => NoBreak q.rcd := by
    refine (yields_true _).bind fun _ _ => (yields_true _).bind fun s2 _ => ?_
    cases s2.kind with
    | plain => exact (blankLoop_like _ _).bind fun q hq => (parseWith_noBreak _ _ hq).bind fun p hp => yields_pure hp
    | gzipRecord => exact (blankLoop_like _ _).bind fun q hq => (parseWith_noBreak _ _ hq).bind fun p hp => yields_pure hp
    | gzipFile => exact (blankLoop_like _ _).bind fun q hq => (parseWith_noBreak _ _ hq).bind fun p hp => yields_throw _
  cases s.eoc with
  | none => exact rest
  | some n => exact (yields_true _).bind fun _ _ => rest

/-- an ARC record that was read: no header value has a line feed, nor has the content type -/
def PieceFit (p : Piece) : Prop := p.cls ≠ .warc → (∀ h ∈ p.headers, 10 ∉ h.2) ∧ ∀ t, p.content.1 = some t → 10 ∉ t

theorem noLF_value {hs : List Header} (h : ∀ x ∈ hs, 10 ∉ x.2) {name v : Bytes} (hv : firstValue name hs = some v) : 10 ∉ v := by
  obtain ⟨k, hk, -⟩ := Tool.firstValue_mem _ _ _ hv
  exact h _ hk

theorem content_fst (s : Stream) (r : Rec) (out : Bytes) (x : Option Bytes × Option Bytes) (w : World) (hr : r.content = none)
    (h : World.content ⟨s, r, out⟩ = .ok x w) : x.1 = firstValue r.cls.contentTypeName r.headers := by
  simp only [World.content, hr] at h
  cases hq : World.cfileRead none ⟨s, r, out⟩ with
  | hang => simp [hq] at h
  | raise e u => simp [hq] at h
  | ok a u =>
    simp only [hq, Res.ok.injEq] at h
    rw [← h.1]
    exact lookupHeader_eq _ _

theorem pieces_fit (k : Nat) (s : Stream) : ∀ p ∈ (pieces k s).1, PieceFit p := by
  induction k generalizing s with
  | zero => intro p hp; cases hp
  | succ k ih =>
    intro p hp
    rw [pieces] at hp
    cases hq : readRecord false s with
    | hang => simp [hq] at hp
    | raise e t => simp [hq] at hp
    | ok e t =>
      have hnb := readRecord_noBreak false s e t hq
      cases hr : e.rcd with
      | none => simp [hq, hr] at hp
      | some r =>
        cases hc : World.content ⟨t, r, []⟩ with
        | hang => simp [hq, hr, hc] at hp
        | raise e w => simp [hq, hr, hc] at hp
        | ok x w =>
          simp only [hq, hr, hc, List.mem_cons] at hp
          rcases hp with rfl | hp
          · intro hne
            obtain ⟨h1, h2⟩ := hnb r hr hne
            refine ⟨h2, ?_⟩
            intro ct hct
            have := content_fst t r [] x w h1 hc
            simp only at hct
            rw [this] at hct
            exact noLF_value h2 hct
          · exact ih _ p hp

/-! ### what they become -/

open Arc2Warc (Cfg St NoWs uuid_noWs stamp_noWs keptIp_ok typed_ne dataRecord_ok infoRecord_ok filedescRecord_ok)

theorem strip_noLF {v : Bytes} (h : 10 ∉ v) : OneLine (strip v) := ⟨fun h10 => h (mem_strip h10), strip_strip v⟩

theorem loose_of_ok {r : R} (h : r.Ok) : r.Loose := by
  have : r.tidied = r := by
    obtain ⟨v, hs, b⟩ := r
    have : hs.map (fun h : Header => (h.1, strip h.2)) = hs := by
      have : ∀ l : List Header, (∀ x ∈ l, HeaderOk x) → l.map (fun h : Header => (h.1, strip h.2)) = l := by
        intro l hl
        induction l with
        | nil => rfl
        | cons x l ih =>
          rw [List.map_cons, ih fun y hy => hl y (by simp [hy]), (hl x (by simp)).valueStrip]
      exact this hs h.headers
    simp only [R.tidied, this]
  exact ⟨by rw [this]; exact h, fun x hx => (h.headers x hx).valueNoLF⟩

theorem loose_data {id url infoId date type ctype body : Bytes} {ip : List Header} (h1 : 10 ∉ id) (h2 : 10 ∉ url)
    (h3 : 10 ∉ infoId) (hip : ∀ x ∈ ip, x.1 = b! "WARC-IP-Address" ∧ OneLine x.2) (h4 : 10 ∉ date) (h5 : 10 ∉ type)
    (h6 : 10 ∉ ctype) (h7 : strip ctype ≠ []) : (dataRecord id url infoId ip date type ctype body).Loose := by
  have hipm : ip.map (fun h : Header => (h.1, strip h.2)) = ip := by
    have : ∀ l : List Header, (∀ x ∈ l, strip x.2 = x.2) → l.map (fun h : Header => (h.1, strip h.2)) = l := by
      intro l hl
      induction l with
      | nil => rfl
      | cons x l ih => rw [List.map_cons, ih fun y hy => hl y (by simp [hy]), hl x (by simp)]
    exact this ip fun x hx => (hip x hx).2.2
  have e : (dataRecord id url infoId ip date type ctype body).tidied =
      dataRecord (strip id) (strip url) (strip infoId) ip (strip date) (strip type) (strip ctype) body := by
    simp [R.tidied, dataRecord, hipm, strip_decimal]
  refine ⟨e ▸ dataRecord_ok (strip_noLF h1) (strip_noLF h2) (strip_noLF h3) hip (strip_noLF h4) (strip_noLF h5) (strip_noLF h6) h7, ?_⟩
  intro x hx
  simp only [dataRecord, List.mem_append, List.mem_cons, List.not_mem_nil, or_false] at hx
  rcases hx with (((rfl | rfl | rfl) | hx) | (rfl | rfl | rfl | rfl))
  · exact h1
  · exact h2
  · exact h3
  · exact (hip x hx).2.1
  · exact h4
  · exact h5
  · exact h6
  · exact (headerOk_contentLength _).valueNoLF

theorem loose_info {id date fields : Bytes} {filename : Option Bytes} (h1 : 10 ∉ id) (h2 : 10 ∉ date)
    (h3 : ∀ f, filename = some f → 10 ∉ f) : (infoRecord id date filename fields).Loose := by
  have e : (infoRecord id date filename fields).tidied = infoRecord (strip id) (strip date) (filename.map strip) fields := by
    have e1 : strip (b! "warcinfo") = b! "warcinfo" := by decide
    have e2 : strip (b! "application/warc-fields") = b! "application/warc-fields" := by decide
    cases filename <;> simp [R.tidied, infoRecord, e1, e2, strip_decimal]
  refine ⟨e ▸ infoRecord_ok (strip_noLF h1) (strip_noLF h2) ?_, ?_⟩
  · intro f hf
    cases filename with
    | none => cases hf
    | some g => cases hf; exact strip_noLF (h3 g rfl)
  · intro x hx
    simp only [infoRecord, List.mem_append, List.mem_cons, List.not_mem_nil, or_false] at hx
    rcases hx with (((rfl | rfl | rfl) | hx) | (rfl | rfl))
    · decide
    · exact h1
    · exact h2
    · cases filename with
      | none => simp at hx
      | some f =>
        simp at hx
        subst hx
        exact h3 f rfl
    · decide
    · exact (headerOk_contentLength _).valueNoLF

theorem loose_filedesc {infoId id url date text : Bytes} (h1 : 10 ∉ infoId) (h2 : 10 ∉ id) (h3 : 10 ∉ url) (h4 : 10 ∉ date) :
    (filedescRecord infoId id url date text).Loose := by
  have e : (filedescRecord infoId id url date text).tidied = filedescRecord (strip infoId) (strip id) (strip url) (strip date) text := by
    have e1 : strip (b! "metadata") = b! "metadata" := by decide
    have e2 : strip (b! "application/arc") = b! "application/arc" := by decide
    simp [R.tidied, filedescRecord, e1, e2, strip_decimal]
  refine ⟨e ▸ filedescRecord_ok (strip_noLF h1) (strip_noLF h2) (strip_noLF h3) (strip_noLF h4), ?_⟩
  intro x hx
  simp only [filedescRecord, List.mem_cons, List.not_mem_nil, or_false] at hx
  rcases hx with rfl | rfl | rfl | rfl | rfl | rfl | rfl | rfl
  · decide
  · exact h1
  · exact h2
  · exact h3
  · exact h4
  · exact h1
  · decide
  · exact (headerOk_contentLength _).valueNoLF

theorem stampOf {t : DateTime} (hv : t.Valid) (ho : t.offset = none) : 10 ∉ warcDatetimeStr t := by
  rw [C52_format _ hv ho]; exact (stamp_noWs _ hv).oneLine.1

theorem full_stamp {date : Bytes} {t : DateTime} (h : Strptime.full date = .ok t) : 10 ∉ warcDatetimeStr t := by
  simp only [Strptime.full] at h
  split at h
  · simp only [Strptime.construct] at h
    split at h
    · rename_i hv
      obtain rfl := Except.ok.inj h
      exact stampOf hv rfl
    · cases h
  · cases h

theorem short_stamp {date : Bytes} {t : DateTime} (h : Strptime.short date = .ok t) : 10 ∉ warcDatetimeStr t := by
  simp only [Strptime.short] at h
  split at h
  · simp only [Strptime.construct] at h
    split at h
    · rename_i hv
      obtain rfl := Except.ok.inj h
      exact stampOf hv rfl
    · cases h
  · cases h

theorem arcType_strip (t : Bytes) : strip (arcType t) ≠ [] := by
  unfold arcType
  by_cases h : strip t = []
  · rw [if_pos h]; decide
  · rw [if_neg h]; exact h

theorem becomes_loose {c : Codec} {g : Cfg} {st st' : St} {p : Piece} {rs : List R} (h : Becomes c g st p rs st') (hp : PieceFit p)
    (hw : p.cls = .warc → ∀ body, p.content.2 = some body → R.Ok ⟨p.version, p.headers, body⟩)
    (hnow : ∀ k, (g.now k).Valid ∧ (g.now k).offset = none) (hfile : ∀ f, g.outputFilename = some (.bytes f) → 10 ∉ f)
    (hst : ∀ i, st.warcinfoId = some i → 10 ∉ i) :
    (∀ r ∈ rs, r.Loose) ∧ ∀ i, st'.warcinfoId = some i → 10 ∉ i := by
  have hid : ∀ t : Bytes, 10 ∉ idOf g t := fun t => (uuid_noWs _ _).oneLine.1
  have hn : ∀ k, 10 ∉ warcDatetimeStr (g.now k) := fun k => stampOf (hnow k).1 (hnow k).2
  cases h with
  | warc body hc hb =>
    refine ⟨?_, hst⟩
    intro r hr
    simp only [List.mem_singleton] at hr
    subst hr
    exact loose_of_ok (hw hc body hb)
  | data _ body url date wdate ctype type ctype' infoId hc hurl hdate hwdate hb htype hinfo =>
    obtain ⟨h1, h2⟩ := hp (by rw [hc]; decide)
    have hct : 10 ∉ ctype := h2 ctype (by rw [hb])
    have hat : 10 ∉ arcType ctype := by
      unfold arcType
      by_cases h : strip ctype = []
      · rw [if_pos h]; decide
      · rw [if_neg h]; exact hct
    have hst' : st'.warcinfoId = st.warcinfoId := by cases hwdate <;> rfl
    refine ⟨?_, by rw [hst']; exact hst⟩
    intro r hr
    simp only [List.mem_singleton] at hr
    subst hr
    have hty : 10 ∉ type := by cases htype <;> decide
    have hct' : 10 ∉ ctype' ∧ strip ctype' ≠ [] := by
      cases htype with
      | http => exact ⟨by decide, by decide⟩
      | resource => exact ⟨hat, arcType_strip _⟩
      | response => exact ⟨hat, arcType_strip _⟩
      | notHttp => exact ⟨hat, arcType_strip _⟩
      | other => exact ⟨hat, arcType_strip _⟩
    have hd : 10 ∉ wdate := by
      cases hwdate with
      | long t h => exact full_stamp h
      | short t _ h => exact short_stamp h
      | now => exact hn _
    exact loose_data (hid _) (noLF_value h1 hurl) (hst _ hinfo) (keptIp_ok fun ip hip => noLF_value h1 hip) hd hty hct'.1 hct'.2
  | filedesc body url date wdate filename hc hurl hdate hwdate hb hname =>
    obtain ⟨h1, h2⟩ := hp (by rw [hc]; decide)
    have hu := noLF_value h1 hurl
    have hws : 10 ∉ withoutScheme url := by
      unfold withoutScheme
      by_cases h : b! "filedesc://" <+: url
      · rw [if_pos h]; exact fun h10 => hu (List.mem_of_mem_drop h10)
      · rw [if_neg h]; exact hu
    have hd : 10 ∉ wdate := by
      cases hwdate with
      | long t _ h => exact full_stamp h
      | short t _ _ h => exact short_stamp h
      | now => exact hn _
    refine ⟨?_, ?_⟩
    · intro r hr
      simp only [List.mem_cons, List.not_mem_nil, or_false] at hr
      rcases hr with rfl | rfl
      · refine loose_info (hid _) (hn _) ?_
        intro f hf
        cases hname with
        | none => cases hf
        | some f' hne h => cases hf; exact hfile _ h
      · exact loose_filedesc (hid _) (hid _) hws hd
    · intro i hi
      simp only [Option.some.injEq] at hi
      subst hi
      exact hid _

theorem becomesAll_loose {c : Codec} {g : Cfg} {st st' : St} {ps : List Piece} {rs : List R} (h : BecomesAll c g st ps rs st') (hp : ∀ p ∈ ps, PieceFit p)
    (hw : WarcPiecesOk ps)
    (hnow : ∀ k, (g.now k).Valid ∧ (g.now k).offset = none) (hfile : ∀ f, g.outputFilename = some (.bytes f) → 10 ∉ f)
    (hst : ∀ i, st.warcinfoId = some i → 10 ∉ i) :
    ∀ r ∈ rs, r.Loose := by
  induction h with
  | nil => simp
  | @cons st st1 st2 p ps rs rs' h1 h2 ih =>
    obtain ⟨a1, a2⟩ := becomes_loose h1 (hp p (by simp)) (hw p (by simp)) hnow hfile hst
    have := ih (fun x hx => hp x (by simp [hx])) (fun x hx => hw x (by simp [hx])) a2
    intro r hr
    rcases List.mem_append.1 hr with hr | hr
    · exact a1 r hr
    · exact this r hr

end Warc
