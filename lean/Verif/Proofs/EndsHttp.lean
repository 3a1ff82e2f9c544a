import Verif.Proofs.Ends
import Verif.Proofs.HttpHang
import Verif.Model.Arc2Warc
/-
  What code that hands the content of a record to the HTTP parser can hang on.
-/
set_option linter.all false
namespace Warc
open Rx Stream Spec

/-- a contiguous part of the data -/
def Part (data b : Bytes) : Prop := ∃ x y, data = x ++ b ++ y

theorem Part.take {data b : Bytes} (h : Part data b) (k : Nat) : Part data (b.take k) := by
  obtain ⟨x, y, rfl⟩ := h
  exact ⟨x, b.drop k ++ y, by
    simp only [List.append_assoc]; rw [← List.append_assoc (b.take k), List.take_append_drop]⟩

theorem Part.rest (f : File) : Part f.data f.rest := ⟨f.data.take f.pos, [], by simp [File.rest]⟩

theorem Part.negative {data b : Bytes} (h : Part data b) (hn : Http.NegativeSize b) : NegativeChunk data := by
  obtain ⟨x, y, rfl⟩ := h
  obtain ⟨u, line, v, n, rfl, _, h10, h1, h2⟩ := hn
  exact ⟨x ++ u, line, v ++ y, n, by simp, h10, h1, h2⟩

theorem fileRead_part (n : Option Int) (f f' : File) (a : Bytes) (h : File.read n f = .ok a f') : Part f.data a := by
  have hd : ∀ out b, Part f.data out → File.deliver out b f = .ok a f' → Part f.data a := by
    intro out b hp hd
    unfold File.deliver at hd
    split at hd
    · simp at hd
    · simp only [Res.ok.injEq] at hd
      obtain ⟨rfl, rfl⟩ := hd
      exact hp
  cases n with
  | none => exact hd _ _ (Part.rest f) h
  | some n =>
    simp only [File.read] at h
    by_cases h0 : 0 ≤ n
    · rw [if_pos h0] at h; exact hd _ _ ((Part.rest f).take _) h
    · rw [if_neg h0] at h
      by_cases h1 : n = -1 ∨ f.strictNeg = false
      · rw [if_pos h1] at h; exact hd _ _ (Part.rest f) h
      · rw [if_neg h1] at h; cases h

/-- the record at hand comes from a file with this data -/
structure Own (data : Bytes) (w : World) : Prop where
  same : w.strm.fh.data = data
  fresh : w.rcd.content = none → w.rcd.cfile = .stream
  part : ∀ ct b, w.rcd.content = some (ct, some b) → Part data b

theorem own_content {data : Bytes} {w : World} (h : Own data w) :
    match World.content w with
    | .ok c w' => Own data w' ∧ ∀ b, c.2 = some b → Part data b
    | .raise _ _ => True
    | .hang => False := by
  have hcalm := World.calm_content w
  simp only [World.content] at hcalm ⊢
  cases hc : w.rcd.content with
  | some c =>
    simp only [hc]
    exact ⟨h, fun b hb => h.part c.1 b (by rw [hc, ← hb])⟩
  | none =>
    simp only [hc]
    cases hr : World.cfileRead none w with
    | hang => rw [hc] at hcalm; simp only at hcalm; rw [hr] at hcalm; exact hcalm rfl
    | raise e w' => trivial
    | ok buf w' =>
      have hp : Part data buf := by
        have hs := h.fresh hc
        simp only [World.cfileRead, hs, World.onStream, Stream.read, rawRead, M.bind_apply, M.get_apply, onFile] at hr
        cases hf : File.read (limitOf w.strm.eoc none) w.strm.fh with
        | hang => rw [hf] at hr; cases hr
        | raise e f => rw [hf] at hr; cases hr
        | ok a f =>
          rw [hf] at hr
          simp only [consume, M.modify_apply, M.pure_apply, Res.ok.injEq] at hr
          obtain ⟨rfl, rfl⟩ := hr
          have := fileRead_part _ _ _ _ hf
          rw [h.same] at this; exact this
      have hfw := World.fwd_cfileRead none w
      rw [hr] at hfw
      refine ⟨⟨?_, ?_, ?_⟩, ?_⟩
      · show w'.strm.fh.data = data
        rw [hfw.data]; exact h.same
      · intro hx; cases hx
      · intro ct b hx
        cases hx
        exact hp
      · intro b hb; cases hb; exact hp

theorem own_contentType {data : Bytes} {w : World} (h : Own data w) :
    match World.contentType w with
    | .ok _ w' => Own data w'
    | .raise _ _ => True
    | .hang => False := by
  simp only [World.contentType]
  cases hc : w.rcd.content with
  | some c => exact h
  | none =>
    simp only
    cases w.rcd.getHeader w.rcd.cls.contentTypeName with
    | some t => exact h
    | none =>
      simp only
      have := own_content h
      cases hr : World.content w with
      | hang => rw [hr] at this; exact this
      | raise e w' => trivial
      | ok c w' => rw [hr] at this; exact this.1

theorem own_contentBytes {data : Bytes} {w : World} (h : Own data w) :
    match WarcFilter.contentBytes w with
    | .ok b _ => Part data b
    | .raise _ _ => True
    | .hang => False := by
  simp only [WarcFilter.contentBytes, M.bind_apply]
  have := own_content h
  cases hr : World.content w with
  | hang => rw [hr] at this; exact this
  | raise e w' => trivial
  | ok c w' =>
    rw [hr] at this
    obtain ⟨ct, b⟩ := c
    cases b with
    | none => trivial
    | some b => exact this.2 b rfl

/-- feeding a part of the data to a new HTTP parser -/
theorem feed_part_hang {c : Codec} {k : Http.Kind} {ig : List PyStr} {data b : Bytes} (hp : Part data b)
    (h : k.feed c b (k.message ig) = .hang) : NegativeChunk data := by
  have := Http.kind_sane (c := c) (t := b) (Http.Alive.message k ig)
  rw [h] at this
  have e : (k.message ig).buffer = [] := by cases k <;> rfl
  simp only [e, List.nil_append] at this
  exact hp.negative this

theorem local_hang {α : Type} {m : Http.Msg} {x : M Http.Msg α} {w : World} (h : WarcFilter.local' m x w = .hang) : x m = .hang := by
  simp only [WarcFilter.local'] at h
  cases hx : x m with
  | hang => rfl
  | ok a m' => rw [hx] at h; cases h
  | raise e m' => rw [hx] at h; cases h

theorem parseHttpResponse_hang {c : Codec} {data : Bytes} {w : World} (ho : Own data w)
    (h : WarcFilter.parseHttpResponse c w = .hang) : NegativeChunk data := by
  simp only [WarcFilter.parseHttpResponse, M.bind_apply] at h
  have hb := own_contentBytes ho
  cases hq : WarcFilter.contentBytes w with
  | hang => rw [hq] at hb; exact hb.elim
  | raise e w' => rw [hq] at h; cases h
  | ok b w' =>
    rw [hq] at h hb
    simp only at h hb
    cases hl : WarcFilter.local' (WarcFilter.newResponse []) (Http.feedResponse c b) w' with
    | hang => exact feed_part_hang (k := .response (.str "")) (ig := []) hb (local_hang hl)
    | raise e w2 => rw [hl] at h; cases h
    | ok q w2 =>
      rw [hl] at h
      obtain ⟨rem, m⟩ := q
      refine absurd h (Calm.ite (Calm.throw _) ?_ w2)
      cases (m.close.header.headers.filter fun h => lower h.1 == b! "content-type") with
      | nil => exact Calm.pure _
      | cons h hs => exact Calm.pure _

theorem filterRecord_hang {c : Codec} {search : Bytes → Bool} {o : WarcFilter.Opts} {data : Bytes} {w : World} (ho : Own data w)
    (h : WarcFilter.filterRecord c search o w = .hang) : o.httpContentType = true ∧ NegativeChunk data := by
  by_cases hh : o.httpContentType = true
  · refine ⟨hh, ?_⟩
    simp only [WarcFilter.filterRecord, M.bind_apply, M.get_apply] at h
    by_cases h1 : o.url = true
    · rw [if_pos h1] at h; exact absurd h (calm_writeIf _ _)
    · rw [if_neg h1] at h
      by_cases h2 : o.type = true
      · rw [if_pos h2] at h; exact absurd h (calm_writeIf _ _)
      · rw [if_neg h2] at h
        by_cases h3 : o.contentType = true
        · rw [if_pos h3] at h
          exact absurd h (World.calm_contentType.bind (fun ct => calm_writeIf _) w)
        · rw [if_neg h3, if_pos hh] at h
          by_cases h4 : w.rcd.type = some WT.RESPONSE
          · rw [if_pos h4] at h
            simp only [M.bind_apply] at h
            have hct := own_contentType ho
            cases hq : World.contentType w with
            | hang => rw [hq] at hct; exact hct.elim
            | raise e w' => rw [hq] at h; cases h
            | ok ct w' =>
              rw [hq] at h hct
              simp only at h hct
              cases ct with
              | none => cases h
              | some t =>
                simp only at h
                split at h
                · simp only [M.bind_apply] at h
                  cases hp : WarcFilter.parseHttpResponse c w' with
                  | hang => exact parseHttpResponse_hang hct hp
                  | raise e w2 => rw [hp] at h; cases h
                  | ok m w2 => rw [hp] at h; exact absurd h (calm_writeIf _ _)
                · cases h
          · rw [if_neg h4] at h; cases h
  · exact absurd h (calm_filterRecord c search o (by simpa using hh) w)

theorem decodeWith_hang {z : Http.Zlib} {m : Http.Msg} {feed : Bytes → M Http.Msg Bytes} {content : Option Bytes} {w : World}
    (h : Warc2Warc.decodeWith z m feed content w = .hang) : ∃ b, content = some b ∧ feed b m = .hang := by
  cases content with
  | none => cases h
  | some b =>
    refine ⟨b, rfl, ?_⟩
    simp only [Warc2Warc.decodeWith, M.bind_apply] at h
    cases hl : WarcFilter.local' m (feed b) w with
    | hang => exact local_hang hl
    | raise e w2 => rw [hl] at h; cases h
    | ok q w2 =>
      rw [hl] at h
      obtain ⟨rem, m⟩ := q
      refine absurd h (Calm.ite ?_ (Calm.pure _) w2)
      cases m.close.getDecoded z with
      | error e => exact Calm.throw _
      | ok b => exact Calm.throw _

theorem decodeRecord_hang {c : Codec} {z : Http.Zlib} {o : Warc2Warc.Opts} {data : Bytes} {w : World} (ho : Own data w)
    (h : Warc2Warc.decodeRecord c z o w = .hang) : NegativeChunk data := by
  simp only [Warc2Warc.decodeRecord, M.bind_apply, M.get_apply] at h
  split at h
  · simp only [M.bind_apply] at h
    have hc := own_content ho
    cases hq : World.content w with
    | hang => rw [hq] at hc; exact hc.elim
    | raise e w' => rw [hq] at h; cases h
    | ok q w' =>
      rw [hq] at h hc
      obtain ⟨ct, buf⟩ := q
      simp only at h hc
      split at h
      · obtain ⟨b, hb, hf⟩ := decodeWith_hang h
        exact feed_part_hang (k := .response (.str "")) (hc.2 b hb) hf
      · split at h
        · obtain ⟨b, hb, hf⟩ := decodeWith_hang h
          exact feed_part_hang (k := .request) (hc.2 b hb) hf
        · cases h
  · cases h

theorem process_hang {c : Codec} {z : Http.Zlib} {o : Warc2Warc.Opts} {data : Bytes} {w : World} (ho : Own data w)
    (h : Warc2Warc.process c z o w = .hang) : o.decode = true ∧ NegativeChunk data := by
  by_cases hd : o.decode = true
  · refine ⟨hd, ?_⟩
    unfold Warc2Warc.process at h
    rw [if_pos hd] at h
    simp only [M.bind_apply] at h
    cases hq : Warc2Warc.decodeRecord c z o w with
    | hang => exact decodeRecord_hang ho hq
    | raise e w' => rw [hq] at h; cases h
    | ok u w' =>
      rw [hq] at h
      exact absurd h ((Calm.ite (World.calm_writeToGz _ _) (World.calm_writeTo _)) w')
  · exact absurd h (calm_process c z o (by simpa using hd) w)

/-! ### arc2warc -/
namespace Arc2Warc

abbrev strm (s : XW) : Stream := s.1.strm

theorem fwd_onWorld {α : Type} {x : M World α} (h : FwdOn World.strm x) : FwdOn strm (onWorld x) := by
  intro s
  have := h s.1
  simp only [onWorld]
  cases hx : x s.1 with
  | hang => trivial
  | ok a w => rw [hx] at this; exact this
  | raise e w => rw [hx] at this; exact this

theorem calm_onWorld {α : Type} {x : M World α} (h : Calm x) : Calm (onWorld x) := by
  intro s
  simp only [onWorld]
  cases hx : x s.1 with
  | hang => exact absurd hx (h _)
  | ok a w => simp
  | raise e w => simp

theorem fwd_now (g : Cfg) : FwdOn strm (now g) := fun s => After.refl _
theorem calm_now (g : Cfg) : Calm (now g) := fun s => by simp [now]

theorem fwd_operand (o : Option Bytes) : FwdOn strm (operand o) := by
  cases o with
  | none => exact FwdOn.throw _
  | some b => exact FwdOn.pure _
theorem calm_operand (o : Option Bytes) : Calm (operand o) := by
  cases o with
  | none => exact Calm.throw _
  | some b => exact Calm.pure _

theorem fwd_lift {α : Type} (e : Except Exc α) : FwdOn strm (lift e) := by
  cases e with
  | error e => exact FwdOn.throw _
  | ok a => exact FwdOn.pure _
theorem calm_lift {α : Type} (e : Except Exc α) : Calm (lift e) := by
  cases e with
  | error e => exact Calm.throw _
  | ok a => exact Calm.pure _

theorem fwd_raw : FwdOn strm raw := FwdOn.get.bind fun s => (fwd_onWorld fwd_contentBytes).bind fun _ => FwdOn.pure _
theorem calm_raw : Calm raw := Calm.get.bind fun s => (calm_onWorld calm_contentBytes).bind fun _ => Calm.pure _

theorem fwd_metaDate (d : Bytes) (o : Option Bytes) : FwdOn strm (metaDate d o) := by
  cases o with
  | none => exact FwdOn.pure _
  | some x => exact FwdOn.ite (FwdOn.pure _) (FwdOn.ite ((fwd_lift _).bind fun _ => FwdOn.pure _) ((fwd_lift _).bind fun _ => FwdOn.pure _))
theorem calm_metaDate (d : Bytes) (o : Option Bytes) : Calm (metaDate d o) := by
  cases o with
  | none => exact Calm.pure _
  | some x => exact Calm.ite (Calm.pure _) (Calm.ite ((calm_lift _).bind fun _ => Calm.pure _) ((calm_lift _).bind fun _ => Calm.pure _))

theorem fwd_convertFiledesc (g : Cfg) : FwdOn strm (convertFiledesc g) :=
  FwdOn.get.bind fun s => (fwd_now g).bind fun _ => (fwd_operand _).bind fun _ => (fwd_metaDate _ _).bind fun _ =>
    (fwd_operand _).bind fun _ => fwd_raw.bind fun _ => FwdOn.bind (FwdOn.modify fun _ => rfl) fun _ => FwdOn.pure _
theorem calm_convertFiledesc (g : Cfg) : Calm (convertFiledesc g) :=
  Calm.get.bind fun s => (calm_now g).bind fun _ => (calm_operand _).bind fun _ => (calm_metaDate _ _).bind fun _ =>
    (calm_operand _).bind fun _ => calm_raw.bind fun _ => (Calm.modify _).bind fun _ => Calm.pure _

theorem fwd_isHttpResponse (c : Codec) (b : Bytes) : FwdOn strm (isHttpResponse c b) := by
  exact FwdOn.bind (fwd_onWorld (fwd_local _ _)) fun q => FwdOn.pure _

theorem fwd_chooseType (c : Codec) (g : Cfg) (u t b : Bytes) : FwdOn strm (chooseType c g u t b) :=
  (fwd_lift _).bind fun _ => FwdOn.ite (FwdOn.pure _) ((fwd_lift _).bind fun _ => FwdOn.ite (FwdOn.pure _)
    (FwdOn.ite ((fwd_isHttpResponse c b).bind fun _ => FwdOn.ite (FwdOn.pure _) (FwdOn.pure _)) (FwdOn.pure _)))

theorem fwd_recordDate (g : Cfg) (o : Option Bytes) : FwdOn strm (recordDate g o) := by
  cases o with
  | none => exact fwd_now g
  | some d =>
    refine FwdOn.ite (fwd_now g) ?_
    cases Strptime.full d with
    | ok t => exact FwdOn.pure _
    | error e => cases e <;> first | exact fwd_lift _ | exact FwdOn.throw _
theorem calm_recordDate (g : Cfg) (o : Option Bytes) : Calm (recordDate g o) := by
  cases o with
  | none => exact calm_now g
  | some d =>
    refine Calm.ite (calm_now g) ?_
    cases Strptime.full d with
    | ok t => exact Calm.pure _
    | error e => cases e <;> first | exact calm_lift _ | exact Calm.throw _

theorem fwd_convertRecord (c : Codec) (g : Cfg) : FwdOn strm (convertRecord c g) := by
  refine FwdOn.get.bind fun s => (fwd_operand _).bind fun u => (fwd_operand _).bind fun d => (fwd_recordDate _ _).bind fun dt =>
    (fwd_onWorld World.fwd_content).bind fun q => ?_
  obtain ⟨ct, buf⟩ := q
  cases ct with
  | none => exact FwdOn.throw _
  | some t =>
    cases buf with
    | none => exact FwdOn.throw _
    | some b => exact (fwd_chooseType _ _ _ _ _).bind fun _ => FwdOn.pure _

theorem fwd_convert (c : Codec) (g : Cfg) : FwdOn strm (convert c g) :=
  FwdOn.get.bind fun s => FwdOn.ite (fwd_convertFiledesc g) (fwd_convertRecord c g)

theorem fwd_writeAs (c : Codec) (gz : Bool) : FwdOn World.strm (writeAs c gz) :=
  FwdOn.ite (World.fwd_writeToGz _ _) (World.fwd_writeTo _)
theorem calm_writeAs (c : Codec) (gz : Bool) : Calm (writeAs c gz) := Calm.ite (World.calm_writeToGz _ _) (World.calm_writeTo _)

theorem fwd_writeNew (c : Codec) (gz : Bool) (n : New) : FwdOn strm (writeNew c gz n) := by
  apply fwd_onWorld
  intro w
  simp only
  cases allBytes n.headers with
  | some hs =>
    simp only
    have := fwd_writeAs c gz { w with rcd := Rec.mkWarc (b! "WARC/1.0") hs (some n.ctype) (some n.content) }
    cases hq : writeAs c gz { w with rcd := Rec.mkWarc (b! "WARC/1.0") hs (some n.ctype) (some n.content) } with
    | hang => trivial
    | ok a w' => rw [hq] at this; exact this
    | raise e w' => rw [hq] at this; exact this
  | none =>
    simp only
    cases gz
    · exact After.refl _
    · exact After.refl _

theorem calm_writeNew (c : Codec) (gz : Bool) (n : New) : Calm (writeNew c gz n) := by
  apply calm_onWorld
  intro w
  simp only
  cases allBytes n.headers with
  | some hs =>
    simp only
    cases hq : writeAs c gz { w with rcd := Rec.mkWarc (b! "WARC/1.0") hs (some n.ctype) (some n.content) } with
    | hang => exact absurd hq (calm_writeAs _ _ _)
    | ok a w' => simp
    | raise e w' => simp
  | none => simp

theorem fwd_writeNews (c : Codec) (gz : Bool) (ns : List New) : FwdOn strm (writeNews c gz ns) := by
  induction ns with
  | nil => exact FwdOn.pure _
  | cons n ns ih => exact (fwd_writeNew _ _ _).bind fun _ => ih
theorem calm_writeNews (c : Codec) (gz : Bool) (ns : List New) : Calm (writeNews c gz ns) := by
  induction ns with
  | nil => exact Calm.pure _
  | cons n ns ih => exact (calm_writeNew _ _ _).bind fun _ => ih

theorem fwd_handle (c : Codec) (g : Cfg) (gz : Bool) : FwdOn strm (handle c g gz) :=
  FwdOn.get.bind fun s => FwdOn.ite (fwd_onWorld (fwd_writeAs _ _)) ((fwd_convert c g).bind fun _ => fwd_writeNews _ _ _)

theorem bind_hang {σ α β : Type} {x : M σ α} {f : α → M σ β} {s : σ} (h : (x >>= f) s = .hang) :
    x s = .hang ∨ ∃ a s', x s = .ok a s' ∧ f a s' = .hang := by
  rw [M.bind_apply] at h
  cases hq : x s with
  | hang => exact Or.inl rfl
  | raise e s1 => rw [hq] at h; cases h
  | ok a s1 => rw [hq] at h; exact Or.inr ⟨a, s1, rfl, h⟩

theorem ite_hang {σ α : Type} {p : Prop} [Decidable p] {x y : M σ α} {s : σ} (h : (if p then x else y) s = .hang) :
    x s = .hang ∨ y s = .hang := by
  by_cases hp : p
  · rw [if_pos hp] at h; exact Or.inl h
  · rw [if_neg hp] at h; exact Or.inr h

theorem isHttpResponse_hang {c : Codec} {b : Bytes} {s : XW} (h : isHttpResponse c b s = .hang) :
    Http.feedResponse c b (WarcFilter.newResponse []) = .hang := by
  rcases bind_hang h with h1 | ⟨a, s', _, h2⟩
  · simp only [onWorld] at h1
    cases hl : WarcFilter.local' (WarcFilter.newResponse []) (Http.feedResponse c b) s.1 with
    | hang => exact local_hang hl
    | raise e w2 => rw [hl] at h1; cases h1
    | ok q w2 => rw [hl] at h1; cases h1
  · cases h2

theorem chooseType_hang {c : Codec} {g : Cfg} {u t b : Bytes} {s : XW} (h : chooseType c g u t b s = .hang) :
    Http.feedResponse c b (WarcFilter.newResponse []) = .hang := by
  rcases bind_hang h with h | ⟨_, s1, _, h⟩
  · exact absurd h (calm_lift _ _)
  rcases ite_hang h with h | h
  · cases h
  rcases bind_hang h with h | ⟨_, s2, _, h⟩
  · exact absurd h (calm_lift _ _)
  rcases ite_hang h with h | h
  · cases h
  rcases ite_hang h with h | h
  · rcases bind_hang h with h | ⟨_, s3, _, h⟩
    · exact isHttpResponse_hang h
    · rcases ite_hang h with h | h <;> cases h
  · cases h

theorem operand_same {o : Option Bytes} {s s' : XW} {a : Bytes} (h : operand o s = .ok a s') : s' = s := by
  cases o with
  | none => cases h
  | some b => cases h; rfl

theorem recordDate_own {g : Cfg} {o : Option Bytes} {s s' : XW} {a : DateTime} (h : recordDate g o s = .ok a s') : s'.1 = s.1 := by
  have hl : ∀ e : Except Exc DateTime, lift e s = .ok a s' → s'.1 = s.1 := by
    intro e he
    cases e with
    | error e => cases he
    | ok x => cases he; rfl
  cases o with
  | none => cases h; rfl
  | some d =>
    simp only [recordDate] at h
    by_cases h0 : d = []
    · rw [if_pos h0] at h; cases h; rfl
    · rw [if_neg h0] at h
      cases hf : Strptime.full d with
      | ok t => rw [hf] at h; cases h; rfl
      | error e =>
        rw [hf] at h
        cases e <;> first | exact hl _ h | cases h

theorem convertRecord_hang {c : Codec} {g : Cfg} {data : Bytes} {s : XW} (ho : Own data s.1) (h : convertRecord c g s = .hang) :
    NegativeChunk data := by
  rcases bind_hang h with h | ⟨s0, s1, h1, h⟩
  · cases h
  cases h1
  rcases bind_hang h with h | ⟨u, s1, h1, h⟩
  · exact absurd h (calm_operand _ _)
  cases operand_same h1
  rcases bind_hang h with h | ⟨d, s2, h2, h⟩
  · exact absurd h (calm_operand _ _)
  cases operand_same h2
  rcases bind_hang h with h | ⟨dt, s3, h3, h⟩
  · exact absurd h (calm_recordDate _ _ _)
  have e3 := recordDate_own h3
  rcases bind_hang h with h | ⟨q, s4, h4, h⟩
  · exact absurd h (calm_onWorld World.calm_content _)
  simp only [onWorld] at h4
  have hc := own_content ho
  rw [e3] at h4
  cases hq : World.content s.1 with
  | hang => rw [hq] at h4; cases h4
  | raise e w' => rw [hq] at h4; cases h4
  | ok q' w' =>
    rw [hq] at h4 hc
    simp only [Res.ok.injEq] at h4
    obtain ⟨rfl, rfl⟩ := h4
    obtain ⟨ct, buf⟩ := q'
    cases ct with
    | none => cases h
    | some t =>
      cases buf with
      | none => cases h
      | some b =>
        rcases bind_hang h with h | ⟨_, _, _, h⟩
        · exact feed_part_hang (k := .response (.str "")) (ig := []) (hc.2 b rfl) (chooseType_hang h)
        · cases h

theorem handle_hang {c : Codec} {g : Cfg} {gz : Bool} {data : Bytes} {s : XW} (ho : Own data s.1) (h : handle c g gz s = .hang) :
    NegativeChunk data := by
  rcases bind_hang h with h | ⟨s0, s1, h1, h⟩
  · cases h
  cases h1
  rcases ite_hang h with h | h
  · exact absurd h (calm_onWorld (calm_writeAs _ _) _)
  rcases bind_hang h with h | ⟨_, _, _, h⟩
  · rcases bind_hang h with h | ⟨s0, s1, h1, h⟩
    · cases h
    cases h1
    rcases ite_hang h with h | h
    · exact absurd h (calm_convertFiledesc _ _)
    · exact convertRecord_hang ho h
  · exact absurd h (calm_writeNews _ _ _ _)

end Arc2Warc
end Warc
