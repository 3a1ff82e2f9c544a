import Verif.Proofs.Arc2Warc
import Verif.Proofs.ArcReadAll
import Verif.Proofs.ToolActs
import Verif.Proofs.HttpGrammarAll
import Verif.Spec.Arc2WarcAny
set_option linter.all false
namespace Warc
open Rx Stream Spec
namespace Arc2Warc.Any
open Arc2Warc

/-! ### the pieces -/

theorem anyPrefix_eq (ps : List PyStr) (url : Bytes) :
    anyPrefix (lower url) ps = match listed ps url with | none => .error .typeError | some b => .ok b := by
  induction ps with
  | nil => rfl
  | cons p ps ih =>
    cases p with
    | str x => simp [anyPrefix, listed]
    | bytes b =>
      unfold listed at ih ⊢
      by_cases h : startsWith (lower url) b = true
      · have h' : b <+: lower url := List.isPrefixOf_iff_prefix.1 h
        simp only [anyPrefix, if_pos h, List.find?_cons, h', decide_true]
      · have h' : ¬ b <+: lower url := fun hh => h (List.isPrefixOf_iff_prefix.2 hh)
        simp only [anyPrefix, if_neg h, List.find?_cons, h', decide_false]
        exact ih

/-- the content, right behind the head of an ARC record -/
theorem content_any (s : Stream) (f : Located) (out : Bytes) (hc : f.cls ≠ .warc) (hf : s.fh.fault = none) (hneg : s.fh.strictNeg = true) (he : s.eoc = f.length) :
    World.content ⟨s, f.rcd, out⟩ =
      match contentOf f.length s.fh.rest with
      | .error e => .raise e ⟨s, { f.rcd with cfile := .none, cfileValid := false }, out⟩
      | .ok p => .ok (firstValue (b! "Content-type") f.headers, some p)
          ⟨{ s.adv p.length with eoc := f.length.map (· - (p.length : Int)) }, readRec f.rcd p, out⟩ := by
  have hgt : f.rcd.getHeader f.rcd.cls.contentTypeName = firstValue (b! "Content-type") f.headers := by
    have hname : f.cls.contentTypeName = b! "Content-type" := by
      cases hh : f.cls with
      | warc => exact absurd hh hc
      | arc => rfl
      | arcHeader => rfl
    simp [Rec.getHeader, lookupHeader_eq, Spec.Located.rcd, hname]
  have hcn : f.rcd.content = none := rfl
  have hcf : f.rcd.cfile = .stream := rfl
  have hh : f.rcd.headers = f.headers := rfl
  unfold contentOf
  cases hl : f.length with
  | none =>
    rw [hl] at he
    have hr : Stream.read none s = .ok s.fh.rest { s.adv s.fh.rest.length with eoc := none } := by
      simp only [Stream.read, M.bind_apply, M.get_apply, he, limitOf, rawRead, onFile, File.read, File.deliver, hf,
        consume, M.modify_apply, M.pure_apply, Option.map_none]
      rfl
    simp only [World.content, hcn, World.cfileRead, hcf, World.onStream, hr, hgt, World.clearCfile, readRec, hh, Option.map_none]
  | some n =>
    rw [hl] at he
    simp only
    by_cases h : n < -1
    · rw [if_pos h]
      have hr : Stream.read none s = .raise .valueError s := by
        have h0 : ¬ (0 : Int) ≤ n := by omega
        have h1 : ¬ (n = -1 ∨ s.fh.strictNeg = false) := by rw [hneg]; simp; omega
        simp only [Stream.read, M.bind_apply, M.get_apply, he, limitOf, rawRead, onFile, File.read, if_neg h0, if_neg h1]
        rw [← he]
      simp only [World.content, hcn, World.cfileRead, hcf, World.onStream, hr, World.clearCfile]
    · rw [if_neg h]
      by_cases h1 : n = -1
      · rw [if_pos h1]
        subst h1
        have hr : Stream.read none s = .ok s.fh.rest { s.adv s.fh.rest.length with eoc := some (-1 - (s.fh.rest.length : Int)) } := by
          have h0 : ¬ (0 : Int) ≤ -1 := by omega
          simp only [Stream.read, M.bind_apply, M.get_apply, he, limitOf, rawRead, onFile, File.read, if_neg h0, true_or, if_true, File.deliver, hf,
            consume, M.modify_apply, M.pure_apply, Option.map_some]
          rfl
        simp only [World.content, hcn, World.cfileRead, hcf, World.onStream, hr, hgt, World.clearCfile, readRec, hh, Option.map_some]
      · rw [if_neg h1]
        obtain ⟨m, rfl⟩ : ∃ m : Nat, n = (m : Int) := ⟨_, (Int.toNat_of_nonneg (by omega)).symm⟩
        have hop := op_run (.read none) s m he (Or.inr hf)
        simp only [ReadOp.run, ReadOp.result, Option.map_none] at hop
        have hst : ({ s.adv (s.fh.rest.take m).length with eoc := some ((m - (s.fh.rest.take m).length : Nat) : Int) } : Stream) =
            { s.adv (s.fh.rest.take m).length with eoc := some ((m : Int) - ((s.fh.rest.take m).length : Int)) } := by
          have hle : (s.fh.rest.take m).length ≤ m := by rw [List.length_take]; omega
          rw [Int.ofNat_sub hle]
        rw [hst] at hop
        simp only [Int.toNat_natCast]
        simp only [World.content, hcn, World.cfileRead, hcf, World.onStream, hop, World.clearCfile, hgt, readRec, hh, Option.map_some]

theorem isHttp_any (c : Codec) (body : Bytes) (s : XW) :
    match Http.Grammar.meaning c lonely [] body with
    | .refused e => isHttpResponse c body s = .raise e s
    | .forever => isHttpResponse c body s = .hang
    | .seen x => isHttpResponse c body s = .ok (decide (x.closes = true ∧ x.left = [])) s := by
  have h := (Http.meaning_any c lonely [] body).1
  have hk : Http.Kind.feed c lonely body (Http.Kind.message lonely []) = Http.feedResponse c body (Http.Msg.response (.str "") []) := rfl
  rw [hk] at h
  cases hm : Http.Grammar.meaning c lonely [] body with
  | refused e =>
    rw [hm] at h
    obtain ⟨m, h⟩ := h
    simp [isHttpResponse, M.bind_apply, onWorld, WarcFilter.local', WarcFilter.newResponse, h]
  | forever =>
    rw [hm] at h
    simp only [Http.Grammar.Outcome.Agrees] at h
    simp [isHttpResponse, M.bind_apply, onWorld, WarcFilter.local', WarcFilter.newResponse, h]
  | seen x =>
    rw [hm] at h
    obtain ⟨m, h, hs⟩ := h
    have hc := hs.closes
    simp only [isHttpResponse, M.bind_apply, onWorld, WarcFilter.local', WarcFilter.newResponse, h, M.pure_apply, hc]
    refine congrArg (Res.ok · _) ?_
    cases x.closes <;> simp

theorem chooseType_any (c : Codec) (g : Cfg) (url ctype body : Bytes) (s : XW) :
    match kindFor c g url ctype body with
    | .is type ctype' => chooseType c g (lower url) ctype body s = .ok (type, ctype') s
    | .fails e => chooseType c g (lower url) ctype body s = .raise e s
    | .never => chooseType c g (lower url) ctype body s = .hang := by
  have h1 := anyPrefix_eq g.resources url
  have h2 := anyPrefix_eq g.responses url
  unfold kindFor
  cases hr : listed g.resources url with
  | none => rw [hr] at h1; simp [chooseType, M.bind_apply, h1, lift]
  | some b =>
    rw [hr] at h1
    cases b with
    | true => simp [chooseType, M.bind_apply, h1, lift, WT.RESOURCE]
    | false =>
      cases hp : listed g.responses url with
      | none => rw [hp] at h2; simp [chooseType, M.bind_apply, h1, h2, lift]
      | some b' =>
        rw [hp] at h2
        cases b' with
        | true => simp [chooseType, M.bind_apply, h1, h2, lift, WT.RESPONSE]
        | false =>
          by_cases hh : b! "http" <+: lower url
          · have hh' : startsWith (lower url) (b! "http") = true := List.isPrefixOf_iff_prefix.2 hh
            have hi := isHttp_any c body s
            simp only [if_pos hh]
            cases hm : Http.Grammar.meaning c lonely [] body with
            | refused e => rw [hm] at hi; simp only at hi ⊢; simp [chooseType, M.bind_apply, h1, h2, lift, hh', hi]
            | forever => rw [hm] at hi; simp only at hi ⊢; simp [chooseType, M.bind_apply, h1, h2, lift, hh', hi]
            | seen x =>
              rw [hm] at hi; simp only at hi ⊢
              by_cases hx : x.closes = true ∧ x.left = []
              · rw [if_pos hx]
                simp only [hx, and_self, decide_true] at hi
                simp [chooseType, M.bind_apply, h1, h2, lift, hh', hi, WT.RESPONSE, Warc2Warc.responseType]
              · rw [if_neg hx]
                simp only [hx, decide_false] at hi
                simp [chooseType, M.bind_apply, h1, h2, lift, hh', hi, WT.RESOURCE]
          · have hh' : ¬ startsWith (lower url) (b! "http") = true := fun h => hh (List.isPrefixOf_iff_prefix.1 h)
            simp only [if_neg hh]
            simp [chooseType, M.bind_apply, h1, h2, lift, hh', WT.RESPONSE]

theorem construct_error (d : DateTime) (e : Exc) (h : Strptime.construct d = .error e) : e = .valueError := by
  unfold Strptime.construct at h
  by_cases hv : d.Valid
  · rw [if_pos hv] at h; simp at h
  · rw [if_neg hv] at h; simpa using h.symm

theorem full_error (b : Bytes) (e : Exc) (h : Strptime.full b = .error e) : e = .valueError := by
  unfold Strptime.full at h
  split at h
  · exact construct_error _ _ h
  · simpa using h.symm

theorem short_error (b : Bytes) (e : Exc) (h : Strptime.short b = .error e) : e = .valueError := by
  unfold Strptime.short at h
  split at h
  · exact construct_error _ _ h
  · simpa using h.symm

theorem recordDate_any (g : Cfg) (date : Bytes) (w : World) (st : St) :
    recordDate g (some date) (w, st) =
      match (if date = [] then some (g.now st.ticks) else momentOf date) with
      | none => .raise .valueError (w, st)
      | some d => .ok d (w, if date = [] then { st with ticks := st.ticks + 1 } else st) := by
  by_cases hd : date = []
  · simp only [recordDate, if_pos hd, now]
  · simp only [recordDate, if_neg hd, momentOf]
    cases h1 : Strptime.full date with
    | ok d => simp
    | error e =>
      have := full_error _ _ h1; subst this
      cases h2 : Strptime.short date with
      | ok d => simp [lift]
      | error e' => have := short_error _ _ h2; subst this; simp [lift]

theorem metaDate_any (now : DateTime) (date : Bytes) (s : XW) :
    metaDate (warcDatetimeStr now) (some date) s =
      match metaMoment now date with
      | none => .raise .valueError s
      | some d => .ok (warcDatetimeStr d) s := by
  unfold metaMoment
  by_cases hd : date = []
  · simp only [metaDate, if_pos hd, M.pure_apply]
  · simp only [metaDate, if_neg hd]
    by_cases hl : 14 ≤ date.length
    · simp only [if_pos hl]
      cases h1 : Strptime.full (date.take 14) with
      | ok d => simp [lift, M.bind_apply, Except.toOption]
      | error e => have := full_error _ _ h1; subst this; simp [lift, M.bind_apply, Except.toOption]
    · simp only [if_neg hl]
      cases h1 : Strptime.short (date.take 8) with
      | ok d => simp [lift, M.bind_apply, Except.toOption]
      | error e => have := short_error _ _ h1; subst this; simp [lift, M.bind_apply, Except.toOption]

/-! ### one record -/

/-- `r` is what `d` says -/
def Did (s : Stream) (f : Located) (out : Bytes) (r : Res XW Unit) : Conv → Prop
  | .never => r = .hang
  | .stops text exc => ∃ s' r' st', r = .raise exc (⟨s', r', out ++ text⟩, st')
  | .goes text st' => ∃ (k : Nat) (r' : Rec), r = .ok () (⟨{ s.adv k with eoc := f.length.map (· - (k : Int)) }, r', out ++ text⟩, st') ∧ k ≤ s.fh.rest.length ∧
      (∀ n, f.length = some n → 0 ≤ n → (k : Int) ≤ n) ∧ ((∀ n, f.length = some n → n < 0) → k = s.fh.rest.length)

theorem did_read (s : Stream) (f : Located) (out text p : Bytes) (r' : Rec) (st' : St) (r : Res XW Unit) (hp : contentOf f.length s.fh.rest = .ok p)
    (h : r = .ok () (⟨{ s.adv p.length with eoc := f.length.map (· - (p.length : Int)) }, r', out ++ text⟩, st')) : Did s f out r (.goes text st') := by
  refine ⟨p.length, r', h, ?_, ?_, ?_⟩
  all_goals
    unfold contentOf at hp
    cases hl : f.length with
    | none => rw [hl] at hp; simp only [Except.ok.injEq] at hp; subst hp; simp
    | some n =>
      rw [hl] at hp
      simp only at hp
      by_cases h1 : n < -1
      · rw [if_pos h1] at hp; simp at hp
      · rw [if_neg h1] at hp
        by_cases h2 : n = -1
        · rw [if_pos h2] at hp; simp only [Except.ok.injEq] at hp; subst hp; subst h2; simp
        · rw [if_neg h2] at hp; simp only [Except.ok.injEq] at hp; subst hp; simp <;> omega

/-- the same in terms of the content that was asked for -/
def DidC (s : Stream) (f : Located) (out : Bytes) (content : Except Exc Bytes) (r : Res XW Unit) : Conv → Prop
  | .never => r = .hang
  | .stops text exc => ∃ s' r' st', r = .raise exc (⟨s', r', out ++ text⟩, st')
  | .goes text st' => ∃ (p : Bytes) (r' : Rec), content = .ok p ∧ r = .ok () (⟨{ s.adv p.length with eoc := f.length.map (· - (p.length : Int)) }, r', out ++ text⟩, st')

theorem DidC.did {s : Stream} {f : Located} {out : Bytes} {r : Res XW Unit} {v : Conv} (h : DidC s f out (contentOf f.length s.fh.rest) r v) : Did s f out r v := by
  cases v with
  | never => exact h
  | stops text exc => exact h
  | goes text st' => obtain ⟨p, r', h1, h2⟩ := h; exact did_read s f out text p r' st' r h1 h2

/-- asking for the content of the record right behind its head gives `content` -/
def Contains (s : Stream) (f : Located) (content : Except Exc Bytes) : Prop :=
  ∀ out, match content with
    | .error e => ∃ s' r', World.content ⟨s, f.rcd, out⟩ = .raise e ⟨s', r', out⟩
    | .ok p => World.content ⟨s, f.rcd, out⟩ = .ok (firstValue (b! "Content-type") f.headers, some p)
        ⟨{ s.adv p.length with eoc := f.length.map (· - (p.length : Int)) }, readRec f.rcd p, out⟩

theorem contains_any (s : Stream) (f : Located) (hc : f.cls ≠ .warc) (hf : s.fh.fault = none) (hneg : s.fh.strictNeg = true) (he : s.eoc = f.length) :
    Contains s f (contentOf f.length s.fh.rest) := by
  intro out
  have h := content_any s f out hc hf hneg he
  cases hc : contentOf f.length s.fh.rest with
  | error e => rw [hc] at h; exact ⟨_, _, h⟩
  | ok p => rw [hc] at h; exact h

theorem handle_warc (c : Codec) (g : Cfg) (gzip : Bool) (st : St) (s : Stream) (f : Located) (out : Bytes) (hcls : f.cls = .warc)
    (hlen : f.length = some (declaredLength f.headers)) (hf : s.fh.fault = none) (hneg : s.fh.strictNeg = true) (he : s.eoc = f.length) :
    Did s f out (handle c g gzip (⟨s, f.rcd, out⟩, st)) (convertedWarc c gzip st f.version f.headers s.fh.rest) := by
  have hbare : Bare f.rcd := ⟨hcls, rfl, rfl, rfl⟩
  have hb : Tool.Behind s f.headers := ⟨hf, hneg, by rw [he, hlen]⟩
  have hc' : f.rcd.cls = .warc := hcls
  have hw := Tool.writeTo_full s f.rcd out f.headers none [] hb hbare rfl
  have hw0 := Tool.writeTo_full s f.rcd [] f.headers none [] hb hbare rfl
  have hv : f.rcd.version = f.version := rfl
  rw [hv] at hw hw0
  simp only [handle, M.bind_apply, M.get_apply, if_pos hc', onWorld, writeAs]
  unfold convertedWarc
  have fin : ∀ (text : Bytes) (r' : Rec) (r : Res XW Unit), (declaredLength f.headers < 0 → s.fh.rest = []) →
      r = .ok () (⟨Tool.used s f.headers (s.fh.rest.take (declaredLength f.headers).toNat).length, r', out ++ text⟩, st) → Did s f out r (.goes text st) := by
    intro text r' r h0 h
    refine ⟨(s.fh.rest.take (declaredLength f.headers).toNat).length, r', ?_, by simp; omega, ?_, ?_⟩
    · rw [h, hlen]; rfl
    · intro n hn h0'; rw [hlen] at hn; simp only [Option.some.injEq] at hn; subst hn; simp; omega
    · intro hn; have := hn _ hlen; simp [h0 this]
  cases gzip with
  | false =>
    simp only [Bool.false_eq_true, if_false]
    cases hcp : copying ⟨none, f.version, f.headers, [], s.fh.rest⟩ with
    | never => rw [hcp] at hw; exact absurd hw (by simp)
    | stops text exc =>
      rw [hcp] at hw
      obtain ⟨s', r', hw⟩ := hw
      exact ⟨s', r', st, by rw [hw]⟩
    | goes text took =>
      rw [hcp] at hw
      obtain ⟨-, h0, r', hw⟩ := hw
      exact fin text r' _ h0 (by rw [hw])
  | true =>
    simp only [if_true, World.writeToGz]
    unfold compressing
    cases hcp : copying ⟨none, f.version, f.headers, [], s.fh.rest⟩ with
    | never => rw [hcp] at hw0; exact absurd hw0 (by simp)
    | stops text exc =>
      rw [hcp] at hw0
      obtain ⟨s', r', hw0⟩ := hw0
      exact ⟨s', r', st, by rw [hw0]; simp⟩
    | goes text took =>
      rw [hcp] at hw0
      obtain ⟨-, h0, r', hw0⟩ := hw0
      exact fin _ r' _ h0 (by rw [hw0]; simp)

theorem kindFor_ne {c : Codec} {g : Cfg} {url t body type ctype : Bytes} (h : kindFor c g url t body = .is type ctype) (ht : t ≠ []) : ctype ≠ [] := by
  unfold kindFor at h
  split at h
  · simp at h
  · simp only [KindOf.is.injEq] at h; rw [← h.2]; exact ht
  · simp at h
  · simp only [KindOf.is.injEq] at h; rw [← h.2]; exact ht
  · split at h
    · split at h
      · simp at h
      · simp at h
      · split at h
        · simp only [KindOf.is.injEq] at h; rw [← h.2]; decide
        · simp only [KindOf.is.injEq] at h; rw [← h.2]; exact ht
    · simp only [KindOf.is.injEq] at h; rw [← h.2]; exact ht

theorem handle_arc (c : Codec) (g : Cfg) (gzip : Bool) (st : St) (s : Stream) (f : Located) (out : Bytes) (hcls : f.cls = .arc)
    (content : Except Exc Bytes) (hcont : Contains s f content) :
    DidC s f out content (handle c g gzip (⟨s, f.rcd, out⟩, st)) (convertedData c g gzip st f.headers content) := by
  have hu : f.rcd.url = firstValue (b! "URL") f.headers := by
    simp [Rec.url, Rec.getHeader, lookupHeader_eq, Spec.Located.rcd, hcls, Cls.urlName, AH.URL]
  have hdt : f.rcd.date = firstValue (b! "Archive-date") f.headers := by
    simp [Rec.date, Rec.getHeader, lookupHeader_eq, Spec.Located.rcd, hcls, Cls.dateName, AH.DATE]
  have hip : f.rcd.getHeader AH.IP = firstValue AH.IP f.headers := by
    rw [Rec.getHeader, lookupHeader_eq]; rfl
  have hty : ¬ f.rcd.type = some (b! "filedesc") := by
    have h1 : f.rcd.cls = .arc := hcls
    simp only [Rec.type, h1]; decide
  have hcls' : ¬ f.rcd.cls = .warc := by show ¬ f.cls = .warc; rw [hcls]; simp
  have hcont := hcont out
  have hstart : handle c g gzip (⟨s, f.rcd, out⟩, st) =
      match convertRecord c g (⟨s, f.rcd, out⟩, st) with
      | .ok ns w => writeNews c gzip ns w
      | .raise e w => .raise e w
      | .hang => .hang := by
    simp only [handle, M.bind_apply, M.get_apply, if_neg hcls', convert, if_neg hty]
    cases convertRecord c g (⟨s, f.rcd, out⟩, st) <;> rfl
  rw [hstart]
  unfold convertedData
  cases hurl : firstValue (b! "URL") f.headers with
  | none =>
    rw [hurl] at hu
    simp only
    refine ⟨s, f.rcd, st, ?_⟩
    simp [convertRecord, M.bind_apply, hu, operand]
  | some url =>
    rw [hurl] at hu
    cases hdate : firstValue (b! "Archive-date") f.headers with
    | none =>
      rw [hdate] at hdt
      simp only
      refine ⟨s, f.rcd, st, ?_⟩
      simp [convertRecord, M.bind_apply, hu, hdt, operand]
    | some date =>
      rw [hdate] at hdt
      simp only
      have hrd := recordDate_any g date ⟨s, f.rcd, out⟩ st
      cases hmo : (if date = [] then some (g.now st.ticks) else momentOf date) with
      | none =>
        rw [hmo] at hrd
        simp only at hrd ⊢
        refine ⟨s, f.rcd, st, ?_⟩
        simp [convertRecord, M.bind_apply, hu, hdt, operand, hrd]
      | some d =>
        rw [hmo] at hrd
        simp only at hrd ⊢
        generalize hst' : (if date = [] then ({ st with ticks := st.ticks + 1 } : St) else st) = st' at hrd ⊢
        have hinfo : st'.warcinfoId = st.warcinfoId := by subst hst'; by_cases h : date = [] <;> simp [h]
        cases hco : content with
        | error x =>
          subst hco
          simp only at hcont ⊢
          obtain ⟨sx, rx, hcont⟩ := hcont
          refine ⟨sx, rx, st', ?_⟩
          simp [convertRecord, M.bind_apply, hu, hdt, operand, hrd, onWorld, hcont]
        | ok body =>
          subst hco
          simp only at hcont ⊢
          cases hct : firstValue (b! "Content-type") f.headers with
          | none =>
            rw [hct] at hcont
            simp only
            generalize hs' : ({ s.adv body.length with eoc := f.length.map (· - (body.length : Int)) } : Stream) = s' at hcont
            refine ⟨s', readRec f.rcd body, st', ?_⟩
            simp [convertRecord, M.bind_apply, hu, hdt, operand, hrd, onWorld, hcont]
          | some t =>
            rw [hct] at hcont
            simp only
            generalize hs' : ({ s.adv body.length with eoc := f.length.map (· - (body.length : Int)) } : Stream) = s' at hcont
            have hch := chooseType_any c g url (arcType t) body (⟨s', readRec f.rcd body, out⟩, st')
            have hconv : convertRecord c g (⟨s, f.rcd, out⟩, st) =
                match chooseType c g (lower url) (arcType t) body (⟨s', readRec f.rcd body, out⟩, st') with
                | .ok x w => .ok [⟨[(WH.ID, some (warcUuid g.sha1 (url ++ date))), (WH.URL, some url), (WH.WARCINFO_ID, st.warcinfoId)] ++
                    ipHeader (firstValue AH.IP f.headers) ++ [(WH.DATE, some (warcDatetimeStr d)), (WH.TYPE, some x.1)], x.2, body⟩] w
                | .raise e w => .raise e w
                | .hang => .hang := by
              simp only [convertRecord, M.bind_apply, M.get_apply, hu, hdt, operand, M.pure_apply, hrd, onWorld, hcont, arcType, hip]
              cases chooseType c g (lower url) (if strip t = [] then b! "application/octet-stream" else t) body (⟨s', readRec f.rcd body, out⟩, st') <;> rfl
            rw [hconv]
            cases hk : kindFor c g url (arcType t) body with
            | fails e =>
              rw [hk] at hch; simp only at hch ⊢
              exact ⟨s', readRec f.rcd body, st', by rw [hch]; simp⟩
            | never => rw [hk] at hch; simp only at hch ⊢; rw [hch]; rfl
            | is type ctype =>
              rw [hk] at hch; simp only at hch ⊢
              rw [hch]
              simp only [writeNews, M.bind_apply]
              cases hi : st.warcinfoId with
              | none =>
                simp only
                refine ⟨s', readRec f.rcd body, st', ?_⟩
                have hnb : ∀ x : List (Bytes × Option Bytes), allBytes ([(WH.ID, some (warcUuid g.sha1 (url ++ date))), (WH.URL, some url), (WH.WARCINFO_ID, none)] ++ x) = none := by
                  intro x; simp [allBytes]
                rw [List.append_assoc]
                simp only [writeNew, hnb, onWorld]
                cases gzip with
                | true => simp
                | false => simp [partialHead, idOf, CRLF, WH.ID, WH.URL, WH.WARCINFO_ID]
              | some infoId =>
                simp only
                obtain ⟨hs, ha, hR⟩ := data_new (warcUuid g.sha1 (url ++ date)) url infoId (warcDatetimeStr d) type ctype body f.headers
                  (kindFor_ne hk (arcType_ne t))
                rw [writeNew_ok c gzip _ hs ha, hR]
                refine ⟨body, readRec f.rcd body, rfl, ?_⟩
                rw [hs']
                rfl

theorem info_new (g : Cfg) (infoId infoDate : Bytes) (filename : Option Bytes) (h : filenameHeader g.outputFilename = (filename.map fun f => (WH.FILENAME, some f)).toList) :
    ∃ hs, allBytes ([(WH.TYPE, some WT.WARCINFO), (WH.ID, some infoId), (WH.DATE, some infoDate)] ++ filenameHeader g.outputFilename) = some hs ∧
      New.R ⟨[(WH.TYPE, some WT.WARCINFO), (WH.ID, some infoId), (WH.DATE, some infoDate)] ++
          filenameHeader g.outputFilename, b! "application/warc-fields", g.warcinfoFields⟩ hs = infoRecord infoId infoDate filename g.warcinfoFields := by
  rw [h]
  cases filename with
  | none => exact ⟨[(WH.TYPE, WT.WARCINFO), (WH.ID, infoId), (WH.DATE, infoDate)], rfl, rfl⟩
  | some f => exact ⟨[(WH.TYPE, WT.WARCINFO), (WH.ID, infoId), (WH.DATE, infoDate), (WH.FILENAME, f)], rfl, rfl⟩

theorem handle_header (c : Codec) (g : Cfg) (gzip : Bool) (st : St) (s : Stream) (f : Located) (out : Bytes) (hcls : f.cls = .arcHeader)
    (content : Except Exc Bytes) (hcont : Contains s f content) :
    DidC s f out content (handle c g gzip (⟨s, f.rcd, out⟩, st)) (convertedFiledesc c g gzip st f.headers f.raw content) := by
  have hu : f.rcd.url = firstValue (b! "URL") f.headers := by
    simp [Rec.url, Rec.getHeader, lookupHeader_eq, Spec.Located.rcd, hcls, Cls.urlName, AH.URL]
  have hdt : f.rcd.date = firstValue (b! "Archive-date") f.headers := by
    simp [Rec.date, Rec.getHeader, lookupHeader_eq, Spec.Located.rcd, hcls, Cls.dateName, AH.DATE]
  have hty : f.rcd.type = some (b! "filedesc") := by
    have h1 : f.rcd.cls = .arcHeader := hcls
    simp only [Rec.type, h1]
  have hraw : f.rcd.rawHeaders = f.raw := rfl
  have hcls' : ¬ f.rcd.cls = .warc := by show ¬ f.cls = .warc; rw [hcls]; simp
  have hcont := hcont out
  have hstart : handle c g gzip (⟨s, f.rcd, out⟩, st) =
      match convertFiledesc g (⟨s, f.rcd, out⟩, st) with
      | .ok ns w => writeNews c gzip ns w
      | .raise e w => .raise e w
      | .hang => .hang := by
    simp only [handle, M.bind_apply, M.get_apply, if_neg hcls', convert, if_pos hty]
    cases convertFiledesc g (⟨s, f.rcd, out⟩, st) <;> rfl
  rw [hstart]
  unfold convertedFiledesc
  cases hurl : firstValue (b! "URL") f.headers with
  | none =>
    rw [hurl] at hu
    simp only
    refine ⟨s, f.rcd, { st with ticks := st.ticks + 1 }, ?_⟩
    simp [convertFiledesc, M.bind_apply, now, hu, operand]
  | some url =>
    rw [hurl] at hu
    cases hdate : firstValue (b! "Archive-date") f.headers with
    | none =>
      rw [hdate] at hdt
      simp only
      refine ⟨s, f.rcd, { st with ticks := st.ticks + 1 }, ?_⟩
      simp [convertFiledesc, M.bind_apply, now, hu, hdt, operand, metaDate]
    | some date =>
      rw [hdate] at hdt
      simp only
      have hmd := metaDate_any (g.now st.ticks) date (⟨s, f.rcd, out⟩, { st with ticks := st.ticks + 1 })
      cases hmo : metaMoment (g.now st.ticks) date with
      | none =>
        rw [hmo] at hmd
        simp only at hmd ⊢
        refine ⟨s, f.rcd, { st with ticks := st.ticks + 1 }, ?_⟩
        simp [convertFiledesc, M.bind_apply, now, hu, hdt, operand, hmd]
      | some d =>
        rw [hmo] at hmd
        simp only at hmd ⊢
        cases hco : content with
        | error x =>
          subst hco
          simp only at hcont ⊢
          obtain ⟨sx, rx, hcont⟩ := hcont
          refine ⟨sx, rx, { st with ticks := st.ticks + 1 }, ?_⟩
          simp [convertFiledesc, M.bind_apply, now, hu, hdt, operand, hmd, raw, onWorld, WarcFilter.contentBytes, hcont]
        | ok body =>
          subst hco
          simp only at hcont ⊢
          have hwu : (if startsWith url (b! "filedesc://") then url.drop 11 else url) = withoutScheme url := by
            unfold withoutScheme
            by_cases h : startsWith url (b! "filedesc://") = true
            · rw [if_pos h, if_pos (List.isPrefixOf_iff_prefix.1 h)]
            · rw [if_neg h, if_neg (fun hh => h (List.isPrefixOf_iff_prefix.2 hh))]
          generalize hs' : ({ s.adv body.length with eoc := f.length.map (· - (body.length : Int)) } : Stream) = s' at hcont
          generalize hdd : warcDatetimeStr (g.now st.ticks) = infoDate at hmd ⊢
          generalize hi : warcUuid g.sha1 (url ++ infoDate) = infoId
          have hi' : idOf g (url ++ infoDate) = infoId := hi
          rw [hi']
          have hconv : convertFiledesc g (⟨s, f.rcd, out⟩, st) =
              .ok [⟨[(WH.TYPE, some WT.WARCINFO), (WH.ID, some infoId), (WH.DATE, some infoDate)] ++
                  filenameHeader g.outputFilename, b! "application/warc-fields", g.warcinfoFields⟩,
                ⟨[(WH.TYPE, some WT.METADATA), (WH.CONCURRENT_TO, some infoId), (WH.ID, some (warcUuid g.sha1 (url ++ date ++ b! "-meta"))),
                  (WH.URL, some (withoutScheme url)), (WH.DATE, some (warcDatetimeStr d)), (WH.WARCINFO_ID, some infoId)], b! "application/arc",
                  f.raw.flatten ++ body⟩]
                (⟨s', readRec f.rcd body, out⟩, ⟨some infoId, st.ticks + 1⟩) := by
            simp only [convertFiledesc, M.bind_apply, M.get_apply, hu, hdt, operand, M.pure_apply, now, hdd]
            simp only [hmd, raw, M.bind_apply, M.get_apply, onWorld, WarcFilter.contentBytes, hcont, M.pure_apply, hraw, M.modify_apply, hi, hwu]
          rw [hconv]
          simp only
          have good : ∀ filename : Option Bytes, filenameHeader g.outputFilename = (filename.map fun f => (WH.FILENAME, some f)).toList →
              DidC s f out (.ok body) (writeNews c gzip [⟨[(WH.TYPE, some WT.WARCINFO), (WH.ID, some infoId), (WH.DATE, some infoDate)] ++
                  filenameHeader g.outputFilename, b! "application/warc-fields", g.warcinfoFields⟩,
                ⟨[(WH.TYPE, some WT.METADATA), (WH.CONCURRENT_TO, some infoId), (WH.ID, some (warcUuid g.sha1 (url ++ date ++ b! "-meta"))),
                  (WH.URL, some (withoutScheme url)), (WH.DATE, some (warcDatetimeStr d)), (WH.WARCINFO_ID, some infoId)], b! "application/arc",
                  f.raw.flatten ++ body⟩] (⟨s', readRec f.rcd body, out⟩, ⟨some infoId, st.ticks + 1⟩))
                (.goes (written c gzip [infoRecord infoId infoDate filename g.warcinfoFields,
                  filedescRecord infoId (idOf g (url ++ date ++ b! "-meta")) (withoutScheme url) (warcDatetimeStr d) (f.raw.flatten ++ body)]) ⟨some infoId, st.ticks + 1⟩) := by
            intro filename hfn
            obtain ⟨hs, ha, hR⟩ := info_new g infoId infoDate filename hfn
            simp only [writeNews, M.bind_apply, M.pure_apply]
            rw [writeNew_ok c gzip _ hs ha, hR]
            simp only []
            rw [writeNew_ok c gzip _ [(WH.TYPE, WT.METADATA), (WH.CONCURRENT_TO, infoId), (WH.ID, warcUuid g.sha1 (url ++ date ++ b! "-meta")),
              (WH.URL, withoutScheme url), (WH.DATE, warcDatetimeStr d), (WH.WARCINFO_ID, infoId)] rfl]
            refine ⟨body, readRec f.rcd body, rfl, ?_⟩
            rw [hs', written_cons c gzip (infoRecord infoId infoDate filename g.warcinfoFields) [_], ← List.append_assoc]
            rfl
          cases ho : g.outputFilename with
          | none => simp only; rw [ho] at good; exact good none rfl
          | some p =>
            cases p with
            | bytes fn =>
              simp only
              rw [ho] at good
              by_cases hfe : fn = []
              · rw [if_pos hfe]; exact good none (by simp [filenameHeader, given, hfe])
              · rw [if_neg hfe]; exact good (some fn) (by simp [filenameHeader, given, hfe, headerValue])
            | str fn =>
              simp only
              rw [ho] at good
              by_cases hfe : fn = ""
              · rw [if_pos hfe]; exact good none (by simp [filenameHeader, given, hfe])
              · rw [if_neg hfe]
                refine ⟨s', readRec f.rcd body, ⟨some infoId, st.ticks + 1⟩, ?_⟩
                have hfh : filenameHeader (some (.str fn)) = [(WH.FILENAME, none)] := by simp [filenameHeader, given, hfe, headerValue]
                rw [hfh]
                have hnb : allBytes ([(WH.TYPE, some WT.WARCINFO), (WH.ID, some infoId), (WH.DATE, some infoDate)] ++ [(WH.FILENAME, none)]) = none := by
                  simp [allBytes]
                simp only [writeNews, M.bind_apply, writeNew, hnb, onWorld]
                cases gzip with
                | true => simp
                | false => simp [partialHead, CRLF, WH.ID, WH.TYPE, WH.DATE, WH.FILENAME, WT.WARCINFO]

theorem handle_any (c : Codec) (g : Cfg) (gzip : Bool) (st : St) (s : Stream) (f : Located) (out : Bytes)
    (hlen : f.cls = .warc → f.length = some (declaredLength f.headers)) (hf : s.fh.fault = none) (hneg : s.fh.strictNeg = true) (he : s.eoc = f.length) :
    Did s f out (handle c g gzip (⟨s, f.rcd, out⟩, st)) (converted c g gzip st f s.fh.rest) := by
  unfold converted
  cases hc : f.cls with
  | warc => exact handle_warc c g gzip st s f out hc (hlen hc) hf hneg he
  | arc => exact (handle_arc c g gzip st s f out hc _ (contains_any s f (by rw [hc]; simp) hf hneg he)).did
  | arcHeader => exact (handle_header c g gzip st s f out hc _ (contains_any s f (by rw [hc]; simp) hf hneg he)).did

/-! ### a whole file -/

theorem nextIn_warc {mixed : Bool} {names : List Bytes} {data : Bytes} {f : Located} (h : nextIn mixed names data = .record f) (hc : f.cls = .warc) :
    f.length = some (declaredLength f.headers) := by
  unfold nextIn at h
  split at h
  · unfold ofWarc at h
    cases hn : next data with
    | stuck => rw [hn] at h; simp at h
    | unknown => rw [hn] at h; simp at h
    | none a b => rw [hn] at h; simp at h
    | record a b c d e => rw [hn] at h; simp only [Meant.record.injEq] at h; subst h; rfl
  · exfalso
    unfold nextArc at h
    split at h
    · simp at h
    · split at h
      · unfold fileDesc at h
        split at h
        · simp at h
        · split at h
          · simp at h
          · split at h
            · simp at h
            · simp only [Meant.record.injEq] at h; subst h; simp at hc
      · unfold plainRecord at h
        split at h
        · simp at h
        · split at h
          · simp at h
          · simp only [Meant.record.injEq] at h; subst h; simp at hc

/-- `r` is the run that is described by the output and the state at the end -/
def Shows (out : Bytes) (r : Res (Tool × St) Unit) (o : Output × St) : Prop :=
  match o.1.stop with
  | .done => ∃ s', r = .ok () (⟨s', out ++ o.1.text⟩, o.2)
  | .raised exc => ∃ s' st', r = .raise exc (⟨s', out ++ o.1.text⟩, st')
  | .hangs => r = .hang

theorem shows_after (out text : Bytes) (r : Res (Tool × St) Unit) (o : Output) (st : St) (h : Shows (out ++ text) r (o, st)) : Shows out r (Output.after text o, st) := by
  unfold Shows Output.after at *
  simp only at h ⊢
  cases hs : o.stop <;> simp only [hs] at h ⊢
  · obtain ⟨s', h⟩ := h; exact ⟨s', by rw [h, List.append_assoc]⟩
  · obtain ⟨s', st', h⟩ := h; exact ⟨s', st', by rw [h, List.append_assoc]⟩
  · exact h

theorem loop_any (c : Codec) (g : Cfg) (gzip : Bool) (rounds : Nat) (s : Stream) (a : ArcSt) (out : Bytes) (st : St) (hp : s.parser.arcSt? = some a) (hmix : s.parser.isMixed = true)
    (hn : ∀ n ∈ a.headers, 10 ∉ n) (hk : s.kind ≠ .gzipFile) (he : s.eoc = none) (hf : s.fh.fault = none) (hneg : s.fh.strictNeg = true) (hr : s.fh.rest.length < rounds) :
    Shows out (loop c g gzip rounds (⟨s, out⟩, st)) (convertOn c g gzip rounds st a.headers s.fh.rest) := by
  induction rounds generalizing s a out st with
  | zero => omega
  | succ rounds ih =>
    have hx := readRecord_arc_exact false s a hp hn hk he hf
    rw [loop, convertOn]
    rw [hmix] at hx
    cases hm : nextIn true a.headers s.fh.rest with
    | stuck => rw [hm] at hx; simp only [Spec.Meant.Describes] at hx ⊢; rw [hx]; rfl
    | raises e => rw [hm] at hx; simp only [Spec.Meant.Describes] at hx ⊢; obtain ⟨s', hx⟩ := hx; rw [hx]; exact ⟨s', st, by simp⟩
    | nothing p es size =>
      rw [hm] at hx; simp only [Spec.Meant.Describes] at hx ⊢; rw [hx]
      unfold strictTail
      by_cases hes : es = []
      · simp only [if_pos hes]; exact ⟨s.adv size, by simp⟩
      · simp only [if_neg hes]; exact ⟨s.adv size, st, by simp⟩
    | record f =>
      rw [hm] at hx; simp only [Spec.Meant.Describes] at hx ⊢
      obtain ⟨ver, hx⟩ := hx
      rw [hx]
      simp only
      obtain ⟨hsz1, hsz2, hnames, hct⟩ := nextIn_size hn hm
      generalize hs1 : ({ s.adv f.size with eoc := f.length, parser := s.parser.withArc ⟨ver, f.names⟩ } : Stream) = s1
      have hrest : s1.fh.rest = s.fh.rest.drop f.size := by subst hs1; simp
      have hk1 : s1.kind = s.kind := by subst hs1; rfl
      have hp1 : s1.parser.arcSt? = some ⟨ver, f.names⟩ := by subst hs1; exact withArc_arcSt _ a _ hp
      have hm1 : s1.parser.isMixed = true := by subst hs1; rw [← hmix]; exact withArc_isMixed _ _
      have hf1 : s1.fh.fault = none := by subst hs1; exact hf
      have hneg1 : s1.fh.strictNeg = true := by subst hs1; exact hneg
      have he1 : s1.eoc = f.length := by subst hs1; rfl
      clear hs1
      have hd := handle_any c g gzip st s1 f out (nextIn_warc hm) hf1 hneg1 he1
      rw [← hrest]
      cases ha : converted c g gzip st f s1.fh.rest with
      | never => rw [ha] at hd; rw [show _ = _ from hd]; rfl
      | stops text exc =>
        rw [ha] at hd
        obtain ⟨s', r', st', hd⟩ := hd
        rw [hd]
        exact ⟨s', st', rfl⟩
      | goes text st' =>
        rw [ha] at hd
        obtain ⟨k, r', hd, hk1', hk2, hk3⟩ := hd
        rw [hd]
        simp only
        generalize ht : ({ s1.adv k with eoc := f.length.map (· - (k : Int)) } : Stream) = t
        have ht1 : t.fh.rest = s1.fh.rest.drop k := by subst ht; simp
        have htf : t.fh.fault = none := by subst ht; exact hf1
        have htl : t.fh.rest.length = s1.fh.rest.length - k := by rw [ht1, List.length_drop]
        have hte : t.eoc = f.length.map (· - (k : Int)) := by subst ht; rfl
        by_cases hsh : s1.fh.rest.length < (f.length.getD 0).toNat
        · rw [if_pos hsh]
          obtain ⟨n, hl⟩ : ∃ n, f.length = some n := by
            cases hq : f.length with
            | none => rw [hq] at hsh; simp at hsh
            | some n => exact ⟨n, rfl⟩
          rw [hl] at hsh hte
          simp only [Option.getD_some, Option.map_some] at hsh hte
          have hkk := hk2 n hl (by omega)
          have hte' : t.eoc = some ((n.toNat - k : Nat) : Int) := by rw [hte]; simp only [Option.some.injEq]; omega
          obtain ⟨u, hu⟩ := readRecord_short_exc false (n.toNat - k) t hte' (by omega)
          rw [htf] at hu
          cases rounds with
          | zero => omega
          | succ m =>
            simp only [loop, hu]
            exact ⟨u, st', by simp⟩
        · rw [if_neg hsh]
          apply shows_after
          generalize hsk : f.passed s1.fh.rest = sk
          have hsk' : (∀ n, f.length = some n → 0 ≤ n → sk = n.toNat) ∧ ((∀ n, f.length = some n → n < 0) → sk = k) := by
            rw [← hsk]
            unfold Located.passed
            constructor
            · intro n h1 h2; rw [h1]; simp only [if_pos h2]
            · intro h
              cases hq : f.length with
              | none => simp only; exact (hk3 h).symm
              | some n => have := h n hq; simp only [if_neg (show ¬ 0 ≤ n by omega)]; exact (hk3 h).symm
          generalize hu : ({ t.adv (sk - k) with eoc := none } : Stream) = u
          have hcase : (∃ n, f.length = some n ∧ 0 ≤ n) ∨ ∀ n, f.length = some n → n < 0 := by
            cases hq : f.length with
            | none => right; intro n h; simp at h
            | some n =>
              by_cases h0 : 0 ≤ n
              · exact Or.inl ⟨n, rfl, h0⟩
              · right; intro n' h; simp only [Option.some.injEq] at h; omega
          have hboth : k ≤ sk ∧ sk ≤ s1.fh.rest.length ∧ readRecord false t = readRecord false u := by
            rcases hcase with ⟨n, hl, h0⟩ | hneg'
            · have h1 := hsk'.1 n hl h0
              have h2 := hk2 n hl h0
              rw [hl] at hsh hte
              simp only [Option.getD_some, Option.map_some] at hsh hte
              have hte' : t.eoc = some ((sk - k : Nat) : Int) := by rw [hte]; simp only [Option.some.injEq]; omega
              exact ⟨by omega, by omega, by rw [readRecord_skip false (sk - k) t hte' (by omega), hu]⟩
            · have h1 := hsk'.2 hneg'
              refine ⟨by omega, by omega, ?_⟩
              rw [← hu, h1, Nat.sub_self, adv_zero]
              cases hq : f.length with
              | none =>
                rw [hq] at hte
                have hte' : t.eoc = none := hte
                obtain ⟨fh, eoc, kind, parser⟩ := t
                simp only at hte'
                subst hte'
                rfl
              | some n =>
                rw [hq] at hte
                have := hneg' n hq
                exact readRecord_neg false (n - (k : Int)) t hte (by omega)
          obtain ⟨hkle, hskle, hread⟩ := hboth
          cases rounds with
          | zero => omega
          | succ m =>
            rw [loop_congr c g gzip m t u _ st' hread]
            have hu1 : u.fh.rest = s1.fh.rest.drop sk := by
              subst hu; simp only [adv_fh, File.advance_rest, ht1, List.drop_drop]; congr 1; omega
            have := ih u ⟨ver, f.names⟩ (out ++ text) st' (by subst hu; subst ht; exact hp1) (by subst hu; subst ht; exact hm1) hnames
              (by subst hu; subst ht; exact fun h => hk (hk1 ▸ h)) (by subst hu; rfl)
              (by subst hu; exact htf) (by subst hu; subst ht; exact hneg1) (by rw [hu1, List.length_drop, hrest, List.length_drop]; omega)
            rw [hu1] at this
            exact this

theorem open_mixed (c : Codec) (fs : FS) (name stored : Bytes) (hfs : fs name = some stored) (hi : Compressed name stored → (c.dec stored).2 = none) :
    openName c fs .mixed none name = .ok
      (if Compressed name stored then ⟨{ data := (c.dec stored).1, pos := 0, strictNeg := true, fault := none }, none, .gzipRecord, .mixed ⟨none, []⟩⟩
       else ⟨File.openFile stored, none, .plain, .mixed ⟨none, []⟩⟩) := by
  have hrest : (File.openFile stored).rest = stored := by simp [File.openFile, File.rest]
  by_cases hc : Compressed name stored
  · rw [if_pos hc]
    have hd : (c.dec stored).2 = none := hi hc
    have hg : gzipFileOf c (File.openFile stored) = { data := (c.dec stored).1, pos := 0, strictNeg := true, fault := none } := by
      simp [gzipFileOf, hrest, hd]
    simp only [openName, hfs]
    by_cases hn : b! ".gz" <:+ name
    · have hng : nameGz name = true := by rw [nameGz]; exact (endsWith_iff _ _).2 hn
      rw [hng, openArchive_named c .mixed, hg]; rfl
    · rw [openArchive_gzip c (some .mixed) .mixed (nameGz name) .auto stored (Or.inl rfl) (Or.inl rfl) (hc.resolve_left hn) (Or.inl hd), hg]; rfl
  · rw [if_neg hc]
    have h1 : ¬ b! ".gz" <:+ name := fun h => hc (Or.inl h)
    have h2 : stored.take 2 ≠ [0x1f, 0x8b] := fun h => hc (Or.inr h)
    have hng : nameGz name = false := by
      rw [nameGz, Bool.eq_false_iff]; exact fun hh => h1 ((endsWith_iff _ _).1 hh)
    simp only [openName, hfs, hng]
    exact openArchive_plain c (some .mixed) .mixed .auto _ (Or.inl rfl) (Or.inl rfl) h2

/-- any files -/
theorem main_any (c : Codec) (fs : FS) (g : Cfg) (gzip : Bool) (names : List Bytes) (hi : Intact c fs names) (out : Bytes) (st : St) :
    match (convertFiles c fs g gzip st names).1.stop with
    | .done => main c fs g gzip names (out, st) = .ok () (out ++ (convertFiles c fs g gzip st names).1.text, (convertFiles c fs g gzip st names).2)
    | .raised e => ∃ st', main c fs g gzip names (out, st) = .raise e (out ++ (convertFiles c fs g gzip st names).1.text, st')
    | .hangs => main c fs g gzip names (out, st) = .hang := by
  induction names generalizing out st with
  | nil => simp [convertFiles, main]
  | cons name names ih =>
    have ih := ih fun n hn => hi n (by simp [hn])
    have one : match (convertFile c fs g gzip st name).1.stop with
        | .done => main c fs g gzip (name :: names) (out, st) = main c fs g gzip names (out ++ (convertFile c fs g gzip st name).1.text, (convertFile c fs g gzip st name).2)
        | .raised e => ∃ st', main c fs g gzip (name :: names) (out, st) = .raise e (out ++ (convertFile c fs g gzip st name).1.text, st')
        | .hangs => main c fs g gzip (name :: names) (out, st) = .hang := by
      unfold convertFile
      cases hfs : fs name with
      | none => simp only; exact ⟨st, by simp [main, openName, hfs]⟩
      | some stored =>
        have ho := open_mixed c fs name stored hfs (hi name (by simp) stored hfs)
        have finish : ∀ (s : Stream) (o : Output × St), openName c fs .mixed none name = .ok s → Shows out (loop c g gzip (s.fh.rest.length + 2) (⟨s, out⟩, st)) o →
            match o.1.stop with
            | .done => main c fs g gzip (name :: names) (out, st) = main c fs g gzip names (out ++ o.1.text, o.2)
            | .raised e => ∃ st', main c fs g gzip (name :: names) (out, st) = .raise e (out ++ o.1.text, st')
            | .hangs => main c fs g gzip (name :: names) (out, st) = .hang := by
          intro s o ho h
          simp only [main, ho]
          unfold Shows at h
          cases hs : o.1.stop with
          | done => rw [hs] at h; obtain ⟨s', h⟩ := h; simp only [h]
          | raised e => rw [hs] at h; obtain ⟨s', st', h⟩ := h; exact ⟨st', by simp only [h]⟩
          | hangs => rw [hs] at h; simp only at h; simp only [h]
        by_cases hc : Compressed name stored
        · rw [if_pos hc] at ho
          simp only [if_pos hc]
          refine finish _ _ ho ?_
          have e2 : ({ data := (c.dec stored).1, pos := 0, strictNeg := true, fault := none } : File).rest = (c.dec stored).1 := by simp [File.rest]
          have h := loop_any c g gzip ((c.dec stored).1.length + 2)
            ⟨{ data := (c.dec stored).1, pos := 0, strictNeg := true, fault := none }, none, .gzipRecord, .mixed ⟨none, []⟩⟩ ⟨none, []⟩ out st rfl rfl (by simp) (by simp) rfl rfl rfl (by simp [e2])
          simp only [e2] at h ⊢
          exact h
        · rw [if_neg hc] at ho
          simp only [if_neg hc]
          refine finish _ _ ho ?_
          have e2 : (File.openFile stored).rest = stored := by simp [File.openFile, File.rest]
          have h := loop_any c g gzip (stored.length + 2)
            ⟨File.openFile stored, none, .plain, .mixed ⟨none, []⟩⟩ ⟨none, []⟩ out st rfl rfl (by simp) (by simp) rfl rfl rfl (by simp [e2])
          simp only [e2] at h ⊢
          exact h
    rw [convertFiles]
    generalize convertFile c fs g gzip st name = a at one ⊢
    cases hs : a.1.stop with
    | done =>
      rw [hs] at one
      simp only [if_true]
      have := ih (out ++ a.1.text) a.2
      rw [← one] at this
      unfold Output.after
      simp only
      cases hb : (convertFiles c fs g gzip a.2 names).1.stop with
      | done => rw [hb] at this; simp only at this ⊢; rw [this, List.append_assoc]
      | raised e => rw [hb] at this; simp only at this ⊢; obtain ⟨st', h⟩ := this; exact ⟨st', by rw [h, List.append_assoc]⟩
      | hangs => rw [hb] at this; exact this
    | raised e => rw [hs] at one; simp only [reduceCtorEq, if_false, hs]; exact one
    | hangs => rw [hs] at one; simp only [reduceCtorEq, if_false, hs]; exact one

end Arc2Warc.Any
end Warc
