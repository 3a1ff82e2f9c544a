import Verif.Props.Valid
/-
  What is known of any record that the WARC parser returns, whatever the input.
-/
set_option linter.all false
namespace Warc
open Rx Stream Spec

theorem hspec_noColon {l n v nl : Bytes} (h : LineLike l) (hs : hspec l = some (n, v, nl)) : 58 ∉ n := by
  induction l generalizing n with
  | nil => simp [hspec] at hs
  | cons c cs ih =>
    have htl := lineLike_tail h
    rw [hspec] at hs
    by_cases hc : c = 58
    · subst hc
      simp only [if_true] at hs
      cases ha : afterColon cs with
      | some p =>
        simp only [ha, Option.some.injEq, Prod.mk.injEq] at hs
        rw [← hs.1]; simp
      | none =>
        exfalso
        simp only [ha] at hs
        have hnone : hspec cs = none := by
          cases hq : hspec cs with
          | none => rfl
          | some q =>
            exfalso
            have h1 := hspec_isSome htl
            rw [hq] at h1
            simp only [Option.isSome_some, fieldLine] at h1
            have hcomp : complete cs = true := by
              cases hcc : complete cs with
              | true => rfl
              | false => simp [hcc] at h1
            cases cs with
            | nil => simp [hspec] at hq
            | cons d ds =>
              have hsome : (chomp (d :: ds)).isSome = true := by rw [chomp_isSome htl]; exact hcomp
              unfold afterColon at ha
              simp only at ha
              by_cases hw : isWs d = true
              · rw [if_pos hw] at ha
                cases hch : chomp ds with
                | some p => simp [hch] at ha
                | none => simp only [hch] at ha; rw [ha] at hsome; cases hsome
              · rw [if_neg hw] at ha; rw [ha] at hsome; cases hsome
        simp [hnone] at hs
    · simp only [if_neg hc] at hs
      by_cases h10 : c = 10
      · simp [h10] at hs
      · simp only [if_neg h10] at hs
        cases hh : hspec cs with
        | none => simp [hh] at hs
        | some q =>
          obtain ⟨a, b, d⟩ := q
          simp only [hh, Option.map_some, Option.some.injEq, Prod.mk.injEq] at hs
          obtain ⟨rfl, rfl, rfl⟩ := hs
          simp only [List.mem_cons, not_or]
          exact ⟨fun e => hc e.symm, ih htl hh⟩

theorem afterColon_noLF {l : Bytes} {p} (h : afterColon l = some p) : 10 ∉ p.1 := by
  cases l with
  | nil => simp [afterColon] at h
  | cons c cs =>
    unfold afterColon at h
    simp only at h
    by_cases hw : isWs c = true
    · rw [if_pos hw] at h
      cases hch : chomp cs with
      | some q =>
        simp only [hch, Option.some.injEq] at h
        subst h
        exact chomp_noLF (nl := q.2) hch
      | none => simp only [hch] at h; exact chomp_noLF (nl := p.2) h
    · rw [if_neg hw] at h; exact chomp_noLF (nl := p.2) h

theorem hspec_value_noLF {l n v nl : Bytes} (hs : hspec l = some (n, v, nl)) : 10 ∉ v := by
  induction l generalizing n with
  | nil => simp [hspec] at hs
  | cons c cs ih =>
    rw [hspec] at hs
    cases ha : (if c = 58 then afterColon cs else none) with
    | some p =>
      simp only [ha, Option.some.injEq, Prod.mk.injEq] at hs
      by_cases hc : c = 58
      · rw [if_pos hc] at ha
        have := afterColon_noLF ha
        rw [hs.2.1] at this; exact this
      · rw [if_neg hc] at ha; cases ha
    | none =>
      simp only [ha] at hs
      by_cases h10 : c = 10
      · simp [h10] at hs
      · simp only [if_neg h10] at hs
        cases hh : hspec cs with
        | none => simp [hh] at hs
        | some q =>
          obtain ⟨a, b, d⟩ := q
          simp only [hh, Option.map_some, Option.some.injEq, Prod.mk.injEq] at hs
          obtain ⟨rfl, rfl, rfl⟩ := hs
          exact ih hh

theorem contValue_noLF {l : Bytes} {p} (h : contValue l = some p) : 10 ∉ p.1 := by
  cases l with
  | nil => simp [contValue] at h
  | cons c cs =>
    unfold contValue at h
    by_cases h10 : c = 10
    · simp [h10] at h
    · simp only [if_neg h10] at h
      cases hch : chomp cs with
      | none => simp [hch] at h
      | some q =>
        simp only [hch, Option.map_some, Option.some.injEq] at h
        subst h
        simp only [List.mem_cons, not_or]
        exact ⟨fun e => h10 e.symm, chomp_noLF (nl := q.2) hch⟩

theorem wsStar_noLF {l : Bytes} {p} (h : wsStar l = some p) : 10 ∉ p.1 := by
  induction l generalizing p with
  | nil => simp [wsStar] at h
  | cons c cs ih =>
    unfold wsStar at h
    by_cases hw : isWs c = true
    · rw [if_pos hw] at h
      cases hs : wsStar cs with
      | some q => simp only [hs, Option.or, Option.some.injEq] at h; subst h; exact ih hs
      | none => simp only [hs, Option.none_or] at h; exact contValue_noLF h
    · rw [if_neg hw] at h; exact contValue_noLF h

theorem fspec_noLF {l : Bytes} {p} (h : fspec l = some p) : 10 ∉ p.1 := by
  cases l with
  | nil => simp [fspec] at h
  | cons c cs =>
    unfold fspec at h
    simp only at h
    by_cases hw : isWs c = true
    · rw [if_pos hw] at h; exact wsStar_noLF h
    · simp [hw] at h

theorem join_noLF (xs : List Bytes) (h : ∀ x ∈ xs, 10 ∉ x) : 10 ∉ join [32] xs := by
  induction xs with
  | nil => simp [join]
  | cons x xs ih =>
    cases xs with
    | nil => simpa [join] using h x (by simp)
    | cons y ys =>
      have h1 := h x (by simp)
      have h2 := ih (fun z hz => h z (by simp [hz]))
      simp only [join, List.mem_append, not_or]
      exact ⟨⟨h1, by decide⟩, h2⟩

/-- a stamp inside a line -/
theorem versionAt_ok {x : Bytes} {p} (h : LineLike x) (hv : versionAt x = some p) (hn : p.2.1 ∈ knownVersions) :
    VersionOk p.1 := by
  unfold versionAt at hv
  have hsplit : x = x.takeWhile isWs ++ x.dropWhile isWs := (List.takeWhile_append_dropWhile).symm
  cases hs : stripI (b! "WARC/") (x.dropWhile isWs) with
  | none => simp [hs] at hv
  | some r =>
    simp only [hs, Option.bind_some] at hv
    cases hc : chomp r with
    | none => simp [hc] at hv
    | some q =>
      simp only [hc, Option.map_some, Option.some.injEq] at hv
      subst hv
      simp only at hn ⊢
      have hr := chomp_append (v := q.1) (nl := q.2) hc
      obtain ⟨t, ht1, ht2⟩ : ∃ t, x.dropWhile isWs = t ++ r ∧ lower t = b! "warc/" := by
        have key : ∀ (s x r : Bytes), stripI s x = some r → ∃ t, x = t ++ r ∧ lower t = lower s := by
          intro s
          induction s with
          | nil => intro x r h; simp [stripI] at h; exact ⟨[], by simp [h], rfl⟩
          | cons a s ih =>
            intro x r h
            cases x with
            | nil => simp [stripI] at h
            | cons c x =>
              rw [stripI] at h
              by_cases hl : lowerByte c = lowerByte a
              · rw [if_pos hl] at h
                obtain ⟨t, h1, h2⟩ := ih x r h
                refine ⟨c :: t, by simp [h1], ?_⟩
                simp only [lower, List.map_cons] at h2 ⊢
                rw [hl, h2]
              · rw [if_neg hl] at h; cases h
        obtain ⟨t, h1, h2⟩ := key _ _ _ hs
        exact ⟨t, h1, by rw [h2]; decide⟩
      have hx : x = x.takeWhile isWs ++ t ++ q.1 ++ q.2 := by
        rw [List.append_assoc _ q.1, ← hr, List.append_assoc, ← ht1]; exact hsplit
      have htake : x.take (x.length - q.2.length) = x.takeWhile isWs ++ t ++ q.1 := by
        have hl : x.length = (x.takeWhile isWs ++ t ++ q.1).length + q.2.length := by
          rw [← List.length_append, ← hx]
        have : x.take (x.length - q.2.length) = (x.takeWhile isWs ++ t ++ q.1 ++ q.2).take (x.takeWhile isWs ++ t ++ q.1).length := by
          rw [← hx]; congr 1; omega
        rw [this, List.take_left]
      rw [htake]
      refine ⟨x.takeWhile isWs, t, q.1, rfl, ?_, ?_, ht2, hn⟩
      · intro c hc
        have key : ∀ (y : Bytes), c ∈ y.takeWhile isWs → isWs c = true := by
          intro y
          induction y with
          | nil => simp
          | cons d ds ih =>
            intro hd
            by_cases hw : isWs d = true
            · rw [List.takeWhile_cons_of_pos hw] at hd
              rcases List.mem_cons.1 hd with rfl | hd
              · exact hw
              · exact ih hd
            · rw [List.takeWhile_cons_of_neg hw] at hd; cases hd
        exact key x hc
      · intro h10
        have ht0 : t ≠ [] := by intro e; subst e; simp [lower] at ht2
        have : (10 : Byte) ∈ x.dropLast := by
          rw [hsplit]
          rw [List.dropLast_append_of_ne_nil (by rw [ht1]; simp [ht0])]
          simp [h10]
        exact h this

theorem vspec_version_ok {x : Bytes} {p} (h : LineLike x) (hv : vspec x = some p) (hn : p.2.2.1 ∈ knownVersions) :
    VersionOk p.2.1 := by
  induction x generalizing p with
  | nil => simp [vspec] at hv
  | cons c cs ih =>
    rw [vspec] at hv
    cases ha : versionAt (c :: cs) with
    | some q =>
      simp only [ha, Option.some.injEq] at hv
      subst hv
      exact versionAt_ok h ha hn
    | none =>
      simp only [ha] at hv
      by_cases h10 : c = 10
      · simp [h10] at hv
      · simp only [if_neg h10] at hv
        cases hq : vspec cs with
        | none => simp [hq] at hv
        | some q =>
          simp only [hq, Option.map_some, Option.some.injEq] at hv
          subst hv
          exact ih (p := q) (lineLike_tail h) hq hn

theorem fileReadline_lineLike {f f' : File} {l : Bytes} (h : File.readline none f = .ok l f') : LineLike l := by
  have hl : l = File.firstLine f.rest := by
    simp only [File.readline, File.deliver] at h
    split at h <;> first | (cases h; done) | (simp at h; exact h.1.symm)
  rw [hl]; exact firstLine_lineLike _

theorem readline_lineLike {s s' : Stream} {l : Bytes} (he : s.eoc = none) (h : Stream.readline none s = .ok l s') : LineLike l := by
  simp only [Stream.readline, M.bind_apply, M.get_apply, he, limitOf, onFile] at h
  cases hq : File.readline none s.fh with
  | hang => simp [hq] at h
  | raise e f => simp [hq] at h
  | ok a f =>
    simp only [hq, consume, M.modify_apply, M.pure_apply, Res.ok.injEq] at h
    rw [← h.1]; exact fileReadline_lineLike hq

theorem _root_.Warc.Stream.Lines.lineLike {s ls s'} (h : Lines s ls s') (he : s.eoc = none) : ∀ l ∈ ls, LineLike l := by
  induction h with
  | nil => simp
  | @cons s s1 s2 l ls h t ih =>
    intro x hx
    rcases List.mem_cons.1 hx with rfl | hx
    · exact readline_lineLike he h
    · obtain ⟨rfl, _⟩ := readline_shape h
      exact ih (by simp [he]) x hx

theorem blankLoop_lineLike (offs : Bool) (fuel : Nat) (s s' : Stream) (o : Option Nat) (l : Bytes)
    (h : blankLoop offs fuel s = .ok (o, l) s') : LineLike l := by
  induction fuel generalizing s with
  | zero => simp [blankLoop, M.diverge] at h
  | succ fuel ih =>
    simp only [blankLoop, M.bind_apply, M.get_apply, onFile] at h
    cases hq : File.readline none s.fh with
    | hang => simp [hq] at h
    | raise e f => simp [hq] at h
    | ok a f =>
      simp only [hq] at h
      by_cases hb : rxTest blankLineRx a = true
      · simp only [hb, if_true] at h; exact ih _ h
      · simp only [hb, if_false, M.pure_apply, Bool.false_eq_true, Res.ok.injEq, Prod.mk.injEq] at h
        rw [← h.1.2]; exact fileReadline_lineLike hq

theorem block_lines_mem {items : List HItem} {fin : Bytes} {it : HItem} (h : it ∈ items) :
    it.line ∈ blockHead items fin :: blockTail items fin := by
  induction items with
  | nil => cases h
  | cons x xs ih =>
    rcases List.mem_cons.1 h with rfl | h
    · simp [blockHead]
    · have := ih h
      simp only [blockTail, List.mem_cons, List.mem_append] at this ⊢
      exact Or.inr (Or.inr this)

/-- a continuation line that ends in CR LF is blank only where the pattern stops short of its CR -/
theorem wsStar_total (x : Bytes) (h : 10 ∉ x) : (wsStar (x ++ CRLF)).isSome = true := by
  induction x with
  | nil => decide
  | cons c cs ih =>
    simp only [List.mem_cons, not_or] at h
    simp only [List.cons_append, wsStar]
    have hcv : (contValue (c :: (cs ++ CRLF))).isSome = true := by
      have h10 : ¬ c = 10 := fun e => h.1 e.symm
      simp [contValue, h10, chomp_crlf cs h.2]
    by_cases hw : isWs c = true
    · rw [if_pos hw]
      obtain ⟨p, hp⟩ := Option.isSome_iff_exists.1 (ih h.2)
      rw [hp]; rfl
    · rw [if_neg hw]; exact hcv

theorem wsStar_visible {l v : Bytes} (h : wsStar l = some (v, CRLF)) : ∃ c cs, v = c :: cs ∧ isWs c = false := by
  induction l generalizing v with
  | nil => simp [wsStar] at h
  | cons c cs ih =>
    rw [wsStar] at h
    by_cases hw : isWs c = true
    · rw [if_pos hw] at h
      cases hs : wsStar cs with
      | some q => simp only [hs, Option.or, Option.some.injEq] at h; subst h; exact ih hs
      | none =>
        exfalso
        simp only [hs, Option.none_or, contValue] at h
        by_cases h10 : c = 10
        · simp [h10] at h
        · simp only [if_neg h10] at h
          cases hch : chomp cs with
          | none => simp [hch] at h
          | some q =>
            simp only [hch, Option.map_some, Option.some.injEq, Prod.mk.injEq] at h
            obtain ⟨q1, q2⟩ := q
            simp only at h
            obtain ⟨_, rfl⟩ := h
            have h1 := chomp_append hch
            have h2 := wsStar_total q1 (chomp_noLF hch)
            rw [← h1, hs] at h2
            cases h2
    · rw [if_neg hw] at h
      simp only [contValue] at h
      by_cases h10 : c = 10
      · simp [h10] at h
      · simp only [if_neg h10] at h
        cases hch : chomp cs with
        | none => simp [hch] at h
        | some q =>
          simp only [hch, Option.map_some, Option.some.injEq, Prod.mk.injEq] at h
          exact ⟨c, q.1, h.1.symm, by simpa using hw⟩

theorem fspec_visible {l v : Bytes} (h : fspec l = some (v, CRLF)) : strip v ≠ [] := by
  cases l with
  | nil => simp [fspec] at h
  | cons c cs =>
    simp only [fspec] at h
    by_cases hw : isWs c = true
    · rw [if_pos hw] at h
      obtain ⟨d, ds, rfl, hd⟩ := wsStar_visible h
      intro he
      have h1 : lstrip (d :: ds) = d :: ds := lstrip_eq_self (by intro c cs e; cases e; exact hd)
      have h2 : (d :: ds).reverse.dropWhile isWs = [] := by
        simpa [strip, rstrip, rstripP, h1] using he
      have h3 : ∀ x ∈ (d :: ds).reverse, isWs x = true := by
        generalize (d :: ds).reverse = l at h2
        induction l with
        | nil => simp
        | cons y ys ih =>
          rw [List.dropWhile_cons] at h2
          by_cases hy : isWs y = true
          · rw [if_pos hy] at h2
            intro x hx
            rcases List.mem_cons.1 hx with rfl | hx
            · exact hy
            · exact ih h2 x hx
          · rw [if_neg hy] at h2; cases h2
      rw [h3 d (by simp)] at hd
      cases hd
    · simp [hw] at h

theorem join_visible_last (a : Bytes) (bs : List Bytes) (ha : ∀ c, a.getLast? = some c → isWs c = false)
    (hb : ∀ b ∈ bs, b ≠ [] ∧ ∀ c, b.getLast? = some c → isWs c = false) :
    ∀ c, (join [32] (a :: bs)).getLast? = some c → isWs c = false := by
  induction bs generalizing a with
  | nil => simpa [join] using ha
  | cons b bs ih =>
    have h1 := ih b (hb b (by simp)).2 (fun x hx => hb x (by simp [hx]))
    have hne : join [32] (b :: bs) ≠ [] := by
      have hb0 := (hb b (by simp)).1
      cases bs with
      | nil => simpa [join] using hb0
      | cons x xs => simp [join]
    intro c hc
    simp only [join] at hc
    rw [List.getLast?_append] at hc
    cases hl : (join [32] (b :: bs)).getLast? with
    | none => exact absurd (List.getLast?_eq_none_iff.1 hl) hne
    | some d => rw [hl] at hc; simp at hc; rw [← hc]; exact h1 d hl

theorem apply_errors (items : List HItem) (st : WarcParser.HState) (h : ∀ it ∈ items, it.Ok)
    (he : (items.foldl HItem.apply st).errors = []) :
    st.errors = [] ∧ ∀ it ∈ items, it.errs = [] ∧ ValueOk it.header := by
  induction items generalizing st with
  | nil => exact ⟨he, by simp⟩
  | cons it items ih =>
    obtain ⟨h1, h2⟩ := ih _ (fun x hx => h x (by simp [hx])) he
    rw [HItem.apply, addHeader_errors _ _ _ (item_name_noLF (h it (by simp)))] at h1
    simp only [List.append_eq_nil_iff] at h1
    refine ⟨h1.1.1, ?_⟩
    intro x hx
    rcases List.mem_cons.1 hx with rfl | hx
    · exact ⟨h1.1.2, h1.2⟩
    · exact h2 x hx

theorem item_value_last {it : HItem} (h : it.Ok) (he : it.errs = []) :
    ∀ c, it.header.2.getLast? = some c → isWs c = false := by
  simp only [HItem.errs, List.append_eq_nil_iff] at he
  apply join_visible_last
  · intro c hc; exact strip_last hc
  · intro b hb
    obtain ⟨x, hx, rfl⟩ := List.mem_map.1 hb
    refine ⟨?_, fun c hc => strip_last hc⟩
    have hx2 : HItem.contErr x = [] := by
      have := he.2
      rw [List.flatMap_eq_nil_iff] at this
      exact this x hx
    have hnl : x.2.2 = CRLF := by
      simp only [HItem.contErr] at hx2
      by_cases hn : x.2.2 = CRLF
      · exact hn
      · simp [hn] at hx2
    have hf := h.conts x hx
    obtain ⟨l, v, nl⟩ := x
    simp only at hnl hf ⊢
    subst hnl
    exact fspec_visible hf

/-- a record as returned by the parser from whatever input: class and content file, a proper version stamp,
header names without colon, line feed and blanks at the ends, values without line feeds -/
structure Sane (r : Rec) : Prop where
  cls : r.cls = .warc
  content : r.content = none
  cfile : r.cfile = .stream
  valid : r.cfileValid = true
  version : VersionOk r.version
  names : ∀ h ∈ r.headers, 58 ∉ h.1 ∧ 10 ∉ h.1 ∧ strip h.1 = h.1 ∧ 10 ∉ h.2
  clean : r.errors = [] → ∀ h ∈ r.headers, ValueOk h ∧ ∀ c, h.2.getLast? = some c → isWs c = false

theorem readRecord_sane (offs : Bool) (s s' : Stream) (e : Entry) (r : Rec) (hp : s.parser = .warc)
    (h : readRecord offs s = .ok e s') (hr : e.rcd = some r) :
    Sane r ∧ s'.eoc = some (declaredLength r.headers) ∧ e.errors = [] ∧ s'.parser = .warc ∧ s'.kind = s.kind ∧
      s'.fh.fault = s.fh.fault ∧ (offs = false → e.offset = none) := by
  obtain ⟨heoc, herr⟩ := readRecord_eoc offs s s' e r hp h hr
  obtain ⟨_, hpar, _, hfa, hki⟩ := readRecord_progress offs s s' e r hp h hr
  obtain ⟨s0, off, line, s1, off', h1, h2, h3, h4, h5, h6, _, _, hb, hparse, hoff⟩ := readRecord_inv offs s s' e h
  have hll := blankLoop_lineLike _ _ _ _ _ _ hb
  obtain ⟨T, more, hT1, _, hT3, _, hs1, hoff1⟩ := blankLoop_inv _ _ _ _ _ _ hb
  have hpar1 : s1.parser = .warc := by rw [hs1]; simp [h3, hp]
  rw [parseWith_warc _ _ _ (Or.inl hpar1), hr] at hparse
  obtain ⟨pre, vl, p, items, fin, ls, s2, hsk, hv, hkn, _, hbk, hcat, hlines, hst, hoff2, _⟩ :=
    parse_record_inv _ _ _ _ _ _ _ hparse
  have he1 : s1.eoc = none := by rw [hs1]; exact h1
  have hall : ∀ x ∈ line :: ls, LineLike x := by
    intro x hx
    rcases List.mem_cons.1 hx with rfl | hx
    · exact hll
    · exact hlines.lineLike he1 x hx
  rw [← hcat] at hall
  simp only at hst
  obtain ⟨hrr, _⟩ := hst
  refine ⟨⟨by rw [hrr]; rfl, by rw [hrr]; rfl, by rw [hrr]; rfl, by rw [hrr]; rfl, ?_, ?_, ?_⟩, heoc, herr, hpar, hki, hfa, ?_⟩
  · rw [hrr]
    exact vspec_version_ok (hall vl (by simp)) hv hkn
  · intro x hx
    rw [hrr] at hx
    simp only [warcRec, apply_headers, hinit, List.nil_append, List.mem_map] at hx
    obtain ⟨it, hit, rfl⟩ := hx
    have hok := hbk.items_ok it hit
    have hlike : LineLike it.line := hall it.line (by
      simp only [List.mem_append]
      right
      rw [List.mem_cons]
      exact Or.inr (block_lines_mem hit))
    refine ⟨fun hm => hspec_noColon hlike hok.h (mem_strip hm), fun hm => hspec_name hok.h (mem_strip hm), strip_strip _, ?_⟩
    apply join_noLF
    intro y hy
    rcases List.mem_cons.1 hy with rfl | hy
    · exact fun hm => hspec_value_noLF hok.h (mem_strip hm)
    · obtain ⟨c, hc, rfl⟩ := List.mem_map.1 hy
      exact fun hm => fspec_noLF (hok.conts c hc) (mem_strip hm)
  · intro herrs x hx
    rw [hrr] at hx herrs
    simp only [warcRec, apply_headers, hinit, List.nil_append, List.mem_map] at hx
    simp only [warcRec] at herrs
    obtain ⟨_, h2⟩ := apply_errors items _ hbk.items_ok herrs
    obtain ⟨it, hit, rfl⟩ := hx
    exact ⟨(h2 it hit).2, item_value_last (hbk.items_ok it hit) (h2 it hit).1⟩
  · intro ho
    subst ho
    rw [hoff, hoff2, hoff1]
    simp

end Warc
