import Verif.Spec.HttpGrammar
import Verif.Proofs.HttpLoose
import Verif.Proofs.HttpUrl
import Verif.Proofs.HttpShift
/-
  The HTTP parser refines the grammar of Spec/HttpGrammar: lines, fields, start lines.
-/
set_option linter.all false
namespace Warc.Http
open Grammar

theorem cutAt_none {sep : Byte} {s : Bytes} (h : sep ∉ s) : cutAt sep s = none := by simp [cutAt, h]

theorem takeWhile_sep {sep : Byte} (u r : Bytes) (h : sep ∉ u) : (u ++ sep :: r).takeWhile (fun x => decide (x ≠ sep)) = u := by
  induction u with
  | nil => simp
  | cons c u ih =>
    have hc : c ≠ sep := by intro e; exact h (by simp [e])
    rw [List.cons_append, List.takeWhile_cons, if_pos (by simp [hc]), ih (fun h2 => h (List.mem_cons_of_mem _ h2))]

theorem dropWhile_sep {sep : Byte} (u r : Bytes) (h : sep ∉ u) : (u ++ sep :: r).dropWhile (fun x => decide (x ≠ sep)) = sep :: r := by
  induction u with
  | nil => simp
  | cons c u ih =>
    have hc : c ≠ sep := by intro e; exact h (by simp [e])
    rw [List.cons_append, List.dropWhile_cons, if_pos (by simp [hc]), ih (fun h2 => h (List.mem_cons_of_mem _ h2))]

theorem takeWhile_free {sep : Byte} {s : Bytes} (h : sep ∉ s) : s.takeWhile (fun x => decide (x ≠ sep)) = s := by
  induction s with
  | nil => rfl
  | cons c u ih =>
    have hc : c ≠ sep := by intro e; exact h (by simp [e])
    rw [List.takeWhile_cons, if_pos (by simp [hc]), ih (fun h2 => h (List.mem_cons_of_mem _ h2))]

theorem cutAt_some {sep : Byte} (u r : Bytes) (h : sep ∉ u) : cutAt sep (u ++ sep :: r) = some (u, r) := by
  rw [cutAt, if_pos (by simp), takeWhile_sep u r h, dropWhile_sep u r h]
  rfl

theorem sep_cases (sep : Byte) (x : Bytes) : sep ∉ x ∨ ∃ u rest, sep ∉ u ∧ x = u ++ sep :: rest := by
  induction x with
  | nil => exact Or.inl (by simp)
  | cons c x ih =>
    by_cases hc : c = sep
    · exact Or.inr ⟨[], x, by simp, by simp [hc]⟩
    · rcases ih with h | ⟨u, r, hu, rfl⟩
      · left; intro h2; rcases List.mem_cons.1 h2 with h3 | h3
        · exact hc h3.symm
        · exact h h3
      · right
        refine ⟨c :: u, r, ?_, rfl⟩
        intro h2; rcases List.mem_cons.1 h2 with h3 | h3
        · exact hc h3.symm
        · exact hu h3

theorem splitOnce_cutAt (sep : Byte) (s : Bytes) : splitOnce sep s = cutAt sep s := by
  rcases sep_cases sep s with h | ⟨u, r, h, rfl⟩
  · rw [splitOnce_none h, cutAt_none h]
  · rw [splitOnce_append u r h, cutAt_some u r h]

theorem cutAt_ws {sep : Byte} (s : Bytes) (hsep : sep ≠ 10) :
    cutAt sep (s ++ [10]) = (cutAt sep s).map fun p => (p.1, p.2 ++ [10]) := by
  rcases sep_cases sep s with h | ⟨u, r, h, rfl⟩
  · rw [cutAt_none h, cutAt_none (by simp [h, hsep])]; rfl
  · rw [cutAt_some u r h, List.append_assoc, List.cons_append, cutAt_some u _ h]; rfl

theorem strip_lf (s : Bytes) : strip (s ++ [10]) = strip s := strip_ws_right s [10] (by decide)

theorem beq_dec (a b : Bytes) : (a == b) = decide (a = b) := by
  by_cases h : a = b
  · simp [h]
  · rw [decide_eq_false h]; exact beq_eq_false_iff_ne.2 h

theorem isNewline_lf (u : Bytes) : isNewline (u ++ [10]) = emptyLine u := by
  unfold isNewline emptyLine
  have h1 : (u ++ [10] = [13, 10]) ↔ u = [13] := by
    rw [show ([13, 10] : Bytes) = [13] ++ [10] from rfl, List.append_cancel_right_eq]
  have h2 : (u ++ [10] = [10]) ↔ u = [] := by
    constructor
    · intro h
      have := congrArg List.length h
      simp at this
      exact this
    · rintro rfl; rfl
  rw [beq_dec, beq_dec, beq_dec, beq_dec, decide_eq_decide.2 h1, decide_eq_decide.2 h2, Bool.or_comm]

theorem isFold_lf (u : Bytes) : isFold (u ++ [10]) = decide (u.head? = some 32 ∨ u.head? = some 9) := by
  cases u with
  | nil => decide
  | cons c u =>
    unfold isFold startsWith
    rw [List.cons_append, List.isPrefixOf_cons₂, List.isPrefixOf_cons₂]
    simp only [List.isPrefixOf_nil_left, List.head?_cons, Option.some.injEq, Bool.and_true]
    by_cases h1 : c = 32
    · subst h1; decide
    · by_cases h2 : c = 9
      · subst h2; decide
      · have e1 : ((32 : Byte) == c) = false := beq_eq_false_iff_ne.2 (Ne.symm h1)
        have e2 : ((9 : Byte) == c) = false := beq_eq_false_iff_ne.2 (Ne.symm h2)
        rw [e1, e2]; simp [h1, h2]

theorem fieldsIn_none (hs : List Header) {t : Bytes} (h : 10 ∉ t) : fieldsIn hs t = .going hs := by
  rw [fieldsIn]
  split
  · rfl
  · rename_i l r h2
    rw [cutAt_none h] at h2; cases h2

theorem fieldsIn_line (hs : List Header) (u r : Bytes) (h : 10 ∉ u) :
    fieldsIn hs (u ++ 10 :: r) = if emptyLine u then .ended hs r else
      match fieldLine hs u with
      | .error e => .refused e
      | .ok hs' => fieldsIn hs' r := by
  rw [fieldsIn]
  split
  · rename_i h2; rw [cutAt_some u r h] at h2; cases h2
  · rename_i l r' h2; rw [cutAt_some u r h] at h2; cases h2; rfl

/-- a line of the header -/
theorem addHeaderLine_any (u : Bytes) (h : Hdr) (hn : emptyLine u = false) :
    match fieldLine h.headers u with
    | .error e => addHeaderLine (u ++ [10]) h = .raise e h
    | .ok hs' => ∃ h', addHeaderLine (u ++ [10]) h = .ok () h' ∧ h'.headers = hs' ∧ Kept h' h ∧
        (h.side = .request → ∀ hp, (h.host, h.port) = h.headers.foldl hostStep hp → (h'.host, h'.port) = hs'.foldl hostStep hp) := by
  simp only [addHeaderLine, M.bind_apply, M.get_apply, isFold_lf, isNewline_lf, hn, splitOnce_cutAt, cutAt_ws u (show (58 : Byte) ≠ 10 by decide),
    fieldLine, strip_lf]
  by_cases hf : u.head? = some 32 ∨ u.head? = some 9
  · simp only [hf, decide_true, if_true]
    cases hl : h.headers.getLast? with
    | none => rfl
    | some p =>
      obtain ⟨n, v⟩ := p
      simp only [M.bind_apply, M.modify_apply]
      obtain ⟨h', a, b, k, ho⟩ := addHeader_kept n (v ++ [32] ++ strip u) { h with headers := h.headers.dropLast }
      refine ⟨h', a, b, ⟨k.1, k.2, k.3, k.4, k.5, k.6, k.7, k.8, k.9, k.10, k.11, k.12, k.13, k.14⟩, ?_⟩
      intro hs hp hh
      have hne : h.headers ≠ [] := by rintro e; rw [e] at hl; cases hl
      have hsp : h.headers = h.headers.dropLast ++ [(n, v)] := by
        have := List.dropLast_concat_getLast hne
        rw [List.getLast?_eq_some_getLast hne] at hl
        simp only [Option.some.injEq] at hl
        rw [hl] at this
        exact this.symm
      rw [ho hs]
      simp only
      rw [hh, hsp, List.foldl_append, List.foldl_append, List.dropLast_concat]
      simp only [List.foldl_cons, List.foldl_nil, List.append_assoc]
      exact hostStep_again _ n v _
  · simp only [hf, decide_false, Bool.false_eq_true, if_false]
    cases hc : cutAt 58 u with
    | none => rfl
    | some p =>
      simp only [Option.map_some, strip_lf]
      obtain ⟨h', a, b, k, ho⟩ := addHeader_kept (strip p.1) (strip p.2) h
      refine ⟨h', a, b, k, ?_⟩
      intro hs hp hh
      rw [ho hs, hh, List.foldl_append]; rfl

/-- a line of the trailer -/
theorem addTrailerLine_any (u : Bytes) (h : Hdr) (hn : emptyLine u = false) :
    match fieldLine h.trailers u with
    | .error e => addTrailerLine (u ++ [10]) h = .raise e h
    | .ok hs' => addTrailerLine (u ++ [10]) h = .ok () { h with trailers := hs' } := by
  simp only [addTrailerLine, M.bind_apply, M.get_apply, isFold_lf, isNewline_lf, hn, splitOnce_cutAt, cutAt_ws u (show (58 : Byte) ≠ 10 by decide),
    fieldLine, strip_lf]
  by_cases hf : u.head? = some 32 ∨ u.head? = some 9
  · simp only [hf, decide_true, if_true]
    cases hl : h.trailers.getLast? with
    | none => rfl
    | some p => rfl
  · simp only [hf, decide_false, Bool.false_eq_true, if_false]
    cases hc : cutAt 58 u with
    | none => rfl
    | some p => simp only [Option.map_some, strip_lf, M.modify_apply]

theorem emptyLine_fold {u : Bytes} (h : emptyLine u = true) : u = [] ∨ u = [13] := by simpa [emptyLine] using h

theorem addHeaderLine_empty {u : Bytes} (hu : emptyLine u = true) (h : Hdr) : addHeaderLine (u ++ [10]) h = applyHeaders h.headers h := by
  rcases emptyLine_fold hu with rfl | rfl <;> rfl

theorem addTrailerLine_empty {u : Bytes} (hu : emptyLine u = true) (h : Hdr) : addTrailerLine (u ++ [10]) h = .ok () h := by
  rcases emptyLine_fold hu with rfl | rfl <;> rfl

/-- host and port follow the fields -/
def HostsKept (h h' : Hdr) (hs : List Header) : Prop :=
  h.side = .request → ∀ hp, (h.host, h.port) = h.headers.foldl hostStep hp → (h'.host, h'.port) = hs.foldl hostStep hp

/-- the fields of a header -/
theorem FH_any (n : Nat) (text : Bytes) (hlen : text.length = n) (m : Msg) (hfl : Flush m) :
    match fieldsIn m.header.headers text with
    | .refused e => ∃ m', FH text m = .raise e m'
    | .going hs => ∃ m', FH text m = .ok [] m' ∧ m'.header.headers = hs ∧ Kept m'.header m.header ∧ m'.buffer = m.buffer ++ text ∧
        m'.mode = m.mode ∧ m'.reader = m.reader ∧ m'.bodyChunks = m.bodyChunks ∧ m'.interim = m.interim ∧ HostsKept m.header m'.header hs
    | .ended hs rest => ∃ used h', text = used ++ rest ∧ h'.headers = hs ∧ Kept h' m.header ∧ HostsKept m.header h' hs ∧
        FH text m = match applyHeaders hs h' with
          | .ok _ h3 => .ok rest (atBody m used h3)
          | .raise e h3 => .raise e { took m used with header := h3 }
          | .hang => .hang := by
  induction n using Nat.strongRecOn generalizing text m with
  | _ n ih =>
    rcases line_cases text with h | ⟨u, r, h, rfl⟩
    · rw [fieldsIn_none _ h, FH_none hfl.inv h]
      exact ⟨_, rfl, rfl, .refl _, rfl, rfl, rfl, rfl, rfl, fun _ _ h => h⟩
    · rw [fieldsIn_line _ u r h, FH_line hfl.inv r h, hfl.pend, List.nil_append, isNewline_lf]
      cases he : emptyLine u with
      | true =>
        simp only [if_true]
        refine ⟨u ++ [10], m.header, by simp, rfl, .refl _, fun _ _ h => h, ?_⟩
        simp only [onHeader, took_header, addHeaderLine_empty he]
        cases applyHeaders m.header.headers m.header <;> rfl
      | false =>
        simp only [Bool.false_eq_true, if_false]
        have hl := addHeaderLine_any u m.header he
        cases hf : fieldLine m.header.headers u with
        | error e =>
          rw [hf] at hl
          simp only at hl
          simp only [onHeader, took_header, hl]
          exact ⟨_, rfl⟩
        | ok hs' =>
          rw [hf] at hl
          obtain ⟨h', hh, hhs, hk, hho⟩ := hl
          simp only [onHeader, took_header, hh]
          have := ih r.length (by rw [← hlen]; simp; omega) r rfl { took m (u ++ [10]) with header := h' } rfl
          simp only [hhs] at this
          cases hx : fieldsIn hs' r with
          | refused e => rw [hx] at this; exact this
          | going hs =>
            rw [hx] at this
            obtain ⟨m', a, b, k, d, e1, e2, e3, e4, e5⟩ := this
            refine ⟨m', a, b, k.trans hk, by rw [d]; simp [took], e1, e2, e3, e4, fun hs hp h0 => e5 (hk.side.trans hs) hp ?_⟩
            simp only [hhs]; exact hho hs hp h0
          | ended hs rest =>
            rw [hx] at this
            obtain ⟨used, h2, a, b, k, e5, d⟩ := this
            refine ⟨u ++ 10 :: used, h2, by rw [a]; simp, b, k.trans hk, fun hs hp h0 => e5 (hk.side.trans hs) hp (by simp only [hhs]; exact hho hs hp h0), ?_⟩
            rw [d]
            cases applyHeaders hs h2 with
            | ok x h3 => simp [atBody, took]
            | raise e h3 => simp [took]
            | hang => rfl

/-- the header object after the start line -/
structure Opened (h h0 : Hdr) (o : Opening) : Prop where
  headers : h.headers = h0.headers
  mode : h.mode = h0.mode
  contentLength : h.contentLength = h0.contentLength
  encoding : h.encoding = h0.encoding
  trailers : h.trailers = h0.trailers
  ignore : h.ignore = h0.ignore
  side : h.side = h0.side
  response : ∀ v c p, o = .response v c p → h.code = c ∧ h.version = .bytes v ∧ h.phrase = .bytes p
  request : ∀ me t v, o = .request me t v → h.method = .bytes me ∧ h.version = .bytes v
  target : ∀ me t v, o = .request me t v → LineSays me t h.target
  flags : h.keepAlive = false ∧ h.expectContinue = false

/-- the right kind of start line -/
def Opening.Of (o : Opening) : Kind → Prop
  | .request => ∃ m t v, o = .request m t v
  | .response _ => ∃ v n p, o = .response v n p

theorem splitMax_succ (sep : Byte) (n : Nat) (s : Bytes) :
    splitMax sep (n + 1) s = match cutAt sep s with
      | some (a, b) => a :: splitMax sep n b
      | none => [s] := by
  rw [splitMax, splitOnce_cutAt]
  cases cutAt sep s <;> rfl

theorem splitAll_colon (t : Bytes) : if t.count 58 = 1 then ∃ a b, splitAll 58 t = [a, b] else ∀ a b, splitAll 58 t ≠ [a, b] := by
  by_cases h : t.count 58 = 1
  · rw [if_pos h]
    rcases sep_cases 58 t with h2 | ⟨u, r, h2, rfl⟩
    · rw [List.count_eq_zero.2 h2] at h; cases h
    · have hr : 58 ∉ r := by
        rw [List.count_append, List.count_eq_zero.2 h2, List.count_cons_self] at h
        exact List.count_eq_zero.1 (by omega)
      refine ⟨u, r, ?_⟩
      unfold splitAll
      rw [show (u ++ 58 :: r).length = (u.length + r.length) + 1 by simp; omega]
      cases hn : u.length + r.length with
      | zero =>
        have h3 : u = [] := List.eq_nil_of_length_eq_zero (by omega)
        have h4 : r = [] := List.eq_nil_of_length_eq_zero (by omega)
        subst h3; subst h4; rfl
      | succ n => exact splitMax_two n u r h2 hr
  · rw [if_neg h]
    intro a b e
    exact h (splitAll_pair e)

theorem cutAt_sub {sep : Byte} {s a b : Bytes} (h : cutAt sep s = some (a, b)) : s = a ++ sep :: b ∧ sep ∉ a := by
  rcases sep_cases sep s with h2 | ⟨u, r, h2, rfl⟩
  · rw [cutAt_none h2] at h; cases h
  · rw [cutAt_some u r h2] at h; cases h; exact ⟨rfl, h2⟩

theorem rstrip_sub (u : Bytes) : ∀ x ∈ rstrip u, x ∈ u := by
  intro x hx
  unfold rstrip rstripP at hx
  rw [List.mem_reverse] at hx
  exact List.mem_reverse.1 ((List.dropWhile_sublist _).subset hx)

/-- the target of a request line -/
theorem line_target (m t : Bytes) (ht2 : 10 ∉ t) (h : Hdr) (hu : ¬ upper m = b! "CONNECT") (h1 : h.targetUri = .bytes t) (h2 : h.host = .str "") (h3 : h.port = .num 80)
    (h4 : h.scheme = .str "http") :
    LineSays m t (match Rx.pmatch urlRx t with
      | none => h
      | some mt => { h with
          targetUri := if mt.grp .path = [] then .str "/" else .bytes (mt.grp .path),
          host := .bytes (mt.grp .host),
          port := .num (match mt.group .port with
            | some p => if p = [] then 80 else (pyInt 10 p).getD 80
            | none => 80),
          scheme := .bytes (mt.grp .scheme) }).target := by
  cases hx : Rx.pmatch urlRx t with
  | none =>
    have : h.target = ⟨.bytes t, .str "", .num 80, .str "http"⟩ := by simp [Hdr.target, h1, h2, h3, h4]
    simp only [this]
    refine .other hu ?_
    intro s h p pa ha
    obtain ⟨mt, h1, _⟩ := url_match ha ht2
    rw [hx] at h1; cases h1
  | some mt =>
    obtain ⟨s, h, p, pa, ha⟩ := url_inv hx
    obtain ⟨mt', h1, h2, h3, h4, h5⟩ := url_match ha ht2
    rw [hx] at h1; cases h1
    have hport : (match mt.group .port with
        | some p => if p = [] then (80 : Int) else (pyInt 10 p).getD 80
        | none => 80) = (portNumber p : Int) := by
      rw [h4]
      cases p with
      | none => rfl
      | some p =>
        obtain ⟨a, b, _⟩ := ha.portDigits p rfl
        simp only [a, if_false, pyInt_digits p (fun d hd => (isDigit_iff d).2 (b d hd)) a, Option.getD_some, portNumber]
    have hh := LineSays.absolute (method := m) (target := t) s h p pa hu ha
    simp only [Hdr.target, h2, h3, h5]
    rw [← hport] at hh
    exact hh

theorem start_any (k : Kind) (ig : List PyStr) (u : Bytes) (hu10 : 10 ∉ u) :
    match openingIn k u with
    | none => ∃ h, setStartLine (u ++ [10]) (freshHdr k ig) = .raise .valueError h ∧ h.mode = .close
    | some o => ∃ h, setStartLine (u ++ [10]) (freshHdr k ig) = .ok () h ∧ Opened h (freshHdr k ig) o ∧ Opening.Of o k := by
  have hr : rstrip (u ++ [10]) = rstrip u := rstrip_ws _ _ (by decide)
  cases k with
  | request =>
    simp only [openingIn, setStartLine, M.bind_apply, M.get_apply, freshHdr, Hdr.request, setRequestLine, hr]
    cases h1 : cutAt 32 (rstrip u) with
    | none =>
      have : splitMax 32 2 (rstrip u) = [rstrip u] := by rw [splitMax_succ, h1]
      simp only [this]
      exact ⟨_, rfl, rfl⟩
    | some p =>
      obtain ⟨m, r⟩ := p
      cases h2 : cutAt 32 r with
      | none =>
        have : splitMax 32 2 (rstrip u) = [m, r] := by rw [splitMax_succ, h1]; simp only [splitMax_succ, h2]
        simp only [this, h2]
        exact ⟨_, rfl, rfl⟩
      | some q =>
        obtain ⟨t, v⟩ := q
        have : splitMax 32 2 (rstrip u) = [m, t, v] := by rw [splitMax_succ 32 1, h1]; simp only; rw [splitMax_succ 32 0, h2]; rfl
        simp only [this, M.bind_apply, M.modify_apply, h2]
        have hsp := splitAll_colon t
        by_cases hu : upper m = b! "CONNECT"
        · by_cases ht : t.count 58 = 1
          · rw [if_neg (by rintro ⟨_, h⟩; exact h ht)]
            rw [if_pos ht] at hsp
            obtain ⟨a, b, hab⟩ := hsp
            simp only [hu, if_true, hab]
            refine ⟨_, rfl, ⟨rfl, rfl, rfl, rfl, rfl, rfl, rfl, by simp, ?_, ?_, rfl, rfl⟩, _, _, _, rfl⟩
            · intro a b c he; cases he; exact ⟨rfl, rfl⟩
            · intro a' b' c he; cases he
              have hc : 58 ∈ t := List.count_pos_iff.1 (by omega)
              obtain ⟨x, y, hxy, hx⟩ := split_first hc
              have hy : 58 ∉ y := by
                rw [hxy, List.count_append, List.count_eq_zero.2 hx, List.count_cons_self] at ht
                exact List.count_eq_zero.1 (by omega)
              have hsplit : splitAll 58 t = [x, y] := by
                rw [hxy]
                unfold splitAll
                rw [show (x ++ 58 :: y).length = (x.length + y.length) + 1 by simp; omega]
                cases hn : x.length + y.length with
                | zero =>
                  have h3 : x = [] := List.eq_nil_of_length_eq_zero (by omega)
                  have h4 : y = [] := List.eq_nil_of_length_eq_zero (by omega)
                  subst h3; subst h4; rfl
                | succ n => exact splitMax_two n x y hx hy
              rw [hsplit] at hab
              cases hab
              exact .connect _ _ hu hxy hx hy
          · rw [if_pos ⟨hu, ht⟩]
            rw [if_neg ht] at hsp
            simp only [hu, if_true]
            cases hq : splitAll 58 t with
            | nil => exact ⟨_, rfl, rfl⟩
            | cons x xs =>
              cases xs with
              | nil => exact ⟨_, rfl, rfl⟩
              | cons y ys =>
                cases ys with
                | nil => exact absurd hq (hsp x y)
                | cons z zs => exact ⟨_, rfl, rfl⟩
        · rw [if_neg (by rintro ⟨h, _⟩; exact hu h)]
          simp only [hu, if_false]
          have ht10 : 10 ∉ t := by
            intro hx
            obtain ⟨e1, _⟩ := cutAt_sub h1
            obtain ⟨e2, _⟩ := cutAt_sub h2
            exact hu10 (rstrip_sub u 10 (by rw [e1, e2]; simp [hx]))
          have hline := line_target m t ht10 { (Hdr.request ig) with method := .bytes m, targetUri := .bytes t, version := .bytes v } hu rfl rfl rfl rfl
          cases hp : Rx.pmatch urlRx t with
          | none =>
            rw [hp] at hline
            refine ⟨_, rfl, ⟨rfl, rfl, rfl, rfl, rfl, rfl, rfl, by simp, ?_, ?_, rfl, rfl⟩, _, _, _, rfl⟩
            · intro a b c he; cases he; exact ⟨rfl, rfl⟩
            · intro a b c he; cases he; exact hline
          | some mt =>
            rw [hp] at hline
            refine ⟨_, rfl, ⟨rfl, rfl, rfl, rfl, rfl, rfl, rfl, by simp, ?_, ?_, rfl, rfl⟩, _, _, _, rfl⟩
            · intro a b c he; cases he; exact ⟨rfl, rfl⟩
            · intro a b c he; cases he; exact hline
  | response rm =>
    simp only [openingIn, setStartLine, M.bind_apply, M.get_apply, freshHdr, Hdr.response, setStatusLine, hr]
    cases h1 : cutAt 32 (rstrip u) with
    | none =>
      have : splitMax 32 2 (rstrip u) = [rstrip u] := by rw [splitMax_succ, h1]
      simp only [this]
      exact ⟨_, rfl, rfl⟩
    | some p =>
      obtain ⟨v, r⟩ := p
      have hw : ∃ code more ph, splitMax 32 2 (rstrip u) = v :: code :: more ∧ code = r.takeWhile (fun x => decide (x ≠ 32)) ∧
          (match more with
            | p :: _ => p
            | [] => []) = ph ∧ ph = (r.dropWhile (fun x => decide (x ≠ 32))).drop 1 := by
        rcases sep_cases 32 r with h2 | ⟨a, b, h2, rfl⟩
        · refine ⟨r, [], [], by rw [splitMax_succ, h1]; simp only [splitMax_succ, cutAt_none h2], ?_, rfl, ?_⟩
          · exact (takeWhile_free h2).symm
          · rw [dropWhile_nil_iff.2 (fun x hx => by simp; rintro rfl; exact h2 hx)]; rfl
        · refine ⟨a, [b], b, by rw [splitMax_succ 32 1, h1]; simp only; rw [splitMax_succ 32 0, cutAt_some a b h2]; rfl, ?_, rfl, ?_⟩
          · rw [takeWhile_sep a b h2]
          · rw [dropWhile_sep a b h2]; rfl
      obtain ⟨code, more, ph, hs, hcode, hph, hph2⟩ := hw
      simp only [hs, M.bind_apply, M.modify_apply, ← hcode, ← hph2]
      cases hi : pyInt 10 code with
      | none => exact ⟨_, rfl, rfl⟩
      | some n =>
        simp only [Option.map_some, M.modify_apply]
        refine ⟨_, rfl, ⟨rfl, rfl, rfl, rfl, rfl, rfl, rfl, ?_, by simp, by simp, by simp, rfl⟩, _, _, _, rfl⟩
        intro v' c' p' he; cases he
        refine ⟨rfl, rfl, ?_⟩
        simp only
        rw [← hph]
        cases more <;> rfl

end Warc.Http
