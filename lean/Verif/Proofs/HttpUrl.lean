import Verif.Proofs.HttpHex
import Verif.Proofs.Rx
import Verif.Spec.HttpTarget
/-
  Request lines: the URL pattern, host and port.
-/
set_option linter.all false
namespace Warc.Http
open Rx

/-! ### decimal digits -/

theorem isDigit_iff (d : Byte) : isDigit d = true ↔ 48 ≤ d ∧ d ≤ 57 := by simp [isDigit]

theorem digit_facts (d : Byte) (h : isDigit d = true) :
    digitVal d = some (d.toNat - 48) ∧ d.toNat - 48 < 10 ∧ isWs d = false ∧ d ≠ 95 ∧ d ≠ 45 ∧ d ≠ 43 ∧ d ≠ 120 ∧ d ≠ 88 := by
  have : ∀ n : Fin 256, isDigit (UInt8.ofNat n.val) = true →
      digitVal (UInt8.ofNat n.val) = some ((UInt8.ofNat n.val).toNat - 48) ∧ (UInt8.ofNat n.val).toNat - 48 < 10 ∧ isWs (UInt8.ofNat n.val) = false ∧
      UInt8.ofNat n.val ≠ 95 ∧ UInt8.ofNat n.val ≠ 45 ∧ UInt8.ofNat n.val ≠ 43 ∧ UInt8.ofNat n.val ≠ 120 ∧ UInt8.ofNat n.val ≠ 88 := by
    decide +kernel
  have h' := this ⟨d.toNat, d.toNat_lt⟩
  simp only [UInt8.ofNat_toNat] at h'
  exact h' h

theorem digitsAux_dec (s : Bytes) (h : ∀ d ∈ s, isDigit d = true) (acc : Nat) :
    digitsAux 10 s acc true = some (s.foldl (fun n d => 10 * n + (d.toNat - 48)) acc) := by
  induction s generalizing acc with
  | nil => rfl
  | cons d s ih =>
    have hd := digit_facts d (h d (by simp))
    simp only [digitsAux, beq_iff_eq, hd.2.2.2.1, if_false, hd.1]
    rw [if_pos hd.2.1, ih (fun x hx => h x (by simp [hx]))]
    simp [Nat.mul_comm]

theorem pyInt_digits (s : Bytes) (h : ∀ d ∈ s, isDigit d = true) (hne : s ≠ []) : pyInt 10 s = some (decimalValue s : Int) := by
  have hstrip : strip s = s := by
    apply strip_eq_self
    · intro c cs he
      exact (digit_facts c (h c (by rw [he]; simp))).2.2.1
    · intro c he
      exact (digit_facts c (h c (List.mem_of_getLast? he))).2.2.1
  have hdig : digitsAux 10 s 0 false = some (decimalValue s) := by
    cases s with
    | nil => exact absurd rfl hne
    | cons d s =>
      have hd := digit_facts d (h d (by simp))
      simp only [digitsAux, beq_iff_eq, hd.2.2.2.1, if_false, hd.1]
      rw [if_pos hd.2.1, digitsAux_dec s (fun x hx => h x (by simp [hx]))]
      simp [decimalValue]
  have hbody : intBody 10 s = some (decimalValue s) := by
    unfold intBody
    split
    · rename_i x rest
      simpa using hdig
    · exact hdig
  unfold pyInt
  rw [hstrip]
  split
  · rename_i rest
    exact absurd rfl (digit_facts 45 (h 45 (by simp))).2.2.2.2.1
  · rename_i rest
    exact absurd rfl (digit_facts 43 (h 43 (by simp))).2.2.2.2.2.1
  · rw [hbody]; rfl

/-! ### the URL pattern -/

def hostChar (c : Byte) : Bool := c != 58 && c != 47

/-- the pattern after the scheme -/
def urlTail : Rx :=
  seq (str (b! "://")) (seq (group .authority (seq (group .host (seq (cls hostChar) (starG hostChar)))
      (opt (seq (lit 58) (group .port (seq (cls isDigit) (starG isDigit)))))))
    (group .path (starG isDot)))

def urlEnd (st : MSt) : Option Match := some ⟨st.caps, st.rest⟩

theorem pathPart (prev : Option Byte) (y : Bytes) (caps) (h : 10 ∉ y) :
    m (group .path (starG isDot)) ⟨prev, y, caps⟩ urlEnd = some ⟨(.path, y) :: caps, []⟩ := by
  simp only [m]
  have := starGM_run (p := isDot) (caps := caps) (k := fun st' => urlEnd { st' with caps := (.path, y.take (y.length - st'.rest.length)) :: st'.caps })
    (x := ⟨(.path, y) :: caps, []⟩) y [] prev (fun c hc => by simp [isDot]; rintro rfl; exact h hc) (by simp) (by simp [urlEnd])
  simpa using this

theorem take_front (a b : Bytes) : (a ++ b).take ((a ++ b).length - b.length) = a := by
  simp

/-- with a port -/
theorem tail_port (prev : Option Byte) (host p path : Bytes) (caps) (h0 : host ≠ []) (hh : ∀ c ∈ host, hostChar c = true)
    (hp0 : p ≠ []) (hp : ∀ d ∈ p, isDigit d = true) (hpath : ∀ d ds, path = d :: ds → isDigit d = false) (h10 : 10 ∉ path) :
    m urlTail ⟨prev, b! "://" ++ (host ++ (58 :: p ++ path)), caps⟩ urlEnd =
      some ⟨(.path, path) :: (.authority, host ++ 58 :: p) :: (.port, p) :: (.host, host) :: caps, []⟩ := by
  obtain ⟨c, hs, rfl⟩ := List.exists_cons_of_ne_nil h0
  obtain ⟨d, ds, rfl⟩ := List.exists_cons_of_ne_nil hp0
  simp only [urlTail, m, str, List.map, seqs, lit, opt, List.cons_append, List.nil_append, beq_self_eq_true, if_true, hh c (by simp), List.length_cons]
  refine starGM_run hs (58 :: (d :: ds ++ path)) (some c) (fun x hx => hh x (by simp [hx])) (by simp [hostChar]) ?_
  simp only [List.cons_append, beq_self_eq_true, if_true, hp d (by simp)]
  have e1 : List.take ((d :: (ds ++ path)).length - path.length) (d :: (ds ++ path)) = d :: ds := by
    rw [← List.cons_append]; exact take_front (d :: ds) path
  have e2 : List.take ((hs ++ 58 :: d :: (ds ++ path)).length + 1 - (58 :: d :: (ds ++ path)).length) (c :: (hs ++ 58 :: d :: (ds ++ path))) = c :: hs := by
    have := take_front (c :: hs) (58 :: d :: (ds ++ path))
    simpa using this
  have e3 : List.take ((hs ++ 58 :: d :: (ds ++ path)).length + 1 - path.length) (c :: (hs ++ 58 :: d :: (ds ++ path))) = c :: hs ++ 58 :: (d :: ds) := by
    have := take_front (c :: hs ++ 58 :: (d :: ds)) path
    simpa using this
  rw [starGM_run (x := ⟨(.path, path) :: (.authority, c :: hs ++ 58 :: (d :: ds)) :: (.port, d :: ds) :: (.host, c :: hs) :: caps, []⟩) ds path (some d)
    (fun x hx => hp x (by simp [hx])) hpath]
  · rfl
  have hfin := pathPart (ds.getLast?.or (some d)) path ((.authority, c :: hs ++ 58 :: (d :: ds)) :: (.port, d :: ds) :: (.host, c :: hs) :: caps) h10
  simp only [m] at hfin
  simp only [e1, e2, e3]
  exact hfin

/-- without a port -/
theorem tail_noPort (prev : Option Byte) (host path : Bytes) (caps) (h0 : host ≠ []) (hh : ∀ c ∈ host, hostChar c = true)
    (hpath : path = [] ∨ (∃ r, path = 47 :: r) ∨ (∃ r, path = 58 :: r ∧ ∀ d ds, r = d :: ds → isDigit d = false)) (h10 : 10 ∉ path) :
    m urlTail ⟨prev, b! "://" ++ (host ++ path), caps⟩ urlEnd =
      some ⟨(.path, path) :: (.authority, host) :: (.host, host) :: caps, []⟩ := by
  obtain ⟨c, hs, rfl⟩ := List.exists_cons_of_ne_nil h0
  simp only [urlTail, m, str, List.map, seqs, lit, opt, List.cons_append, List.nil_append, beq_self_eq_true, if_true, hh c (by simp), List.length_cons]
  have hstop : ∀ x xs, path = x :: xs → hostChar x = false := by
    intro x xs e
    rcases hpath with h | ⟨r, h⟩ | ⟨r, h, _⟩ <;> rw [h] at e <;> cases e <;> rfl
  refine starGM_run hs path (some c) (fun x hx => hh x (by simp [hx])) hstop ?_
  have e2 : List.take ((hs ++ path).length + 1 - path.length) (c :: (hs ++ path)) = c :: hs := by
    have := take_front (c :: hs) path
    simpa using this
  have hfin := pathPart (hs.getLast?.or (some c)) path ((.authority, c :: hs) :: (.host, c :: hs) :: caps) h10
  simp only [m] at hfin
  simp only [e2]
  rcases hpath with h | ⟨r, h⟩ | ⟨r, h, hr⟩
  · subst h; exact hfin
  · subst h; simp only [show ((47 : Byte) == 58) = false from rfl, Bool.false_eq_true, if_false]; exact hfin
  · subst h
    cases r with
    | nil => simp only [beq_self_eq_true, if_true]; exact hfin
    | cons d ds => simp only [beq_self_eq_true, if_true, hr d ds rfl, Bool.false_eq_true, if_false]; exact hfin

theorem tail_inv (prev : Option Byte) (x : Bytes) (caps) {mt : Match} (h : m urlTail ⟨prev, x, caps⟩ urlEnd = some mt) :
    ∃ c y, x = b! "://" ++ c :: y ∧ hostChar c = true := by
  simp only [urlTail, m, str, List.map, seqs, lit] at h
  cases x with
  | nil => cases h
  | cons c1 x =>
    simp only at h
    by_cases h1 : (c1 == 58) = true
    · rw [if_pos h1] at h
      cases x with
      | nil => cases h
      | cons c2 x =>
        simp only at h
        by_cases h2 : (c2 == 47) = true
        · rw [if_pos h2] at h
          cases x with
          | nil => cases h
          | cons c3 x =>
            simp only at h
            by_cases h3 : (c3 == 47) = true
            · rw [if_pos h3] at h
              cases x with
              | nil => cases h
              | cons c4 x =>
                simp only at h
                by_cases h4 : hostChar c4 = true
                · simp only [beq_iff_eq] at h1 h2 h3
                  subst h1; subst h2; subst h3
                  exact ⟨c4, x, rfl, h4⟩
                · rw [if_neg h4] at h; cases h
            · rw [if_neg h3] at h; cases h
        · rw [if_neg h2] at h; cases h
    · rw [if_neg h1] at h; cases h

/-- the whole pattern -/
theorem urlRx_eq (t : Bytes) : pmatch urlRx t =
    match t with
    | c1 :: c2 :: c3 :: c4 :: r =>
      if lower [c1, c2, c3, c4] = b! "http" then
        match r with
        | s :: r' =>
          if lowerByte s = 115 then
            (m urlTail ⟨some s, r', [(.scheme, [c1, c2, c3, c4, s])]⟩ urlEnd).or (m urlTail ⟨some c4, r, [(.scheme, [c1, c2, c3, c4])]⟩ urlEnd)
          else m urlTail ⟨some c4, r, [(.scheme, [c1, c2, c3, c4])]⟩ urlEnd
        | [] => m urlTail ⟨some c4, r, [(.scheme, [c1, c2, c3, c4])]⟩ urlEnd
      else none
    | _ => none := by
  have h0 : pmatch urlRx t = m (seq (group .scheme (seq (strI (b! "http")) (opt (litI 115)))) urlTail) ⟨none, t, []⟩ urlEnd := rfl
  rw [h0]
  generalize hT : urlTail = T
  simp only [m, strI, List.map, seqs, litI, opt]
  cases t with
  | nil => rfl
  | cons c1 t =>
  cases t with
  | nil => simp
  | cons c2 t =>
  cases t with
  | nil => simp
  | cons c3 t =>
  cases t with
  | nil => simp
  | cons c4 r =>
    simp only [lower, List.map, beq_iff_eq, show lowerByte 104 = 104 from rfl, show lowerByte 116 = 116 from rfl,
      show lowerByte 112 = 112 from rfl, show lowerByte 115 = 115 from rfl, List.cons.injEq, and_true]
    by_cases h1 : lowerByte c1 = 104
    · by_cases h2 : lowerByte c2 = 116
      · by_cases h3 : lowerByte c3 = 116
        · by_cases h4 : lowerByte c4 = 112
          · simp only [h1, h2, h3, h4, and_self, if_true]
            have e4 : (c1 :: c2 :: c3 :: c4 :: r).take ((c1 :: c2 :: c3 :: c4 :: r).length - r.length) = [c1, c2, c3, c4] := take_front [c1, c2, c3, c4] r
            cases r with
            | nil => simp
            | cons s r' =>
              have e5 : (c1 :: c2 :: c3 :: c4 :: s :: r').take ((c1 :: c2 :: c3 :: c4 :: s :: r').length - r'.length) = [c1, c2, c3, c4, s] := take_front [c1, c2, c3, c4, s] r'
              simp only [e4, e5]
              by_cases h5 : lowerByte s = 115
              · simp only [h5, if_true]
                cases m T ⟨some s, r', [(.scheme, [c1, c2, c3, c4, s])]⟩ urlEnd <;> rfl
              · simp only [h5, if_false]
          · simp [h4]
        · simp [h3]
      · simp [h2]
    · simp [h1]

theorem lower_length (s : Bytes) : (lower s).length = s.length := by simp [lower]

theorem hostChar_iff {h : Bytes} : (∀ c ∈ h, hostChar c = true) ↔ 58 ∉ h ∧ 47 ∉ h := by
  constructor
  · intro hh
    exact ⟨fun hx => absurd (hh 58 hx) (by decide), fun hx => absurd (hh 47 hx) (by decide)⟩
  · rintro ⟨h1, h2⟩ c hc
    simp only [hostChar, Bool.and_eq_true, bne_iff_ne, ne_eq]
    exact ⟨by rintro rfl; exact h1 hc, by rintro rfl; exact h2 hc⟩

theorem not_digit {d : Byte} : ¬ (48 ≤ d ∧ d ≤ 57) ↔ isDigit d = false := by
  rw [← isDigit_iff]; simp

/-- the part after the scheme of a URL -/
theorem AbsoluteUrl.tail {t scheme host : Bytes} {port : Option Bytes} {path : Bytes} (hu : AbsoluteUrl t scheme host port path) (h10 : 10 ∉ t)
    (prev : Option Byte) : ∃ x mt, t = scheme ++ 58 :: x ∧ m urlTail ⟨prev, 58 :: x, [(.scheme, scheme)]⟩ urlEnd = some mt ∧
      mt.grp .path = path ∧ mt.grp .host = host ∧ mt.group .port = port ∧ mt.grp .scheme = scheme := by
  have htext := hu.text
  have hp10 : 10 ∉ path := fun hx => h10 (by rw [htext]; simp [hx])
  cases port with
  | some p =>
    obtain ⟨h1, h2, h3⟩ := hu.portDigits p rfl
    refine ⟨47 :: 47 :: (host ++ (58 :: p ++ path)), _, by rw [htext]; simp, tail_port prev host p path _ hu.hostNonempty (hostChar_iff.2 hu.hostPlain) h1
      (fun d hd => (isDigit_iff d).2 (h2 d hd)) (fun d ds e => not_digit.1 (h3 d ds e)) hp10, rfl, rfl, rfl, rfl⟩
  | none =>
    refine ⟨47 :: 47 :: (host ++ path), _, by rw [htext]; simp, tail_noPort prev host path _ hu.hostNonempty (hostChar_iff.2 hu.hostPlain) ?_ hp10, ?_, ?_, ?_, ?_⟩
    · rcases hu.noPort rfl with h | h | ⟨r, h, h'⟩
      · exact .inl h
      · exact .inr (.inl h)
      · exact .inr (.inr ⟨r, h, fun d ds e => not_digit.1 (h' d ds e)⟩)
    all_goals rfl

theorem url_match {t scheme host : Bytes} {port : Option Bytes} {path : Bytes} (hu : AbsoluteUrl t scheme host port path) (h10 : 10 ∉ t) :
    ∃ mt, pmatch urlRx t = some mt ∧ mt.grp .path = path ∧ mt.grp .host = host ∧ mt.group .port = port ∧ mt.grp .scheme = scheme := by
  rcases hu.http with hs | hs
  · have hl : scheme.length = 4 := by rw [← lower_length, hs]; rfl
    match scheme, hl with
    | [c1, c2, c3, c4], _ =>
      obtain ⟨x, mt, h1, h2, h3⟩ := hu.tail h10 (some c4)
      refine ⟨mt, ?_, h3⟩
      rw [h1, urlRx_eq]
      simp only [List.cons_append, List.nil_append, hs, if_true, show ¬ lowerByte 58 = 115 from by decide, if_false]
      exact h2
  · have hl : scheme.length = 5 := by rw [← lower_length, hs]; rfl
    match scheme, hl with
    | [c1, c2, c3, c4, c5], _ =>
      obtain ⟨x, mt, h1, h2, h3⟩ := hu.tail h10 (some c5)
      refine ⟨mt, ?_, h3⟩
      rw [h1, urlRx_eq]
      simp only [lower, List.map, List.cons.injEq] at hs
      simp only [List.cons_append, List.nil_append, lower, List.map, hs, if_true]
      rw [h2]; rfl

theorem absolute_of {scheme y : Bytes} {c : Byte} (hs : lower scheme = b! "http" ∨ lower scheme = b! "https") (hc : hostChar c = true) :
    ∃ host port path, AbsoluteUrl (scheme ++ b! "://" ++ c :: y) scheme host port path := by
  have hsplit : y = y.takeWhile hostChar ++ y.dropWhile hostChar := (List.takeWhile_append_dropWhile).symm
  have hhost : ∀ x ∈ c :: y.takeWhile hostChar, hostChar x = true := by
    intro x hx
    rcases List.mem_cons.1 hx with rfl | hx
    · exact hc
    · have := List.all_takeWhile (p := hostChar) (l := y)
      exact List.all_eq_true.1 this x hx
  have hhead : ∀ x xs, y.dropWhile hostChar = x :: xs → x = 58 ∨ x = 47 := by
    intro x xs e
    have := List.head_dropWhile_not hostChar (l := y) (by rw [e]; simp)
    simp only [e, List.head_cons] at this
    simp [hostChar] at this
    by_cases hx : x = 58
    · exact .inl hx
    · exact .inr (this hx)
  generalize y.takeWhile hostChar = h at *
  generalize y.dropWhile hostChar = r at *
  subst hsplit
  have mk : ∀ path, r = path → (path = [] ∨ (∃ r, path = 47 :: r) ∨ (∃ r, path = 58 :: r ∧ ∀ d ds, r = d :: ds → ¬ (48 ≤ d ∧ d ≤ 57))) →
      ∃ host port path, AbsoluteUrl (scheme ++ b! "://" ++ c :: (h ++ r)) scheme host port path := by
    intro path e hp
    exact ⟨c :: h, none, path, ⟨by simp [e], hs, by simp, hostChar_iff.1 hhost, by simp, fun _ => hp⟩⟩
  cases r with
  | nil => exact mk [] rfl (.inl rfl)
  | cons x xs =>
    rcases hhead x xs rfl with rfl | rfl
    · cases xs with
      | nil => exact mk _ rfl (.inr (.inr ⟨[], rfl, by simp⟩))
      | cons d ds =>
        by_cases hd : 48 ≤ d ∧ d ≤ 57
        · refine ⟨c :: h, some (d :: ds.takeWhile isDigit), ds.dropWhile isDigit, ⟨?_, hs, by simp, hostChar_iff.1 hhost, ?_, by simp⟩⟩
          · simp
          · intro p e
            cases e
            refine ⟨by simp, ?_, ?_⟩
            · intro z hz
              rcases List.mem_cons.1 hz with rfl | hz
              · exact hd
              · exact (isDigit_iff z).1 (List.all_eq_true.1 (List.all_takeWhile (p := isDigit) (l := ds)) z hz)
            · intro z zs e
              rw [not_digit]
              have := List.head_dropWhile_not isDigit (l := ds) (by rw [e]; simp)
              simpa [e] using this
        · exact mk _ rfl (.inr (.inr ⟨d :: ds, rfl, by rintro a b ⟨⟩; exact hd⟩))
    · exact mk _ rfl (.inr (.inl ⟨xs, rfl⟩))

theorem url_inv {t : Bytes} {mt : Match} (h : pmatch urlRx t = some mt) : ∃ scheme host port path, AbsoluteUrl t scheme host port path := by
  rw [urlRx_eq] at h
  match t with
  | [] | [_] | [_, _] | [_, _, _] => cases h
  | c1 :: c2 :: c3 :: c4 :: r =>
    simp only at h
    by_cases hl : lower [c1, c2, c3, c4] = b! "http"
    · rw [if_pos hl] at h
      have plain : ∀ mt, m urlTail ⟨some c4, r, [(.scheme, [c1, c2, c3, c4])]⟩ urlEnd = some mt →
          ∃ scheme host port path, AbsoluteUrl (c1 :: c2 :: c3 :: c4 :: r) scheme host port path := by
        intro mt h
        obtain ⟨c, y, rfl, hc⟩ := tail_inv _ _ _ h
        exact ⟨[c1, c2, c3, c4], absolute_of (scheme := [c1, c2, c3, c4]) (.inl hl) hc⟩
      cases r with
      | nil => exact plain _ h
      | cons s r' =>
        simp only at h
        by_cases h5 : lowerByte s = 115
        · rw [if_pos h5] at h
          cases h6 : m urlTail ⟨some s, r', [(.scheme, [c1, c2, c3, c4, s])]⟩ urlEnd with
          | none => rw [h6] at h; exact plain _ h
          | some mt' =>
            obtain ⟨c, y, rfl, hc⟩ := tail_inv _ _ _ h6
            refine ⟨[c1, c2, c3, c4, s], absolute_of (scheme := [c1, c2, c3, c4, s]) (.inr ?_) hc⟩
            simp only [lower, List.map, List.cons.injEq] at hl ⊢
            simp [hl, h5]
        · rw [if_neg h5] at h; exact plain _ h
    · rw [if_neg hl] at h; cases h

/-! ### the request line -/

theorem request_line (m t v : Bytes) (hok : (Start.request m t v).Ok) (ig : List PyStr) :
    ∃ h, setStartLine (Start.request m t v).text (Hdr.request ig) = .ok () h ∧ LineSays m t h.target ∧ h.keepAlive = false ∧ h.expectContinue = false := by
  obtain ⟨⟨hm1, hm2, hm3⟩, ⟨ht1, ht2⟩, ⟨hv1, hv2, hv3⟩, hc⟩ := hok
  have hr : rstrip (Start.request m t v).text = m ++ 32 :: (t ++ 32 :: v) := by
    have : (Start.request m t v).text = (m ++ 32 :: (t ++ 32 :: v)) ++ CRLF := by simp [Start.text]
    rw [this, rstrip_ws _ _ crlf_ws]
    rw [show m ++ 32 :: (t ++ 32 :: v) = (m ++ 32 :: t ++ [32]) ++ v by simp]
    exact rstrip_tail _ _ hv2 hv3
  simp only [setStartLine, M.bind_apply, M.get_apply, Hdr.request, setRequestLine, hr, splitMax_three m t v hm1 ht1, M.modify_apply]
  by_cases hu : upper m = b! "CONNECT"
  · obtain ⟨host, port, rfl, h1, h2⟩ := hc hu
    rw [if_pos hu]
    have hs : splitAll 58 (host ++ 58 :: port) = [host, port] := by
      unfold splitAll
      rw [show (host ++ 58 :: port).length = (host.length + port.length) + 1 by simp; omega]
      cases hn : host.length + port.length with
      | zero =>
        have h3 : host = [] := List.eq_nil_of_length_eq_zero (by omega)
        have h4 : port = [] := List.eq_nil_of_length_eq_zero (by omega)
        subst h3; subst h4; rfl
      | succ n => exact splitMax_two n host port h1 h2
    rw [hs]
    exact ⟨_, rfl, .connect host port hu rfl h1 h2, rfl, rfl⟩
  · rw [if_neg hu]
    cases hx : pmatch urlRx t with
    | none =>
      refine ⟨_, rfl, .other hu ?_, rfl, rfl⟩
      intro s h p pa ha
      obtain ⟨mt, h1, _⟩ := url_match ha ht2
      rw [hx] at h1; cases h1
    | some mt =>
      obtain ⟨s, h, p, pa, ha⟩ := url_inv hx
      obtain ⟨mt', h1, h2, h3, h4, h5⟩ := url_match ha ht2
      rw [hx] at h1; cases h1
      refine ⟨_, rfl, ?_, rfl, rfl⟩
      have hport : (match mt.group .port with
          | some p => if p = [] then (80 : Int) else (pyInt 10 p).getD 80
          | none => 80) = (portNumber p : Int) := by
        rw [h4]
        cases p with
        | none => rfl
        | some p =>
          obtain ⟨a, b, _⟩ := ha.portDigits p rfl
          simp only [a, if_false, pyInt_digits p (fun d hd => (isDigit_iff d).2 (b d hd)) a, Option.getD_some, portNumber]
      simp only [Hdr.target, M.modify_apply, hport, h2, h3, h5]
      have hh := LineSays.absolute (method := m) (target := t) s h p pa hu ha
      rw [← hport] at hh
      exact hh

/-! ### what the fields say -/

theorem takeWhile_ne {a b : Bytes} {sep : Byte} (h : sep ∉ a) : (a ++ sep :: b).takeWhile (· ≠ sep) = a := by
  induction a with
  | nil => simp
  | cons c a ih =>
    have hc : c ≠ sep := by rintro rfl; simp at h
    simp [List.takeWhile_cons, hc]
    simpa using ih (fun hx => h (by simp [hx]))

theorem dropWhile_ne {a b : Bytes} {sep : Byte} (h : sep ∉ a) : (a ++ sep :: b).dropWhile (· ≠ sep) = sep :: b := by
  induction a with
  | nil => simp
  | cons c a ih =>
    have hc : c ≠ sep := by rintro rfl; simp at h
    simp [List.dropWhile_cons, hc]
    simpa using ih (fun hx => h (by simp [hx]))

theorem takeWhile_all {a : Bytes} {sep : Byte} (h : sep ∉ a) : a.takeWhile (· ≠ sep) = a := by
  induction a with
  | nil => rfl
  | cons c a ih =>
    have hc : c ≠ sep := by rintro rfl; simp at h
    simp [List.takeWhile_cons, hc]
    simpa using ih (fun hx => h (by simp [hx]))

theorem split_first {x : Byte} {s : Bytes} (h : x ∈ s) : ∃ a b, s = a ++ x :: b ∧ x ∉ a := by
  induction s with
  | nil => simp at h
  | cons y s ih =>
    by_cases hy : y = x
    · exact ⟨[], s, by simp [hy], by simp⟩
    · have : x ∈ s := by
        rcases List.mem_cons.1 h with e | e
        · exact absurd e.symm hy
        · exact e
      obtain ⟨a, b, h1, h2⟩ := ih this
      exact ⟨y :: a, b, by simp [h1], by simp [h2]; exact fun e => hy e.symm⟩

theorem hostStep_eq (hp : PyStr × Port) (f : Header) : hostStep hp f =
    (if isHost f then .bytes (f.2.takeWhile (· ≠ 58)) else hp.1,
     if isHost f && f.2.contains 58 then .text ((f.2.dropWhile (· ≠ 58)).drop 1) else hp.2) := by
  unfold hostStep isHost
  by_cases h : lower f.1 = b! "host"
  · simp only [h, if_true, beq_self_eq_true, Bool.true_and]
    by_cases hc : 58 ∈ f.2
    · obtain ⟨a, b, e, ha⟩ := split_first hc
      rw [e, splitOnce_append a b ha]
      simp only [takeWhile_ne ha, dropWhile_ne ha]
      simp
    · rw [splitOnce_none hc, takeWhile_all hc]
      have : f.2.contains 58 = false := by simpa using hc
      simp only [this]
      simp
  · simp [h]

/-- folding "the last one counts" -/
theorem foldl_last {α β : Type} (p : β → Bool) (g : β → α) (hs : List β) (a : α) :
    hs.foldl (fun a f => if p f then g f else a) a = match (hs.filter p).getLast? with | none => a | some f => g f := by
  induction hs generalizing a with
  | nil => rfl
  | cons f hs ih =>
    rw [List.foldl_cons, ih]
    by_cases h : p f = true
    · simp only [h, if_true, List.filter_cons]
      cases hl : hs.filter p with
      | nil => simp
      | cons x xs => simp [List.getLast?_cons_cons, List.getLast?_cons]
    · simp [h, List.filter_cons]

theorem foldl_prod {α β γ : Type} (g1 : α → γ → α) (g2 : β → γ → β) (hs : List γ) (a : α) (b : β) :
    hs.foldl (fun p f => (g1 p.1 f, g2 p.2 f)) (a, b) = (hs.foldl g1 a, hs.foldl g2 b) := by
  induction hs generalizing a b with
  | nil => rfl
  | cons f hs ih => simp only [List.foldl_cons, ih]

theorem fieldsSay {hs : List Header} {h h1 : Hdr} (hu : h.targetUri = h1.targetUri) (hsch : h.scheme = h1.scheme)
    (hhp : (h.host, h.port) = hs.foldl hostStep (h1.host, h1.port)) : FieldsSay hs h1.target h.target := by
  have e : hostStep = fun (p : PyStr × Port) f => (if isHost f then PyStr.bytes (f.2.takeWhile (· ≠ 58)) else p.1,
     if isHost f && f.2.contains 58 then Port.text ((f.2.dropWhile (· ≠ 58)).drop 1) else p.2) := by
    funext p f; exact hostStep_eq p f
  rw [e, foldl_prod (fun (a : PyStr) (f : Header) => if isHost f then PyStr.bytes (f.2.takeWhile (· ≠ 58)) else a)
    (fun (a : Port) (f : Header) => if isHost f && f.2.contains 58 then Port.text ((f.2.dropWhile (· ≠ 58)).drop 1) else a),
    foldl_last isHost (fun f => PyStr.bytes (f.2.takeWhile (· ≠ 58))),
    foldl_last (fun f : Header => isHost f && f.2.contains 58) (fun f => Port.text ((f.2.dropWhile (· ≠ 58)).drop 1))] at hhp
  simp only [Prod.mk.injEq] at hhp
  refine ⟨hu, hsch, ?_, ?_⟩
  · have := hhp.1
    cases hl : (hs.filter isHost).getLast? with
    | none => simp only [hl] at this; exact this
    | some f => simp only [hl] at this; exact this
  · have := hhp.2
    cases hl : (hs.filter fun f => isHost f && f.2.contains 58).getLast? with
    | none => simp only [hl] at this; exact this
    | some f => simp only [hl] at this; exact this

theorem flags (ig : List PyStr) (hs : List Header) :
    hs.foldl (flagStep ig) (false, false) = (keepsAlive ig hs, expects ig hs) := by
  have e : flagStep ig = fun (p : Bool × Bool) f => (if saysConnection ig f then contains (lower f.2) (b! "keep-alive") else p.1,
     p.2 || (lower f.1 == b! "expect" && !ignored ig f.1 && contains (lower f.2) (b! "100-continue"))) := by
    funext p f
    unfold flagStep saysConnection
    by_cases h1 : ignored ig f.1 = true
    · simp [h1]
    · have h1' : ignored ig f.1 = false := by simpa using h1
      simp only [h1', Bool.false_eq_true, if_false, Bool.not_false, Bool.and_true]
      by_cases h2 : lower f.1 = b! "expect"
      · simp [h2]
      · by_cases h3 : lower f.1 = b! "connection"
        · simp only [h3, if_true, beq_self_eq_true, Bool.true_and]
          cases contains (lower f.2) (b! "keep-alive") <;> cases contains (lower f.2) (b! "close") <;> simp
        · have h2' : (lower f.1 == b! "expect") = false := by simpa using h2
          have h3' : (lower f.1 == b! "connection") = false := by simpa using h3
          simp only [h2, h3, h2', h3', if_false, Bool.false_and, Bool.false_eq_true, Bool.or_false]
  rw [e, foldl_prod (fun (a : Bool) (f : Header) => if saysConnection ig f then contains (lower f.2) (b! "keep-alive") else a)
    (fun (a : Bool) (f : Header) => a || (lower f.1 == b! "expect" && !ignored ig f.1 && contains (lower f.2) (b! "100-continue"))),
    foldl_last (saysConnection ig)]
  have h2 : ∀ a, hs.foldl (fun (a : Bool) (f : Header) => a || (lower f.1 == b! "expect" && !ignored ig f.1 && contains (lower f.2) (b! "100-continue"))) a =
      (a || expects ig hs) := by
    induction hs with
    | nil => simp [expects]
    | cons f hs ih => intro a; rw [List.foldl_cons, ih]; simp [expects, Bool.or_assoc]
  rw [h2]
  simp only [Bool.false_or, keepsAlive]
  cases (hs.filter (saysConnection ig)).getLast? <;> rfl

end Warc.Http
