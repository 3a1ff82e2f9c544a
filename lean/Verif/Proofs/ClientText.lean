import Verif.Proofs.Client
import Verif.Proofs.HttpHead
import Verif.Proofs.HttpHex
import Verif.Proofs.HttpUrl
import Verif.Proofs.Arc
import Verif.Spec.Client
/-
  The HTTP client on well-formed responses.
-/
set_option linter.all false
namespace Warc
open Rx Stream Spec Http
namespace HttpClient
open World (cfileRemaining cfileRead)

/-- the content file of the record is just before `b`, and that is all there is -/
structure At (w : World) (b : Bytes) : Prop where
  cfile : w.rcd.cfile = .stream
  eoc : w.strm.eoc = some (b.length : Int)
  rest : ∃ more, w.strm.fh.rest = b ++ more

/-- `x` reads from `b`, gives `a` and leaves `b'` -/
def Reads {α : Type} (x : M World α) (b : Bytes) (a : α) (b' : Bytes) : Prop :=
  ∀ w, At w b → ∃ w', x w = .ok a w' ∧ At w' b' ∧ w'.out = w.out

namespace Reads
variable {α β : Type}

theorem pure (a : α) (b : Bytes) : Reads (pure a : M World α) b a b := fun w h => ⟨w, rfl, h, rfl⟩
theorem bind {x : M World α} {f : α → M World β} {b b' b'' : Bytes} {a : α} {d : β} (hx : Reads x b a b') (hf : Reads (f a) b' d b'') :
    Reads (x >>= f) b d b'' := by
  intro w h
  obtain ⟨w1, h1, h2, h3⟩ := hx w h
  obtain ⟨w2, k1, k2, k3⟩ := hf w1 h2
  exact ⟨w2, by rw [M.bind_apply, h1]; exact k1, k2, by rw [k3, h3]⟩
theorem of_eq {x y : M World α} {b b' : Bytes} {a : α} (h : Reads x b a b') (e : y = x) : Reads y b a b' := e ▸ h

end Reads

theorem At.remaining {w : World} {b : Bytes} (h : At w b) : b.length ≤ cfileRemaining w := by
  obtain ⟨more, hr⟩ := h.rest
  simp [cfileRemaining, h.cfile, hr]

theorem take_rest {s : Stream} {b : Bytes} (h : ∃ more, s.fh.rest = b ++ more) : s.fh.rest.take b.length = b ∧ b.length ≤ s.fh.rest.length := by
  obtain ⟨more, hr⟩ := h
  rw [hr]; simp

theorem op_at (op : ReadOp) (w : World) (b : Bytes) (h : At w b) :
    ∃ w', World.onStream op.run w = .ok (op.result b) w' ∧ At w' (b.drop (op.result b).length) ∧ w'.out = w.out := by
  obtain ⟨ht, hl⟩ := take_rest h.rest
  have := op_run op w.strm b.length h.eoc (Or.inl hl)
  rw [ht] at this
  simp only [World.onStream, this]
  refine ⟨_, rfl, ⟨h.cfile, ?_, ?_⟩, rfl⟩
  · simp [Stream.adv]
  · obtain ⟨more, hr⟩ := h.rest
    refine ⟨more, ?_⟩
    have hle := result_length_le op b
    show (w.strm.fh.advance _).rest = _
    rw [← List.drop_append_of_le_length hle, ← hr]
    simp only [File.rest, File.advance, List.drop_drop]

theorem read_at (n : Nat) (b : Bytes) : Reads (cfileRead (some (n : Int))) b (b.take n) (b.drop n) := by
  intro w h
  obtain ⟨w', h1, h2, h3⟩ := op_at (.read (some n)) w b h
  refine ⟨w', ?_, ?_, h3⟩
  · simp only [cfileRead, h.cfile]; exact h1
  · have : b.drop (ReadOp.result (.read (some n)) b).length = b.drop n := by
      simp only [ReadOp.result, List.length_take]
      by_cases hn : n ≤ b.length
      · rw [Nat.min_eq_left hn]
      · rw [Nat.min_eq_right (by omega), List.drop_of_length_le (by omega), List.drop_of_length_le (by omega)]
    rw [← this]; exact h2

theorem fpReadline_at (n : Nat) (b : Bytes) :
    Reads (fpReadline (n : Int)) b ((lineOf b).take n) (b.drop ((lineOf b).take n).length) := by
  intro w h
  obtain ⟨w', h1, h2, h3⟩ := op_at (.readline (some n)) w b h
  exact ⟨w', by simp only [fpReadline, h.cfile]; exact h1, h2, h3⟩

theorem lineOf_append (l m : Bytes) (h : 10 ∉ l) : lineOf (l ++ 10 :: m) = l ++ [10] := by
  induction l with
  | nil => simp [lineOf]
  | cons c l ih =>
    have hc : c ≠ 10 := fun e => h (by simp [e])
    simp [lineOf, hc, ih (fun hh => h (by simp [hh]))]

theorem lineOf_none (l : Bytes) (h : 10 ∉ l) : lineOf l = l := by
  induction l with
  | nil => rfl
  | cons c l ih =>
    have hc : c ≠ 10 := fun e => h (by simp [e])
    simp [lineOf, hc, ih (fun hh => h (by simp [hh]))]

theorem readLine_of (b l m : Bytes) (hb : b = l ++ m) (hl : lineOf b = l) (hs : l.length ≤ 65536) : Reads readLine b l m := by
  have h := fpReadline_at (MAXLINE + 1) b
  have ht : (lineOf b).take (MAXLINE + 1) = l := by
    rw [hl]; exact List.take_of_length_le (by simp only [MAXLINE]; omega)
  rw [ht] at h
  have hd : b.drop l.length = m := by rw [hb]; simp
  rw [hd] at h
  unfold readLine
  refine h.bind ?_
  rw [if_neg (by simp only [MAXLINE]; omega)]
  exact .pure _ _

theorem readLine_line (l m : Bytes) (h : 10 ∉ l) (hs : l.length + 1 ≤ 65536) : Reads readLine (l ++ 10 :: m) (l ++ [10]) m :=
  readLine_of _ _ _ (by simp) (lineOf_append l m h) (by simpa using hs)

theorem readLine_end : Reads readLine [] [] [] := readLine_of [] [] [] rfl rfl (by simp)

/-! ### the head -/

theorem blank_end (more : Bytes) : Reads readLine (CRLF ++ more) CRLF more :=
  readLine_line [13] more (by decide) (by simp)

theorem fieldText_line {f : Header} (h : ClientField f) : ∃ l, fieldText f = l ++ [10] ∧ 10 ∉ l ∧ blank (l ++ [10]) = false := by
  refine ⟨f.1 ++ b! ": " ++ f.2 ++ [13], by simp [fieldText], ?_, ?_⟩
  · have h1 : 10 ∉ f.1 := fun hh => absurd (h.name _ hh).1 (by decide)
    simp [h1, h.oneLine.2]
  · have h0 := h.named
    have hn := h.name
    cases hf : f.1 with
    | nil => exact absurd hf h0
    | cons c cs =>
      have hc := hn c (by rw [hf]; simp)
      have h13 : c ≠ 13 := by rintro rfl; exact absurd hc.1 (by decide)
      have h10 : c ≠ 10 := by rintro rfl; exact absurd hc.1 (by decide)
      simp [blank, h13, h10]

theorem readHeaders_at (hs : List Header) (h : ∀ f ∈ hs, ClientField f) (k : Nat) (hk : hs.length < k) (more : Bytes) :
    Reads (readHeaders k) (fields hs ++ CRLF ++ more) (hs.map fieldText ++ [CRLF]) more := by
  induction hs generalizing k with
  | nil =>
    cases k with
    | zero => simp at hk
    | succ k =>
      have : fields [] ++ CRLF ++ more = CRLF ++ more := by simp [fields]
      rw [this]
      unfold readHeaders
      exact (blank_end more).bind (by rw [if_pos (by decide)]; exact .pure _ _)
  | cons f hs ih =>
    cases k with
    | zero => simp at hk
    | succ k =>
      obtain ⟨l, hl, h10, hb⟩ := fieldText_line (h f (by simp))
      have hsz := (h f (by simp)).short
      have : fields (f :: hs) ++ CRLF ++ more = l ++ 10 :: (fields hs ++ CRLF ++ more) := by
        simp [fields, hl]
      rw [this]
      unfold readHeaders
      refine (readLine_line l _ h10 (by rw [hl] at hsz; simpa using hsz)).bind ?_
      rw [if_neg (by rw [hb]; simp)]
      refine (ih (fun g hg => h g (by simp [hg])) k (by simpa using hk)).bind ?_
      rw [List.map_cons, hl]
      exact .pure _ _

theorem textLines_run (l : Bytes) (h13 : 13 ∉ l) (h10 : 10 ∉ l) (cur rest : Bytes) :
    textLines cur (l ++ rest) = textLines (cur ++ l) rest := by
  induction l generalizing cur with
  | nil => simp
  | cons c l ih =>
    have h1 : c ≠ 13 := fun e => h13 (by simp [e])
    have h2 : c ≠ 10 := fun e => h10 (by simp [e])
    rw [List.cons_append, textLines.eq_def]
    split
    · simp at *
    · rename_i heq; simp only [List.cons.injEq] at heq; exact absurd heq.1 h1
    · rename_i c' r' hne heq
      simp only [List.cons.injEq] at heq
      obtain ⟨rfl, rfl⟩ := heq
      rw [if_neg (by simp [h1, h2]), ih (fun hh => h13 (by simp [hh])) (fun hh => h10 (by simp [hh]))]
      simp

theorem textLines_crlf (cur rest : Bytes) : textLines cur (CRLF ++ rest) = (cur ++ CRLF) :: textLines [] rest := by
  simp [textLines]

theorem textLines_line (l rest : Bytes) (h13 : 13 ∉ l) (h10 : 10 ∉ l) :
    textLines [] (l ++ (CRLF ++ rest)) = (l ++ CRLF) :: textLines [] rest := by
  rw [textLines_run l h13 h10, textLines_crlf]; simp

theorem textLines_fields (hs : List Header) (h : ∀ f ∈ hs, ClientField f) :
    textLines [] (fields hs ++ CRLF) = hs.map fieldText ++ [CRLF] := by
  induction hs with
  | nil => decide
  | cons f hs ih =>
    have hf := h f (by simp)
    have h1 : 13 ∉ f.1 ++ b! ": " ++ f.2 := by
      have : 13 ∉ f.1 := fun hh => absurd (hf.name _ hh).1 (by decide)
      simp [this, hf.oneLine.1]
    have h2 : 10 ∉ f.1 ++ b! ": " ++ f.2 := by
      have : 10 ∉ f.1 := fun hh => absurd (hf.name _ hh).1 (by decide)
      simp [this, hf.oneLine.2]
    have e : fields (f :: hs) ++ CRLF = (f.1 ++ b! ": " ++ f.2) ++ (CRLF ++ (fields hs ++ CRLF)) := by
      simp [fields, fieldText]
    rw [e, textLines_line _ _ h1 h2, ih (fun g hg => h g (by simp [hg]))]
    simp [fieldText]

theorem nameChar_of {c : Byte} (h : 33 ≤ c ∧ c ≤ 126 ∧ c ≠ 58) : nameChar c = true := by
  revert c; intro c
  have : ∀ n : Nat, n < 256 → 33 ≤ UInt8.ofNat n ∧ UInt8.ofNat n ≤ 126 ∧ UInt8.ofNat n ≠ 58 → nameChar (UInt8.ofNat n) = true := by decide +kernel
  have h2 := this c.toNat c.toNat_lt
  simpa using h2

theorem dropWhile_name {f : Header} (h : ClientField f) : (fieldText f).dropWhile nameChar = 58 :: 32 :: (f.2 ++ CRLF) := by
  have : ∀ (n rest : Bytes), (∀ c ∈ n, nameChar c = true) → (n ++ 58 :: rest).dropWhile nameChar = 58 :: rest := by
    intro n rest hn
    induction n with
    | nil => rw [List.nil_append, List.dropWhile_cons_of_neg (by decide)]
    | cons c n ih => rw [List.cons_append, List.dropWhile_cons_of_pos (hn c (by simp)), ih (fun d hd => hn d (by simp [hd]))]
  have e : fieldText f = f.1 ++ 58 :: (32 :: (f.2 ++ CRLF)) := by simp [fieldText]
  rw [e, this _ _ fun c hc => nameChar_of (h.name c hc)]

theorem headerLike_field {f : Header} (h : ClientField f) : headerLike (fieldText f) = true := by
  simp [headerLike, dropWhile_name h]

theorem sourceParse_field {f : Header} (h : ClientField f) : sourceParse [fieldText f] = [f] := by
  have hc : 58 ∉ f.1 := fun hh => (h.name _ hh).2.2 rfl
  have e : fieldText f = f.1 ++ 58 :: (32 :: (f.2 ++ CRLF)) := by simp [fieldText]
  have hs : splitOnce 58 (fieldText f) = some (f.1, 32 :: (f.2 ++ CRLF)) := by
    rw [e]; exact splitOnce_append _ _ hc
  have hd : (32 :: (f.2 ++ CRLF)).dropWhile (fun b => b == 32 || b == 9) = f.2 ++ CRLF := by
    rw [List.dropWhile_cons_of_pos (by decide)]
    cases hv : f.2 with
    | nil => decide
    | cons c v =>
      have := h.valueStart c (by rw [hv]; rfl)
      rw [List.cons_append, List.dropWhile_cons_of_neg (by simp [this])]
  have hr : rstripCRLF (f.2 ++ CRLF) = f.2 := by
    unfold rstripCRLF
    rw [rstripP_append _ _ (by decide)]
    apply rstripP_eq_self
    intro c hc
    have hm := List.mem_of_getLast? hc
    have h13 : c ≠ 13 := by rintro rfl; exact h.oneLine.1 hm
    have h10 : c ≠ 10 := by rintro rfl; exact h.oneLine.2 hm
    simp [h13, h10]
  simp only [sourceParse, hs, List.flatten_nil, List.append_nil, hd, hr]

theorem fieldsOf_fields (hs : List Header) (h : ∀ f ∈ hs, ClientField f) (cur : List Bytes) :
    fieldsOf cur (hs.map fieldText) = sourceParse cur ++ hs := by
  induction hs generalizing cur with
  | nil => simp [fieldsOf]
  | cons f hs ih =>
    have hf := h f (by simp)
    have ihs := ih (fun g hg => h g (by simp [hg])) [fieldText f]
    have e : fieldText f = f.1 ++ 58 :: (32 :: (f.2 ++ CRLF)) := by simp [fieldText]
    have hfrom : startsWith (fieldText f) (b! "From ") = false := by
      rw [Bool.eq_false_iff]
      intro hh
      rw [startsWith, List.isPrefixOf_iff_prefix] at hh
      obtain ⟨t, ht⟩ := hh
      have hdw := dropWhile_name hf
      rw [← ht] at hdw
      have : (b! "From " ++ t).dropWhile nameChar = 32 :: t := by
        show ([70, 114, 111, 109, 32] ++ t : Bytes).dropWhile nameChar = _
        simp [List.dropWhile, nameChar]
      rw [this] at hdw
      simp at hdw
    obtain ⟨c, n, hn⟩ : ∃ c n, f.1 = c :: n := List.exists_cons_of_ne_nil hf.named
    have hc := hf.name c (by rw [hn]; simp)
    have hhead : (fieldText f).head? = some c := by rw [e, hn]; rfl
    have c1 : c ≠ 32 := by rintro rfl; exact absurd hc.1 (by decide)
    have c2 : c ≠ 9 := by rintro rfl; exact absurd hc.1 (by decide)
    rw [List.map_cons, fieldsOf, if_neg (by simp [hhead, c1, c2]), hfrom, if_neg (by simp [hhead, hc.2.2]), ihs, sourceParse_field hf]
    simp

theorem parseFields_fields (hs : List Header) (h : ∀ f ∈ hs, ClientField f) :
    parseFields (hs.map fieldText ++ [CRLF]).flatten = hs := by
  have e : (hs.map fieldText ++ [CRLF]).flatten = fields hs ++ CRLF := by
    simp [fields, List.flatMap_def]
  have ht : (hs.map fieldText ++ [CRLF]).takeWhile headerLike = hs.map fieldText := by
    clear e
    induction hs with
    | nil => decide
    | cons f hs ih =>
      rw [List.map_cons, List.cons_append, List.takeWhile_cons_of_pos (headerLike_field (h f (by simp))), ih (fun g hg => h g (by simp [hg]))]
  rw [parseFields, e, textLines_fields hs h, ht, fieldsOf_fields hs h []]
  rfl

/-! ### the status line -/

theorem plainWs_id (s : Bytes) (h : ∀ c ∈ s, 33 ≤ c ∧ c ≤ 126) : plainWs s = s ∧ ∀ c ∈ s, isWs c = false := by
  have key : ∀ n : Nat, n < 256 → 33 ≤ UInt8.ofNat n ∧ UInt8.ofNat n ≤ 126 → textWs (UInt8.ofNat n) = false ∧ isWs (UInt8.ofNat n) = false := by decide +kernel
  have k : ∀ c : Byte, 33 ≤ c ∧ c ≤ 126 → textWs c = false ∧ isWs c = false := by
    intro c hc
    have := key c.toNat c.toNat_lt
    simp only [UInt8.ofNat_toNat] at this
    exact this hc
  constructor
  · unfold plainWs
    conv => rhs; rw [← List.map_id s]
    apply List.map_congr_left
    intro c hc
    simp [(k c (h c hc)).1]
  · intro c hc; exact (k c (h c hc)).2

theorem decimal_visible (n : Nat) : ∀ c ∈ decimal n, 33 ≤ c ∧ c ≤ 126 := by
  intro c hc
  have := isDigit_range (decimal_digits n c hc)
  constructor
  · rw [UInt8.le_iff_toNat_le]; exact Nat.le_trans (by decide) this.1
  · rw [UInt8.le_iff_toNat_le]; exact Nat.le_trans this.2 (by decide)

theorem splitWsAux_end (w rest cur : Bytes) (c : Byte) (hc : isWs c = true) (h : ∀ c ∈ w, isWs c = false) (hne : cur ++ w ≠ []) :
    splitWsAux (w ++ c :: rest) cur = (cur.reverse ++ w) :: splitWsAux rest [] := by
  induction w generalizing cur with
  | nil =>
    cases cur with
    | nil => simp at hne
    | cons d cur => simp [splitWsAux, hc]
  | cons d w ih =>
    rw [List.cons_append, splitWsAux.eq_def]
    simp only [h d (by simp), Bool.false_eq_true, if_false]
    rw [ih _ (fun x hx => h x (by simp [hx])) (by simp)]
    simp

theorem words_status (v : Bytes) (n : Nat) (p : Bytes) (hv : ∀ c ∈ v, 33 ≤ c ∧ c ≤ 126) (hne : v ≠ []) :
    ∃ more, words (v ++ [32] ++ decimal n ++ [32] ++ p) = v :: decimal n :: more := by
  obtain ⟨v1, v2⟩ := plainWs_id v hv
  obtain ⟨d1, d2⟩ := plainWs_id (decimal n) (decimal_visible n)
  have e : plainWs (v ++ [32] ++ decimal n ++ [32] ++ p) = v ++ 32 :: (decimal n ++ 32 :: plainWs p) := by
    have h32 : plainWs [32] = [32] := by decide
    have ha : ∀ a b, plainWs (a ++ b) = plainWs a ++ plainWs b := by intro a b; simp [plainWs]
    rw [ha, ha, ha, ha, h32, v1, d1]
    simp
  unfold words splitWs
  rw [e, splitWsAux_end _ _ _ _ (by decide) v2 (by simpa using hne), splitWsAux_end _ _ _ _ (by decide) d2 (by simpa using decimal_ne_nil n)]
  exact ⟨_, rfl⟩

theorem readStatus_at {v : Bytes} {n : Nat} {p : Bytes} {hs : List Header} (h : ClientHead v n p hs) (more : Bytes) :
    Reads readStatus ((Start.response v n p).text ++ more) (v, (n : Int)) more := by
  have h10 : 10 ∉ v ++ [32] ++ decimal n ++ [32] ++ p ++ [13] := by
    have h1 : 10 ∉ v := fun hh => absurd (h.version _ hh).1 (by decide)
    simp [h1, h.phrase, decimal_noLF]
  have e : (Start.response v n p).text ++ more = (v ++ [32] ++ decimal n ++ [32] ++ p ++ [13]) ++ 10 :: more := by
    simp [Start.text]
  have hs := h.short
  have e2 : (Start.response v n p).text = (v ++ [32] ++ decimal n ++ [32] ++ p ++ [13]) ++ [10] := by simp [Start.text]
  have hne : v ≠ [] := by rintro rfl; exact absurd h.http (by decide)
  unfold readStatus
  rw [e]
  refine (readLine_line _ _ h10 (by rw [e2, List.length_append] at hs; exact hs)).bind ?_
  rw [if_neg (by simp)]
  obtain ⟨mw, hw⟩ := words_status v n (p ++ [13] ++ [10]) h.version hne
  have e3 : (v ++ [32] ++ decimal n ++ [32] ++ p ++ [13]) ++ [10] = v ++ [32] ++ decimal n ++ [32] ++ (p ++ [13] ++ [10]) := by simp
  rw [e3, hw]
  have hp : startsWith v (b! "HTTP/") = true := by rw [startsWith, List.isPrefixOf_iff_prefix]; exact h.http
  have hc := h.code
  simp only [hp, if_true, pyInt_decimal]
  rw [if_neg (by omega)]
  exact .pure _ _

theorem skipInterim_at (is : List Interim) (his : SkippedOk is) {v : Bytes} {n : Nat} {p : Bytes} {hs : List Header}
    (h : ClientHead v n p hs) (hn : n ≠ 100) (more : Bytes) (fuel : Nat) (hf : is.length < fuel) :
    Reads (skipInterim fuel) (is.flatMap Interim.text ++ ((Start.response v n p).text ++ more)) (v, (n : Int)) more := by
  induction is generalizing fuel with
  | nil =>
    cases fuel with
    | zero => omega
    | succ fuel =>
      rw [List.flatMap_nil, List.nil_append]
      unfold skipInterim
      refine (readStatus_at h more).bind ?_
      rw [if_neg (by show ¬ (n : Int) = 100; omega)]
      exact .pure _ _
  | cons i is ih =>
    cases fuel with
    | zero => omega
    | succ fuel =>
      have hi := his i (by simp)
      have e : (i :: is).flatMap Interim.text ++ ((Start.response v n p).text ++ more) =
          (Start.response i.version 100 i.phrase).text ++ (fields i.fields ++ CRLF ++
            (is.flatMap Interim.text ++ ((Start.response v n p).text ++ more))) := by
        simp [Interim.text, headText]
      rw [e]
      unfold skipInterim
      refine (readStatus_at hi _).bind ?_
      rw [if_pos (by rfl)]
      refine (readHeaders_at _ hi.fields MAXHEADERS (by have := hi.few; simp only [MAXHEADERS]; omega) _).bind ?_
      exact ih (fun j hj => his j (by simp [hj])) fuel (by simpa using hf)

theorem interim_length (is : List Interim) : is.length ≤ (is.flatMap Interim.text).length := by
  induction is with
  | nil => simp
  | cons i is ih =>
    have : 1 ≤ i.text.length := by simp [Interim.text, headText, Start.text]; omega
    simp only [List.flatMap_cons, List.length_append, List.length_cons]; omega

theorem begin_at (is : List Interim) (his : SkippedOk is) {v : Bytes} {n : Nat} {p : Bytes} {hs : List Header}
    (h : ClientHead v n p hs) (hv : KnownVersion v) (hn : n ≠ 100) (b : Bytes) :
    Reads begin (is.flatMap Interim.text ++ headText (.response v n p) hs ++ b) (respOf (n : Int) hs) b := by
  have e : is.flatMap Interim.text ++ headText (.response v n p) hs ++ b =
      is.flatMap Interim.text ++ ((Start.response v n p).text ++ (fields hs ++ CRLF ++ b)) := by simp [headText]
  rw [e]
  intro w hw
  have hfuel : is.length < cfileRemaining w + 2 := by
    have h1 := hw.remaining
    have h2 := interim_length is
    rw [List.length_append] at h1
    omega
  refine Reads.bind (f := fun s => if s.1 = b! "HTTP/1.0" ∨ s.1 = b! "HTTP/0.9" ∨ startsWith s.1 (b! "HTTP/1.") then do
      let lines ← readHeaders MAXHEADERS
      pure (respOf s.2 (parseFields lines.flatten))
    else M.throw (.httpException "unknown protocol")) (skipInterim_at is his h hn _ _ hfuel) ?_ w hw
  have hver : v = b! "HTTP/1.0" ∨ v = b! "HTTP/0.9" ∨ startsWith v (b! "HTTP/1.") = true := by
    rcases hv with hv | hv
    · exact Or.inr (Or.inl hv)
    · exact Or.inr (Or.inr (by rw [startsWith, List.isPrefixOf_iff_prefix]; exact hv))
  rw [if_pos hver]
  refine (readHeaders_at _ h.fields MAXHEADERS (by have := h.few; simp only [MAXHEADERS]; omega) _).bind ?_
  rw [parseFields_fields hs h.fields]
  exact .pure _ _

end HttpClient
end Warc
