import Verif.Spec.S3
import Verif.Proofs.Bytes
/-
  C53, C59: range requests and listings of s3 names.
-/
set_option linter.all false
namespace Warc
open S3 Spec.S3

theorem splitOnce_here (sep : Byte) (a b : Bytes) (h : sep ∉ a) : splitOnce sep (a ++ sep :: b) = some (a, b) := by
  induction a with
  | nil => simp [splitOnce]
  | cons x a ih =>
    have hx : x ≠ sep := by rintro rfl; simp at h
    rw [List.cons_append, splitOnce, ih (by intro hm; exact h (by simp [hm]))]
    simp [hx]

theorem no_dash (n : Nat) : (45 : Byte) ∉ decimal n := by
  intro h
  have := decimal_digits n 45 h
  revert this; decide

/-- **C53** (defect) With offset and length the request asks for one byte more than `length`: the end of a range is inclusive
and `open_url` passes `offset + length`. -/
theorem C53_range (obj : Bytes) (o l : Nat) (h : o < obj.length) :
    asked (rangeHeader (some o) (some l)) obj = some ((obj.drop o).take (l + 1)) := by
  have e : (b! "bytes=" ++ decimal o ++ b! "-" ++ decimal (o + l) : Bytes) =
      b! "bytes=" ++ (decimal o ++ 45 :: decimal (o + l)) := by simp
  simp only [rangeHeader, asked]
  rw [e, if_pos (by simp [startsWith])]
  have : (b! "bytes=" ++ (decimal o ++ 45 :: decimal (o + l)) : Bytes).drop 6 = decimal o ++ 45 :: decimal (o + l) := rfl
  rw [this, splitOnce_here _ _ _ (no_dash o)]
  simp only [pyInt_decimal]
  show (if obj.length ≤ o then none else _) = _
  rw [if_neg (by omega), if_neg (decimal_ne_nil _)]
  show (if o ≤ o + l then some ((obj.drop o).take (o + l + 1 - o)) else none) = _
  rw [if_pos (by omega)]
  congr 2
  omega

/-- so the reply is never the requested bytes, except when the object ends there -/
theorem C53_one_too_many (obj : Bytes) (o l : Nat) (h : o < obj.length) :
    asked (rangeHeader (some o) (some l)) obj = some ((obj.drop o).take l) ↔ obj.length ≤ o + l := by
  rw [C53_range obj o l h]
  constructor
  · intro e
    have := congrArg List.length (Option.some.inj e)
    simp at this
    omega
  · intro hl
    rw [List.take_of_length_le (by simp; omega), List.take_of_length_le (by simp; omega)]

/-- **C53** With an offset only, or without offset, exactly the bytes from there on are asked for. -/
theorem C53_from (obj : Bytes) (o : Nat) (h : o < obj.length) (l : Option Nat) :
    asked (rangeHeader (some o) none) obj = some (obj.drop o) ∧ asked (rangeHeader none l) obj = some obj := by
  refine ⟨?_, by cases l <;> rfl⟩
  have e : (b! "bytes=" ++ decimal o ++ b! "-" : Bytes) = b! "bytes=" ++ (decimal o ++ 45 :: []) := by simp
  simp only [rangeHeader, asked]
  rw [e, if_pos (by simp [startsWith])]
  have : (b! "bytes=" ++ (decimal o ++ 45 :: []) : Bytes).drop 6 = decimal o ++ 45 :: [] := rfl
  rw [this, splitOnce_here _ _ _ (no_dash o)]
  simp only [pyInt_decimal]
  show (if obj.length ≤ o then none else _) = _
  rw [if_neg (by omega)]
  rfl

theorem before_all (p : Byte → Bool) (a b : Bytes) (h : ∀ c ∈ a, p c = false) (hb : b = [] ∨ ∃ x t, b = x :: t ∧ p x = true) :
    before p (a ++ b) = a := by
  unfold before
  induction a with
  | nil =>
    rcases hb with rfl | ⟨x, t, rfl, hx⟩
    · rfl
    · simp [hx]
  | cons y a ih =>
    rw [List.cons_append, List.takeWhile_cons, if_pos (by simp [h y (by simp)]), ih (fun c hc => h c (by simp [hc]))]

/-- `s3://bucket/key` -/
def s3name (bucket key : Bytes) : Bytes := b! "s3://" ++ bucket ++ b! "/" ++ key

theorem urlparse_name (bucket key : Bytes) (hb : ∀ c ∈ bucket, c ≠ 47 ∧ c ≠ 63 ∧ c ≠ 35) (hk : ∀ c ∈ key, c ≠ 63 ∧ c ≠ 35) :
    urlparse (s3name bucket key) = (bucket, 47 :: key) := by
  have e : (s3name bucket key).drop 5 = bucket ++ 47 :: key := by simp [s3name]
  simp only [urlparse, e]
  have h1 : before (fun c => c == 47 || c == 63 || c == 35) (bucket ++ 47 :: key) = bucket :=
    before_all _ _ _ (fun c hc => by simp [hb c hc]) (Or.inr ⟨47, key, rfl, by decide⟩)
  rw [h1, List.drop_left]
  have h2 : before (· == 35) (47 :: key) = 47 :: key := by
    have := before_all (· == 35) (47 :: key) [] (fun c hc => by
      rcases List.mem_cons.1 hc with rfl | hc
      · decide
      · simp [hk c hc]) (Or.inl rfl)
    rwa [List.append_nil] at this
  rw [h2]
  have h3 : before (· == 63) (47 :: key) = 47 :: key := by
    have := before_all (· == 63) (47 :: key) [] (fun c hc => by
      rcases List.mem_cons.1 hc with rfl | hc
      · decide
      · simp [hk c hc]) (Or.inl rfl)
    rwa [List.append_nil] at this
  rw [h3]

/-- **C53** (defect) Whatever the server sends, unless it sends nothing, opening an s3 url raises TypeError: the bytes are
written to a text file (`io.StringIO`). -/
theorem C53_always_raises (acc : Account) (url : Bytes) (o l : Option Nat) (obj : Bytes) :
    openUrl acc url o l = .ok obj → obj = [] := by
  intro h
  unfold openUrl at h
  simp only at h
  cases h1 : acc (urlparse url).1 with
  | none => simp [h1] at h
  | some b =>
    simp only [h1] at h
    cases h2 : b.fetch ((urlparse url).2.drop 1) (rangeHeader o l) with
    | error e => rw [h2] at h; cases h
    | ok ps =>
      simp only [h2] at h
      cases ps with
      | nil => simpa [writePieces] using h.symm
      | cons p ps => simp [writePieces] at h

/-- **C53** For names without `?` and `#` the request goes to the right bucket and key: if the server has something to send, the
outcome is the TypeError; if it refuses, its exception. -/
theorem C53_request (acc : Account) (bucket key : Bytes) (b : Bucket) (hacc : acc bucket = some b)
    (hb : ∀ c ∈ bucket, c ≠ 47 ∧ c ≠ 63 ∧ c ≠ 35) (hk : ∀ c ∈ key, c ≠ 63 ∧ c ≠ 35) (o l : Option Nat) :
    (∀ p ps, b.fetch key (rangeHeader o l) = .ok (p :: ps) → openUrl acc (s3name bucket key) o l = .error .typeError) ∧
    (∀ e, b.fetch key (rangeHeader o l) = .error e → openUrl acc (s3name bucket key) o l = .error e) := by
  have hd : (47 :: key).drop 1 = key := rfl
  constructor
  · intro p ps h
    simp only [openUrl, urlparse_name bucket key hb hk, hacc, hd, h, writePieces]
  · intro e h
    simp only [openUrl, urlparse_name bucket key hb hk, hacc, hd, h]

/-! ### C59 -/

theorem filter_sorted (A B : List Bytes) (x : Bytes) (h : (A ++ x :: B).Pairwise (· < ·)) :
    (A ++ x :: B).filter (fun k => decide (x < k)) = B := by
  rw [List.pairwise_append] at h
  obtain ⟨_, h2, h3⟩ := h
  rw [List.pairwise_cons] at h2
  rw [List.filter_append, List.filter_cons, if_neg (by simp [List.lt_irrefl])]
  have e1 : A.filter (fun k => decide (x < k)) = [] := by
    rw [List.filter_eq_nil_iff]
    intro k hk
    have := h3 k hk x (by simp)
    simpa using List.lt_asymm this
  have e2 : B.filter (fun k => decide (x < k)) = B := by
    rw [List.filter_eq_self]
    intro k hk
    simpa using h2.1 k hk
  rw [e1, e2, List.nil_append]

theorem filter_after (ks : List Bytes) (hs : ks.Pairwise (· < ·)) (q : Bytes → Bool) (m : Bytes) (n : Nat) (hn : 1 ≤ n)
    (hlen : n < (ks.filter fun k => q k && decide (m < k)).length) :
    (ks.filter fun k => q k && decide (((ks.filter fun k => q k && decide (m < k)).take n).getLastD m < k)) =
      (ks.filter fun k => q k && decide (m < k)).drop n := by
  generalize hd : (ks.filter fun k => q k && decide (m < k)) = due at *
  have hsd : due.Pairwise (· < ·) := by rw [← hd]; exact hs.filter _
  rcases List.eq_nil_or_concat (due.take n) with he | ⟨A, x, he⟩
  · have := congrArg List.length he
    simp at this
    rcases this with h | h
    · omega
    · rw [h] at hlen; simp at hlen
  · rw [List.concat_eq_append] at he
    have hdue : due = A ++ x :: due.drop n := by
      conv => lhs; rw [← List.take_append_drop n due, he]
      simp
    rw [he, List.getLastD_concat]
    have hx : x ∈ due := by rw [hdue]; simp
    have hmx : m < x := by
      rw [← hd] at hx
      have := (List.mem_filter.1 hx).2
      simp at this
      exact this.2
    have e : (ks.filter fun k => q k && decide (x < k)) = due.filter fun k => decide (x < k) := by
      rw [← hd, List.filter_filter]
      apply List.filter_congr
      intro k _
      by_cases hk : x < k
      · simp [hk, List.lt_trans hmx hk]
      · simp [hk]
    rw [e]
    have h4 := filter_sorted A (due.drop n) x (by rw [← hdue]; exact hsd)
    rw [← hdue] at h4
    exact h4

theorem listLoop_all (bucket : Bytes) (b : Bucket) (ks : List Bytes) (hl : Lists b ks) (hs : ks.Pairwise (· < ·)) (pre : Bytes)
    (fuel : Nat) (marker : Bytes) (hf : (ks.filter fun k => startsWith k pre && decide (marker < k)).length < fuel) :
    listLoop bucket b pre fuel marker =
      ⟨(ks.filter fun k => startsWith k pre && decide (marker < k)).map (s3name bucket), some none⟩ := by
  induction fuel generalizing marker with
  | zero => omega
  | succ fuel ih =>
    obtain ⟨n, hn, hp⟩ := hl pre marker
    simp only at hp
    rw [listLoop, hp]
    by_cases ht : n < (ks.filter fun k => startsWith k pre && decide (marker < k)).length
    · have key := filter_after ks hs (fun k => startsWith k pre) marker n hn ht
      simp only [ht, decide_true, if_true]
      rw [ih _ (by rw [key, List.length_drop]; omega), key]
      simp only [Yield.mk.injEq, and_true]
      show ((ks.filter _).take n).map (s3name bucket) ++ _ = _
      rw [← List.map_append, List.take_append_drop]
    · simp only [ht, decide_false, Bool.false_eq_true, if_false]
      rw [List.take_of_length_le (by omega)]
      rfl

/-- **C59** Listing `s3://bucket/prefix` yields the name of every key with that prefix exactly once, in order, however the
server divides the listing into pages. -/
theorem C59_list (acc : Account) (bucket pre : Bytes) (b : Bucket) (hacc : acc bucket = some b)
    (ks : List Bytes) (hl : Lists b ks) (hs : ks.Pairwise (· < ·)) (hne : [] ∉ ks)
    (hb : ∀ c ∈ bucket, c ≠ 47 ∧ c ≠ 63 ∧ c ≠ 35) (hp : ∀ c ∈ pre, c ≠ 63 ∧ c ≠ 35) (fuel : Nat) (hf : ks.length < fuel) :
    listFiles acc fuel (s3name bucket pre) = ⟨(ks.filter (startsWith · pre)).map (s3name bucket), some none⟩ := by
  have hd : (47 :: pre).drop 1 = pre := rfl
  have hfil : (ks.filter fun k => startsWith k pre && decide ([] < k)) = ks.filter (startsWith · pre) := by
    apply List.filter_congr
    intro k hk
    cases k with
    | nil => exact absurd hk hne
    | cons x k => simp
  simp only [listFiles, urlparse_name bucket pre hb hp, hacc, hd]
  rw [listLoop_all bucket b ks hl hs pre fuel [] (by
    have := List.length_filter_le (fun k => startsWith k pre && decide ([] < k)) ks
    omega), hfil]

/-- **C59** Names that do not start with `s3:` are passed on unchanged, in order; each `s3://bucket/prefix` is replaced by
its listing. -/
theorem C59_expand (acc : Account) (fuel : Nat) (files : List Bytes) (listing : Bytes → List Bytes)
    (h : ∀ f ∈ files, startsWith f (b! "s3:") = true → listFiles acc fuel f = ⟨listing f, some none⟩) :
    expandFiles acc fuel files = ⟨files.flatMap fun f => if startsWith f (b! "s3:") then listing f else [f], some none⟩ := by
  induction files with
  | nil => rfl
  | cons f fs ih =>
    simp only [expandFiles]
    by_cases hf : startsWith f (b! "s3:") = true
    · simp only [hf, if_true, h f (by simp) hf, ih (fun x hx => h x (by simp [hx])), List.flatMap_cons]
    · simp only [hf, if_false, ih (fun x hx => h x (by simp [hx])), List.flatMap_cons]
      rfl

/-- **C59** The names listed lead back to the keys they were made from, so listing and opening fit together. -/
theorem C59_names_back (bucket key : Bytes) (hb : ∀ c ∈ bucket, c ≠ 47 ∧ c ≠ 63 ∧ c ≠ 35) (hk : ∀ c ∈ key, c ≠ 63 ∧ c ≠ 35) :
    urlparse (s3name bucket key) = (bucket, 47 :: key) := urlparse_name bucket key hb hk

/-- **C59** (defect) A key with a question mark is listed under a name that leads to another key. -/
theorem C59_question_mark (bucket a c : Bytes) (hb : ∀ c ∈ bucket, c ≠ 47 ∧ c ≠ 63 ∧ c ≠ 35) (ha : ∀ c ∈ a, c ≠ 63 ∧ c ≠ 35)
    (hc : 35 ∉ c) : urlparse (s3name bucket (a ++ 63 :: c)) = (bucket, 47 :: a) := by
  have e : (s3name bucket (a ++ 63 :: c)).drop 5 = bucket ++ 47 :: (a ++ 63 :: c) := by simp [s3name]
  simp only [urlparse, e]
  have h1 : before (fun c => c == 47 || c == 63 || c == 35) (bucket ++ 47 :: (a ++ 63 :: c)) = bucket :=
    before_all _ _ _ (fun c hc => by simp [hb c hc]) (Or.inr ⟨47, _, rfl, by decide⟩)
  rw [h1, List.drop_left]
  have h2 : before (· == 35) (47 :: (a ++ 63 :: c)) = 47 :: (a ++ 63 :: c) := by
    have := before_all (· == 35) (47 :: (a ++ 63 :: c)) [] (fun x hx => by
      simp only [List.mem_cons, List.mem_append] at hx
      rcases hx with rfl | hx | rfl | hx
      · decide
      · simp [ha x hx]
      · decide
      · have : x ≠ 35 := by rintro rfl; exact hc hx
        simp [this]) (Or.inl rfl)
    rwa [List.append_nil] at this
  rw [h2]
  have h3 : before (· == 63) ((47 :: a) ++ 63 :: c) = 47 :: a :=
    before_all _ _ _ (fun x hx => by
      rcases List.mem_cons.1 hx with rfl | hx
      · decide
      · simp [ha x hx]) (Or.inr ⟨63, c, rfl, by decide⟩)
  rw [List.cons_append] at h3
  rw [h3]

/-! a bucket with three keys, listed one by one -/

def demoKeys : List Bytes := [b! "a/1.warc", b! "a/2.warc.gz", b! "b/1.warc"]

def demoBucket : Bucket where
  page pre marker :=
    let due := demoKeys.filter fun k => startsWith k pre && decide (marker < k)
    (due.take 1, decide (1 < due.length))
  fetch key _ := if key ∈ demoKeys then .ok [key] else .error (.generic "404")

theorem demoBucket_lists : Lists demoBucket demoKeys := fun pre marker => ⟨1, by decide, rfl⟩

def demoAccount : Account := fun n => if n = b! "crawl" then some demoBucket else none

example : listFiles demoAccount 4 (b! "s3://crawl/a/") = ⟨[b! "s3://crawl/a/1.warc", b! "s3://crawl/a/2.warc.gz"], some none⟩ :=
  C59_list demoAccount (b! "crawl") (b! "a/") demoBucket rfl demoKeys demoBucket_lists (by decide) (by decide) (by decide)
    (by decide) 4 (by decide)

example : (expandFiles demoAccount 4 [b! "x.warc", b! "s3://crawl/b"]).names = [b! "x.warc", b! "s3://crawl/b/1.warc"] := by
  decide +kernel

example : openUrl demoAccount (b! "s3://crawl/a/1.warc") none none = .error .typeError :=
  (C53_request demoAccount (b! "crawl") (b! "a/1.warc") demoBucket rfl (by decide) (by decide) none none).1 _ [] rfl

/-- ten bytes from position 2: eleven are asked for -/
example : rangeHeader (some 2) (some 10) = some (b! "bytes=2-12") := by decide

end Warc
