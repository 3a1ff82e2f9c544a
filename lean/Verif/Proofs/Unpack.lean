import Verif.Spec.Unpack
/-
  Proofs about `output_file` of warcunpack_ia.
-/
set_option linter.all false
namespace Warc
namespace Unpack
open Spec

theorem splitSlash_ne_nil (t : Text) : splitSlash t ≠ [] := by
  cases t with
  | nil => simp [splitSlash]
  | cons c cs =>
    simp only [splitSlash]
    by_cases h : c = '/'
    · rw [if_pos h]; simp
    · rw [if_neg h]
      cases splitSlash cs <;> simp

theorem splitSlash_cons {c : Char} (h : c ≠ '/') (cs : Text) :
    ∃ p ps, splitSlash cs = p :: ps ∧ splitSlash (c :: cs) = (c :: p) :: ps := by
  cases hh : splitSlash cs with
  | nil => exact absurd hh (splitSlash_ne_nil cs)
  | cons p ps => exact ⟨p, ps, rfl, by simp only [splitSlash, if_neg h, hh]⟩

theorem splitSlash_append (p t : Text) : splitSlash (p ++ '/' :: t) = splitSlash p ++ splitSlash t := by
  induction p with
  | nil => simp [splitSlash]
  | cons c p ih =>
    by_cases h : c = '/'
    · subst h; simp [splitSlash, ih]
    · obtain ⟨a, as, e1, e2⟩ := splitSlash_cons h p
      obtain ⟨b, bs, e3, e4⟩ := splitSlash_cons h (p ++ '/' :: t)
      rw [ih, e1, List.cons_append] at e3
      obtain ⟨rfl, rfl⟩ := List.cons.inj e3
      rw [List.cons_append, e4, e2]; rfl

theorem splitSlash_single {c : Text} (h : '/' ∉ c) : splitSlash c = [c] := by
  induction c with
  | nil => rfl
  | cons x c ih =>
    simp only [List.mem_cons, not_or] at h
    obtain ⟨a, as, e1, e2⟩ := splitSlash_cons (Ne.symm h.1) c
    rw [ih h.2] at e1
    obtain ⟨rfl, rfl⟩ := List.cons.inj e1
    exact e2

theorem splitSlash_noSlash (t : Text) : ∀ p ∈ splitSlash t, '/' ∉ p := by
  induction t with
  | nil => intro p hp; simp [splitSlash] at hp; subst hp; simp
  | cons c t ih =>
    intro p hp
    by_cases h : c = '/'
    · subst h
      simp only [splitSlash, if_true, List.mem_cons] at hp
      rcases hp with rfl | hp
      · simp
      · exact ih p hp
    · obtain ⟨a, as, e1, e2⟩ := splitSlash_cons h t
      rw [e2] at hp
      simp only [List.mem_cons] at hp
      rcases hp with rfl | hp
      · simp only [List.mem_cons, not_or]
        exact ⟨Ne.symm h, ih _ (by rw [e1]; simp)⟩
      · exact ih p (by rw [e1]; simp [hp])

/-- go through the components of a path with a function that ignores empty ones -/
def go {α : Type} (f : α → Text → α) (s : α) (p : Text) : α := (splitSlash p).foldl f s

variable {α : Type} {f : α → Text → α}

theorem go_append (s : α) (p t : Text) : go f s (p ++ '/' :: t) = go f (go f s p) t := by
  simp only [go, splitSlash_append, List.foldl_append]

theorem go_single (s : α) {c : Text} (h : '/' ∉ c) : go f s c = f s c := by
  simp only [go, splitSlash_single h, List.foldl_cons, List.foldl_nil]

theorem go_joinSlash (hf : ∀ s, f s [] = s) (s : α) {cs : List Text} (h : ∀ c ∈ cs, '/' ∉ c) : go f s (joinSlash cs) = cs.foldl f s := by
  induction cs generalizing s with
  | nil => show f s [] = s; exact hf s
  | cons c cs ih =>
    cases cs with
    | nil => exact go_single s (h c (by simp))
    | cons d cs =>
      show go f s (c ++ '/' :: joinSlash (d :: cs)) = _
      rw [go_append, go_single s (h c (by simp)), ih _ (fun x hx => h x (by simp [hx]))]
      rfl

theorem walk_nil (s : List Text) : walk s [] = s := by simp [walk]

theorem normStep_nil (b : Bool) (s : List Text) : normStep b s [] = s := by simp [normStep]

theorem head?_noSlash {b : Text} (h : '/' ∉ b) : b.head? ≠ some '/' := by
  cases b with
  | nil => simp
  | cons x b => simp only [List.head?_cons, ne_eq, Option.some.injEq]; rintro rfl; exact h (by simp)

theorem go_join (hf : ∀ s, f s [] = s) (s : α) (a : Text) {b : Text} (h : '/' ∉ b) : go f s (join a b) = f (go f s a) b := by
  unfold join
  rw [if_neg (head?_noSlash h)]
  by_cases h1 : a = []
  · subst h1
    rw [if_pos (Or.inl rfl)]
    show go f s b = f (f s []) b
    rw [hf, go_single s h]
  · by_cases h2 : a.getLast? = some '/'
    · rw [if_pos (Or.inr h2)]
      obtain ⟨a', rfl⟩ : ∃ a', a = a' ++ ['/'] := List.getLast?_eq_some_iff.mp h2
      rw [List.append_assoc]
      show go f s (a' ++ '/' :: b) = _
      rw [go_append, go_single _ h, go_append]
      show _ = f (f _ []) b
      rw [hf]
    · rw [if_neg (by rintro (h | h); exact h1 h; exact h2 h), go_append, go_single _ h]

theorem head?_join (a : Text) {b : Text} (h : '/' ∉ b) : ((join a b).head? = some '/') ↔ (a.head? = some '/') := by
  unfold join
  rw [if_neg (head?_noSlash h)]
  cases a with
  | nil => simp [head?_noSlash h]
  | cons x a =>
    by_cases h2 : (x :: a) = [] ∨ (x :: a).getLast? = some '/'
    · rw [if_pos h2]; simp
    · rw [if_neg h2]; simp

theorem join_ne_nil (a : Text) {b : Text} (hb : b ≠ []) : join a b ≠ [] := by
  unfold join
  by_cases h : b.head? = some '/'
  · rw [if_pos h]; exact hb
  · rw [if_neg h]
    by_cases h2 : a = [] ∨ a.getLast? = some '/'
    · rw [if_pos h2]; simp [hb]
    · rw [if_neg h2]; simp

theorem resolve_eq (cwd : List Text) (p : Text) : resolve cwd p = go walk (if p.head? = some '/' then [] else cwd) p := rfl

theorem resolve_join (cwd : List Text) (a : Text) {b : Text} (h : '/' ∉ b) : resolve cwd (join a b) = walk (resolve cwd a) b := by
  rw [resolve_eq, resolve_eq, go_join walk_nil _ _ h]
  simp only [head?_join a h]

theorem normStack_join (a : Text) {b : Text} (h : '/' ∉ b) :
    normStack (join a b) = normStep (a.head? = some '/') (normStack a) b := by
  show go (normStep (decide ((join a b).head? = some '/'))) [] (join a b) = normStep _ (go (normStep (decide (a.head? = some '/'))) [] a) b
  have : decide ((join a b).head? = some '/') = decide (a.head? = some '/') := by
    simp only [decide_eq_decide]; exact head?_join a h
  rw [this, go_join (normStep_nil _) _ _ h]

theorem joinAll_snoc (out : Text) (ds : List Text) (d : Text) : joinAll (out :: (ds ++ [d])) = join (joinAll (out :: ds)) d := by
  simp [joinAll]

/-- induct on a list from the end -/
theorem snoc_ind {β : Type} {P : List β → Prop} (h0 : P []) (h1 : ∀ l x, P l → P (l ++ [x])) (l : List β) : P l := by
  have : ∀ l : List β, P l.reverse := by
    intro l
    induction l with
    | nil => exact h0
    | cons x l ih => rw [List.reverse_cons]; exact h1 _ _ ih
  have h := this l.reverse
  rwa [List.reverse_reverse] at h

theorem resolve_joinAll (cwd : List Text) (out : Text) (ds : List Text) (h : ∀ d ∈ ds, '/' ∉ d) :
    resolve cwd (joinAll (out :: ds)) = ds.foldl walk (resolve cwd out) := by
  induction ds using snoc_ind with
  | h0 => rfl
  | h1 ds d ih =>
    rw [joinAll_snoc, resolve_join cwd _ (h d (by simp)), ih (fun x hx => h x (by simp [hx])), List.foldl_append]
    rfl

theorem head?_joinAll (out : Text) (ds : List Text) (h : ∀ d ∈ ds, '/' ∉ d) :
    ((joinAll (out :: ds)).head? = some '/') ↔ (out.head? = some '/') := by
  induction ds using snoc_ind with
  | h0 => rfl
  | h1 ds d ih =>
    rw [joinAll_snoc, head?_join _ (h d (by simp)), ih (fun x hx => h x (by simp [hx]))]

theorem normStack_joinAll (out : Text) (ds : List Text) (h : ∀ d ∈ ds, '/' ∉ d) :
    normStack (joinAll (out :: ds)) = ds.foldl (normStep (out.head? = some '/')) (normStack out) := by
  induction ds using snoc_ind with
  | h0 => rfl
  | h1 ds d ih =>
    have e : decide ((joinAll (out :: ds)).head? = some '/') = decide (out.head? = some '/') := by
      simp only [decide_eq_decide]; exact head?_joinAll out ds (fun x hx => h x (by simp [hx]))
    rw [joinAll_snoc, normStack_join _ (h d (by simp)), e, ih (fun x hx => h x (by simp [hx])), List.foldl_append]
    rfl

theorem slashes_join (a : Text) {b : Text} (h : '/' ∉ b) : slashes (join a b) = slashes a := by
  have hb := head?_noSlash h
  unfold join
  rw [if_neg hb]
  cases a with
  | nil =>
    simp only [true_or, if_true, List.nil_append]
    cases b with
    | nil => rfl
    | cons x b =>
      have hx : x ≠ '/' := by intro hx; apply hb; simp [hx]
      unfold slashes
      split <;> simp_all
  | cons x a =>
    by_cases hx : x = '/'
    · subst hx
      cases a with
      | nil =>
        have e : (['/'] : Text) = [] ∨ (['/'] : Text).getLast? = some '/' := Or.inr rfl
        rw [if_pos e]
        cases b with
        | nil => rfl
        | cons y b =>
          have hy : y ≠ '/' := by intro hx; apply hb; simp [hx]
          simp only [List.cons_append, List.nil_append]
          unfold slashes
          split <;> simp_all
      | cons y a =>
        by_cases hy : y = '/'
        · subst hy
          cases a with
          | nil =>
            have e : (['/', '/'] : Text) = [] ∨ (['/', '/'] : Text).getLast? = some '/' := Or.inr rfl
            rw [if_pos e]
            cases b with
            | nil => rfl
            | cons z b =>
              have hz : z ≠ '/' := by intro hx; apply hb; simp [hx]
              simp [slashes, hz]
          | cons z a =>
            by_cases h2 : ('/' :: '/' :: z :: a : Text) = [] ∨ ('/' :: '/' :: z :: a : Text).getLast? = some '/'
            · rw [if_pos h2]; simp [slashes]
            · rw [if_neg h2]; simp [slashes]
        · by_cases h2 : ('/' :: y :: a : Text) = [] ∨ ('/' :: y :: a : Text).getLast? = some '/'
          · rw [if_pos h2]
            simp only [List.cons_append]
            unfold slashes
            split <;> simp_all
          · rw [if_neg h2]
            simp only [List.cons_append]
            unfold slashes
            split <;> simp_all
    · by_cases h2 : (x :: a : Text) = [] ∨ (x :: a : Text).getLast? = some '/'
      · rw [if_pos h2]
        simp only [List.cons_append]
        unfold slashes
        split <;> simp_all
      · rw [if_neg h2]
        simp only [List.cons_append]
        unfold slashes
        split <;> simp_all

theorem slashes_joinAll (out : Text) (ds : List Text) (h : ∀ d ∈ ds, '/' ∉ d) : slashes (joinAll (out :: ds)) = slashes out := by
  induction ds using snoc_ind with
  | h0 => rfl
  | h1 ds d ih => rw [joinAll_snoc, slashes_join _ (h d (by simp)), ih (fun x hx => h x (by simp [hx]))]

theorem slashes_cases (p : Text) : (p.head? = some '/' ∧ (slashes p = ['/'] ∨ slashes p = ['/', '/'])) ∨ (p.head? ≠ some '/' ∧ slashes p = []) := by
  cases p with
  | nil => right; exact ⟨by simp, rfl⟩
  | cons x p =>
    by_cases hx : x = '/'
    · subst hx
      left
      refine ⟨rfl, ?_⟩
      cases p with
      | nil => left; rfl
      | cons y p =>
        by_cases hy : y = '/'
        · subst hy
          cases p with
          | nil => right; rfl
          | cons z p =>
            by_cases hz : z = '/'
            · left; simp [slashes, hz]
            · right; simp [slashes, hz]
        · left
          unfold slashes
          split <;> simp_all
    · right
      refine ⟨by simp [hx], ?_⟩
      unfold slashes
      split <;> simp_all

/-- what the loop of `normpath` has collected leads to the same place -/
theorem walk_normStep (abs : Bool) (base : List Text) (hb : abs = true → base = []) (st : List Text) (c : Text) :
    (normStep abs st c).reverse.foldl walk base = walk (st.reverse.foldl walk base) c ∨ ∃ d ∈ st, d = [] ∨ d = ['.'] := by
  by_cases h1 : c = [] ∨ c = ['.']
  · left
    rw [normStep, if_pos h1, walk, if_pos h1]
  · rw [normStep, if_neg h1]
    by_cases h2 : c ≠ ['.', '.'] ∨ (abs = false ∧ st = []) ∨ st.head? = some ['.', '.']
    · left
      rw [if_pos h2]
      simp [List.foldl_append]
    · rw [if_neg h2]
      simp only [not_or, ne_eq, Classical.not_not, not_and] at h2
      obtain ⟨hc, ha, hh⟩ := h2
      subst hc
      cases st with
      | nil =>
        left
        have : abs = true := by
          cases abs with
          | true => rfl
          | false => exact absurd rfl (ha rfl)
        rw [hb this]; rfl
      | cons d st =>
        by_cases hd : d = [] ∨ d = ['.']
        · right; exact ⟨d, by simp, hd⟩
        · left
          have hd2 : d ≠ ['.', '.'] := by intro h; apply hh; simp [h]
          have e : ∀ x, walk x d = d :: x := by intro x; rw [walk, if_neg hd, if_neg hd2]
          have e2 : ∀ x : List Text, walk x ['.', '.'] = x.tail := by intro x; rfl
          simp only [List.tail_cons, List.reverse_cons, List.foldl_append, List.foldl_cons, List.foldl_nil, e, e2]

theorem normStep_good (abs : Bool) (st : List Text) (c : Text) (hst : ∀ d ∈ st, d ≠ [] ∧ d ≠ ['.'] ∧ '/' ∉ d) (hc : '/' ∉ c) :
    ∀ d ∈ normStep abs st c, d ≠ [] ∧ d ≠ ['.'] ∧ '/' ∉ d := by
  intro d hd
  rw [normStep] at hd
  by_cases h1 : c = [] ∨ c = ['.']
  · rw [if_pos h1] at hd; exact hst d hd
  · rw [if_neg h1] at hd
    by_cases h2 : c ≠ ['.', '.'] ∨ (abs = false ∧ st = []) ∨ st.head? = some ['.', '.']
    · rw [if_pos h2] at hd
      simp only [List.mem_cons] at hd
      rcases hd with rfl | hd
      · exact ⟨fun h => h1 (Or.inl h), fun h => h1 (Or.inr h), hc⟩
      · exact hst d hd
    · rw [if_neg h2] at hd
      exact hst d (List.mem_of_mem_tail hd)

theorem normFold_good (abs : Bool) (cs : List Text) (hcs : ∀ c ∈ cs, '/' ∉ c) (st : List Text)
    (hst : ∀ d ∈ st, d ≠ [] ∧ d ≠ ['.'] ∧ '/' ∉ d) :
    ∀ d ∈ cs.foldl (normStep abs) st, d ≠ [] ∧ d ≠ ['.'] ∧ '/' ∉ d := by
  induction cs generalizing st with
  | nil => exact hst
  | cons c cs ih => exact ih (fun x hx => hcs x (by simp [hx])) _ (normStep_good abs st c hst (hcs c (by simp)))

theorem normStack_good (p : Text) : ∀ d ∈ normStack p, d ≠ [] ∧ d ≠ ['.'] ∧ '/' ∉ d :=
  normFold_good _ _ (splitSlash_noSlash p) [] (by simp)

theorem normFold_walk (abs : Bool) (base : List Text) (hb : abs = true → base = []) (cs : List Text) (hcs : ∀ c ∈ cs, '/' ∉ c)
    (st : List Text) (hst : ∀ d ∈ st, d ≠ [] ∧ d ≠ ['.'] ∧ '/' ∉ d) :
    (cs.foldl (normStep abs) st).reverse.foldl walk base = cs.foldl walk (st.reverse.foldl walk base) := by
  induction cs generalizing st with
  | nil => rfl
  | cons c cs ih =>
    simp only [List.foldl_cons]
    rw [ih (fun x hx => hcs x (by simp [hx])) _ (normStep_good abs st c hst (hcs c (by simp)))]
    rcases walk_normStep abs base hb st c with h | ⟨d, hd, h⟩
    · rw [h]
    · exfalso
      obtain ⟨g1, g2, g3⟩ := hst d hd
      rcases h with h | h
      · exact g1 h
      · exact g2 h

theorem go_slashes (s : List Text) (p t : Text) : go walk s (slashes p ++ t) = go walk s t := by
  have e : ∀ t, go walk s ('/' :: t) = go walk s t := fun t => by
    rw [show '/' :: t = [] ++ '/' :: t from rfl, go_append]; rw [go_single s (by simp), walk_nil]
  rcases slashes_cases p with ⟨-, h | h⟩ | ⟨-, h⟩ <;> rw [h]
  · exact e t
  · rw [show (['/', '/'] : Text) ++ t = '/' :: '/' :: t from rfl, e, e]
  · rfl

theorem head?_normal (p : Text) (cs : List Text) (h : ∀ d ∈ cs, d ≠ [] ∧ '/' ∉ d) :
    ((slashes p ++ joinSlash cs).head? = some '/') ↔ (p.head? = some '/') := by
  rcases slashes_cases p with ⟨h1, h2 | h2⟩ | ⟨h1, h2⟩ <;> rw [h2]
  · simp [h1]
  · simp [h1]
  · simp only [List.nil_append, h1, iff_false]
    cases cs with
    | nil => simp [joinSlash]
    | cons c cs =>
      obtain ⟨g1, g2⟩ := h c (by simp)
      cases cs with
      | nil => exact head?_noSlash g2
      | cons d cs =>
        show (c ++ _).head? ≠ _
        cases c with
        | nil => exact absurd rfl g1
        | cons x c => simp only [List.cons_append, List.head?_cons]; intro hx; apply head?_noSlash g2; exact hx

/-- a text made from the components that `normpath` keeps leads to the same place -/
theorem resolve_normal (cwd : List Text) (p : Text) (cs : List Text) (h : ∀ d ∈ cs, d ≠ [] ∧ '/' ∉ d) :
    resolve cwd (slashes p ++ joinSlash cs) = cs.foldl walk (if p.head? = some '/' then [] else cwd) := by
  rw [resolve_eq, go_slashes, go_joinSlash walk_nil _ (fun c hc => (h c hc).2)]
  simp only [head?_normal p cs h]

theorem resolve_normpath (cwd : List Text) (p : Text) : resolve cwd (normpath p) = resolve cwd p := by
  have hn := normStack_good p
  have key : resolve cwd (slashes p ++ joinSlash (normStack p).reverse) = resolve cwd p := by
    rw [resolve_normal cwd p _ (fun d hd => ⟨(hn d (by simpa using hd)).1, (hn d (by simpa using hd)).2.2⟩)]
    rw [resolve_eq]
    unfold normStack go
    rw [normFold_walk _ _ ?_ _ (splitSlash_noSlash p) [] (by simp)]
    · rfl
    · intro h
      simp only [decide_eq_true_eq] at h
      rw [if_pos h]
  unfold normpath
  by_cases h : p = []
  · rw [if_pos h, h]; rfl
  · rw [if_neg h]
    simp only
    by_cases h2 : slashes p ++ joinSlash (normStack p).reverse = []
    · rw [if_pos h2, ← key, h2]; rfl
    · rw [if_neg h2, key]

/-! truncation -/

theorem walk_cases (s : List Text) (c : Text) : walk s c = s ∨ walk s c = c :: s ∨ (c = ['.', '.'] ∧ walk s c = s.tail) := by
  unfold walk
  by_cases h1 : c = [] ∨ c = ['.']
  · rw [if_pos h1]; exact Or.inl rfl
  · rw [if_neg h1]
    by_cases h2 : c = ['.', '.']
    · rw [if_pos h2]; exact Or.inr (Or.inr ⟨h2, rfl⟩)
    · rw [if_neg h2]; exact Or.inr (Or.inl rfl)

theorem tail_suffix_walk (s : List Text) (c : Text) : s.tail <:+ walk s c := by
  rcases walk_cases s c with h | h | ⟨-, h⟩ <;> rw [h]
  · exact List.tail_suffix s
  · exact (List.tail_suffix s).trans (List.suffix_cons c s)
  · exact List.suffix_refl _

theorem walk_good {c : Text} (h : FileName c) (s : List Text) : walk s c = c :: s := by
  unfold walk
  rw [if_neg (by rintro (e | e); exact h.1 e; exact h.2.2.1 e), if_neg h.2.2.2]

theorem take_noSlash {c : Text} (h : '/' ∉ c) (n : Nat) : '/' ∉ c.take n := fun hh => h (List.mem_of_mem_take hh)

theorem take_join {c J : Text} (n : Nat) (hn : ¬ n ≤ c.length) : (c ++ '/' :: J).take n = c ++ '/' :: J.take (n - c.length - 1) := by
  rw [List.take_append, List.take_of_length_le (by omega)]
  congr 1
  obtain ⟨k, hk⟩ : ∃ k, n - c.length = k + 1 := ⟨n - c.length - 1, by omega⟩
  rw [hk, List.take_succ_cons]; simp

theorem tail_suffix_go (cs : List Text) (h : ∀ c ∈ cs, FileName c) (n : Nat) (s : List Text) :
    s.tail <:+ go walk s ((joinSlash cs).take n) := by
  induction cs generalizing n s with
  | nil => simp only [joinSlash, List.take_nil]; rw [go_single s (by simp), walk_nil]; exact List.tail_suffix s
  | cons c cs ih =>
    have hc := h c (by simp)
    cases cs with
    | nil =>
      show s.tail <:+ go walk s (c.take n)
      rw [go_single s (take_noSlash hc.2.1 n)]
      exact tail_suffix_walk s _
    | cons d cs =>
      show s.tail <:+ go walk s ((c ++ '/' :: joinSlash (d :: cs)).take n)
      by_cases hn : n ≤ c.length
      · rw [List.take_append_of_le_length hn, go_single s (take_noSlash hc.2.1 n)]
        exact tail_suffix_walk s _
      · rw [take_join n hn, go_append, go_single s hc.2.1, walk_good hc]
        exact (List.tail_suffix s).trans (ih (fun x hx => h x (by simp [hx])) _ (c :: s))

theorem suffix_go (cs : List Text) (h : ∀ c ∈ cs, FileName c) (n : Nat) (hn2 : n ≠ 2) (s : List Text) :
    s <:+ go walk s ((joinSlash cs).take n) := by
  have cut : ∀ c : Text, FileName c → s <:+ walk s (c.take n) := by
    intro c hc
    rcases walk_cases s (c.take n) with h | h | ⟨h, -⟩
    · rw [h]; exact List.suffix_refl s
    · rw [h]; exact List.suffix_cons _ s
    · exfalso
      have hl := congrArg List.length h
      simp only [List.length_take, List.length_cons, List.length_nil] at hl
      rw [List.take_of_length_le (by omega)] at h
      exact hc.2.2.2 h
  cases cs with
  | nil => simp only [joinSlash, List.take_nil]; rw [go_single s (by simp), walk_nil]; exact List.suffix_refl s
  | cons c cs =>
    have hc := h c (by simp)
    cases cs with
    | nil =>
      show s <:+ go walk s (c.take n)
      rw [go_single s (take_noSlash hc.2.1 n)]
      exact cut c hc
    | cons d cs =>
      show s <:+ go walk s ((c ++ '/' :: joinSlash (d :: cs)).take n)
      by_cases hn : n ≤ c.length
      · rw [List.take_append_of_le_length hn, go_single s (take_noSlash hc.2.1 n)]
        exact cut c hc
      · rw [take_join n hn, go_append, go_single s hc.2.1, walk_good hc]
        exact tail_suffix_go (d :: cs) (fun x hx => h x (by simp [hx])) _ (c :: s)

theorem normFold_push (abs : Bool) (ds : List Text) (h : ∀ d ∈ ds, d ≠ [] ∧ '/' ∉ d ∧ d ≠ ['.', '.']) (st : List Text) :
    ds.foldl (normStep abs) st = (ds.filter (· ≠ ['.'])).reverse ++ st := by
  induction ds generalizing st with
  | nil => rfl
  | cons d ds ih =>
    have hd := h d (by simp)
    rw [List.foldl_cons, ih (fun x hx => h x (by simp [hx]))]
    by_cases h1 : d = ['.']
    · simp [normStep, h1]
    · have : normStep abs st d = d :: st := by
        rw [normStep, if_neg (by rintro (e | e); exact hd.1 e; exact h1 e), if_pos (Or.inl hd.2.2)]
      rw [this]
      simp [h1]

theorem joinSlash_append {a b : List Text} (ha : a ≠ []) (hb : b ≠ []) : joinSlash (a ++ b) = joinSlash a ++ '/' :: joinSlash b := by
  induction a with
  | nil => exact absurd rfl ha
  | cons x a ih =>
    cases a with
    | nil =>
      cases b with
      | nil => exact absurd rfl hb
      | cons y b => rfl
    | cons y a =>
      show x ++ '/' :: joinSlash (y :: a ++ b) = (x ++ '/' :: joinSlash (y :: a)) ++ _
      rw [ih (by simp)]; simp

theorem joinSlash_eq_nil {a : List Text} (h : ∀ d ∈ a, d ≠ []) : joinSlash a = [] ↔ a = [] := by
  cases a with
  | nil => simp [joinSlash]
  | cons x a =>
    have := h x (by simp)
    cases a with
    | nil => simp [joinSlash, this]
    | cons y a => simp [joinSlash]

/-- `normpath` of a path below the output directory -/
theorem normpath_joinAll (out : Text) (ds : List Text) (h : ∀ d ∈ ds, d ≠ [] ∧ '/' ∉ d ∧ d ≠ ['.', '.']) :
    normpath (joinAll (out :: ds)) = (if slashes out ++ joinSlash ((normStack out).reverse ++ ds.filter (· ≠ ['.'])) = [] then ['.']
      else slashes out ++ joinSlash ((normStack out).reverse ++ ds.filter (· ≠ ['.']))) := by
  have hs : ∀ d ∈ ds, '/' ∉ d := fun d hd => (h d hd).2.1
  have e1 := slashes_joinAll out ds hs
  have e2 := normStack_joinAll out ds hs
  rw [normFold_push _ ds h] at e2
  have e3 : (normStack (joinAll (out :: ds))).reverse = (normStack out).reverse ++ ds.filter (· ≠ ['.']) := by rw [e2]; simp
  unfold normpath
  by_cases hp : joinAll (out :: ds) = []
  · rw [if_pos hp]
    rw [hp] at e1 e3
    rw [← e1, ← e3]; rfl
  · rw [if_neg hp]
    simp only
    rw [e1, e3]

theorem head?_take {β : Type} (n : Nat) (h : n ≠ 0) (l : List β) : (l.take n).head? = l.head? := by
  obtain ⟨k, rfl⟩ : ∃ k, n = k + 1 := ⟨n - 1, by omega⟩
  cases l <;> rfl

theorem slashes_length (p : Text) : (slashes p).length ≤ 2 := by
  rcases slashes_cases p with ⟨-, h | h⟩ | ⟨-, h⟩ <;> rw [h] <;> decide

theorem normpath_eq (p : Text) : normpath p = if slashes p ++ joinSlash (normStack p).reverse = [] then ['.']
    else slashes p ++ joinSlash (normStack p).reverse := by
  have := normpath_joinAll p [] (by simp)
  simpa [joinAll] using this

theorem resolve_dot (cwd : List Text) : resolve cwd ['.'] = cwd := rfl

/-- the directory is inside the output directory -/
theorem directory_within (cwd : List Text) (out : Text) (ds : List Text) (h : ∀ d ∈ ds, d ≠ [] ∧ '/' ∉ d ∧ d ≠ ['.', '.'])
    (h200 : (normpath out).length ≤ 200) (h197 : (normpath out).length ≠ 197) :
    resolve cwd out <:+ resolve cwd ((normpath (joinAll (out :: ds))).take 200) := by
  rw [normpath_joinAll out ds h]
  generalize hE : ds.filter (· ≠ ['.']) = E
  have gE : ∀ d ∈ E, FileName d := by
    intro d hd
    rw [← hE, List.mem_filter] at hd
    obtain ⟨g1, g2, g3⟩ := h d hd.1
    exact ⟨g1, g2, by simpa using hd.2, g3⟩
  generalize hS : (normStack out).reverse = S
  have gS : ∀ d ∈ S, d ≠ [] ∧ d ≠ ['.'] ∧ '/' ∉ d := by
    intro d hd
    exact normStack_good out d (by rw [← hS] at hd; simpa using hd)
  have gSE : ∀ d ∈ S ++ E, d ≠ [] ∧ '/' ∉ d := by
    intro d hd
    rcases List.mem_append.mp hd with hd | hd
    · exact ⟨(gS d hd).1, (gS d hd).2.2⟩
    · exact ⟨(gE d hd).1, (gE d hd).2.1⟩
  have hout : resolve cwd out = S.foldl walk (if out.head? = some '/' then [] else cwd) := by
    rw [← resolve_normpath, normpath_eq, hS]
    have := resolve_normal cwd out S (fun d hd => ⟨(gS d hd).1, (gS d hd).2.2⟩)
    by_cases hq : slashes out ++ joinSlash S = []
    · rw [if_pos hq, ← this, hq]; rfl
    · rw [if_neg hq, this]
  by_cases hq : slashes out ++ joinSlash (S ++ E) = []
  · rw [if_pos hq]
    have h1 : slashes out = [] := (List.append_eq_nil_iff.mp hq).1
    have h2 := (joinSlash_eq_nil (fun d hd => (gSE d hd).1)).mp (List.append_eq_nil_iff.mp hq).2
    have h3 : S = [] := (List.append_eq_nil_iff.mp h2).1
    have h4 : out.head? ≠ some '/' := by
      rcases slashes_cases out with ⟨-, h | h⟩ | ⟨h, -⟩
      · rw [h] at h1; cases h1
      · rw [h] at h1; cases h1
      · exact h
    rw [hout, h3, if_neg h4]
    exact List.suffix_refl _
  · rw [if_neg hq]
    have hres : ∀ n, n ≠ 0 → resolve cwd ((slashes out ++ joinSlash (S ++ E)).take n) =
        go walk (if out.head? = some '/' then [] else cwd) ((slashes out ++ joinSlash (S ++ E)).take n) := by
      intro n hn
      rw [resolve_eq, head?_take n hn]
      simp only [head?_normal out _ gSE]
    rw [hres 200 (by omega), hout]
    generalize (if out.head? = some '/' then ([] : List Text) else cwd) = start
    have hsl := slashes_length out
    by_cases hS0 : S = []
    · subst hS0
      rw [List.nil_append, List.take_append, List.take_of_length_le (by omega), go_slashes]
      exact suffix_go E gE _ (by omega) start
    · by_cases hE0 : E = []
      · subst hE0
        rw [List.append_nil]
        have e : normpath out = slashes out ++ joinSlash S := by
          rw [normpath_eq, hS, if_neg]
          rw [List.append_nil] at hq; exact hq
        rw [e] at h200
        rw [List.take_of_length_le h200, go_slashes, go_joinSlash walk_nil _ (fun d hd => (gS d hd).2.2)]
        exact List.suffix_refl _
      · have hne : slashes out ++ joinSlash S ≠ [] := by
          intro h
          exact hS0 ((joinSlash_eq_nil (fun d hd => (gS d hd).1)).mp (List.append_eq_nil_iff.mp h).2)
        have e : normpath out = slashes out ++ joinSlash S := by
          rw [normpath_eq, hS, if_neg hne]
        have hgo : go walk start (slashes out ++ joinSlash S) = S.foldl walk start := by
          rw [go_slashes, go_joinSlash walk_nil _ (fun d hd => (gS d hd).2.2)]
        rw [joinSlash_append hS0 hE0, ← List.append_assoc, ← e]
        rw [← e] at hgo
        by_cases hl : 200 ≤ (normpath out).length
        · rw [List.take_append_of_le_length hl, List.take_of_length_le h200, hgo]
          exact List.suffix_refl _
        · rw [take_join 200 hl, go_append, hgo]
          exact suffix_go E gE _ (by omega) _

/-! names -/

theorem splitext_noSlash {n : Text} (h : '/' ∉ n) : '/' ∉ (splitext n).1 ∧ '/' ∉ (splitext n).2 := by
  have tw : ∀ (l : Text) x, x ∈ l.takeWhile (· ≠ '.') → x ∈ l := fun l x hx => (List.takeWhile_prefix _).sublist.mem hx
  have dw : ∀ (l : Text) x, x ∈ l.dropWhile (· ≠ '.') → x ∈ l := fun l x hx => (List.dropWhile_suffix _).sublist.mem hx
  simp only [splitext]
  split
  · constructor
    · intro hh
      rw [List.mem_reverse] at hh
      have := dw _ _ (List.mem_of_mem_tail hh)
      rw [List.mem_reverse] at this
      exact h this
    · simp only [List.mem_cons, List.mem_reverse]
      rintro (hh | hh)
      · exact absurd hh (by decide)
      · have := tw _ _ hh
        rw [List.mem_reverse] at this
        exact h this
  · exact ⟨h, by simp⟩

theorem sliceTo_noSlash {n : Text} (h : '/' ∉ n) (k : Int) : '/' ∉ sliceTo n k := by
  unfold sliceTo
  split
  · exact take_noSlash h _
  · exact take_noSlash h _

theorem nameExt_noSlash {env : Env} (he : EnvOk env) {n d : Text} (hn : '/' ∉ n) (hd : '/' ∉ d) (m : Option Text) :
    '/' ∉ (nameExt env n m d).1 ∧ '/' ∉ (nameExt env n m d).2 := by
  have h0 : '/' ∉ (if n ≠ [] then splitext n else (d, [])).1 ∧ '/' ∉ (if n ≠ [] then splitext n else (d, [])).2 := by
    by_cases h : n ≠ []
    · rw [if_pos h]; exact splitext_noSlash hn
    · rw [if_neg h]; exact ⟨hd, by simp⟩
  have hh : '/' ∉ ".html".toList := by decide
  simp only [nameExt]
  generalize (if n ≠ [] then splitext n else (d, [])) = q at h0
  obtain ⟨name, ext⟩ := q
  simp only at h0
  cases m with
  | none =>
    simp only
    by_cases h : ext = []
    · rw [if_pos h]; exact ⟨h0.1, hh⟩
    · rw [if_neg h]; exact h0
  | some m =>
    simp only
    by_cases h : m ≠ []
    · rw [if_pos h]
      cases hg : env.guessExtension m with
      | none => exact h0
      | some e =>
        simp only
        by_cases h2 : e ≠ []
        · rw [if_pos h2]; exact ⟨h0.1, he.ext m e hg⟩
        · rw [if_neg h2]; exact h0
    · rw [if_neg h]
      by_cases h : ext = []
      · rw [if_pos h]; exact ⟨h0.1, hh⟩
      · rw [if_neg h]; exact h0

/-- what the loop over names gives: a path in the directory, which leads to a name that does not exist -/
theorem freshName_some {env : Env} (he : EnvOk env) {dir name ext : Text} (hn : '/' ∉ name) (hx : '/' ∉ ext) {fuel k : Nat} {n : Text}
    (hn' : '/' ∉ n) {col col' : Bool} {full : Text} (h : freshName env dir name ext fuel k (join dir n) col = some (full, col')) :
    ∃ f, FileName f ∧ full = join dir f ∧ resolve env.cwd full = f :: resolve env.cwd dir ∧ env.ex (f :: resolve env.cwd dir) = false := by
  induction fuel generalizing k n col with
  | zero => cases h
  | succ fuel ih =>
    simp only [freshName] at h
    by_cases h1 : exAfter env dir (resolve env.cwd (join dir n)) = true
    · rw [if_pos h1] at h
      refine ih (n := sliceTo name (45 - (ext.length : Int)) ++ "_R".toList ++ env.uuid k ++ ext) ?_ h
      simp only [List.mem_append, not_or]
      exact ⟨⟨⟨sliceTo_noSlash hn _, by decide⟩, he.uuid k⟩, hx⟩
    · rw [if_neg h1] at h
      simp only [Option.some.injEq, Prod.mk.injEq] at h
      obtain ⟨rfl, -⟩ := h
      simp only [exAfter, Bool.or_eq_true, not_or, Bool.not_eq_true, List.isSuffixOf_iff_suffix] at h1
      obtain ⟨g1, g2⟩ := h1
      rw [resolve_join _ _ hn'] at g1 g2 ⊢
      have key : walk (resolve env.cwd dir) n = n :: resolve env.cwd dir ∧ FileName n := by
        unfold walk at g2 ⊢
        by_cases e1 : n = [] ∨ n = ['.']
        · rw [if_pos e1] at g2
          exact absurd (List.suffix_refl _) g2
        · rw [if_neg e1] at g2 ⊢
          by_cases e2 : n = ['.', '.']
          · rw [if_pos e2] at g2
            exact absurd (List.tail_suffix _) g2
          · rw [if_neg e2]
            exact ⟨rfl, fun h => e1 (Or.inl h), hn', fun h => e1 (Or.inr h), e2⟩
      refine ⟨n, key.2, rfl, key.1, ?_⟩
      rw [← key.1]; exact g1

/-! the URL -/

theorem splitSlash_map (f : Char → Char) (hf : ∀ c, f c = '/' ↔ c = '/') (t : Text) : splitSlash (t.map f) = (splitSlash t).map (List.map f) := by
  induction t with
  | nil => rfl
  | cons c t ih =>
    by_cases h : c = '/'
    · subst h
      have : f '/' = '/' := (hf _).mpr rfl
      simp [splitSlash, this, ih]
    · have h' : f c ≠ '/' := fun hh => h ((hf c).mp hh)
      obtain ⟨p, ps, e1, e2⟩ := splitSlash_cons h t
      obtain ⟨q, qs, e3, e4⟩ := splitSlash_cons h' (t.map f)
      rw [ih, e1, List.map_cons] at e3
      obtain ⟨rfl, rfl⟩ := List.cons.inj e3
      rw [List.map_cons, e4, e2]; rfl

/-- the clean parts of a URL -/
theorem cleanParts (env : Env) (url : Text) : ∃ f : Char → Char, (∀ c, f c = '.' ↔ c = '.') ∧
    splitSlash (cleanUrl env url) = (splitSlash (replaceScheme url)).map (List.map f) := by
  refine ⟨fun c => if env.alnum c = true ∨ c = '_' ∨ c = '-' ∨ c = '/' ∨ c = '.' then c else '_', ?_, ?_⟩
  · intro c
    by_cases h : env.alnum c = true ∨ c = '_' ∨ c = '-' ∨ c = '/' ∨ c = '.'
    · simp only [if_pos h]
    · simp only [if_neg h]
      simp only [not_or] at h
      simp [h.2.2.2.2]
  · apply splitSlash_map
    intro c
    by_cases h : env.alnum c = true ∨ c = '_' ∨ c = '-' ∨ c = '/' ∨ c = '.'
    · simp only [if_pos h]
    · simp only [if_neg h]
      simp only [not_or] at h
      simp [h.2.2.2.1]

theorem map_dots {f : Char → Char} (hf : ∀ c, f c = '.' ↔ c = '.') {d : Text} (h : d.map f = ['.', '.']) : d = ['.', '.'] := by
  cases d with
  | nil => simp at h
  | cons a d =>
    cases d with
    | nil => simp at h
    | cons b d =>
      cases d with
      | nil =>
        simp only [List.map_cons, List.map_nil, List.cons.injEq, and_true] at h
        rw [(hf a).mp h.1, (hf b).mp h.2]
      | cons c d => simp at h

end Unpack
end Warc
