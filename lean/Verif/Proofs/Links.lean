import Verif.Spec.Links
set_option linter.all false
namespace Warc
namespace Links
open Unpack (Text)
open Spec.Uri

/-! ## lists -/

theorem takeWhile_all {α : Type} {p : α → Bool} {a : List α} (h : ∀ c ∈ a, p c = true) : a.takeWhile p = a := by
  induction a with
  | nil => rfl
  | cons x xs ih =>
    rw [List.takeWhile_cons, if_pos (h x (List.mem_cons_self ..)), ih fun c hc => h c (List.mem_cons_of_mem _ hc)]

theorem dropWhile_all {α : Type} {p : α → Bool} {a : List α} (h : ∀ c ∈ a, p c = true) : a.dropWhile p = [] := by
  induction a with
  | nil => rfl
  | cons x xs ih =>
    rw [List.dropWhile_cons, if_pos (h x (List.mem_cons_self ..)), ih fun c hc => h c (List.mem_cons_of_mem _ hc)]

/-- `b` is empty or begins with an element that fails `p` -/
def Stops {α : Type} (p : α → Bool) (b : List α) : Prop := ∀ c, b.head? = some c → p c = false

theorem stops_nil {α : Type} (p : α → Bool) : Stops p [] := fun c h => by cases h
theorem stops_cons {α : Type} {p : α → Bool} {c : α} {t : List α} (h : p c = false) : Stops p (c :: t) := fun d hd => by
  cases hd; exact h

theorem takeWhile_stop {α : Type} {p : α → Bool} {a b : List α} (h : ∀ c ∈ a, p c = true) (hb : Stops p b) : (a ++ b).takeWhile p = a := by
  induction a with
  | nil =>
    cases b with
    | nil => rfl
    | cons c b => rw [List.nil_append, List.takeWhile_cons, hb c rfl]; rfl
  | cons x xs ih =>
    rw [List.cons_append, List.takeWhile_cons, if_pos (h x (List.mem_cons_self ..)), ih fun c hc => h c (List.mem_cons_of_mem _ hc)]

theorem dropWhile_stop {α : Type} {p : α → Bool} {a b : List α} (h : ∀ c ∈ a, p c = true) (hb : Stops p b) : (a ++ b).dropWhile p = b := by
  induction a with
  | nil =>
    cases b with
    | nil => rfl
    | cons c b => rw [List.nil_append, List.dropWhile_cons, hb c rfl]; rfl
  | cons x xs ih =>
    rw [List.cons_append, List.dropWhile_cons, if_pos (h x (List.mem_cons_self ..)), ih fun c hc => h c (List.mem_cons_of_mem _ hc)]

theorem cut_none {c : Char} {a : Text} (h : c ∉ a) : cut c a = (a, []) := by
  have : ∀ x ∈ a, decide (x ≠ c) = true := fun x hx => decide_eq_true fun e => h (e ▸ hx)
  simp only [cut, takeWhile_all this, dropWhile_all this, List.drop_nil]

theorem cut_some {c : Char} {a b : Text} (h : c ∉ a) : cut c (a ++ c :: b) = (a, b) := by
  have : ∀ x ∈ a, decide (x ≠ c) = true := fun x hx => decide_eq_true fun e => h (e ▸ hx)
  have hs : Stops (fun x => decide (x ≠ c)) (c :: b) := stops_cons (by simp)
  simp only [cut, takeWhile_stop this hs, dropWhile_stop this hs, List.drop_one, List.tail_cons]

/-! ## removing dots -/

/-- the loop of RFC 3986 5.2.4 ends in `res` -/
def Runs (inp out res : Text) : Prop := ∀ n, inp.length ≤ n → removeDotsLoop n inp out = res

theorem runs_nil (out : Text) : Runs [] out out := by
  intro n _
  cases n <;> rfl

theorem runs_step {inp out i o res : Text} (hs : removeDotsStep inp out = (i, o)) (hl : i.length < inp.length) (h : Runs i o res) : Runs inp out res := by
  intro n hn
  cases n with
  | zero => omega
  | succ n =>
    have hne : inp ≠ [] := by intro e; rw [e] at hl; exact absurd hl (Nat.not_lt_zero _)
    simp only [removeDotsLoop, if_neg hne, hs]
    exact h n (by omega)

theorem step_plain {d t out : Text} (hd : Plain d) (ht : ∀ c, t.head? = some c → c = '/') :
    removeDotsStep ('/' :: d ++ t) out = (t, out ++ '/' :: d) := by
  obtain ⟨h1, h2, h3⟩ := hd
  have key : removeDotsStep ('/' :: d ++ t) out = ((d ++ t).dropWhile (· ≠ '/'), out ++ '/' :: (d ++ t).takeWhile (· ≠ '/')) := by
    show removeDotsStep ('/' :: (d ++ t)) out = _
    cases d with
    | nil =>
      cases t with
      | nil => rfl
      | cons c t =>
        have : c = '/' := ht c rfl
        subst this; rfl
    | cons c d =>
      have hc : c ≠ '/' := fun e => h1 (e ▸ List.mem_cons_self ..)
      by_cases hdot : c = '.'
      · subst hdot
        cases d with
        | nil => exact absurd rfl h2
        | cons c2 d =>
          have hc2 : c2 ≠ '/' := fun e => h1 (by rw [e]; simp)
          by_cases hdot2 : c2 = '.'
          · subst hdot2
            cases d with
            | nil => exact absurd rfl h3
            | cons c3 d =>
              have hc3 : c3 ≠ '/' := fun e => h1 (by rw [e]; simp)
              simp only [List.cons_append]
              unfold removeDotsStep
              split <;> simp_all
          · simp only [List.cons_append]
            unfold removeDotsStep
            split <;> simp_all
      · simp only [List.cons_append]
        unfold removeDotsStep
        split <;> simp_all
  have hp : ∀ x ∈ d, decide (x ≠ '/') = true := fun x hx => decide_eq_true fun e => h1 (e ▸ hx)
  have hs : Stops (fun x => decide (x ≠ '/')) t := fun c hc => by rw [ht c hc]; rfl
  rw [key, takeWhile_stop hp hs, dropWhile_stop hp hs]

theorem slashed_head {segs : List Text} {t : Text} (ht : ∀ c, t.head? = some c → c = '/') : ∀ c, (slashed segs ++ t).head? = some c → c = '/' := by
  cases segs with
  | nil => exact ht
  | cons d ds => intro c hc; cases hc; rfl

theorem runs_plain {segs : List Text} (hp : ∀ d ∈ segs, Plain d) {t : Text} (ht : ∀ c, t.head? = some c → c = '/') {out res : Text}
    (h : Runs t (out ++ slashed segs) res) : Runs (slashed segs ++ t) out res := by
  induction segs generalizing out with
  | nil => rw [show out ++ slashed [] = out from List.append_nil _] at h; exact h
  | cons d ds ih =>
    have e : slashed (d :: ds) ++ t = '/' :: d ++ (slashed ds ++ t) := by simp [slashed]
    rw [e]
    refine runs_step (step_plain (hp d (List.mem_cons_self ..)) (slashed_head ht)) (by simp; omega) ?_
    refine ih (fun d' hd' => hp d' (List.mem_cons_of_mem _ hd')) ?_
    have e2 : out ++ '/' :: d ++ slashed ds = out ++ slashed (d :: ds) := by simp [slashed]
    rw [e2]; exact h

theorem dropLastSegment_slashed {segs : List Text} (hp : ∀ d ∈ segs, Plain d) : dropLastSegment (slashed segs) = slashed segs.dropLast := by
  rcases List.eq_nil_or_concat segs with rfl | ⟨ds, d, rfl⟩
  · rfl
  · have hd : '/' ∉ d := (hp d (by simp)).1
    have e : slashed (ds ++ [d]) = slashed ds ++ '/' :: d := by simp [slashed]
    simp only [List.concat_eq_append] at *
    rw [e, List.dropLast_concat]
    unfold dropLastSegment
    have hq : ∀ x ∈ d.reverse, decide (x ≠ '/') = true := fun x hx => decide_eq_true fun e => hd (e ▸ List.mem_reverse.1 hx)
    have e2 : (slashed ds ++ '/' :: d).reverse = d.reverse ++ '/' :: (slashed ds).reverse := by simp
    rw [e2, dropWhile_stop hq (stops_cons (by rfl))]
    simp

/-- the text of the steps in front -/
def upsText (ups : List Bool) : Text := ups.flatMap fun u => if u then "../".toList else "./".toList

/-- where the steps lead -/
def after (dirs : List Text) (ups : List Bool) : List Text := ups.foldl (fun d u => if u then d.dropLast else d) dirs

theorem runs_ups {ups : List Bool} {dirs : List Text} (hp : ∀ d ∈ dirs, Plain d) {rest res : Text}
    (h : Runs ('/' :: rest) (slashed (after dirs ups)) res) : Runs ('/' :: (upsText ups ++ rest)) (slashed dirs) res := by
  induction ups generalizing dirs with
  | nil => exact h
  | cons u us ih =>
    cases u with
    | false =>
      refine runs_step (i := '/' :: (upsText us ++ rest)) (o := slashed dirs) ?_ ?_ (ih hp h)
      · rfl
      · simp [upsText]
    | true =>
      refine runs_step (i := '/' :: (upsText us ++ rest)) (o := slashed dirs.dropLast) ?_ ?_ (ih (fun d hd => hp d (List.dropLast_subset _ hd)) h)
      · rw [← dropLastSegment_slashed hp]; rfl
      · simp [upsText]

theorem split_slashed (rest : Text) : slashed (split '/' rest) = '/' :: rest := by
  induction rest with
  | nil => rfl
  | cons c cs ih =>
    unfold split
    by_cases h : c = '/'
    · subst h
      rw [if_pos rfl]
      show '/' :: slashed (split '/' cs) = _
      rw [ih]
    · rw [if_neg h]
      cases hs : split '/' cs with
      | nil => rw [hs] at ih; cases ih
      | cons p ps =>
        rw [hs] at ih
        have : '/' :: (p ++ slashed ps) = '/' :: cs := ih
        have e : p ++ slashed ps = cs := List.tail_eq_of_cons_eq this
        show '/' :: ((c :: p) ++ slashed ps) = _
        rw [List.cons_append, e]

theorem after_plain {ups : List Bool} {dirs : List Text} {P : Text → Prop} (hp : ∀ d ∈ dirs, P d) : ∀ d ∈ after dirs ups, P d := by
  induction ups generalizing dirs with
  | nil => exact hp
  | cons u us ih =>
    cases u with
    | false => exact ih hp
    | true => exact ih fun d hd => hp d (List.dropLast_subset _ hd)

theorem removeDots_ups {ups : List Bool} {dirs : List Text} (hp : ∀ d ∈ dirs, Plain d) {rest : Text} (hr : ∀ s ∈ split '/' rest, Plain s) :
    removeDots (slashed dirs ++ '/' :: (upsText ups ++ rest)) = slashed (after dirs ups) ++ '/' :: rest := by
  have h0 : Runs ('/' :: rest) (slashed (after dirs ups)) (slashed (after dirs ups) ++ '/' :: rest) := by
    have := runs_plain (segs := split '/' rest) hr (t := []) (fun c h => by cases h) (out := slashed (after dirs ups)) (runs_nil _)
    rwa [split_slashed, List.append_nil] at this
  have h1 := runs_ups hp h0
  have h2 := runs_plain hp (t := '/' :: (upsText ups ++ rest)) (fun c h => by cases h; rfl) (out := []) h1
  exact h2 _ (Nat.le_refl _)

theorem removeDots_plain {rest : Text} (hr : ∀ s ∈ split '/' rest, Plain s) (hh : rest.head? = some '/') : removeDots rest = rest := by
  cases rest with
  | nil => cases hh
  | cons c t =>
    cases hh
    have hr' : ∀ s ∈ split '/' t, Plain s := fun s hs => hr s (by unfold split; rw [if_pos rfl]; exact List.mem_cons_of_mem _ hs)
    exact removeDots_ups (ups := []) (dirs := []) (fun _ h => by cases h) hr'

/-! ## the directory -/

theorem splitLast_app {u t : Text} (hu : u = [] ∨ u.getLast? = some '/') : splitLast (u ++ t) = (u ++ (splitLast t).1, (splitLast t).2) := by
  unfold splitLast
  by_cases hm : '/' ∈ t
  · have : ∃ a b, t = a ++ '/' :: b ∧ '/' ∉ b := by
      clear hu
      induction t with
      | nil => cases hm
      | cons c t ih =>
        by_cases hm' : '/' ∈ t
        · obtain ⟨a, b, e, hb⟩ := ih hm'
          exact ⟨c :: a, b, by rw [e]; rfl, hb⟩
        · rcases List.mem_cons.1 hm with rfl | h
          · exact ⟨[], t, rfl, hm'⟩
          · exact absurd h hm'
    obtain ⟨a, b, rfl, hb⟩ := this
    have hq : ∀ x ∈ b.reverse, decide (x ≠ '/') = true := fun x hx => decide_eq_true fun e => hb (e ▸ List.mem_reverse.1 hx)
    have e1 : (u ++ (a ++ '/' :: b)).reverse = b.reverse ++ '/' :: (a.reverse ++ u.reverse) := by simp
    have e2 : (a ++ '/' :: b).reverse = b.reverse ++ '/' :: a.reverse := by simp
    rw [e1, e2, dropWhile_stop hq (stops_cons rfl), dropWhile_stop hq (stops_cons rfl), takeWhile_stop hq (stops_cons rfl), takeWhile_stop hq (stops_cons rfl)]
    simp
  · have hq : ∀ x ∈ t.reverse, decide (x ≠ '/') = true := fun x hx => decide_eq_true fun e => hm (e ▸ List.mem_reverse.1 hx)
    have hs : Stops (fun x => decide (x ≠ '/')) u.reverse := by
      intro c hc
      rcases hu with rfl | hu
      · cases hc
      · rw [List.head?_reverse, hu] at hc
        cases hc; rfl
    rw [List.reverse_append, dropWhile_stop hq hs, takeWhile_stop hq hs, dropWhile_all hq, takeWhile_all hq]
    simp

theorem splitLast_file {u f : Text} (hf : '/' ∉ f) : splitLast (u ++ '/' :: f) = (u ++ ['/'], f) := by
  have e : u ++ '/' :: f = (u ++ ['/']) ++ f := by simp
  have hq : ∀ x ∈ f.reverse, decide (x ≠ '/') = true := fun x hx => decide_eq_true fun e => hf (e ▸ List.mem_reverse.1 hx)
  rw [e, splitLast_app (.inr (by simp))]
  unfold splitLast
  rw [dropWhile_all hq, takeWhile_all hq]
  simp

/-- the directory as `os.path.split` gives it -/
def dirText (dirs : List Text) : Text := if dirs = [] then ['/'] else slashed dirs

theorem strip_slashed {dirs : List Text} (hp : ∀ d ∈ dirs, Plain d ∧ d ≠ []) :
    (if (slashed dirs ++ ['/']).all (· = '/') then slashed dirs ++ ['/'] else ((slashed dirs ++ ['/']).reverse.dropWhile (· = '/')).reverse) = dirText dirs := by
  rcases List.eq_nil_or_concat dirs with rfl | ⟨ds, d, rfl⟩
  · rfl
  · simp only [List.concat_eq_append] at *
    obtain ⟨⟨hd, -, -⟩, hne⟩ := hp d (by simp)
    have e : slashed (ds ++ [d]) = slashed ds ++ '/' :: d := by simp [slashed]
    have hlast : ∃ l x, d = l ++ [x] ∧ x ≠ '/' := by
      rcases List.eq_nil_or_concat d with rfl | ⟨l, x, rfl⟩
      · exact absurd rfl hne
      · exact ⟨l, x, List.concat_eq_append .., fun e => hd (by simp [e])⟩
    obtain ⟨l, x, rfl, hx⟩ := hlast
    have hall : ((slashed (ds ++ [l ++ [x]]) ++ ['/']).all (· = '/')) = false := by
      rw [e]
      simp [hx]
    rw [if_neg (by rw [hall]; decide), dirText, if_neg (by simp), e]
    simp [hx]

theorem dirOf_base {dirs : List Text} {f : Text} (hp : ∀ d ∈ dirs, Plain d ∧ d ≠ []) (hf : '/' ∉ f) : dirOf (slashed dirs ++ '/' :: f) = dirText dirs := by
  unfold dirOf
  rw [splitLast_file hf]
  exact strip_slashed hp

theorem dirOf_dirText {dirs : List Text} (hp : ∀ d ∈ dirs, Plain d ∧ d ≠ []) : dirOf (dirText dirs) = dirText dirs.dropLast := by
  rcases List.eq_nil_or_concat dirs with rfl | ⟨ds, d, rfl⟩
  · rfl
  · simp only [List.concat_eq_append] at *
    have e : slashed (ds ++ [d]) = slashed ds ++ '/' :: d := by simp [slashed]
    rw [dirText, if_neg (by simp), e, List.dropLast_concat]
    exact dirOf_base (fun d' hd' => hp d' (by simp [hd'])) (hp d (by simp)).1.1

theorem climb_stop {dir t : Text} (h1 : ¬ ['.', '.', '/'] <+: t) (h2 : ¬ ['.', '/'] <+: t) : climb dir t = (dir, t) := by
  unfold climb
  split
  · exact absurd ⟨_, rfl⟩ h1
  · exact absurd ⟨_, rfl⟩ h2
  · rfl

theorem climb_dir {ups : List Bool} {dirs : List Text} (hp : ∀ d ∈ dirs, Plain d ∧ d ≠ []) {t : Text}
    (h1 : ¬ ['.', '.', '/'] <+: t) (h2 : ¬ ['.', '/'] <+: t) : climb (dirText dirs) (upsText ups ++ t) = (dirText (after dirs ups), t) := by
  induction ups generalizing dirs with
  | nil => exact climb_stop h1 h2
  | cons u us ih =>
    cases u with
    | false => exact ih hp
    | true =>
      show climb (dirOf (dirText dirs)) (upsText us ++ t) = _
      rw [dirOf_dirText hp]
      exact ih fun d hd => hp d (List.dropLast_subset _ hd)

theorem climb_empty {ups : List Bool} {t : Text} (h1 : ¬ ['.', '.', '/'] <+: t) (h2 : ¬ ['.', '/'] <+: t) : climb [] (upsText ups ++ t) = ([], t) := by
  induction ups with
  | nil => exact climb_stop h1 h2
  | cons u us ih =>
    cases u with
    | false => exact ih
    | true => exact ih

theorem join_dir {dirs : List Text} (hp : ∀ d ∈ dirs, Plain d ∧ d ≠ []) {t : Text} (ht : t.head? ≠ some '/') :
    Unpack.join (dirText dirs) t = slashed dirs ++ '/' :: t := by
  unfold Unpack.join
  rw [if_neg ht]
  rcases List.eq_nil_or_concat dirs with rfl | ⟨ds, d, rfl⟩
  · rfl
  · simp only [List.concat_eq_append] at *
    obtain ⟨⟨hd, -, -⟩, hne⟩ := hp d (by simp)
    have e : slashed (ds ++ [d]) = slashed ds ++ '/' :: d := by simp [slashed]
    have hT : dirText (ds ++ [d]) = slashed ds ++ '/' :: d := by rw [dirText, if_neg (by simp), e]
    have hne2 : ¬ (dirText (ds ++ [d]) = [] ∨ (dirText (ds ++ [d])).getLast? = some '/') := ?_
    · rw [if_neg hne2, hT, e]
    rw [hT]
    intro h
    rcases h with h | h
    · simp at h
    · rw [List.getLast?_append] at h
      rcases List.eq_nil_or_concat d with rfl | ⟨l, x, rfl⟩
      · exact hne rfl
      · simp at h
        rw [show ('/' :: (l ++ [x])) = (('/' :: l) ++ [x]) from rfl, List.getLast?_concat] at h
        cases h
        exact hd (by simp)

/-! ## params -/

theorem splitParams_app {u t : Text} (hu : u = [] ∨ u.getLast? = some '/') : splitParams (u ++ t) = (u ++ (splitParams t).1, (splitParams t).2) := by
  unfold splitParams
  rw [splitLast_app hu]
  simp

theorem splitLast_join (t : Text) : (splitLast t).1 ++ (splitLast t).2 = t := by
  unfold splitLast
  rw [← List.reverse_append, List.takeWhile_append_dropWhile, List.reverse_reverse]

theorem cut_join (c : Char) (t : Text) : (c ∉ t ∧ cut c t = (t, [])) ∨ t = (cut c t).1 ++ c :: (cut c t).2 := by
  by_cases h : c ∈ t
  · right
    induction t with
    | nil => cases h
    | cons x xs ih =>
      by_cases hx : x = c
      · subst hx; simp [cut]
      · have h' : c ∈ xs := by
          rcases List.mem_cons.1 h with rfl | h'
          · exact absurd rfl hx
          · exact h'
        have := ih h'
        simp only [cut] at this ⊢
        rw [List.takeWhile_cons, List.dropWhile_cons, if_pos (decide_eq_true hx), if_pos (decide_eq_true hx), List.cons_append, ← this]
  · exact .inl ⟨h, cut_none h⟩

/-- the path with its params put back -/
def withParams (p q : Text) : Text := if q ≠ [] then p ++ ';' :: q else p

theorem splitParams_join {t : Text} (h : t.getLast? ≠ some ';') : withParams (splitParams t).1 (splitParams t).2 = t := by
  unfold splitParams withParams
  rcases cut_join ';' (splitLast t).2 with ⟨-, e⟩ | e
  · rw [e, if_neg (fun h => h rfl)]; exact splitLast_join t
  · have et : t = (splitLast t).1 ++ ((cut ';' (splitLast t).2).1 ++ ';' :: (cut ';' (splitLast t).2).2) := by
      rw [← e]; exact (splitLast_join t).symm
    by_cases hq : (cut ';' (splitLast t).2).2 = []
    · rw [hq] at et
      exact absurd (by rw [et]; simp) h
    · rw [if_pos hq, List.append_assoc]; exact et.symm

theorem splitParams_prefix (t : Text) : (splitParams t).1 <+: t := by
  unfold splitParams
  rcases cut_join ';' (splitLast t).2 with ⟨-, e⟩ | e
  · rw [e]; exact ⟨[], by rw [List.append_nil]; exact splitLast_join t⟩
  · refine ⟨';' :: (cut ';' (splitLast t).2).2, ?_⟩
    rw [List.append_assoc, ← e]; exact splitLast_join t

/-! ## parsing -/

theorem clean_id {t : Text} (h : Clean t) : clean t = t := by
  obtain ⟨h1, h2⟩ := h
  have hd : t.dropWhile (fun c => decide (c.toNat ≤ 32)) = t := by
    cases t with
    | nil => rfl
    | cons c t => rw [List.dropWhile_cons, if_neg]; have := h2 c rfl; simp; omega
  unfold clean
  rw [hd]
  exact List.filter_eq_self.2 fun c hc => decide_eq_true (h1 c hc)

/-- the query and fragment as text -/
def tailText (q f : Option Text) : Text :=
  (match q with | some q => '?' :: q | none => []) ++ (match f with | some f => '#' :: f | none => [])

theorem cut_tail {p : Text} {q f : Option Text} (hp : ∀ c ∈ p, c ≠ '?' ∧ c ≠ '#') (hq : ∀ x, q = some x → '#' ∉ x) :
    cut '#' (p ++ tailText q f) = (p ++ tailText q none, f.getD []) ∧ cut '?' (p ++ tailText q none) = (p, q.getD []) := by
  have h1 : '#' ∉ p := fun h => (hp _ h).2 rfl
  have h2 : '?' ∉ p := fun h => (hp _ h).1 rfl
  have h3 : '#' ∉ p ++ tailText q none := by
    intro h
    rcases List.mem_append.1 h with h | h
    · exact h1 h
    · cases q with
      | none => cases h
      | some q =>
        simp [tailText] at h
        exact hq q rfl h
  constructor
  · cases f with
    | none => exact cut_none h3
    | some f =>
      have : p ++ tailText q (some f) = (p ++ tailText q none) ++ '#' :: f := by simp [tailText]
      rw [this]; exact cut_some h3
  · cases q with
    | none =>
      simp only [tailText, List.append_nil]
      exact cut_none h2
    | some q =>
      simp only [tailText, List.append_nil]
      exact cut_some h2

theorem scheme_some {s t : Text} (hne : s ≠ []) (hs0 : ∀ c ∈ s, (c.isAlphanum = true ∨ c = '+' ∨ c = '-' ∨ c = '.') ∧ c.toLower = c) (ha : ∀ c, s.head? = some c → c.isAlpha = true) :
    splitScheme (s ++ ':' :: t) = (s, t) := by
  have hs : ∀ c ∈ s, schemeChar c = true ∧ c.toLower = c := by
    intro c hc
    obtain ⟨h1, h2⟩ := hs0 c hc
    refine ⟨?_, h2⟩
    rcases h1 with h | h | h | h <;> simp [schemeChar, h]
  have hcol : ∀ c ∈ s, decide (c ≠ ':') = true := by
    intro c hc
    refine decide_eq_true fun e => ?_
    have := (hs c hc).1
    rw [e] at this
    exact absurd this (by decide)
  unfold splitScheme
  rw [takeWhile_stop hcol (stops_cons (by rfl))]
  cases s with
  | nil => exact absurd rfl hne
  | cons c s =>
    simp only
    rw [if_pos ⟨by simp, ha c rfl, List.all_eq_true.2 fun x hx => (hs x hx).1⟩]
    congr 1
    · exact (List.map_congr_left (g := fun x => x) fun x hx => (hs x hx).2).trans (List.map_id' _)
    · simp

theorem scheme_none {t : Text} (h : ':' ∉ t.takeWhile (fun c => c ≠ '/' ∧ c ≠ '?' ∧ c ≠ '#')) : splitScheme t = ([], t) := by
  unfold splitScheme
  cases hs : t.takeWhile (· ≠ ':') with
  | nil => rfl
  | cons c s =>
    simp only
    rw [if_neg]
    rintro ⟨hm, -, hall⟩
    rw [← hs] at hall
    clear hs
    refine h ?_
    clear h
    induction t with
    | nil => cases hm
    | cons x xs ih =>
      by_cases hx : x = ':'
      · subst hx; simp
      · rw [List.takeWhile_cons, if_pos (decide_eq_true hx)] at hall
        have h1 := List.all_eq_true.1 hall x (List.mem_cons_self ..)
        have h2 : x ≠ '/' ∧ x ≠ '?' ∧ x ≠ '#' := by
          refine ⟨?_, ?_, ?_⟩ <;> (intro e; rw [e] at h1; exact absurd h1 (by decide))
        have hm' : ':' ∈ xs := by
          rcases List.mem_cons.1 hm with h | h
          · exact absurd h.symm hx
          · exact h
        rw [List.takeWhile_cons, if_pos (decide_eq_true h2)]
        exact List.mem_cons_of_mem _ (ih hm' (List.all_eq_true.2 fun y hy => List.all_eq_true.1 hall y (List.mem_cons_of_mem _ hy)))

/-- splitting at params, if the scheme has them -/
def paramsOf (scheme p : Text) : Text × Text := if scheme ∈ usesParams then splitParams p else (p, [])

theorem parse_base {hostOk : Text → Bool} {b : Ref} {s a : Text} {dirs : List Text} {file : Option Text} (h : Base hostOk b s a dirs file) :
    urlparse hostOk b.text = .ok ⟨s, a, (paramsOf s b.path).1, (paramsOf s b.path).2, b.query.getD [], b.fragment.getD []⟩ := by
  obtain ⟨⟨hs, hs1, hs2, hs3⟩, ⟨ha, ha1, ha2, ha3⟩, hp, ⟨hm1, hm2⟩, hc⟩ := h
  have et : b.text = s ++ ':' :: ('/' :: '/' :: (a ++ (b.path ++ tailText b.query b.fragment))) := by
    simp [Ref.text, hs, ha, tailText]
    rfl
  have hpath : b.path = [] ∨ b.path.head? = some '/' := by
    cases file with
    | none => exact .inl hp.2
    | some f =>
      rw [hp.1]
      cases dirs <;> exact .inr rfl
  have hstop : Stops (fun c : Char => decide (c ≠ '/' ∧ c ≠ '?' ∧ c ≠ '#')) (b.path ++ tailText b.query b.fragment) := by
    rcases hpath with e | e
    · rw [e]
      cases b.query with
      | some q => exact stops_cons rfl
      | none => cases b.fragment with
        | some f => exact stops_cons rfl
        | none => exact stops_nil _
    · cases hb : b.path with
      | nil => rw [hb] at e; cases e
      | cons c t => rw [hb] at e; cases e; exact stops_cons rfl
  have hall : ∀ c ∈ a, decide (c ≠ '/' ∧ c ≠ '?' ∧ c ≠ '#') = true := fun c hc => decide_eq_true (ha2 c hc)
  have hcut := cut_tail (f := b.fragment) hm1 hm2
  unfold urlparse
  rw [clean_id hc, et, scheme_some hs1 hs2 hs3]
  simp only [splitNetloc, takeWhile_stop hall hstop, dropWhile_stop hall hstop, ha3, if_true, hcut.1, hcut.2]
  rfl

/-- a text without host, behind its scheme if it has one -/
theorem parse_path {hostOk : Text → Bool} (h0 : hostOk [] = true) {link s p : Text} {q f : Option Text} (hc : clean link = link)
    (hsch : splitScheme link = (s, p ++ tailText q f)) (hp2 : p.take 2 ≠ ['/', '/']) (hm1 : ∀ c ∈ p, c ≠ '?' ∧ c ≠ '#') (hm2 : ∀ x, q = some x → '#' ∉ x) :
    urlparse hostOk link = .ok ⟨s, [], (paramsOf s p).1, (paramsOf s p).2, q.getD [], f.getD []⟩ := by
  have hcut := cut_tail (f := f) hm1 hm2
  have hn : splitNetloc (p ++ tailText q f) = ([], p ++ tailText q f) := by
    unfold splitNetloc
    split
    · rename_i t e
      exfalso
      have : ∀ (x y : Char) (u : Text), p ++ tailText q f = x :: y :: u → x = '/' → y = '/' → False := by
        intro x y u e hx hy
        cases p with
        | nil =>
          cases q with
          | some q => simp [tailText] at e; rw [← e.1] at hx; exact absurd hx (by decide)
          | none => cases f with
            | some f => simp [tailText] at e; rw [← e.1] at hx; exact absurd hx (by decide)
            | none => simp [tailText] at e
        | cons c1 p =>
          cases p with
          | nil =>
            cases q with
            | some q => simp [tailText] at e; rw [← e.2.1] at hy; exact absurd hy (by decide)
            | none => cases f with
              | some f => simp [tailText] at e; rw [← e.2.1] at hy; exact absurd hy (by decide)
              | none => simp [tailText] at e
          | cons c2 p =>
            simp at e
            obtain ⟨e1, e2, -⟩ := e
            exact hp2 (by rw [e1, e2, hx, hy]; rfl)
      exact this _ _ _ e rfl rfl
    · rfl
  unfold urlparse
  rw [hc, hsch]
  simp only [hn, h0, if_true, hcut.1, hcut.2]
  rfl

theorem parse_rel {hostOk : Text → Bool} (h0 : hostOk [] = true) {r : Ref} {ups : List Bool} {rest : Text} (h : Relative r ups rest) :
    urlparse hostOk r.text = .ok ⟨[], [], (splitParams r.path).1, (splitParams r.path).2, r.query.getD [], r.fragment.getD []⟩ := by
  have et : r.text = r.path ++ tailText r.query r.fragment := by
    simp [Ref.text, h.scheme, h.authority, tailText]
    rfl
  have hn : splitScheme r.text = ([], r.path ++ tailText r.query r.fragment) := by
    rw [← et]
    apply scheme_none
    rw [et]
    intro hm
    apply h.colon
    have hmk := h.marks.1
    generalize r.path = p at hm hmk
    induction p with
    | nil =>
      exfalso
      cases hq : r.query with
      | some q => rw [hq] at hm; simp [tailText] at hm
      | none => cases hf : r.fragment with
        | some f => rw [hq, hf] at hm; simp [tailText] at hm
        | none => rw [hq, hf] at hm; simp [tailText] at hm
    | cons c p ih =>
      have hc := hmk c (List.mem_cons_self ..)
      by_cases hs : c = '/'
      · subst hs; simp at hm
      · rw [List.cons_append, List.takeWhile_cons, if_pos (decide_eq_true ⟨hs, hc.1, hc.2⟩)] at hm
        rw [List.takeWhile_cons, if_pos (decide_eq_true hs)]
        rcases List.mem_cons.1 hm with hm | hm
        · rw [← hm]; exact List.mem_cons_self ..
        · exact List.mem_cons_of_mem _ (ih hm fun x hx => hmk x (List.mem_cons_of_mem _ hx))
  have := parse_path h0 (clean_id h.clean) hn h.inside.2.1 h.marks.1 h.marks.2
  rwa [show paramsOf [] r.path = splitParams r.path from if_pos (by decide)] at this

/-! ## resolving -/

/-- an optional query as text -/
def queryText (q : Text) : Text := if q ≠ [] then '?' :: q else []

theorem unparse {s a P pr q : Text} (hs : s ≠ []) (ha : a ≠ []) :
    urlunparse ⟨s, a, P, pr, q, []⟩ =
      s ++ ':' :: '/' :: '/' :: (a ++ ((if withParams P pr ≠ [] ∧ (withParams P pr).take 1 ≠ ['/'] then '/' :: withParams P pr else withParams P pr) ++ queryText q)) := by
  by_cases hq : q = []
  · simp only [urlunparse, queryText, hs, ha, hq, withParams, ne_eq, not_true, not_false_eq_true, true_or, if_true, if_false, List.append_nil, List.cons_append, List.append_assoc]
    congr
  · simp only [urlunparse, queryText, hs, ha, hq, withParams, ne_eq, not_true, not_false_eq_true, true_or, if_true, if_false, List.append_nil, List.cons_append, List.append_assoc]
    congr

theorem take_one {t : Text} : t.take 1 = ['/'] ↔ t.head? = some '/' := by
  cases t with
  | nil => simp
  | cons c t => simp

theorem dir_base {hostOk : Text → Bool} {b : Ref} {s a : Text} {dirs : List Text} {file : Option Text} (h : Base hostOk b s a dirs file) :
    dirOf (paramsOf s b.path).1 = match file with | none => [] | some _ => dirText dirs := by
  have hp := h.path
  cases file with
  | none =>
    rw [hp.2]
    unfold paramsOf
    split <;> rfl
  | some f =>
    obtain ⟨e, hf, hd⟩ := hp
    rw [e]
    unfold paramsOf
    split
    · have e2 : slashed dirs ++ '/' :: f = (slashed dirs ++ ['/']) ++ f := by simp
      rw [e2, splitParams_app (.inr (by simp))]
      simp only
      have e3 : slashed dirs ++ ['/'] ++ (splitParams f).1 = slashed dirs ++ '/' :: (splitParams f).1 := by simp
      rw [e3]
      exact dirOf_base hd fun hm => hf (List.IsPrefix.subset (splitParams_prefix f) hm)
    · exact dirOf_base hd hf

theorem ups_last (ups : List Bool) : upsText ups = [] ∨ (upsText ups).getLast? = some '/' := by
  rcases List.eq_nil_or_concat ups with rfl | ⟨us, u, rfl⟩
  · exact .inl rfl
  · right
    cases u <;> simp [upsText]

theorem ups_head {u : Bool} {us : List Bool} {t : Text} : (upsText (u :: us) ++ t).head? = some '.' := by
  cases u <;> rfl

theorem withParams_app (u t q : Text) : withParams (u ++ t) q = u ++ withParams t q := by
  unfold withParams
  split <;> simp

theorem not_dots {rest t : Text} (hr : ∀ s ∈ split '/' rest, Plain s) (ht : t <+: rest) : ¬ ['.', '.', '/'] <+: t ∧ ¬ ['.', '/'] <+: t := by
  constructor
  · intro h
    obtain ⟨x, rfl⟩ := List.IsPrefix.trans h ht
    exact (hr ['.', '.'] (by
      show ['.', '.'] ∈ split '/' ('.' :: '.' :: '/' :: x)
      simp [split])).2.2 rfl
  · intro h
    obtain ⟨x, rfl⟩ := List.IsPrefix.trans h ht
    exact (hr ['.'] (by
      show ['.'] ∈ split '/' ('.' :: '/' :: x)
      simp [split])).2.1 rfl

theorem ref_text (s a p : Text) (q : Option Text) (hq : q ≠ some []) :
    (Ref.mk (some s) (some a) p q none).text = s ++ ':' :: '/' :: '/' :: (a ++ (p ++ queryText (q.getD []))) := by
  cases q with
  | none => simp [Ref.text, queryText]
  | some q =>
    have : q ≠ [] := fun e => hq (by rw [e])
    simp [Ref.text, queryText, this]

theorem merge_base {hostOk : Text → Bool} {b : Ref} {s a : Text} {dirs : List Text} {file : Option Text} (h : Base hostOk b s a dirs file) (p : Text) :
    merge b p = slashed dirs ++ '/' :: p := by
  have hp := h.path
  have ha := h.authority.1
  unfold merge
  cases file with
  | none => rw [if_pos ⟨by rw [ha]; exact fun e => (Option.some_ne_none _ e), hp.2⟩, hp.1]; rfl
  | some f =>
    obtain ⟨e, hf, hd⟩ := hp
    rw [if_neg (by rw [e]; rintro ⟨-, h⟩; simp at h), e]
    have := congrArg Prod.fst (splitLast_file (u := slashed dirs) hf)
    show (splitLast (slashed dirs ++ '/' :: f)).1 ++ p = _
    rw [this]; simp

/-- the path that the code arrives at, for a path with or without its params split off -/
theorem abs_path {hostOk : Text → Bool} {b : Ref} {s a : Text} {dirs : List Text} {file : Option Text} (hb : Base hostOk b s a dirs file)
    {ups : List Bool} {rest t pr : Text} (hn : ups ≠ [] → rest.head? ≠ some '/') (hr : ∀ s ∈ split '/' rest, Plain s) (h0 : file = none → rest ≠ [])
    (hne : upsText ups ++ rest ≠ []) (ht : t <+: rest) (hw : withParams t pr = rest) (q : Option Text) (hq : q ≠ some []) :
    (if (upsText ups ++ t).head? = some '/' then urlunparse ⟨s, a, upsText ups ++ t, pr, q.getD [], []⟩
     else urlunparse ⟨s, a, Unpack.join (climb (dirOf (paramsOf s b.path).1) (upsText ups ++ t)).1 (climb (dirOf (paramsOf s b.path).1) (upsText ups ++ t)).2, pr, q.getD [], []⟩) =
    ({ resolve b ⟨none, none, upsText ups ++ rest, q, none⟩ with fragment := none }).text := by
  have hs := hb.scheme.2.1
  have ha := hb.authority.2.1
  have hsome : b.scheme = some s := hb.scheme.1
  have hauth : b.authority = some a := hb.authority.1
  obtain ⟨hd1, hd2⟩ := not_dots hr ht
  have hdirs : ∀ d ∈ dirs, Plain d ∧ d ≠ [] := by
    have := hb.path
    cases file with
    | none => rw [this.1]; intro d hd; cases hd
    | some f => exact this.2.2
  -- the head of the text before the params is the head of the text
  have hhead : t.head? = some '/' ↔ rest.head? = some '/' := by
    rw [← hw]
    unfold withParams
    split
    · cases t with
      | nil => simp
      | cons c t => simp
    · rfl
  unfold resolve
  simp only [ne_eq, not_true, if_false, if_neg hne]
  cases ups with
  | nil =>
    have eu : ∀ x : Text, upsText [] ++ x = x := fun x => rfl
    simp only [eu] at hne ⊢
    by_cases hh : rest.head? = some '/'
    · rw [if_pos (hhead.2 hh), if_pos hh, hsome, hauth, removeDots_plain hr hh, unparse hs ha, hw, ref_text _ _ _ _ hq]
      rw [if_neg]
      rintro ⟨-, h2⟩
      exact h2 (take_one.2 hh)
    · rw [if_neg (fun h => hh (hhead.1 h)), if_neg hh, hsome, hauth, merge_base hb, unparse hs ha, ref_text _ _ _ _ hq]
      have hrd : removeDots (slashed dirs ++ '/' :: rest) = slashed dirs ++ '/' :: rest := removeDots_ups (ups := []) (dirs := dirs) (fun d hd => (hdirs d hd).1) hr
      rw [hrd]
      have hth : t.head? ≠ some '/' := fun h => hh (hhead.1 h)
      rw [dir_base hb]
      cases file with
      | none =>
        have hdn : dirs = [] := hb.path.1
        have hcl : climb [] t = ([], t) := climb_stop hd1 hd2
        rw [hcl]
        have hj : Unpack.join [] t = t := by
          unfold Unpack.join
          rw [if_neg hth, if_pos (.inl rfl)]; rfl
        rw [hj, hw, hdn, if_pos ⟨h0 rfl, fun h => hh (take_one.1 h)⟩]
        rfl
      | some f =>
        have hcl : climb (dirText dirs) t = (dirText dirs, t) := climb_stop hd1 hd2
        rw [hcl, join_dir hdirs hth]
        have ew : withParams (slashed dirs ++ '/' :: t) pr = slashed dirs ++ '/' :: rest := by
          rw [← hw]
          have := withParams_app (slashed dirs ++ ['/']) t pr
          simpa using this
        rw [ew, if_neg]
        rintro ⟨-, h2⟩
        refine h2 (take_one.2 ?_)
        cases dirs <;> rfl
  | cons u us =>
    have hth : t.head? ≠ some '/' := fun h => hn (by simp) (hhead.1 h)
    have hh1 : (upsText (u :: us) ++ t).head? ≠ some '/' := by rw [ups_head]; decide
    have hh2 : (upsText (u :: us) ++ rest).head? ≠ some '/' := by rw [ups_head]; decide
    rw [if_neg hh1, if_neg hh2, hsome, hauth, merge_base hb, unparse hs ha, ref_text _ _ _ _ hq, removeDots_ups (fun d hd => (hdirs d hd).1) hr, dir_base hb]
    cases file with
    | none =>
      have hdn : dirs = [] := hb.path.1
      rw [climb_empty hd1 hd2]
      have hj : Unpack.join [] t = t := by
        unfold Unpack.join
        rw [if_neg hth, if_pos (.inl rfl)]; rfl
      have hend : after dirs (u :: us) = [] := by
        have : ∀ (us : List Bool), after [] us = [] := by
          intro us
          induction us with
          | nil => rfl
          | cons u us ih => cases u <;> exact ih
        rw [hdn]; exact this _
      rw [hj, hw, hend, if_pos ⟨h0 rfl, fun h => hn (by simp) (take_one.1 h)⟩]
      rfl
    | some f =>
      rw [climb_dir hdirs hd1 hd2, join_dir (after_plain hdirs) hth]
      have ew : withParams (slashed (after dirs (u :: us)) ++ '/' :: t) pr = slashed (after dirs (u :: us)) ++ '/' :: rest := by
        rw [← hw]
        have := withParams_app (slashed (after dirs (u :: us)) ++ ['/']) t pr
        simpa using this
      rw [ew, if_neg]
      rintro ⟨-, h2⟩
      refine h2 (take_one.2 ?_)
      cases after dirs (u :: us) <;> rfl

end Links
end Warc
