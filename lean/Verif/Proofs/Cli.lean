import Verif.Spec.Cli
import Verif.Proofs.HttpLoose
import Verif.Proofs.Http09
import Verif.Proofs.Bytes
set_option linter.all false
namespace Warc.CliLemmas
open Rx Stream Spec
open Warc.Cli Warc.Spec.Cli

theorem startsWith_iff' (s p : Bytes) : startsWith s p = true ↔ p <+: s := by
  simp [startsWith, List.isPrefixOf_iff_prefix]

theorem matchLong_iff {t : List Opt} (ht : Sound t) (s : Bytes) (o : Opt) : matchLong t s = some o ↔ Names t s o := by
  unfold matchLong Names
  cases hf : t.find? (fun o => o.long == s) with
  | some o' =>
    have h1 := List.find?_some hf
    have h2 := List.mem_of_find?_eq_some hf
    simp only [beq_iff_eq] at h1
    simp only [Option.some.injEq]
    constructor
    · rintro rfl; exact ⟨h2, .inl h1⟩
    · rintro ⟨m, e | ⟨p, u⟩⟩
      · exact ht.longs _ h2 _ m (by rw [h1, e])
      · exact u _ h2 (h1 ▸ List.prefix_refl _)
  | none =>
    have hno : ∀ o ∈ t, o.long ≠ s := by
      intro x hx e
      have := List.find?_eq_none.1 hf x hx
      simp [e] at this
    constructor
    · intro h
      have key : t.filter (fun o => startsWith o.long s) = [o] := by
        revert h
        cases hh : t.filter (fun o => startsWith o.long s) with
        | nil => intro h; cases h
        | cons x xs =>
          cases xs with
          | nil => intro h; simpa using h
          | cons y ys => intro h; cases h
      have mem : ∀ x, x ∈ t.filter (fun o => startsWith o.long s) ↔ x = o := by intro x; rw [key]; simp
      simp only [List.mem_filter, startsWith_iff'] at mem
      obtain ⟨m, p⟩ := (mem o).2 rfl
      exact ⟨m, .inr ⟨p, fun o' m' p' => (mem o').1 ⟨m', p'⟩⟩⟩
    · rintro ⟨m, e | ⟨p, u⟩⟩
      · exact absurd e (hno _ m)
      · have hn : (t.filter (fun o => startsWith o.long s)).Nodup := ht.nodup.filter _
        have mem : ∀ x, x ∈ t.filter (fun o => startsWith o.long s) ↔ x = o := by
          intro x
          simp only [List.mem_filter, startsWith_iff']
          exact ⟨fun h => u x h.1 h.2, fun h => h ▸ ⟨m, p⟩⟩
        revert hn mem
        cases t.filter (fun o => startsWith o.long s) with
        | nil => intro hn mem; exact absurd ((mem o).2 rfl) (by simp)
        | cons x xs =>
          intro hn mem
          have hx : x = o := (mem x).1 (by simp)
          cases xs with
          | nil => simp [hx]
          | cons y ys =>
            have hy : y = o := (mem y).1 (by simp)
            rw [hx, hy] at hn
            simp at hn

theorem find_short {t : List Opt} (ht : Sound t) (c : Byte) (o : Opt) :
    t.find? (fun o => o.short == some c) = some o ↔ o ∈ t ∧ o.short = some c := by
  constructor
  · intro h
    exact ⟨List.mem_of_find?_eq_some h, by simpa using List.find?_some h⟩
  · rintro ⟨m, e⟩
    cases hf : t.find? (fun o => o.short == some c) with
    | none => have := List.find?_eq_none.1 hf o m; simp [e] at this
    | some o' =>
      have h1 := List.find?_some hf
      have h2 := List.mem_of_find?_eq_some hf
      simp only [beq_iff_eq] at h1
      rw [ht.shorts o' h2 o m (by rw [h1, e]) (by rw [h1]; simp)]

theorem takes_iff (o : Opt) : o.takesValue = true ↔ (o.action = .store ∨ o.action = .append) := by
  simp [Opt.takesValue]

theorem shortArgs_letters {t : List Opt} (ht : Sound t) {cs : Bytes} {ss : List Setting} (h : Letters t cs ss) (more : Bytes) :
    shortArgs t (cs ++ more) = match shortArgs t more with
      | .error e => .error e
      | .ok (ss', p) => .ok (ss ++ ss', p) := by
  induction h with
  | nil => simp only [List.nil_append]; cases shortArgs t more with
    | error e => rfl
    | ok x => rfl
  | cons m e a _ ih =>
    rename_i o c cs ss hl
    simp only [List.cons_append, shortArgs, (find_short ht c o).2 ⟨m, e⟩]
    rw [if_neg (by simp [Opt.takesValue, a]), if_neg (by simp [a]), ih]
    cases shortArgs t more with
    | error e => rfl
    | ok x => rfl

theorem shortArgs_value {t : List Opt} (ht : Sound t) {o : Opt} {c : Byte} (m : o ∈ t) (e : o.short = some c)
    (a : o.action = .store ∨ o.action = .append) (v : Bytes) :
    shortArgs t (c :: v) = if v = [] then .ok ([], some o) else .ok ([(o.dest, some v)], none) := by
  simp only [shortArgs, (find_short ht c o).2 ⟨m, e⟩]
  rw [if_pos ((takes_iff o).2 a)]

theorem shortArgs_help {t : List Opt} (ht : Sound t) {o : Opt} {c : Byte} (m : o ∈ t) (e : o.short = some c)
    (a : o.action = .help) (v : Bytes) : shortArgs t (c :: v) = .error .help := by
  simp only [shortArgs, (find_short ht c o).2 ⟨m, e⟩]
  rw [if_neg (by simp [Opt.takesValue, a]), if_pos a]

/-- how the letters behind a dash can be read -/
inductive Cluster (t : List Opt) : Bytes → Except Exit (List Setting × Option Opt) → Prop
  | flags {cs ss} : Letters t cs ss → Cluster t cs (.ok (ss, none))
  | attached {cs ss o c v} : Letters t cs ss → o ∈ t → o.short = some c → (o.action = .store ∨ o.action = .append) → v ≠ [] →
      Cluster t (cs ++ c :: v) (.ok (ss ++ [(o.dest, some v)], none))
  | separate {cs ss o c} : Letters t cs ss → o ∈ t → o.short = some c → (o.action = .store ∨ o.action = .append) →
      Cluster t (cs ++ [c]) (.ok (ss, some o))
  | help {cs ss o c more} : Letters t cs ss → o ∈ t → o.short = some c → o.action = .help → Cluster t (cs ++ c :: more) (.error .help)
  | bad {cs} : Cluster t cs (.error .error)

theorem cluster {t : List Opt} (ht : Sound t) (cs : Bytes) : Cluster t cs (shortArgs t cs) := by
  induction cs with
  | nil => exact .flags .nil
  | cons c cs ih =>
    simp only [shortArgs]
    cases hf : t.find? (fun o => o.short == some c) with
    | none => exact .bad
    | some o =>
      obtain ⟨m, e⟩ := (find_short ht c o).1 hf
      simp only
      cases ha : o.action with
      | store =>
        rw [if_pos ((takes_iff o).2 (.inl ha))]
        by_cases hv : cs = []
        · rw [if_pos hv, hv]; exact .separate (cs := []) .nil m e (.inl ha)
        · rw [if_neg hv]; exact .attached (cs := []) (ss := []) .nil m e (.inl ha) hv
      | append =>
        rw [if_pos ((takes_iff o).2 (.inr ha))]
        by_cases hv : cs = []
        · rw [if_pos hv, hv]; exact .separate (cs := []) .nil m e (.inr ha)
        · rw [if_neg hv]; exact .attached (cs := []) (ss := []) .nil m e (.inr ha) hv
      | help =>
        rw [if_neg (by simp [Opt.takesValue, ha]), if_pos rfl]
        exact .help (cs := []) .nil m e ha
      | storeTrue =>
        rw [if_neg (by simp [Opt.takesValue, ha]), if_neg (by simp)]
        revert ih
        generalize hr : shortArgs t cs = r
        intro ih
        cases ih with
        | flags h => exact .flags (.cons m e ha h)
        | attached h m' e' a' v' => exact .attached (.cons m e ha h) m' e' a' v'
        | separate h m' e' a' => exact .separate (.cons m e ha h) m' e' a'
        | help h m' e' a' => exact .help (.cons m e ha h) m' e' a'
        | bad => exact .bad

/-- put the outcome of an item in front -/
def before (ss : List Setting) (ops : List Bytes) :
    Except Exit (List Setting × List Bytes) → Except Exit (List Setting × List Bytes)
  | .error e => .error e
  | .ok (ss', ops') => .ok (ss ++ ss', ops ++ ops')

theorem parseArgs_some (t : List Opt) (o : Opt) (v : Bytes) (rest : List Bytes) :
    parseArgs t (some o) (v :: rest) = before [(o.dest, some v)] [] (parseArgs t none rest) := by
  simp only [parseArgs]
  cases parseArgs t none rest <;> rfl

theorem parseArgs_plain (t : List Opt) (a : Bytes) (h : Plain a) (rest : List Bytes) :
    parseArgs t none (a :: rest) = before [] [a] (parseArgs t none rest) := by
  have h1 : ¬ a = b! "--" := by
    rintro rfl
    rcases h with h | h
    · exact h (by decide)
    · revert h; decide
  have h2 : ¬ startsWith a (b! "--") = true := by
    rw [startsWith_iff']
    rintro hp
    rcases h with h | h
    · exact h (List.IsPrefix.trans (by decide : [45] <+: b! "--") hp)
    · subst h; revert hp; decide
  have h3 : ¬ (startsWith a (b! "-") = true ∧ 1 < a.length) := by
    rw [startsWith_iff']
    rintro ⟨hp, hl⟩
    rcases h with h | h
    · exact h hp
    · subst h; simp at hl
  simp only [parseArgs]
  rw [if_neg h1, if_neg h2, if_neg h3]
  cases parseArgs t none rest <;> rfl

theorem parseArgs_short (t : List Opt) (cs : Bytes) (h : cs ≠ []) (hd : cs.head? ≠ some 45) (rest : List Bytes) :
    parseArgs t none ((45 :: cs) :: rest) = match shortArgs t cs with
      | .error e => .error e
      | .ok (ss, p) => before ss [] (parseArgs t p rest) := by
  obtain ⟨c, cs, rfl⟩ := List.exists_cons_of_ne_nil h
  have hc : c ≠ 45 := by simpa using hd
  have h1 : ¬ (45 :: c :: cs) = b! "--" := by
    intro e; injection e with _ e; injection e with e _; exact hc e
  have h2 : ¬ startsWith (45 :: c :: cs) (b! "--") = true := by
    rw [startsWith_iff']
    rintro ⟨x, hx⟩
    injection hx with _ e; injection e with e _; exact hc e.symm
  have h3 : startsWith (45 :: c :: cs) (b! "-") = true ∧ 1 < (45 :: c :: cs).length := by
    rw [startsWith_iff']
    exact ⟨⟨c :: cs, rfl⟩, by simp⟩
  simp only [parseArgs]
  rw [if_neg h1, if_neg h2, if_pos h3]
  simp only [List.drop_succ_cons, List.drop_zero]
  cases shortArgs t (c :: cs) with
  | error e => rfl
  | ok x =>
    obtain ⟨ss, p⟩ := x
    simp only
    cases parseArgs t p rest <;> rfl

theorem parseArgs_long (t : List Opt) (a : Bytes) (hp : [45, 45] <+: a) (hn : a ≠ [45, 45]) (rest : List Bytes) :
    parseArgs t none (a :: rest) = match longArg t a with
      | .error e => .error e
      | .ok (ss, p) => before ss [] (parseArgs t p rest) := by
  simp only [parseArgs]
  rw [if_neg (show ¬ a = b! "--" from hn), if_pos ((startsWith_iff' a (b! "--")).2 hp)]
  cases longArg t a with
  | error e => rfl
  | ok x =>
    obtain ⟨ss, p⟩ := x
    simp only
    cases parseArgs t p rest <;> rfl

theorem before_before (ss ss' : List Setting) (ops ops' : List Bytes) (r : Except Exit (List Setting × List Bytes)) :
    before ss ops (before ss' ops' r) = before (ss ++ ss') (ops ++ ops') r := by
  cases r <;> simp [before]

theorem before_nil (r : Except Exit (List Setting × List Bytes)) : before [] [] r = r := by
  cases r <;> rfl

theorem letters_head {t : List Opt} (ht : Sound t) {cs : Bytes} {ss : List Setting} (h : Letters t cs ss) : cs.head? ≠ some 45 := by
  cases h with
  | nil => simp
  | cons m e _ _ => intro x; simp only [List.head?_cons] at x; exact ht.dash _ m (e.trans x)

theorem letters_head' {t : List Opt} (ht : Sound t) {cs : Bytes} {ss : List Setting} (h : Letters t cs ss) {o : Opt} {c : Byte}
    (m : o ∈ t) (e : o.short = some c) (more : Bytes) : (cs ++ c :: more).head? ≠ some 45 := by
  cases h with
  | nil => intro x; simp only [List.nil_append, List.head?_cons] at x; exact ht.dash _ m (e.trans x)
  | cons m e _ _ => intro x; simp only [List.cons_append, List.head?_cons] at x; exact ht.dash _ m (e.trans x)

theorem parse_item {t : List Opt} (ht : Sound t) {a : List Bytes} {ss : List Setting} {ops : List Bytes} (h : Item t a ss ops)
    (rest : List Bytes) : parseArgs t none (a ++ rest) = before ss ops (parseArgs t none rest) := by
  cases h with
  | operand h => exact parseArgs_plain t _ h rest
  | flags hne h =>
    rename_i cs
    have k := shortArgs_letters ht h []
    simp only [List.append_nil, shortArgs] at k
    rw [List.singleton_append, parseArgs_short t cs hne (letters_head ht h), k]
  | attached h m e a v =>
    rw [List.singleton_append, parseArgs_short t _ (by simp) (letters_head' ht h m e _), shortArgs_letters ht h, shortArgs_value ht m e a, if_neg v]
  | separate h m e a =>
    rename_i cs ss o c v
    rw [List.cons_append, parseArgs_short t _ (by simp) (letters_head' ht h m e _), shortArgs_letters ht h, shortArgs_value ht m e a, if_pos rfl]
    simp only [List.append_nil, List.singleton_append]
    rw [parseArgs_some, before_before]
    rfl
  | long hp hn h61 hN a =>
    rename_i s o
    rw [List.singleton_append, parseArgs_long t s hp hn]
    have : longArg t s = .ok ([(o.dest, none)], none) := by
      simp only [longArg, Http.splitOnce_none h61, (matchLong_iff ht s o).2 hN]
      rw [if_neg (by simp [Opt.takesValue, a]), if_neg (by simp [a])]
    rw [this]
  | longEq hp h61 hN a =>
    rename_i s o v
    rw [List.singleton_append, parseArgs_long t (s ++ 61 :: v) (hp.trans ⟨_, rfl⟩) (by
      intro e
      have : (61 : Byte) ∈ ([45, 45] : Bytes) := by rw [← e]; simp
      revert this; decide)]
    have : longArg t (s ++ 61 :: v) = .ok ([(o.dest, some v)], none) := by
      simp only [longArg, Http.splitOnce_append s v h61, (matchLong_iff ht s o).2 hN]
      rw [if_pos ((takes_iff o).2 a)]
    rw [this]
  | longNext hp hn h61 hN a =>
    rename_i s o v
    rw [List.cons_append, parseArgs_long t s hp hn]
    have : longArg t s = .ok ([], some o) := by
      simp only [longArg, Http.splitOnce_none h61, (matchLong_iff ht s o).2 hN]
      rw [if_pos ((takes_iff o).2 a)]
    rw [this]
    simp only [List.singleton_append]
    rw [parseArgs_some, before_nil]

theorem parse_items {t : List Opt} (ht : Sound t) {a : List Bytes} {ss : List Setting} {ops : List Bytes} (h : Items t a ss ops)
    (rest : List Bytes) : parseArgs t none (a ++ rest) = before ss ops (parseArgs t none rest) := by
  induction h with
  | nil => rw [List.nil_append, before_nil]
  | cons h _ ih => rw [List.append_assoc, parse_item ht h, ih, before_before]

theorem parse_help {t : List Opt} (ht : Sound t) {a : Bytes} (h : AsksHelp t a) (rest : List Bytes) :
    parseArgs t none (a :: rest) = .error .help := by
  cases h with
  | long hp hn h61 hN ha =>
    rename_i o
    rw [parseArgs_long t a hp hn]
    have : longArg t a = .error .help := by
      simp only [longArg, Http.splitOnce_none h61, (matchLong_iff ht a o).2 hN]
      rw [if_neg (by simp [Opt.takesValue, ha]), if_pos ha]
    rw [this]
  | short h m e ha =>
    rw [parseArgs_short t _ (by simp) (letters_head' ht h m e _), shortArgs_letters ht h, shortArgs_help ht m e ha]

theorem parse_rest (t : List Opt) (rest : List Bytes) : parseArgs t none ([45, 45] :: rest) = .ok ([], rest) := by
  unfold parseArgs
  exact if_pos rfl

/-- what the first argument can be -/
theorem first_arg {t : List Opt} (ht : Sound t) (a : Bytes) (rest : List Bytes) :
    a = [45, 45] ∨ (∃ ss ops, Item t [a] ss ops) ∨ (∃ ss ops v rest', rest = v :: rest' ∧ Item t [a, v] ss ops) ∨ AsksHelp t a ∨
      parseArgs t none (a :: rest) = .error .error := by
  by_cases h1 : a = [45, 45]
  · exact .inl h1
  right
  by_cases h2 : [45, 45] <+: a
  · cases hs : splitOnce 61 a with
    | some p =>
      obtain ⟨name, v⟩ := p
      obtain ⟨rfl, h61⟩ := splitOnce_spec hs
      have hp : [45, 45] <+: name := by
        obtain ⟨x, hx⟩ := h2
        match name, hx, h61 with
        | [], hx, _ => injection hx with e _; exact absurd e (by decide)
        | [c], hx, _ => injection hx with _ e; injection e with e _; exact absurd e (by decide)
        | c :: d :: n, hx, _ =>
          injection hx with e e'; injection e' with e' _
          subst e; subst e'; exact ⟨n, rfl⟩
      cases hm : matchLong t name with
      | none =>
        right; right; right
        rw [parseArgs_long t _ h2 h1]
        simp only [longArg, hs, hm]
      | some o =>
        by_cases ha : o.takesValue = true
        · exact .inl ⟨_, _, .longEq hp h61 ((matchLong_iff ht name o).1 hm) ((takes_iff o).1 ha)⟩
        · right; right; right
          rw [parseArgs_long t _ h2 h1]
          simp only [longArg, hs, hm]
          rw [if_neg ha]
    | none =>
      have h61 : 61 ∉ a := Http.splitOnce_free hs
      cases hm : matchLong t a with
      | none =>
        right; right; right
        rw [parseArgs_long t _ h2 h1]
        simp only [longArg, hs, hm]
      | some o =>
        have hN := (matchLong_iff ht a o).1 hm
        cases ha : o.action with
        | storeTrue => exact .inl ⟨_, _, .long h2 h1 h61 hN ha⟩
        | help => exact .inr (.inr (.inl (.long h2 h1 h61 hN ha)))
        | store =>
          cases rest with
          | cons v rest' => exact .inr (.inl ⟨_, _, v, rest', rfl, .longNext h2 h1 h61 hN (.inl ha)⟩)
          | nil =>
            right; right; right
            rw [parseArgs_long t _ h2 h1]
            simp only [longArg, hs, hm]
            rw [if_pos ((takes_iff o).2 (.inl ha))]
            rfl
        | append =>
          cases rest with
          | cons v rest' => exact .inr (.inl ⟨_, _, v, rest', rfl, .longNext h2 h1 h61 hN (.inr ha)⟩)
          | nil =>
            right; right; right
            rw [parseArgs_long t _ h2 h1]
            simp only [longArg, hs, hm]
            rw [if_pos ((takes_iff o).2 (.inr ha))]
            rfl
  · by_cases hp : Plain a
    · exact .inl ⟨_, _, .operand hp⟩
    · have hq : [45] <+: a ∧ a ≠ [45] := by
        refine ⟨?_, fun e => hp (.inr e)⟩
        by_cases x : [45] <+: a
        · exact x
        · exact absurd (.inl x) hp
      obtain ⟨⟨cs, rfl⟩, hne⟩ := hq
      have hcs : cs ≠ [] := by rintro rfl; exact hne rfl
      have hd : cs.head? ≠ some 45 := by
        intro h
        cases cs with
        | nil => simp at h
        | cons c cs =>
          simp only [List.head?_cons, Option.some.injEq] at h
          subst h; exact h2 ⟨cs, rfl⟩
      have hk := parseArgs_short t cs hcs hd rest
      have hcl := cluster ht cs
      revert hk hcl
      generalize hr : shortArgs t cs = r
      intro hk hcl
      cases hcl with
      | flags h => exact .inl ⟨_, _, .flags hcs h⟩
      | attached h m e a v => exact .inl ⟨_, _, .attached h m e a v⟩
      | separate h m e a =>
        cases rest with
        | cons v rest' => exact .inr (.inl ⟨_, _, v, rest', rfl, .separate h m e a⟩)
        | nil => exact .inr (.inr (.inr hk))
      | help h m e a => exact .inr (.inr (.inl (.short h m e a)))
      | bad => exact .inr (.inr (.inr hk))

/-- the three outcomes -/
inductive Outcome (t : List Opt) (args : List Bytes) : Except Exit (List Setting × List Bytes) → Prop
  | ok {ss ops} : Means t args ss ops → Outcome t args (.ok (ss, ops))
  | help : WantsHelp t args → Outcome t args (.error .help)
  | bad : Outcome t args (.error .error)

theorem Outcome.before {t : List Opt} {a as : List Bytes} {ss : List Setting} {ops : List Bytes} (h : Item t a ss ops)
    {r : Except Exit (List Setting × List Bytes)} (ho : Outcome t as r) : Outcome t (a ++ as) (before ss ops r) := by
  cases ho with
  | ok hm =>
    refine .ok ?_
    rcases hm with hm | ⟨items, ops', rest, hi, rfl, rfl⟩
    · exact .inl (.cons h hm)
    · exact .inr ⟨_, _, rest, .cons h hi, by simp, by simp⟩
  | help hm =>
    obtain ⟨items, ss', ops', x, rest, hi, hx, rfl⟩ := hm
    exact .help ⟨_, _, _, x, rest, .cons h hi, hx, by simp⟩
  | bad => exact .bad

theorem outcome {t : List Opt} (ht : Sound t) : ∀ (n : Nat) (args : List Bytes), args.length ≤ n → Outcome t args (parseArgs t none args)
  | _, [], _ => .ok (.inl .nil)
  | 0, _ :: _, h => absurd h (by simp)
  | n + 1, a :: rest, h => by
    rcases first_arg ht a rest with rfl | ⟨ss, ops, hi⟩ | ⟨ss, ops, v, rest', rfl, hi⟩ | hh | he
    · rw [parse_rest]
      exact .ok (.inr ⟨[], [], rest, .nil, rfl, rfl⟩)
    · have := (outcome ht n rest (by simpa using h)).before hi
      rw [← parse_item ht hi] at this
      exact this
    · have := (outcome ht n rest' (by simp at h; omega)).before hi
      rw [← parse_item ht hi] at this
      exact this
    · rw [parse_help ht hh]
      exact .help ⟨[], [], [], a, rest, .nil, hh, rfl⟩
    · rw [he]; exact .bad

theorem parse_means {t : List Opt} (ht : Sound t) {args : List Bytes} {ss : List Setting} {ops : List Bytes} (h : Means t args ss ops) :
    parse t args = .ok (ss, ops) := by
  rcases h with h | ⟨items, ops', rest, hi, rfl, rfl⟩
  · have := parse_items ht h []
    simp only [List.append_nil] at this
    rw [parse, this]
    simp [parseArgs, before]
  · rw [parse, parse_items ht hi, parse_rest]
    simp [before]

theorem parse_wantsHelp {t : List Opt} (ht : Sound t) {args : List Bytes} (h : WantsHelp t args) : parse t args = .error .help := by
  obtain ⟨items, ss', ops', x, rest, hi, hx, rfl⟩ := h
  rw [parse, parse_items ht hi, parse_help ht hx]
  rfl

end Warc.CliLemmas
