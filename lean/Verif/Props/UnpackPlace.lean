import Verif.Props.Unpack
/-
  C95: where exactly `output_file` of warcunpack_ia puts the file of an ordinary URL.
-/
set_option linter.all false
namespace Warc
open Spec Unpack

namespace Unpack

theorem splitext_of {n stem ext : Text} (h : Extension n stem ext) : splitext n = (stem, ext) := by
  obtain ⟨rfl, h⟩ := h
  rcases h with ⟨e, rfl, he, x, hx, hx2⟩ | ⟨rfl, h⟩
  · have hr : (stem ++ '.' :: e).reverse = e.reverse ++ '.' :: stem.reverse := by simp
    have hall : ∀ y ∈ e.reverse, (decide (y ≠ '.')) = true := by
      intro y hy
      rw [List.mem_reverse] at hy
      simp only [ne_eq, decide_eq_true_eq]
      rintro rfl; exact he hy
    have h1 : (stem ++ '.' :: e).reverse.takeWhile (· ≠ '.') = e.reverse := by
      rw [hr, List.takeWhile_append_of_pos hall]; simp
    have h2 : (stem ++ '.' :: e).reverse.dropWhile (· ≠ '.') = '.' :: stem.reverse := by
      rw [hr, List.dropWhile_append_of_pos hall]; simp
    simp only [splitext, h1, h2, List.tail_cons, List.reverse_reverse]
    rw [if_pos]
    refine ⟨by simp, ?_⟩
    rw [List.any_eq_true]
    exact ⟨x, hx, by simpa using hx2⟩
  · rw [List.append_nil] at h ⊢
    simp only [splitext]
    rw [if_neg]
    rintro ⟨h1, h2⟩
    rw [List.any_eq_true] at h2
    obtain ⟨x, hx, hx2⟩ := h2
    have hd : stem.reverse.dropWhile (· ≠ '.') ≠ [] := by
      intro h0
      have h3 : stem.reverse.takeWhile (· ≠ '.') = stem.reverse := by
        have := List.takeWhile_append_dropWhile (p := (· ≠ '.')) (l := stem.reverse)
        rw [h0, List.append_nil] at this; exact this
      have h4 : '.' ∈ stem.reverse.takeWhile (· ≠ '.') := by rw [h3]; simpa using h1
      have := List.all_takeWhile (p := (· ≠ '.')) (l := stem.reverse)
      rw [List.all_eq_true] at this
      simpa using this _ h4
    cases hh : stem.reverse.dropWhile (· ≠ '.') with
    | nil => exact hd hh
    | cons y ys =>
      have hy : y = '.' := by
        have := List.head?_dropWhile_not (· ≠ '.') stem.reverse
        rw [hh] at this
        simpa using this
      subst hy
      have hs : stem = ys.reverse ++ '.' :: (stem.reverse.takeWhile (· ≠ '.')).reverse := by
        have := List.takeWhile_append_dropWhile (p := (· ≠ '.')) (l := stem.reverse)
        rw [hh] at this
        have h5 := congrArg List.reverse this
        rw [List.reverse_reverse] at h5
        conv => lhs; rw [← h5]
        simp
      rw [hh] at hx
      have := h _ _ hs x (by simpa using hx)
      simp [this] at hx2

theorem nameExt_of {env : Env} {file d stem own ext : Text} {m : Option Text}
    (hname : if file = [] then stem = d ∧ own = [] else Extension file stem own) (hext : Ends env m own ext) :
    nameExt env file m d = (stem, ext) := by
  have h0 : (if file ≠ [] then splitext file else (d, [])) = (stem, own) := by
    by_cases hf : file = []
    · rw [if_pos hf] at hname
      rw [if_neg (by simpa using hf), hname.1, hname.2]
    · rw [if_neg hf] at hname
      rw [if_pos hf, splitext_of hname]
  simp only [nameExt, h0]
  cases hext with
  | guessed m _ _ hm hg he => simp only [if_pos hm, hg, if_pos he]
  | unknown m _ hm hg =>
    simp only [if_pos hm]
    cases h : env.guessExtension m with
    | none => rfl
    | some e => simp only [hg e h]; rfl
  | own _ _ hm ho =>
    rcases hm with rfl | rfl
    · simp only [if_neg ho]
    · simp only [ne_eq, not_true_eq_false, if_false, if_neg ho]
  | html _ hm =>
    rcases hm with rfl | rfl
    · rfl
    · rfl

theorem sliceTo_of {stem ext short : Text} (h : Shortened stem ext short) : sliceTo stem (45 - (ext.length : Int)) = short := by
  obtain ⟨⟨t, rfl⟩, hl⟩ := h
  have key : ∀ n, n = short.length → (short ++ t).take n = short := by
    rintro _ rfl; simp
  have key2 : ∀ n, short.length = min (short ++ t).length n → (short ++ t).take n = short := by
    intro n hn
    by_cases hle : n ≤ (short ++ t).length
    · exact key n (by omega)
    · have : t = [] := by
        have h1 : (short ++ t).length = short.length + t.length := List.length_append
        exact List.eq_nil_of_length_eq_zero (by omega)
      subst this
      rw [List.append_nil, List.take_of_length_le]
      rw [List.append_nil] at hle; omega
  unfold sliceTo
  by_cases hle : ext.length ≤ 45
  · rw [if_pos hle] at hl
    rw [if_pos (by omega)]
    have : (45 - (ext.length : Int)).toNat = 45 - ext.length := by omega
    rw [this]
    exact key2 _ hl
  · rw [if_neg hle] at hl
    rw [if_neg (by omega)]
    have : (-(45 - (ext.length : Int))).toNat = ext.length - 45 := by omega
    rw [this]
    exact key _ hl.symm

theorem freshName_at (env : Env) (dir name ext short : Text) (hshort : sliceTo name (45 - (ext.length : Int)) = short)
    (hns : ∀ k, '/' ∉ candidate env short ext k) (k fuel i : Nat) (col : Bool) (hi : i ≤ k) (hk : k - i < fuel)
    (htaken : ∀ j, j < k → Taken env (resolve env.cwd dir) (candidate env short ext j))
    (hfree : ¬ Taken env (resolve env.cwd dir) (candidate env short ext k)) :
    freshName env dir name ext fuel i (Unpack.join dir (candidate env short ext i)) col =
      some (Unpack.join dir (candidate env short ext k), if i = k then col else true) := by
  induction fuel generalizing i col with
  | zero => omega
  | succ fuel ih =>
    by_cases hik : i = k
    · subst hik
      simp only [freshName]
      rw [if_neg]
      · simp
      · simp only [Taken, not_or] at hfree
        obtain ⟨h1, h2, h3, h4⟩ := hfree
        rw [resolve_join _ _ (hns i), walk_good ⟨h1, hns i, h2, h3⟩, exAfter]
        simp only [Bool.not_eq_true] at h4
        rw [h4, Bool.false_or, List.isSuffixOf_iff_suffix]
        intro h
        have := h.length_le
        simp only [List.length_cons] at this
        omega
    · have ht := htaken i (by omega)
      have hex : exAfter env dir (resolve env.cwd (Unpack.join dir (candidate env short ext i))) = true := by
        rw [resolve_join _ _ (hns i), exAfter, Bool.or_eq_true, List.isSuffixOf_iff_suffix]
        by_cases hf : FileName (candidate env short ext i)
        · left
          rw [walk_good hf]
          rcases ht with h | h | h | h
          · exact absurd h hf.1
          · exact absurd h hf.2.2.1
          · exact absurd h hf.2.2.2
          · exact h
        · right
          unfold walk
          by_cases e1 : candidate env short ext i = [] ∨ candidate env short ext i = ['.']
          · rw [if_pos e1]; exact List.suffix_refl _
          · rw [if_neg e1]
            by_cases e2 : candidate env short ext i = ['.', '.']
            · rw [if_pos e2]; exact List.tail_suffix _
            · exact absurd ⟨fun h => e1 (.inl h), hns i, fun h => e1 (.inr h), e2⟩ hf
      simp only [freshName, hex, if_true, hshort]
      have := ih (i + 1) true (by omega) (by omega)
      rw [if_neg hik]
      simp only [ite_self] at this
      exact this

theorem replaceScheme_at {scheme : Text} (h : ':' ∉ scheme) (rest : Text) :
    replaceScheme (scheme ++ "://".toList ++ rest) = scheme ++ '/' :: rest := by
  induction scheme with
  | nil => rfl
  | cons c cs ih =>
    simp only [List.mem_cons, not_or] at h
    have h1 : replaceScheme (c :: (cs ++ "://".toList ++ rest)) = c :: replaceScheme (cs ++ "://".toList ++ rest) := by
      conv => lhs; unfold replaceScheme
      split
      · next h2 => exact absurd (List.cons.inj h2).1.symm h.1
      · next h2 => obtain ⟨rfl, rfl⟩ := List.cons.inj h2; rfl
      · next h2 => cases h2
    show replaceScheme (c :: (cs ++ "://".toList ++ rest)) = _
    rw [h1, ih h.2]; rfl

theorem safe_slash (env : Env) {c : Char} (h : c ≠ '/') : safe env c ≠ '/' := by
  unfold safe
  split
  · exact h
  · decide

theorem safe_eq (env : Env) {c : Char} (h : c ≠ '/') :
    (if env.alnum c = true ∨ c = '_' ∨ c = '-' ∨ c = '/' ∨ c = '.' then c else '_') = safe env c := by
  unfold safe
  have : (env.alnum c = true ∨ c = '_' ∨ c = '-' ∨ c = '/' ∨ c = '.') ↔ (env.alnum c = true ∨ c ∈ ['_', '-', '.']) := by
    simp [h]
  simp only [this]

theorem clean_join (env : Env) (cs : List Text) (h : ∀ c ∈ cs, '/' ∉ c) :
    (joinSlash cs).map (fun c => if env.alnum c = true ∨ c = '_' ∨ c = '-' ∨ c = '/' ∨ c = '.' then c else '_') =
      joinSlash (cs.map (List.map (safe env))) := by
  have one : ∀ c : Text, '/' ∉ c → c.map (fun c => if env.alnum c = true ∨ c = '_' ∨ c = '-' ∨ c = '/' ∨ c = '.' then c else '_') = c.map (safe env) := by
    intro c hc
    apply List.map_congr_left
    intro x hx
    exact safe_eq env (by rintro rfl; exact hc hx)
  induction cs with
  | nil => rfl
  | cons c cs ih =>
    cases cs with
    | nil => exact one c (h c (by simp))
    | cons d cs =>
      have ih' := ih (fun x hx => h x (by simp [hx]))
      show List.map _ (c ++ '/' :: joinSlash (d :: cs)) = _
      rw [List.map_append, one c (h c (by simp)), List.map_cons, ih']
      simp [joinSlash]

theorem map_safe_dots (env : Env) {d : Text} {n : Nat} (h : d.map (safe env) = List.replicate n '.') : d = List.replicate n '.' := by
  have key : ∀ c, safe env c = '.' → c = '.' := by
    intro c hc
    unfold safe at hc
    split at hc
    · exact hc
    · exact absurd hc (by decide)
  rw [List.eq_replicate_iff] at h ⊢
  refine ⟨by simpa using h.1, fun x hx => key x (h.2 _ (List.mem_map.mpr ⟨x, hx, rfl⟩))⟩

theorem safe_dot (env : Env) : safe env '.' = '.' := by simp [safe]

end Unpack

/-- **C95** The file of the URL `scheme://part/…/part/name` is put into the directory `output/scheme/part/…/part`, cut to 200 characters
(empty parts and `.` do not count, and unusual characters become underscores).  Its name is the one of the URL, or the default name if the
URL ends in a slash, with the extension for its mime type, else its own one, else `.html`, cut to 45 characters.  If this name is taken,
`_R` and the beginning of a UUID come before the extension, as often as is needed. -/
theorem C95_place (env : Env) (he : EnvOk env) (comps : List Text) (hcomps : ∀ c ∈ comps, FileName c)
    (scheme : Text) (hscheme : ':' ∉ scheme) (dirs : List Text) (hdirs : ∀ d ∈ scheme :: dirs, '/' ∉ d ∧ d ≠ ['.', '.'])
    (file : Text) (hfile : '/' ∉ file) (mimeType : Option Text) (defaultName : Text) (hd : '/' ∉ defaultName)
    (kept : List Text) (hkept : ∀ c ∈ kept, FileName c)
    (hcut : (AbsPath (comps ++ ((scheme :: dirs).filter fun d => d ≠ [] ∧ d ≠ ['.']).map (List.map (safe env)))).take 200 = AbsPath kept)
    (stem own ext short : Text) (hname : if file = [] then stem = defaultName ∧ own = [] else Extension (file.map (safe env)) stem own)
    (hext : Ends env mimeType own ext) (hshort : Shortened stem ext short)
    (k fuel : Nat) (hk : k < fuel) (htaken : ∀ j, j < k → Taken env kept.reverse (candidate env short ext j))
    (hfree : ¬ Taken env kept.reverse (candidate env short ext k)) :
    outputFile env fuel (AbsPath comps) (scheme ++ "://".toList ++ joinSlash (dirs ++ [file])) mimeType defaultName =
      some ⟨kept.reverse, candidate env short ext k :: kept.reverse, decide (k ≠ 0)⟩ := by
  -- the parts of the URL
  have hparts : splitSlash (cleanUrl env (scheme ++ "://".toList ++ joinSlash (dirs ++ [file]))) =
      ((scheme :: dirs).map (List.map (safe env))) ++ [file.map (safe env)] := by
    have hns : ∀ c ∈ scheme :: (dirs ++ [file]), '/' ∉ c := by
      intro c hc
      simp only [List.mem_cons, List.mem_append, List.not_mem_nil, or_false] at hc
      rcases hc with rfl | hc | rfl
      · exact (hdirs _ (by simp)).1
      · exact (hdirs _ (by simp [hc])).1
      · exact hfile
    have hj : scheme ++ '/' :: joinSlash (dirs ++ [file]) = joinSlash (scheme :: (dirs ++ [file])) := by
      cases h : dirs ++ [file] with
      | nil => simp at h
      | cons a b => rfl
    rw [cleanUrl, replaceScheme_at hscheme, hj, clean_join env _ hns, splitSlash_joinSlash (by simp)]
    · simp
    · intro c hc
      obtain ⟨d, h1, rfl⟩ := List.mem_map.mp hc
      intro h2
      obtain ⟨x, h3, h4⟩ := List.mem_map.mp h2
      exact safe_slash env (by rintro rfl; exact hns d h1 h3) h4
  -- the directory
  have hgood : ∀ d ∈ ((scheme :: dirs).map (List.map (safe env))).filter (· ≠ []), d ≠ [] ∧ '/' ∉ d ∧ d ≠ ['.', '.'] := by
    intro d hd
    rw [List.mem_filter] at hd
    obtain ⟨c, h1, rfl⟩ := List.mem_map.mp hd.1
    refine ⟨by simpa using hd.2, ?_, ?_⟩
    · intro h2
      obtain ⟨x, h3, h4⟩ := List.mem_map.mp h2
      exact safe_slash env (by rintro rfl; exact (hdirs c h1).1 h3) h4
    · intro h2
      exact (hdirs c h1).2 (map_safe_dots env (n := 2) h2)
  have hfilter : (((scheme :: dirs).map (List.map (safe env))).filter (· ≠ [])).filter (· ≠ ['.']) =
      ((scheme :: dirs).filter fun d => d ≠ [] ∧ d ≠ ['.']).map (List.map (safe env)) := by
    rw [List.filter_filter, List.filter_map]
    congr 1
    apply List.filter_congr
    intro c hc
    have h2 : c.map (safe env) = ['.'] ↔ c = ['.'] :=
      ⟨fun h => map_safe_dots env (n := 1) h, fun h => by rw [h]; simp [safe_dot]⟩
    simp only [Function.comp, ne_eq, h2, List.map_eq_nil_iff]
    by_cases g1 : c = [] <;> by_cases g2 : c = ['.'] <;> simp [g1, g2]
  have hdir : directory (AbsPath comps) (((scheme :: dirs).map (List.map (safe env))) ++ [file.map (safe env)]) = AbsPath kept := by
    rw [directory, List.dropLast_concat, normpath_joinAll _ _ hgood, absPath_slashes hcomps, absPath_stack hcomps, hfilter,
      if_neg (by simp)]
    exact hcut
  have hres : resolve env.cwd (AbsPath kept) = kept.reverse := absPath_resolve env.cwd hkept
  -- the name
  have hne : nameExt env (file.map (safe env)) mimeType defaultName = (stem, ext) := by
    apply nameExt_of _ hext
    simpa using hname
  have hfm : '/' ∉ file.map (safe env) := by
    intro h2
    obtain ⟨x, h3, h4⟩ := List.mem_map.mp h2
    exact safe_slash env (by rintro rfl; exact hfile h3) h4
  have hsl := nameExt_noSlash he hfm hd mimeType
  rw [hne] at hsl
  have hs := sliceTo_of hshort
  have hss : '/' ∉ short := by rw [← hs]; exact sliceTo_noSlash hsl.1 _
  have hns : ∀ j, '/' ∉ candidate env short ext j := by
    intro j
    cases j with
    | zero =>
      simp only [candidate, List.mem_append, not_or]; exact ⟨hss, hsl.2⟩
    | succ j =>
      simp only [candidate, List.mem_append, not_or]
      exact ⟨⟨⟨hss, by decide⟩, he.uuid j⟩, hsl.2⟩
  have hrun := freshName_at env (AbsPath kept) stem ext short hs hns k fuel 0 false (Nat.zero_le _) (by omega)
    (by rw [hres]; exact htaken) (by rw [hres]; exact hfree)
  have hcand0 : candidate env short ext 0 = sliceTo stem (45 - (ext.length : Int)) ++ ext := by rw [hs]; rfl
  rw [hcand0] at hrun
  simp only [outputFile, hparts, List.getLast?_concat, Option.getD_some, hdir, hne, hrun, Option.map_some, hres, resolve_normpath]
  have hfn : FileName (candidate env short ext k) := by
    simp only [Taken, not_or] at hfree
    exact ⟨hfree.1, hns k, hfree.2.1, hfree.2.2.1⟩
  rw [resolve_join _ _ (hns k), hres, walk_good hfn]
  congr 2
  by_cases h : k = 0
  · subst h; rfl
  · rw [if_neg (Ne.symm h)]; simp [h]

/-- **C95** Such an extension and such a shortened name exist for every URL, so that `C95_place` speaks about all of them. -/
theorem C95_every_name (env : Env) (name : Text) (mimeType : Option Text) :
    ∃ stem own ext short, Extension name stem own ∧ Ends env mimeType own ext ∧ Shortened stem ext short := by
  have h1 : ∃ stem own, Extension name stem own := by
    by_cases h : ∃ a b, name = a ++ '.' :: b ∧ '.' ∉ b ∧ ∃ x ∈ a, x ≠ '.'
    · obtain ⟨a, b, h1, h2, h3⟩ := h
      exact ⟨a, '.' :: b, h1, .inl ⟨b, rfl, h2, h3⟩⟩
    · refine ⟨name, [], by simp, .inr ⟨rfl, ?_⟩⟩
      intro a b hab x hx
      apply Classical.byContradiction
      intro hx2
      -- the last dot
      have : ∀ (b a : Text), (∃ x ∈ a, x ≠ '.') → name = a ++ '.' :: b → False := by
        intro b
        induction hn : b.length using Nat.strongRecOn generalizing b with
        | _ n ih =>
          intro a hx hab
          by_cases hb : '.' ∈ b
          · obtain ⟨p, q, rfl⟩ := List.append_of_mem hb
            obtain ⟨x, hx1, hx2⟩ := hx
            refine ih q.length (by subst hn; simp; omega) q rfl (a ++ '.' :: p) ⟨x, by simp [hx1], hx2⟩ ?_
            rw [hab]; simp
          · exact h ⟨a, b, hab, hb, hx⟩
      exact this b a ⟨x, hx, hx2⟩ hab
  obtain ⟨stem, own, h1⟩ := h1
  have h2 : ∃ ext, Ends env mimeType own ext := by
    have none' : (mimeType = none ∨ mimeType = some []) → ∃ ext, Ends env mimeType own ext := by
      intro hm
      by_cases ho : own = []
      · subst ho; exact ⟨_, .html _ hm⟩
      · exact ⟨_, .own _ _ hm ho⟩
    cases mimeType with
    | none => exact none' (.inl rfl)
    | some m =>
      by_cases hm : m = []
      · exact none' (.inr (by rw [hm]))
      · cases hg : env.guessExtension m with
        | none => exact ⟨own, .unknown m own hm (by intro e h; rw [hg] at h; cases h)⟩
        | some e =>
          by_cases he : e = []
          · exact ⟨own, .unknown m own hm (by intro e' h; rw [hg] at h; cases h; exact he)⟩
          · exact ⟨e, .guessed m own e hm hg he⟩
  obtain ⟨ext, h2⟩ := h2
  refine ⟨stem, own, ext, stem.take (if ext.length ≤ 45 then 45 - ext.length else stem.length - (ext.length - 45)), h1, h2, List.take_prefix _ _, ?_⟩
  rw [List.length_take]
  by_cases h : ext.length ≤ 45
  · simp only [if_pos h]; omega
  · simp only [if_neg h]; omega

/-- **C56** (defect) A default name that is an absolute path puts the files of URLs that end in a slash there, whatever the output directory. -/
theorem C56_default_name (env : Env) (fuel : Nat) (outputDir url : Text) (folder : List Text) (base : Text)
    (hfolder : ∀ c ∈ folder, FileName c) (hbase : '/' ∉ base) (hlen : (AbsPath (folder ++ [base])).length ≤ 40)
    (o : Out) (h : outputFile env fuel outputDir (url ++ ['/']) none (AbsPath (folder ++ [base])) = some o) (hcol : o.collision = false) :
    o.file = (base ++ ".html".toList) :: folder.reverse := by
  have hslash : ∀ u : Text, ∃ ps, splitSlash (cleanUrl env (u ++ ['/'])) = ps ++ [[]] := by
    intro u
    have h1 : ∃ v, replaceScheme (u ++ ['/']) = v ++ ['/'] := by
      have : ∀ n, ∀ u : Text, u.length ≤ n → ∃ v, replaceScheme (u ++ ['/']) = v ++ ['/'] := by
        intro n
        induction n with
        | zero =>
          intro u hu
          have : u = [] := List.eq_nil_of_length_eq_zero (by omega)
          subst this
          exact ⟨[], rfl⟩
        | succ n ih =>
          intro u hu
          cases u with
          | nil => exact ⟨[], rfl⟩
          | cons c cs =>
            obtain ⟨v, hv⟩ := ih cs (by simpa using hu)
            by_cases hc : ∃ t, c :: cs ++ ['/'] = ':' :: '/' :: '/' :: t
            · obtain ⟨t, ht⟩ := hc
              rw [ht]
              show ∃ v, '/' :: t = v ++ ['/']
              have hl : ('/' :: t).getLast? = some '/' := by
                have : (c :: cs ++ ['/']).getLast? = some '/' := List.getLast?_concat
                rw [ht] at this
                cases t with
                | nil => rfl
                | cons y t => simpa using this
              obtain ⟨v, hv⟩ := List.getLast?_eq_some_iff.mp hl
              exact ⟨v, hv⟩
            · refine ⟨c :: v, ?_⟩
              have e : replaceScheme (c :: (cs ++ ['/'])) = c :: replaceScheme (cs ++ ['/']) := by
                conv => lhs; unfold replaceScheme
                split
                · next h2 => exact absurd ⟨_, h2⟩ hc
                · next h2 => obtain ⟨rfl, rfl⟩ := List.cons.inj h2; rfl
                · next h2 => cases h2
              show replaceScheme (c :: (cs ++ ['/'])) = _
              rw [e, hv]; rfl
      exact this _ u (Nat.le_refl _)
    obtain ⟨v, hv⟩ := h1
    refine ⟨splitSlash (v.map fun c => if env.alnum c = true ∨ c = '_' ∨ c = '-' ∨ c = '/' ∨ c = '.' then c else '_'), ?_⟩
    rw [cleanUrl, hv, List.map_append]
    have : List.map (fun c => if env.alnum c = true ∨ c = '_' ∨ c = '-' ∨ c = '/' ∨ c = '.' then c else '_') ['/'] = '/' :: [] := by simp
    rw [this, splitSlash_append]; rfl
  obtain ⟨ps, hps⟩ := hslash url
  simp only [outputFile, hps, List.getLast?_concat, Option.getD_some] at h
  have hname : nameExt env [] none (AbsPath (folder ++ [base])) = (AbsPath (folder ++ [base]), ".html".toList) := rfl
  simp only [hname] at h
  have hcutn : sliceTo (AbsPath (folder ++ [base])) (45 - (".html".toList.length : Int)) = AbsPath (folder ++ [base]) := by
    have e : (45 - (".html".toList.length : Int)) = 40 := by decide
    rw [e, sliceTo, if_pos (by decide)]
    exact List.take_of_length_le hlen
  rw [hcutn] at h
  have hjoin : ∀ dir, Unpack.join dir (AbsPath (folder ++ [base]) ++ ".html".toList) = AbsPath (folder ++ [base ++ ".html".toList]) := by
    intro dir
    rw [Unpack.join, if_pos (by rfl)]
    show '/' :: (joinSlash (folder ++ [base]) ++ ".html".toList) = '/' :: joinSlash (folder ++ [base ++ ".html".toList])
    congr 1
    cases folder with
    | nil => rfl
    | cons c cs =>
      rw [joinSlash_append (by simp) (by simp), joinSlash_append (by simp) (by simp)]
      simp [joinSlash]
  rw [hjoin, Option.map_eq_some_iff] at h
  obtain ⟨⟨full, col⟩, h1, rfl⟩ := h
  simp only at hcol
  subst hcol
  have hcolm : ∀ (dir name ext : Text) fuel k n full, freshName env dir name ext fuel k n true ≠ some (full, false) := by
    intro dir name ext fuel
    induction fuel with
    | zero => intro k n full h; cases h
    | succ fuel ih =>
      intro k n full h
      simp only [freshName] at h
      split at h
      · exact ih _ _ _ h
      · cases h
  have hfull : full = AbsPath (folder ++ [base ++ ".html".toList]) := by
    cases fuel with
    | zero => cases h1
    | succ fuel =>
      simp only [freshName] at h1
      split at h1
      · exact absurd h1 (hcolm _ _ _ _ _ _ _)
      · cases h1; rfl
  show resolve env.cwd (normpath full) = _
  rw [resolve_normpath, hfull, absPath_resolve]
  · simp
  · intro c hc
    simp only [List.mem_append, List.mem_singleton] at hc
    rcases hc with hc | rfl
    · exact hfolder c hc
    · have hlen5 : 5 ≤ (base ++ ".html".toList).length := by
        rw [List.length_append]
        have : ".html".toList.length = 5 := by decide
        omega
      refine ⟨?_, ?_, ?_, ?_⟩
      · intro h; rw [h] at hlen5; exact absurd hlen5 (by decide)
      · rw [List.mem_append]; rintro (h | h)
        · exact hbase h
        · exact absurd h (by decide)
      · intro h; rw [h] at hlen5; exact absurd hlen5 (by decide)
      · intro h; rw [h] at hlen5; exact absurd hlen5 (by decide)

/-! concrete cases -/

/-- a name that is taken, with a port and a query, a double slash, and the extension of the mime type -/
example : outputFile demoEnv 3 "/out".toList "http://h//a.js".toList (some "text/css".toList) "d".toList =
    some ⟨["h".toList, "http".toList, "out".toList], ["a_Raaaaaaaa.css".toList, "h".toList, "http".toList, "out".toList], true⟩ :=
  C95_place demoEnv demoEnv_ok ["out".toList] (by intro c hc; rw [List.mem_singleton] at hc; subst hc; exact ⟨by decide, by decide, by decide, by decide⟩)
    "http".toList (by decide) ["h".toList, []] (by decide) "a.js".toList (by decide) (some "text/css".toList) "d".toList (by decide)
    ["out".toList, "http".toList, "h".toList] (by
      intro c hc
      simp only [List.mem_cons, List.not_mem_nil, or_false] at hc
      rcases hc with rfl | rfl | rfl <;> exact ⟨by decide, by decide, by decide, by decide⟩)
    (by decide +kernel) "a".toList ".js".toList ".css".toList "a".toList
    (by rw [if_neg (by decide)]; exact ⟨by decide +kernel, .inl ⟨"js".toList, rfl, by decide, 'a', by decide, by decide⟩⟩)
    (.guessed _ _ _ (by decide) (by decide +kernel) (by decide)) ⟨by decide, by decide⟩ 1 3 (by decide)
    (by intro j hj; obtain rfl : j = 0 := by omega
        exact .inr (.inr (.inr (by decide +kernel))))
    (by rintro (h | h | h | h) <;> revert h <;> decide +kernel)

/-- a hidden file has no extension -/
example : Extension ".profile".toList ".profile".toList [] := by
  refine ⟨rfl, .inr ⟨rfl, ?_⟩⟩
  intro a b hab x hx
  cases a with
  | nil => cases hx
  | cons y a =>
    exfalso
    have := congrArg List.tail hab
    have h2 : '.' ∈ "profile".toList := by
      have h3 : ".profile".toList.tail = "profile".toList := by decide
      rw [← h3, this]; simp
    exact absurd h2 (by decide)

example : ∃ o, outputFile demoEnv 3 "/out".toList "http://h/".toList none "/etc/x".toList = some o ∧ o.file = ["x.html".toList, "etc".toList] := by
  have h : outputFile demoEnv 3 "/out".toList ("http://h".toList ++ ['/']) none (AbsPath (["etc".toList] ++ ["x".toList])) =
      some ⟨["h".toList, "http".toList, "out".toList], ["x.html".toList, "etc".toList], false⟩ := by decide +kernel
  exact ⟨_, h, C56_default_name demoEnv 3 _ _ ["etc".toList] "x".toList
    (by intro c hc; rw [List.mem_singleton] at hc; subst hc; exact ⟨by decide, by decide, by decide, by decide⟩) (by decide) (by decide) _ h rfl⟩

end Warc
