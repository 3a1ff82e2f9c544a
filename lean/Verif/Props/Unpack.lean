import Verif.Proofs.Unpack
/-
  C56, C60: where `output_file` of warcunpack_ia puts files.
-/
set_option linter.all false
namespace Warc
open Spec Unpack

namespace Unpack

theorem urlParts_good (env : Env) {url : Text} (hurl : ['.', '.'] ∉ urlDirs url) :
    ∀ d ∈ (splitSlash (cleanUrl env url)).dropLast.filter (· ≠ []), d ≠ [] ∧ '/' ∉ d ∧ d ≠ ['.', '.'] := by
  intro d hd
  rw [List.mem_filter] at hd
  obtain ⟨g, g1, g2⟩ := cleanParts env url
  refine ⟨by simpa using hd.2, splitSlash_noSlash _ d (List.dropLast_subset _ hd.1), ?_⟩
  rintro rfl
  rw [g2, ← List.map_dropLast] at hd
  obtain ⟨d', h1, h2⟩ := List.mem_map.mp hd.1
  rw [map_dots g1 h2] at h1
  exact hurl h1

/-- what a successful call gives -/
theorem outputFile_some {env : Env} (he : EnvOk env) {fuel : Nat} {out url d : Text} {m : Option Text} (hd : '/' ∉ d) {o : Out}
    (h : outputFile env fuel out url m d = some o) :
    ∃ f, FileName f ∧ o.dir = resolve env.cwd (directory out (splitSlash (cleanUrl env url))) ∧ o.file = f :: o.dir ∧ env.ex o.file = false := by
  simp only [outputFile, Option.map_eq_some_iff] at h
  obtain ⟨⟨full, col⟩, h1, rfl⟩ := h
  have hparts : '/' ∉ (splitSlash (cleanUrl env url)).getLast?.getD [] := by
    cases hg : (splitSlash (cleanUrl env url)).getLast? with
    | none => simp
    | some x => exact splitSlash_noSlash _ x (List.mem_of_getLast? hg)
  obtain ⟨hn, hx⟩ := nameExt_noSlash he hparts hd m
  obtain ⟨f, hf, rfl, h3, h4⟩ := freshName_some he hn hx
    (by simp only [List.mem_append, not_or]; exact ⟨sliceTo_noSlash hn _, hx⟩) h1
  refine ⟨f, hf, rfl, ?_, ?_⟩
  · show resolve env.cwd (normpath _) = _
    rw [resolve_normpath, h3]
  · show env.ex (resolve env.cwd (normpath _)) = _
    rw [resolve_normpath, h3]; exact h4

end Unpack

/-- **C56** If none of the directories that the URL names is `..`, and the normal form of the output directory is not longer
than 200 characters and not exactly 197 characters long, then the file and the directory that is made for it are inside the
output directory. -/
theorem C56_inside (env : Env) (he : EnvOk env) (fuel : Nat) (outputDir url : Text) (mimeType : Option Text) (defaultName : Text)
    (hd : '/' ∉ defaultName) (hurl : ['.', '.'] ∉ urlDirs url)
    (h200 : (normpath outputDir).length ≤ 200) (h197 : (normpath outputDir).length ≠ 197)
    (o : Out) (h : outputFile env fuel outputDir url mimeType defaultName = some o) :
    Within (resolve env.cwd outputDir) o.dir ∧ ∃ f, FileName f ∧ o.file = f :: o.dir := by
  obtain ⟨f, hf, hdir, hfile, -⟩ := outputFile_some he hd h
  refine ⟨?_, f, hf, hfile⟩
  rw [hdir, directory, Within]
  exact directory_within env.cwd outputDir _ (urlParts_good env hurl) h200 h197

namespace Unpack

theorem cleanUrl_clean {env : Env} {url : Text} (h : ∀ c ∈ replaceScheme url, env.alnum c = true ∨ c = '_' ∨ c = '-' ∨ c = '/' ∨ c = '.') :
    cleanUrl env url = replaceScheme url := by
  unfold cleanUrl
  rw [List.map_congr_left (g := id)]
  · simp
  · intro c hc
    simp only [if_pos (h c hc), id]

theorem splitSlash_joinSlash {cs : List Text} (hne : cs ≠ []) (h : ∀ c ∈ cs, '/' ∉ c) : splitSlash (joinSlash cs) = cs := by
  induction cs with
  | nil => exact absurd rfl hne
  | cons c cs ih =>
    cases cs with
    | nil => exact splitSlash_single (h c (by simp))
    | cons d cs =>
      show splitSlash (c ++ '/' :: joinSlash (d :: cs)) = _
      rw [splitSlash_append, splitSlash_single (h c (by simp)), ih (by simp) (fun x hx => h x (by simp [hx]))]
      rfl

theorem walk_up (n : Nat) (s : List Text) : (List.replicate n (['.', '.'] : Text)).foldl walk s = s.drop n := by
  induction n generalizing s with
  | zero => rfl
  | succ n ih =>
    rw [List.replicate_succ, List.foldl_cons, ih]
    have : walk s ['.', '.'] = s.tail := rfl
    rw [this, List.drop_tail]

theorem walk_down (t : List Text) (h : ∀ c ∈ t, FileName c) (s : List Text) : t.foldl walk s = t.reverse ++ s := by
  induction t generalizing s with
  | nil => rfl
  | cons c t ih =>
    rw [List.foldl_cons, walk_good (h c (by simp)), ih (fun x hx => h x (by simp [hx]))]
    simp

/-- for an absolute path, `normpath` keeps just the components of the place where it leads -/
theorem normStack_abs (cwd : List Text) {p : Text} (h : p.head? = some '/') : normStack p = resolve cwd p := by
  have key : ∀ (cs : List Text) (st : List Text), (∀ d ∈ st, d ≠ ['.', '.']) →
      cs.foldl (normStep true) st = cs.foldl walk st ∧ ∀ d ∈ cs.foldl walk st, d ≠ ['.', '.'] := by
    intro cs
    induction cs with
    | nil => intro st hst; exact ⟨rfl, hst⟩
    | cons c cs ih =>
      intro st hst
      have h1 : normStep true st c = walk st c ∧ ∀ d ∈ walk st c, d ≠ ['.', '.'] := by
        unfold normStep walk
        by_cases g1 : c = [] ∨ c = ['.']
        · rw [if_pos g1, if_pos g1]; exact ⟨rfl, hst⟩
        · rw [if_neg g1, if_neg g1]
          by_cases g2 : c = ['.', '.']
          · rw [if_pos g2, if_neg]
            · exact ⟨rfl, fun d hd => hst d (List.mem_of_mem_tail hd)⟩
            · rintro (g | ⟨g, -⟩ | g)
              · exact g g2
              · cases g
              · cases st with
                | nil => cases g
                | cons d st => exact hst d (by simp) (by simpa using g)
          · rw [if_neg g2, if_pos (Or.inl g2)]
            refine ⟨rfl, ?_⟩
            intro d hd
            rcases List.mem_cons.mp hd with rfl | hd
            · exact g2
            · exact hst d hd
      rw [List.foldl_cons, List.foldl_cons, h1.1]
      exact ih _ h1.2
  rw [resolve, normStack, if_pos h, h]
  exact (key _ [] (by simp)).1

theorem directory_abs (cwd : List Text) (out : Text) (hout : out.head? = some '/') (ds : List Text) (hds : ∀ d ∈ ds, '/' ∉ d) (t : List Text)
    (ht : ds.foldl walk (resolve cwd out) = t.reverse) :
    normpath (joinAll (out :: ds)) = slashes out ++ joinSlash t := by
  have h1 := (head?_joinAll out ds hds).mpr hout
  have h2 := normStack_abs cwd h1
  rw [resolve_joinAll cwd out ds hds, ht] at h2
  rw [normpath_eq, h2, slashes_joinAll out ds hds, List.reverse_reverse, if_neg]
  rcases slashes_cases out with ⟨-, h | h⟩ | ⟨h, -⟩
  · rw [h]; simp
  · rw [h]; simp
  · exact absurd hout h

end Unpack

/-- **C56** (defect) "Whatever the URL" is false: for every absolute output directory and every other directory (a path of at
most 198 characters, made of letters, digits, underscores, hyphens and dots) there is a URL whose payload is written to a
file in that other directory, provided that there is no file of that name yet. -/
theorem C56_escape (env : Env) (outputDir : Text) (habs : outputDir.head? = some '/') (target : List Text)
    (htarget : ∀ c ∈ target, FileName c ∧ ∀ x ∈ c, env.alnum x = true ∨ x = '_' ∨ x = '-' ∨ x = '.')
    (hlen : (joinSlash target).length ≤ 198) (hletters : ∀ x ∈ "htpx".toList, env.alnum x = true)
    (hnew : env.ex ("x.html".toList :: target.reverse) = false) :
    ∃ url, "http://".toList <+: url ∧ ∀ fuel defaultName,
      outputFile env (fuel + 1) outputDir url none defaultName = some ⟨target.reverse, "x.html".toList :: target.reverse, false⟩ := by
  let up : List Text := List.replicate ((resolve env.cwd outputDir).length + 1) ['.', '.']
  refine ⟨"http://".toList ++ joinSlash (up ++ target ++ ["x".toList]), ⟨_, rfl⟩, ?_⟩
  intro fuel defaultName
  have hcs : ∀ c ∈ "http".toList :: (up ++ target ++ ["x".toList]), '/' ∉ c ∧ c ≠ [] ∧
      ∀ x ∈ c, env.alnum x = true ∨ x = '_' ∨ x = '-' ∨ x = '.' := by
    intro c hc
    simp only [List.mem_cons, List.mem_append, List.not_mem_nil, or_false] at hc
    rcases hc with rfl | (hc | hc) | rfl
    · refine ⟨by decide, by decide, fun x hx => Or.inl (hletters x ?_)⟩
      have : ∀ x ∈ "http".toList, x ∈ "htpx".toList := by decide
      exact this x hx
    · rw [List.eq_of_mem_replicate hc]
      refine ⟨by decide, by decide, fun x hx => Or.inr (Or.inr (Or.inr ?_))⟩
      simpa using hx
    · obtain ⟨h1, h2⟩ := htarget c hc
      exact ⟨h1.2.1, h1.1, h2⟩
    · refine ⟨by decide, by decide, fun x hx => Or.inl (hletters x ?_)⟩
      have : ∀ x ∈ "x".toList, x ∈ "htpx".toList := by decide
      exact this x hx
  have hrep : replaceScheme ("http://".toList ++ joinSlash (up ++ target ++ ["x".toList])) =
      joinSlash ("http".toList :: (up ++ target ++ ["x".toList])) := by
    have : joinSlash ("http".toList :: (up ++ target ++ ["x".toList])) = "http".toList ++ '/' :: joinSlash (up ++ target ++ ["x".toList]) := by
      cases h : up ++ target ++ ["x".toList] with
      | nil => simp at h
      | cons a b => rfl
    rw [this]; rfl
  have hmem : ∀ (cs : List Text) (x : Char), x ∈ joinSlash cs → x = '/' ∨ ∃ c ∈ cs, x ∈ c := by
    intro cs
    induction cs with
    | nil => intro x hx; cases hx
    | cons c cs ih =>
      intro x hx
      cases cs with
      | nil => exact Or.inr ⟨c, by simp, hx⟩
      | cons d cs =>
        have hx' : x ∈ c ++ '/' :: joinSlash (d :: cs) := hx
        simp only [List.mem_append, List.mem_cons] at hx'
        rcases hx' with h | h | h
        · exact Or.inr ⟨c, by simp, h⟩
        · exact Or.inl h
        · rcases ih x h with h | ⟨e, he, h⟩
          · exact Or.inl h
          · exact Or.inr ⟨e, by simp only [List.mem_cons] at he ⊢; exact Or.inr he, h⟩
  have hclean : cleanUrl env ("http://".toList ++ joinSlash (up ++ target ++ ["x".toList])) =
      joinSlash ("http".toList :: (up ++ target ++ ["x".toList])) := by
    rw [cleanUrl_clean, hrep]
    rw [hrep]
    intro c hc
    rcases hmem _ _ hc with h | ⟨d, hd, h⟩
    · exact Or.inr (Or.inr (Or.inr (Or.inl h)))
    · rcases (hcs d hd).2.2 c h with h | h | h | h
      · exact Or.inl h
      · exact Or.inr (Or.inl h)
      · exact Or.inr (Or.inr (Or.inl h))
      · exact Or.inr (Or.inr (Or.inr (Or.inr h)))
  have hsplit : splitSlash (cleanUrl env ("http://".toList ++ joinSlash (up ++ target ++ ["x".toList]))) =
      ("http".toList :: (up ++ target)) ++ ["x".toList] := by
    rw [hclean, splitSlash_joinSlash (by simp) (fun c hc => (hcs c hc).1)]; simp
  have hlast : (("http".toList :: (up ++ target)) ++ ["x".toList]).getLast? = some "x".toList := List.getLast?_concat
  have hdrop : (("http".toList :: (up ++ target)) ++ ["x".toList]).dropLast = "http".toList :: (up ++ target) := List.dropLast_concat
  have hfilter : ("http".toList :: (up ++ target)).filter (· ≠ []) = "http".toList :: (up ++ target) := by
    rw [List.filter_eq_self]
    intro c hc
    have := (hcs c (by simp only [List.mem_cons, List.mem_append] at hc ⊢; rcases hc with h | h | h <;> simp [h])).2.1
    simpa using this
  have hwalk : ("http".toList :: (up ++ target)).foldl walk (resolve env.cwd outputDir) = target.reverse := by
    rw [List.foldl_cons, walk_good (c := "http".toList) ⟨by decide, by decide, by decide, by decide⟩, List.foldl_append, walk_up,
      walk_down _ (fun c hc => (htarget c hc).1)]
    simp
  have hds : ∀ d ∈ "http".toList :: (up ++ target), '/' ∉ d := by
    intro c hc
    exact (hcs c (by simp only [List.mem_cons, List.mem_append] at hc ⊢; rcases hc with h | h | h <;> simp [h])).1
  have hdir : directory outputDir (("http".toList :: (up ++ target)) ++ ["x".toList]) = slashes outputDir ++ joinSlash target := by
    rw [directory, hdrop, hfilter, directory_abs env.cwd outputDir habs _ hds _ hwalk, List.take_of_length_le]
    have := slashes_length outputDir
    simp only [List.length_append]; omega
  have hres : resolve env.cwd (slashes outputDir ++ joinSlash target : Text) = target.reverse := by
    rw [resolve_normal _ _ _ (fun c hc => ⟨(htarget c hc).1.1, (htarget c hc).1.2.1⟩), if_pos habs,
      walk_down _ (fun c hc => (htarget c hc).1)]
    simp
  have hname : nameExt env "x".toList none defaultName = ("x".toList, ".html".toList) := by rfl
  have hfull : resolve env.cwd (Unpack.join (slashes outputDir ++ joinSlash target : Text) "x.html".toList) = "x.html".toList :: target.reverse := by
    rw [resolve_join _ _ (by decide), hres, walk_good ⟨by decide, by decide, by decide, by decide⟩]
  simp only [outputFile, hsplit, hlast, Option.getD_some, hdir, hname]
  have hex : exAfter env (slashes outputDir ++ joinSlash target : Text) ("x.html".toList :: target.reverse) = false := by
    rw [exAfter, hnew, hres, Bool.false_or, Bool.eq_false_iff]
    intro h
    have := (List.isSuffixOf_iff_suffix.mp h).length_le
    simp only [List.length_cons] at this
    omega
  have e1 : sliceTo "x".toList (45 - (".html".toList.length : Int)) ++ ".html".toList = "x.html".toList := by decide
  rw [e1]
  simp only [freshName, hfull, hex, Bool.false_eq_true, if_false, Option.map_some, hres, resolve_normpath]

namespace Unpack

theorem absPath_head (comps : List Text) : (AbsPath comps).head? = some '/' := rfl

theorem absPath_slashes {comps : List Text} (h : ∀ c ∈ comps, FileName c) : slashes (AbsPath comps) = ['/'] := by
  cases comps with
  | nil => rfl
  | cons c cs =>
    have hc := h c (by simp)
    cases c with
    | nil => exact absurd rfl hc.1
    | cons x c =>
      have hx : x ≠ '/' := by rintro rfl; exact hc.2.1 (by simp)
      have : ∃ t, AbsPath ((x :: c) :: cs) = '/' :: x :: t := by
        cases cs with
        | nil => exact ⟨c, rfl⟩
        | cons d cs => exact ⟨_, rfl⟩
      obtain ⟨t, ht⟩ := this
      rw [ht]
      unfold slashes
      split <;> simp_all

theorem absPath_resolve (cwd : List Text) {comps : List Text} (h : ∀ c ∈ comps, FileName c) : resolve cwd (AbsPath comps) = comps.reverse := by
  have := resolve_normal cwd (AbsPath comps) comps (fun c hc => ⟨(h c hc).1, (h c hc).2.1⟩)
  rw [absPath_slashes h, if_pos (absPath_head comps), walk_down _ h, List.append_nil] at this
  exact this

theorem absPath_stack {comps : List Text} (h : ∀ c ∈ comps, FileName c) : (normStack (AbsPath comps)).reverse = comps := by
  rw [normStack_abs [] (absPath_head comps), absPath_resolve [] h, List.reverse_reverse]

theorem absPath_normpath {comps : List Text} (h : ∀ c ∈ comps, FileName c) : normpath (AbsPath comps) = AbsPath comps := by
  rw [normpath_eq, absPath_slashes h, absPath_stack h, if_neg (by simp)]
  rfl

/-- the characters of components, with a slash for each -/
def room (s : List Text) : Nat := (s.map fun c => c.length + 1).sum

theorem room_walk (s : List Text) (c : Text) : room (walk s c) ≤ room s + c.length + 1 := by
  rcases walk_cases s c with h | h | ⟨-, h⟩ <;> rw [h]
  · omega
  · simp [room]; omega
  · cases s with
    | nil => simp [room]
    | cons d s => simp [room]; omega

theorem room_foldl (cs s : List Text) : room (cs.foldl walk s) ≤ room s + room cs := by
  induction cs generalizing s with
  | nil => simp [room]
  | cons c cs ih =>
    have h1 := ih (walk s c)
    have h2 := room_walk s c
    simp only [room, List.foldl_cons, List.map_cons, List.sum_cons] at h1 h2 ⊢
    omega

theorem room_split (t : Text) : room (splitSlash t) = t.length + 1 := by
  induction t with
  | nil => rfl
  | cons c t ih =>
    by_cases h : c = '/'
    · subst h
      simp only [splitSlash, if_true, room, List.map_cons, List.sum_cons, List.length_nil, List.length_cons] at ih ⊢
      omega
    · obtain ⟨p, ps, e1, e2⟩ := splitSlash_cons h t
      rw [e1] at ih
      rw [e2]
      simp only [room, List.map_cons, List.sum_cons, List.length_cons] at ih ⊢
      omega

theorem room_joinSlash {cs : List Text} (h : cs ≠ []) : room cs = (joinSlash cs).length + 1 := by
  induction cs with
  | nil => exact absurd rfl h
  | cons c cs ih =>
    cases cs with
    | nil => simp [room, joinSlash]
    | cons d cs =>
      have := ih (by simp)
      simp only [room, joinSlash, List.map_cons, List.sum_cons, List.length_append, List.length_cons] at this ⊢
      omega

theorem room_append (a b : List Text) : room (a ++ b) = room a + room b := by
  simp [room, List.sum_append]

theorem room_reverse (a : List Text) : room a.reverse = room a := by
  induction a with
  | nil => rfl
  | cons c a ih => rw [List.reverse_cons, room_append, ih]; simp [room]; omega

end Unpack

/-- **C56** (defect) The length 197 is special: a directory name that begins with two dots is cut to `..`, so that the file
lands next to the output directory (which exists). -/
theorem C56_cut (env : Env) (he : EnvOk env) (comps : List Text) (hcomps : ∀ c ∈ comps, FileName c) (hex : env.ex comps.reverse = true) (h197 : (AbsPath comps).length = 197)
    (fuel : Nat) (mimeType : Option Text) (defaultName : Text) (hd : '/' ∉ defaultName) (o : Out)
    (h : outputFile env fuel (AbsPath comps) "..x/f".toList mimeType defaultName = some o) :
    o.dir = comps.reverse.tail ∧ ¬ Within (resolve env.cwd (AbsPath comps)) o.file := by
  obtain ⟨f, hf, hdir, hfile, hnew⟩ := outputFile_some he hd h
  have hne : comps ≠ [] := by rintro rfl; exact absurd h197 (by decide)
  have hx : ∃ y z, y ≠ '/' ∧ z ≠ '/' ∧ cleanUrl env "..x/f".toList = ['.', '.', y, '/', z] := by
    have e : cleanUrl env "..x/f".toList = ['.', '.', (if env.alnum 'x' = true then 'x' else '_'), '/', (if env.alnum 'f' = true then 'f' else '_')] := by
      show List.map _ ['.', '.', 'x', '/', 'f'] = _
      simp
    refine ⟨_, _, ?_, ?_, e⟩
    · cases env.alnum 'x' <;> decide
    · cases env.alnum 'f' <;> decide
  obtain ⟨y, z, hy, hz, hc⟩ := hx
  have hsplit : splitSlash (cleanUrl env "..x/f".toList) = [['.', '.', y], [z]] := by
    rw [hc]; simp [splitSlash, hy, hz]
  have hD : o.dir = comps.reverse.tail := by
    rw [hdir, directory, hsplit]
    have hds : ∀ d ∈ ([['.', '.', y]] : List Text), d ≠ [] ∧ '/' ∉ d ∧ d ≠ ['.', '.'] := by
      intro d hd
      rw [List.mem_singleton] at hd
      subst hd
      refine ⟨by simp, ?_, by simp⟩
      simp only [List.mem_cons, List.not_mem_nil, or_false, not_or]
      exact ⟨by decide, by decide, Ne.symm hy⟩
    have e0 : ([['.', '.', y], [z]] : List Text).dropLast.filter (· ≠ []) = [['.', '.', y]] := by simp [List.dropLast]
    rw [e0, normpath_joinAll _ _ hds, absPath_slashes hcomps, absPath_stack hcomps]
    have e1 : ([['.', '.', y]] : List Text).filter (· ≠ ['.']) = [['.', '.', y]] := by simp
    rw [e1, if_neg (by simp), joinSlash_append hne (by simp)]
    have e2 : (['/'] ++ (joinSlash comps ++ '/' :: joinSlash [['.', '.', y]]) : Text) = AbsPath comps ++ '/' :: ['.', '.', y] := by
      simp [AbsPath, joinSlash]
    rw [e2, take_join 200 (by omega), h197]
    have e3 : (['.', '.', y] : Text).take (200 - 197 - 1) = ['.', '.'] := rfl
    rw [e3, resolve_eq]
    have e4 : (AbsPath comps ++ '/' :: (['.', '.'] : Text)).head? = some '/' := rfl
    rw [e4, if_pos rfl, go_append, go_single _ (by decide)]
    have e5 := absPath_resolve env.cwd hcomps
    rw [resolve_eq, if_pos (absPath_head comps)] at e5
    rw [e5]; rfl
  refine ⟨hD, ?_⟩
  rw [hfile, hD, absPath_resolve env.cwd hcomps, Within]
  intro hs
  have hr : comps.reverse ≠ [] := by simpa using hne
  cases hc2 : comps.reverse with
  | nil => exact hr hc2
  | cons c cs =>
    rw [hc2] at hs
    have heq := hs.eq_of_length (by simp)
    simp only [List.tail_cons, List.cons.injEq, and_true] at heq
    rw [hfile, hD, hc2, ← heq, List.tail_cons, ← hc2, hex] at hnew
    cases hnew

/-- **C56** (defect) An output directory whose path is longer than 200 characters is never used: whatever the URL (without
`..`), the file is not inside it. -/
theorem C56_long (env : Env) (he : EnvOk env) (comps : List Text) (hcomps : ∀ c ∈ comps, FileName c) (hlong : 200 < (AbsPath comps).length)
    (fuel : Nat) (url : Text) (hurl : ['.', '.'] ∉ urlDirs url) (mimeType : Option Text) (defaultName : Text) (hd : '/' ∉ defaultName) (o : Out)
    (h : outputFile env fuel (AbsPath comps) url mimeType defaultName = some o) :
    ¬ Within (resolve env.cwd (AbsPath comps)) o.dir := by
  obtain ⟨f, hf, hdir, hfile, hnew⟩ := outputFile_some he hd h
  have hne : comps ≠ [] := by rintro rfl; exact absurd hlong (by decide)
  have htake : directory (AbsPath comps) (splitSlash (cleanUrl env url)) = (AbsPath comps).take 200 := by
    rw [directory, normpath_joinAll _ _ (urlParts_good env hurl), absPath_slashes hcomps, absPath_stack hcomps, if_neg (by simp)]
    generalize List.filter (· ≠ ['.']) (List.filter (· ≠ []) (splitSlash (cleanUrl env url)).dropLast) = E
    cases hE : E with
    | nil => rw [List.append_nil]; rfl
    | cons e E' =>
      rw [joinSlash_append hne (by simp), ← List.append_assoc, List.take_append_of_le_length (by show 200 ≤ (AbsPath comps).length; omega)]
      rfl
  rw [hdir, htake, absPath_resolve env.cwd hcomps, Within]
  intro hs
  obtain ⟨a, ha⟩ := hs
  have h1 : room comps ≤ room (resolve env.cwd ((AbsPath comps).take 200)) := by
    rw [← ha, room_append, room_reverse]; omega
  have h2 : (AbsPath comps).take 200 = '/' :: (joinSlash comps).take 199 := rfl
  have h3 : resolve env.cwd ('/' :: (joinSlash comps).take 199) = ([] :: splitSlash ((joinSlash comps).take 199)).foldl walk [] := by
    rw [resolve, List.head?_cons, if_pos rfl]; rfl
  rw [h2, h3, List.foldl_cons, walk_nil] at h1
  have h4 := room_foldl (splitSlash ((joinSlash comps).take 199)) []
  rw [room_split] at h4
  have h5 := room_joinSlash hne
  have h6 : (AbsPath comps).length = (joinSlash comps).length + 1 := rfl
  have h7 : ((joinSlash comps).take 199).length ≤ 199 := by simp only [List.length_take]; omega
  have h8 : room [] = 0 := rfl
  omega

/-- **C60** The file did not exist before: no existing file is overwritten, and two calls never give the same file (the first
one exists when the second one is made). -/
theorem C60_fresh (env : Env) (he : EnvOk env) (fuel : Nat) (outputDir url : Text) (mimeType : Option Text) (defaultName : Text)
    (hd : '/' ∉ defaultName) (o : Out) (h : outputFile env fuel outputDir url mimeType defaultName = some o) :
    env.ex o.file = false := (outputFile_some he hd h).choose_spec.2.2.2

/-! concrete cases -/

/-- letters and digits, one extension, existing directories `/`, `/out`, `/etc` -/
def demoEnv : Env where
  alnum c := c.isAlphanum
  guessExtension m := if m = "text/css".toList then some ".css".toList else none
  cwd := ["out".toList]
  ex p := p ∈ [[], ["out".toList], ["etc".toList], ["a.css".toList, "h".toList, "http".toList, "out".toList]]
  uuid k := List.replicate 8 (Char.ofNat (97 + k % 26))

theorem demoEnv_ok : EnvOk demoEnv where
  ext := by
    intro m e h
    simp only [demoEnv] at h
    by_cases hm : m = "text/css".toList
    · rw [if_pos hm] at h; cases h; decide
    · rw [if_neg hm] at h; cases h
  uuid := by
    intro k h
    have := List.eq_of_mem_replicate h
    have hk : k % 26 < 26 := Nat.mod_lt _ (by decide)
    have all : ∀ j, j < 26 → '/' ≠ Char.ofNat (97 + j) := by decide
    exact all _ hk this

/-- a name that is taken, in a relative output directory -/
theorem demoUnpack : outputFile demoEnv 3 "../out/.".toList "http://h/a?b".toList (some "text/css".toList) "d".toList =
    some ⟨["h".toList, "http".toList, "out".toList], ["a_b.css".toList, "h".toList, "http".toList, "out".toList], false⟩ := by decide +kernel

theorem demoUnpack2 : outputFile demoEnv 3 "../out/.".toList "http://h/a.js".toList (some "text/css".toList) "d".toList =
    some ⟨["h".toList, "http".toList, "out".toList], ["a_Raaaaaaaa.css".toList, "h".toList, "http".toList, "out".toList], true⟩ := by decide +kernel

example : Within ["out".toList] ["h".toList, "http".toList, "out".toList] :=
  (C56_inside demoEnv demoEnv_ok 3 _ _ _ _ (by decide) (by decide) (by decide +kernel) (by decide +kernel) _ demoUnpack2).1

example : ∃ url, "http://".toList <+: url ∧ outputFile demoEnv 1 "/out/a/b".toList url none [] =
    some ⟨["etc".toList], ["x.html".toList, "etc".toList], false⟩ := by
  obtain ⟨url, h1, h2⟩ := C56_escape demoEnv "/out/a/b".toList rfl ["etc".toList]
    (by intro c hc; rw [List.mem_singleton] at hc; subst hc; exact ⟨⟨by decide, by decide, by decide, by decide⟩, by decide⟩)
    (by decide) (by decide) (by decide +kernel)
  exact ⟨url, h1, h2 0 []⟩

/-- an output directory of 197 characters -/
example : let env : Env := { demoEnv with ex := fun p => p ∈ [[], [List.replicate 196 'a']] }
    outputFile env 1 ('/' :: List.replicate 196 'a') "..x/f".toList none [] = some ⟨[], ["f.html".toList], false⟩ := by
  decide +kernel

/-- an output directory of 300 characters: the file is put into a directory with a shorter name -/
example : ∃ o, outputFile demoEnv 1 (AbsPath [List.replicate 299 'a']) "http://h/f".toList none [] = some o ∧
    ¬ Within [List.replicate 299 'a'] o.dir := by
  have h : outputFile demoEnv 1 (AbsPath [List.replicate 299 'a']) "http://h/f".toList none [] =
      some ⟨[List.replicate 199 'a'], ["f.html".toList, List.replicate 199 'a'], false⟩ := by decide +kernel
  refine ⟨_, h, ?_⟩
  have := C56_long demoEnv demoEnv_ok [List.replicate 299 'a']
    (by intro c hc; rw [List.mem_singleton] at hc; subst hc; exact ⟨by decide +kernel, by decide +kernel, by decide +kernel, by decide +kernel⟩)
    (by decide +kernel) 1 _ (by decide +kernel) none [] (by decide) _ h
  rwa [absPath_resolve _ (by intro c hc; rw [List.mem_singleton] at hc; subst hc; exact ⟨by decide +kernel, by decide +kernel, by decide +kernel, by decide +kernel⟩)] at this

end Warc
