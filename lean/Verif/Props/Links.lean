import Verif.Proofs.Links
import Verif.Props.UnpackRun
/-
  C70, C71, C72: warclinks.
-/
set_option linter.all false
namespace Warc
open Links Spec.Uri
open Stream Spec
open Unpack (Text)

namespace Links

theorem resolve_parts (b r : Ref) (hs : r.scheme = none) (ha : r.authority = none) :
    ({ resolve b r with fragment := none } : Ref) = { resolve b ⟨none, none, r.path, r.query, none⟩ with fragment := none } := by
  unfold resolve
  rw [hs, ha]
  simp only [ne_eq, not_true, if_false]
  split
  · rfl
  · split <;> rfl

/-- one relative link, behind a scheme that the code ignores -/
theorem abs_one {hostOk : Text → Bool} {b : Ref} {s a : Text} {dirs : List Text} {file : Option Text} (hb : Base hostOk b s a dirs file)
    {r : Ref} {ups : List Bool} {rest : Text} (hr : Relative r ups rest) (h0 : file = none → rest ≠ []) {link s' : Text} {f : Text}
    (hp : urlparse hostOk link = .ok ⟨s', [], (paramsOf s' r.path).1, (paramsOf s' r.path).2, r.query.getD [], f⟩) (q' f' : Text) :
    absLink hostOk ⟨s, a, (paramsOf s b.path).1, (paramsOf s b.path).2, q', f'⟩ link = .ok ({ resolve b r with fragment := none }).text := by
  have hpath : r.path = upsText ups ++ rest := hr.path
  have hlast : rest.getLast? ≠ some ';' := by
    intro h
    apply hr.params
    rw [hpath, List.getLast?_append, h]; rfl
  have key : ∃ t pr, paramsOf s' r.path = (upsText ups ++ t, pr) ∧ t <+: rest ∧ withParams t pr = rest := by
    unfold paramsOf
    split
    · refine ⟨(splitParams rest).1, (splitParams rest).2, ?_, splitParams_prefix rest, splitParams_join hlast⟩
      rw [hpath]; exact splitParams_app (ups_last ups)
    · exact ⟨rest, [], by rw [hpath], List.prefix_rfl, rfl⟩
  obtain ⟨t, pr, e, ht, hw⟩ := key
  have := abs_path hb (ups := ups) (rest := rest) (t := t) (pr := pr) hr.inside.2.2 hr.plain h0 (by rw [← hpath]; exact hr.inside.1) ht hw r.query hr.query
  unfold absLink
  rw [hp, resolve_parts b r hr.scheme hr.authority, hpath, ← this, ← hpath, e]
  simp only [if_true]
  split <;> rfl

theorem abs_all {hostOk : Text → Bool} {root : Url} (links : List (Text × Text)) (h : ∀ l ∈ links, absLink hostOk root l.1 = .ok l.2) :
    absAll hostOk root (links.map Prod.fst) = .ok (links.map Prod.snd) := by
  induction links with
  | nil => rfl
  | cons l ls ih =>
    simp only [List.map_cons, absAll, h l (List.mem_cons_self ..), ih fun x hx => h x (List.mem_cons_of_mem _ hx)]

end Links

/-- **C70** Relative links without dot segments behind the leading `../` and `./` are resolved against the base as RFC 3986 section 5.2 says,
and lose their fragment: a list of such links gives the list of targets, in order. -/
theorem C70_resolve (hostOk : Text → Bool) (hempty : hostOk [] = true) (b : Ref) (s a : Text) (dirs : List Text) (file : Option Text)
    (hb : Base hostOk b s a dirs file) (links : List Ref)
    (hl : ∀ r ∈ links, ∃ ups rest, Relative r ups rest ∧ (file = none → rest ≠ [])) :
    LinkParser.getAbsLinks hostOk ⟨links.map Ref.text, b.text⟩ = .ok (links.map fun r => ({ resolve b r with fragment := none }).text) := by
  unfold LinkParser.getAbsLinks
  rw [parse_base hb]
  have := abs_all (hostOk := hostOk) (root := ⟨s, a, (paramsOf s b.path).1, (paramsOf s b.path).2, b.query.getD [], b.fragment.getD []⟩)
    (links.map fun r => (r.text, ({ resolve b r with fragment := none }).text)) (by
      intro l hl'
      obtain ⟨r, hr, rfl⟩ := List.mem_map.1 hl'
      obtain ⟨ups, rest, h1, h2⟩ := hl r hr
      have hp := parse_rel hempty h1
      rw [show splitParams r.path = paramsOf [] r.path from (if_pos (by decide)).symm] at hp
      exact abs_one hb h1 h2 hp _ _)
  simpa [List.map_map, Function.comp_def] using this

/-- **C70** A scheme in front of a link without host is ignored: `mailto:x` is resolved like `x`. -/
theorem C70_scheme_ignored (hostOk : Text → Bool) (hempty : hostOk [] = true) (b : Ref) (s a : Text) (dirs : List Text) (file : Option Text)
    (hb : Base hostOk b s a dirs file) (r : Ref) (ups : List Bool) (rest : Text) (hr : Relative r ups rest) (h0 : file = none → rest ≠ [])
    (s' : Text) (hs' : Scheme s')
    (hc : Clean (s' ++ ':' :: r.text)) :
    LinkParser.getAbsLinks hostOk ⟨[s' ++ ':' :: r.text], b.text⟩ = .ok [({ resolve b r with fragment := none }).text] := by
  have et : r.text = r.path ++ tailText r.query r.fragment := by
    simp [Ref.text, hr.scheme, hr.authority, tailText]
    rfl
  have hsch : splitScheme (s' ++ ':' :: r.text) = (s', r.path ++ tailText r.query r.fragment) := by
    rw [scheme_some hs'.1 hs'.2.1 hs'.2.2, et]
  have hp := parse_path hempty (clean_id hc) hsch hr.inside.2.1 hr.marks.1 hr.marks.2
  unfold LinkParser.getAbsLinks
  rw [parse_base hb]
  simp only [absAll, abs_one hb hr h0 hp]

/-- **C70** A link with a host is left alone, fragment included, and so is `//host/path`, which gets no scheme. -/
theorem C70_host (hostOk : Text → Bool) (root : Text) (u : Url) (hroot : urlparse hostOk root = .ok u) (scheme a rest : Text)
    (hs : scheme = [] ∨ ∃ s, scheme = s ++ [':'] ∧ Scheme s)
    (ha : a ≠ [] ∧ (∀ c ∈ a, c ≠ '/' ∧ c ≠ '?' ∧ c ≠ '#') ∧ hostOk a = true) (hrest : ∀ c, rest.head? = some c → c = '/' ∨ c = '?' ∨ c = '#')
    (hc : Clean (scheme ++ '/' :: '/' :: (a ++ rest))) :
    LinkParser.getAbsLinks hostOk ⟨[scheme ++ '/' :: '/' :: (a ++ rest)], root⟩ = .ok [scheme ++ '/' :: '/' :: (a ++ rest)] := by
  have hsplit : ∃ s0, splitScheme (scheme ++ '/' :: '/' :: (a ++ rest)) = (s0, '/' :: '/' :: (a ++ rest)) := by
    rcases hs with rfl | ⟨s, rfl, h1, h2, h3⟩
    · exact ⟨[], scheme_none (by simp)⟩
    · refine ⟨s, ?_⟩
      have := scheme_some (t := '/' :: '/' :: (a ++ rest)) h1 h2 h3
      simpa using this
  obtain ⟨s0, hsplit⟩ := hsplit
  have hall : ∀ c ∈ a, decide (c ≠ '/' ∧ c ≠ '?' ∧ c ≠ '#') = true := fun c hc => decide_eq_true (ha.2.1 c hc)
  have hstop : Stops (fun c : Char => decide (c ≠ '/' ∧ c ≠ '?' ∧ c ≠ '#')) rest := by
    intro c hc
    rcases hrest c hc with rfl | rfl | rfl <;> rfl
  have hp : ∃ v, urlparse hostOk (scheme ++ '/' :: '/' :: (a ++ rest)) = .ok v ∧ v.netloc = a := by
    unfold urlparse
    rw [clean_id hc, hsplit]
    simp only [splitNetloc, takeWhile_stop hall hstop, dropWhile_stop hall hstop, ha.2.2, if_true]
    exact ⟨_, rfl, rfl⟩
  obtain ⟨v, hv, hn⟩ := hp
  unfold LinkParser.getAbsLinks
  rw [hroot]
  simp only [absAll, absLink, hv, if_neg (fun e => ha.1 (hn ▸ e) : ¬ v.netloc = [])]

/-- **C70** A link that consists of a query or a fragment only leads to the directory of the base, not to the base itself. -/
theorem C70_same_document (hostOk : Text → Bool) (hempty : hostOk [] = true) (b : Ref) (s a : Text) (dirs : List Text) (f : Text)
    (hb : Base hostOk b s a dirs (some f)) (query fragment : Option Text) (hq : query ≠ some [])
    (hm : ∀ q, query = some q → '#' ∉ q) (hc : Clean (Ref.mk none none [] query fragment).text) :
    LinkParser.getAbsLinks hostOk ⟨[(Ref.mk none none [] query fragment).text], b.text⟩ =
      .ok [(Ref.mk (some s) (some a) (slashed dirs ++ ['/']) query none).text] := by
  have et : (Ref.mk none none [] query fragment).text = [] ++ tailText query fragment := by
    simp [Ref.text, tailText]
    rfl
  have hsch : splitScheme (Ref.mk none none [] query fragment).text = ([], [] ++ tailText query fragment) := by
    rw [← et]
    apply scheme_none
    rw [et]
    cases query with
    | some q => simp [tailText]
    | none => cases fragment <;> simp [tailText]
  have hp := parse_path hempty (clean_id hc) hsch (by decide) (fun c h => by cases h) hm
  have hdirs := hb.path.2.2
  unfold LinkParser.getAbsLinks
  rw [parse_base hb]
  simp only [absAll, absLink, hp, if_true]
  have e1 : (paramsOf [] []).1 = ([] : Text) := by decide
  have e2 : (paramsOf [] []).2 = ([] : Text) := by decide
  rw [e1, e2, dir_base hb]
  simp only [List.head?_nil, reduceCtorEq, if_false]
  rw [show climb (dirText dirs) [] = (dirText dirs, []) from rfl]
  simp only
  rw [join_dir hdirs (by simp), unparse hb.scheme.2.1 hb.authority.2.1, ref_text _ _ _ _ hq]
  have : withParams (slashed dirs ++ ['/']) [] = slashed dirs ++ ['/'] := rfl
  rw [this, if_neg]
  rintro ⟨-, h2⟩
  refine h2 (take_one.2 ?_)
  cases dirs <;> rfl

/-! A base and links that meet the hypotheses. -/

def Spec.linkBase : Ref := ⟨some "http".toList, some "h:80".toList, "/a/b;v/c.html;x".toList, some "q=/?".toList, some "top".toList⟩

theorem linkBase_ok : Base (fun _ => true) Spec.linkBase "http".toList "h:80".toList ["a".toList, "b;v".toList] (some "c.html;x".toList) where
  scheme := ⟨rfl, by decide, by decide, fun c h => by cases h; decide⟩
  authority := ⟨rfl, by decide, by decide, rfl⟩
  path := ⟨rfl, by decide, by
    intro d hd
    rcases List.mem_cons.1 hd with rfl | hd
    · exact ⟨⟨by decide, by decide, by decide⟩, by decide⟩
    · rcases List.mem_cons.1 hd with rfl | hd
      · exact ⟨⟨by decide, by decide, by decide⟩, by decide⟩
      · cases hd⟩
  marks := ⟨by decide, fun q h => by cases h; decide⟩
  clean := ⟨by decide, fun c h => by cases h; decide⟩

theorem plain_of {rest : Text} (h : (split '/' rest).all (fun s => decide ('/' ∉ s ∧ s ≠ ['.'] ∧ s ≠ ['.', '.'])) = true) : ∀ s ∈ split '/' rest, Plain s :=
  fun s hs => (of_decide_eq_true (List.all_eq_true.1 h s hs) : '/' ∉ s ∧ s ≠ ['.'] ∧ s ≠ ['.', '.'])

def Spec.linkRef (path : String) : Ref := ⟨none, none, path.toList, some "k=v".toList, some "here".toList⟩

theorem linkRef1_ok : Relative (Spec.linkRef ".././x;p/y:z//w;1") [true, false] "x;p/y:z//w;1".toList where
  scheme := rfl
  authority := rfl
  path := rfl
  inside := ⟨by decide, by decide, by decide⟩
  plain := plain_of (by decide)
  colon := by decide
  params := by decide
  query := by decide
  marks := ⟨by decide, fun q h => by cases h; decide⟩
  clean := ⟨by decide, fun c h => by cases h; decide⟩

theorem linkRef2_ok : Relative (Spec.linkRef "/r") [] "/r".toList where
  scheme := rfl
  authority := rfl
  path := rfl
  inside := ⟨by decide, by decide, by decide⟩
  plain := plain_of (by decide)
  colon := by decide
  params := by decide
  query := by decide
  marks := ⟨by decide, fun q h => by cases h; decide⟩
  clean := ⟨by decide, fun c h => by cases h; decide⟩

example : LinkParser.getAbsLinks (fun _ => true) ⟨[".././x;p/y:z//w;1?k=v#here".toList, "/r?k=v#here".toList], "http://h:80/a/b;v/c.html;x?q=/?#top".toList⟩ =
    .ok ["http://h:80/a/x;p/y:z//w;1?k=v".toList, "http://h:80/r?k=v".toList] := by
  have := C70_resolve (fun _ => true) rfl Spec.linkBase _ _ _ _ linkBase_ok [Spec.linkRef ".././x;p/y:z//w;1", Spec.linkRef "/r"] (by
    intro r hr
    rcases List.mem_cons.1 hr with rfl | hr
    · exact ⟨_, _, linkRef1_ok, by simp⟩
    · rcases List.mem_cons.1 hr with rfl | hr
      · exact ⟨_, _, linkRef2_ok, by simp⟩
      · cases hr)
  refine Eq.trans ?_ (this.trans (congrArg Except.ok (by decide +kernel)))
  exact congrArg (LinkParser.getAbsLinks _) (by decide +kernel)

/-- RFC 3986 section 5.4, examples that the specification of resolution must get right -/
example : ["g", "./g", "g/", "/g", "?y", "g?y", "../g", "../../g", "../../../g", ".", "./", "..", "../", "./../g", "g/./h", "g/../h", ""].map (fun p =>
      let p := p.toList
      let q := if '?' ∈ p then some ((p.dropWhile (· ≠ '?')).drop 1) else none
      String.ofList (resolve ⟨some "http".toList, some "a".toList, "/b/c/d;p".toList, some "q".toList, none⟩ ⟨none, none, p.takeWhile (· ≠ '?'), q, none⟩).text) =
    ["http://a/b/c/g", "http://a/b/c/g", "http://a/b/c/g/", "http://a/g", "http://a/b/c/d;p?y", "http://a/b/c/g?y", "http://a/b/g", "http://a/g", "http://a/g",
      "http://a/b/c/", "http://a/b/c/", "http://a/b/", "http://a/b/", "http://a/b/g", "http://a/b/c/g/h", "http://a/b/c/h", "http://a/b/c/d;p?q"] := by
  decide +kernel

example : LinkParser.getAbsLinks (fun _ => true) ⟨["mailto:/r?k=v#here".toList], Spec.linkBase.text⟩ = .ok ["http://h:80/r?k=v".toList] := by
  have := C70_scheme_ignored (fun _ => true) rfl Spec.linkBase _ _ _ _ linkBase_ok _ _ _ linkRef2_ok (by simp) "mailto".toList
    ⟨by decide, by decide, fun c h => by cases h; decide⟩ ⟨by decide, fun c h => by cases h; decide⟩
  exact this.trans (congrArg Except.ok (by decide +kernel))

example : LinkParser.getAbsLinks (fun _ => true) ⟨["//k/x#f".toList], Spec.linkBase.text⟩ = .ok ["//k/x#f".toList] :=
  C70_host (fun _ => true) Spec.linkBase.text _ (parse_base linkBase_ok) [] "k".toList "/x#f".toList (.inl rfl) ⟨by decide, by decide, rfl⟩
    (fun c h => by cases h; exact .inl rfl) ⟨by decide, fun c h => by cases h; decide⟩

example : LinkParser.getAbsLinks (fun _ => true) ⟨["#f".toList], Spec.linkBase.text⟩ = .ok ["http://h:80/a/b;v/".toList] ∧
    ({ resolve Spec.linkBase ⟨none, none, [], none, some "f".toList⟩ with fragment := none }).text = "http://h:80/a/b;v/c.html;x?q=/?".toList := by
  constructor
  · have := C70_same_document (fun _ => true) rfl Spec.linkBase _ _ _ _ linkBase_ok none (some "f".toList) (by decide) (by simp)
      ⟨by decide, fun c h => by cases h; decide⟩
    exact this.trans (congrArg Except.ok (by decide +kernel))
  · decide +kernel

/-! ## C71 -/

namespace Links
open Spec.Html

theorem handle_links (ch : Chars) (p : LinkParser) (tag : Text) (attrs : List Attr) :
    (p.handleStarttag ch tag attrs).links = p.links ++ ((LinkParser.new []).handleStarttag ch tag attrs).links := by
  unfold LinkParser.handleStarttag LinkParser.new
  split
  · rfl
  · split
    · split <;> simp
    · split <;> simp

theorem truthy_valueOf (a : Attr) : truthy a = valueOf a := by
  unfold truthy valueOf
  cases a.2 with
  | none => rfl
  | some v => by_cases h : v = [] <;> simp [h, Option.filter]

theorem feed_links (ch : Chars) (tags : List (Text × List Attr)) (p : LinkParser) :
    (p.feed ch tags).links = p.links ++ tags.flatMap fun t => ((LinkParser.new []).handleStarttag ch t.1 t.2).links := by
  induction tags generalizing p with
  | nil => simp [LinkParser.feed]
  | cons t ts ih =>
    have : p.feed ch (t :: ts) = (p.handleStarttag ch t.1 t.2).feed ch ts := rfl
    rw [this, ih, handle_links]
    simp

theorem lookup_pairs (l : List (Text × List Text)) (hn : (l.map Prod.fst).Nodup) (k a : Text) :
    (∃ ns, l.lookup k = some ns ∧ a ∈ ns) ↔ (k, a) ∈ l.flatMap fun p => p.2.map fun n => (p.1, n) := by
  induction l with
  | nil => simp
  | cons p l ih =>
    have hn' := List.nodup_cons.1 hn
    have ih' := ih hn'.2
    rw [List.flatMap_cons, List.mem_append, ← ih', List.lookup_cons]
    by_cases hk : k = p.1
    · subst hk
      have : ∀ ns, l.lookup p.1 ≠ some ns := by
        intro ns h
        apply hn'.1
        clear ih ih' hn hn'
        induction l with
        | nil => cases h
        | cons q l ih =>
          rw [List.lookup_cons] at h
          by_cases hq : p.1 = q.1
          · rw [hq]; simp
          · rw [show (p.1 == q.1) = false by simpa using hq] at h
            exact List.mem_cons_of_mem _ (ih h)
      simp [this]
    · have : (k == p.1) = false := by simpa using hk
      simp only [this]
      constructor
      · intro h; exact .inr h
      · rintro (h | h)
        · obtain ⟨n, -, e⟩ := List.mem_map.1 h
          cases e; exact absurd rfl hk
        · exact h

/-- element and attribute, from the table of the program and from the specification -/
theorem pairs_same : (∀ x ∈ table.flatMap (fun p => p.2.map fun n => (p.1, n)), linkAttribute x.1 x.2 = true) ∧
    (∀ p ∈ linkAttributes, ∀ t ∈ p.2, (t.toList, p.1.toList) ∈ table.flatMap (fun p => p.2.map fun n => (p.1, n))) := by
  constructor
  · decide +kernel
  · decide +kernel

theorem lookup_table (tag attr : Text) : (∃ ns, table.lookup tag = some ns ∧ attr ∈ ns) ↔ linkAttribute tag attr = true := by
  rw [lookup_pairs table (by decide +kernel)]
  constructor
  · exact fun h => pairs_same.1 _ h
  · intro h
    obtain ⟨p, hp, h⟩ := List.any_eq_true.1 h
    rw [Bool.and_eq_true] at h
    obtain ⟨t, ht, e⟩ := List.any_eq_true.1 h.2
    have := pairs_same.2 p hp t ht
    rwa [eq_of_beq e, eq_of_beq h.1] at this

theorem attr_values (name : String) (attrs : List Attr) : attrExtractor [name.toList] attrs = values name attrs := by
  unfold attrExtractor values
  induction attrs with
  | nil => rfl
  | cons a as ih =>
    rw [List.filterMap_cons, List.filter_cons, ih]
    by_cases h : a.1 = name.toList
    · simp only [h, List.mem_singleton, if_true, beq_self_eq_true, List.filterMap_cons, truthy_valueOf]
    · have : (a.1 == name.toList) = false := by simpa using h
      simp only [List.mem_singleton, h, if_false, this]
      rfl

theorem splitEq_split (t : Text) : splitEq t = match split '=' t with | k :: v :: _ => some (k, v) | _ => none := by
  have hne : ∀ t, split '=' t ≠ [] := by
    intro t
    cases t with
    | nil => simp [split]
    | cons c t => unfold split; split; simp; split <;> simp
  have hhead : ∀ t, (split '=' t).head? = some (cut '=' t).1 := by
    intro t
    induction t with
    | nil => rfl
    | cons c t ih =>
      unfold split
      by_cases h : c = '='
      · subst h; rfl
      · rw [if_neg h]
        cases hs : split '=' t with
        | nil => exact absurd hs (hne t)
        | cons p ps =>
          rw [hs] at ih
          simp only [List.head?_cons, Option.some.injEq] at ih
          simp [cut, h, ih]
  have htail : ∀ t, (split '=' t).tail = if '=' ∈ t then split '=' (cut '=' t).2 else [] := by
    intro t
    induction t with
    | nil => rfl
    | cons c t ih =>
      by_cases h : c = '='
      · subst h
        have : split '=' ('=' :: t) = [] :: split '=' t := by simp [split]
        rw [this]; simp [cut]
      · have hc : split '=' (c :: t) = match split '=' t with | [] => [[c]] | p :: ps => (c :: p) :: ps := by
          show (if c = '=' then _ else _) = _
          rw [if_neg h]; rfl
        rw [hc]
        cases hs : split '=' t with
        | nil => exact absurd hs (hne t)
        | cons p ps =>
          rw [hs] at ih
          have : ('=' ∈ c :: t) ↔ '=' ∈ t := by
            rw [List.mem_cons]
            constructor
            · rintro (e | h'); exact absurd e.symm h; exact h'
            · exact .inr
          simp only [List.tail_cons] at ih ⊢
          simp only [this, ih]
          simp [cut, h]
  unfold splitEq
  have h1 := hhead t
  have h2 := htail t
  cases hs : split '=' t with
  | nil => exact absurd hs (hne t)
  | cons k r =>
    rw [hs] at h1 h2
    simp only [List.head?_cons, Option.some.injEq, List.tail_cons] at h1 h2
    by_cases hm : '=' ∈ t
    · rw [if_pos hm] at h2 ⊢
      have h3 := hhead (cut '=' t).2
      rw [← h2] at h3
      cases r with
      | nil => cases h3
      | cons v r =>
        simp only [List.head?_cons, Option.some.injEq] at h3
        rw [h1, h3]
    · rw [if_neg hm] at h2 ⊢
      rw [h2]

theorem tag_links (ch : Chars) (hch : CharsOk ch) (t : Text × List Attr) :
    ((LinkParser.new []).handleStarttag ch t.1 t.2).links = linksOfTag ch.space t := by
  unfold LinkParser.handleStarttag linksOfTag
  by_cases hm : t.1 = "meta".toList
  · rw [if_pos hm, if_pos hm]
    show [] ++ metaExtractor ch t.2 = _
    rw [List.nil_append]
    unfold metaExtractor metaLinks
    rw [attr_values]
    congr 1
    funext v
    congr 1
    funext piece
    rw [splitEq_split]
    cases split '=' piece with
    | nil => rfl
    | cons k r =>
      cases r with
      | nil => rfl
      | cons v r =>
        simp only
        by_cases hu : isUrl k = true
        · rw [if_pos ((hch k).2 hu), if_pos hu]; rfl
        · rw [if_neg (fun h => hu ((hch k).1 h)), if_neg hu]
  · rw [if_neg hm, if_neg hm]
    by_cases hb : t.1 = "base".toList
    · rw [if_pos hb]
      have : ∀ attr, linkAttribute "base".toList attr = false := by
        intro attr
        cases h : linkAttribute "base".toList attr with
        | false => rfl
        | true =>
          have := (lookup_table _ _).2 h
          obtain ⟨ns, h, -⟩ := this
          have hnone : table.lookup "base".toList = none := by decide +kernel
          rw [hnone] at h; cases h
      have hn : (t.2.filterMap fun a => if linkAttribute t.1 a.1 then valueOf a else none) = [] := by
        rw [hb]
        refine List.filterMap_eq_nil_iff.2 fun a _ => ?_
        rw [this]; rfl
      rw [hn]
      split <;> rfl
    · rw [if_neg hb]
      have key : ∀ attr, linkAttribute t.1 attr = decide (attr ∈ (table.lookup t.1).getD []) := by
        intro attr
        have := lookup_table t.1 attr
        cases hl : table.lookup t.1 with
        | none =>
          rw [hl] at this
          cases h : linkAttribute t.1 attr with
          | false => simp
          | true =>
            obtain ⟨ns, h, -⟩ := this.2 h
            cases h
        | some ns =>
          rw [hl] at this
          simp only [Option.some.injEq, exists_eq_left', Option.getD_some] at this ⊢
          rw [Bool.eq_iff_iff, decide_eq_true_iff]
          exact this.symm
      simp only [key]
      cases hl : table.lookup t.1 with
      | none => simp [LinkParser.new]
      | some ns =>
        simp only [Option.getD_some, LinkParser.new, List.nil_append]
        unfold attrExtractor
        congr 1
        funext a
        rw [truthy_valueOf]
        by_cases h : a.1 ∈ ns <;> simp [h]

theorem feed_base (ch : Chars) (tags : List (Text × List Attr)) (p : LinkParser) : (p.feed ch tags).base = baseOf p.base tags := by
  induction tags generalizing p with
  | nil => rfl
  | cons t ts ih =>
    have e : p.feed ch (t :: ts) = (p.handleStarttag ch t.1 t.2).feed ch ts := rfl
    rw [e, ih]
    unfold LinkParser.handleStarttag baseOf
    by_cases hb : t.1 = "base".toList
    · have hm : t.1 ≠ "meta".toList := by rw [hb]; decide
      rw [if_neg hm, if_pos hb, attr_values]
      have : (t.1 == "base".toList) = true := by rw [hb]; exact beq_self_eq_true _
      rw [List.filter_cons, if_pos this, List.flatMap_cons]
      generalize (ts.filter fun t => t.1 == "base".toList).flatMap (fun t => values "href" t.2) = r
      generalize values "href" t.2 = v
      cases hv : v.getLast? with
      | none =>
        have : v = [] := by simpa using hv
        rw [this]; rfl
      | some x =>
        simp only
        rw [List.getLastD_eq_getLast?, List.getLastD_eq_getLast?, List.getLast?_append]
        cases r.getLast? <;> simp [hv]
    · have : (t.1 == "base".toList) = false := by simpa using hb
      have hf : (t :: ts).filter (fun t => t.1 == "base".toList) = ts.filter (fun t => t.1 == "base".toList) := by
        rw [List.filter_cons, this]; rfl
      rw [hf, if_neg hb]
      split
      · rfl
      · split <;> rfl

theorem split_one {c : Char} {a : Text} (h : c ∉ a) : split c a = [a] := by
  induction a with
  | nil => rfl
  | cons x xs ih =>
    have h' : c ≠ x ∧ c ∉ xs := ⟨fun e => h (e ▸ List.mem_cons_self ..), fun e => h (List.mem_cons_of_mem _ e)⟩
    rw [split, if_neg (fun e => h'.1 e.symm), ih h'.2]

theorem split_app {c : Char} {a b : Text} (h : c ∉ a) : split c (a ++ c :: b) = a :: split c b := by
  induction a with
  | nil => rw [List.nil_append, split, if_pos rfl]
  | cons x xs ih =>
    have h' : c ≠ x ∧ c ∉ xs := ⟨fun e => h (e ▸ List.mem_cons_self ..), fun e => h (List.mem_cons_of_mem _ e)⟩
    rw [List.cons_append, split, if_neg (fun e => h'.1 e.symm), ih h'.2]

end Links

open Spec.Html

/-- **C71** The links of a document are those of its start tags in document order, and its base is the last one it names, wherever that is. -/
theorem C71_links (ch : Links.Chars) (hch : CharsOk ch) (address : Text) (tags : List (Text × List Attr)) :
    ((LinkParser.new address).feed ch tags).links = tags.flatMap (linksOfTag ch.space) ∧
    ((LinkParser.new address).feed ch tags).base = baseOf address tags := by
  refine ⟨?_, feed_base ch tags _⟩
  rw [feed_links]
  show [] ++ _ = _
  rw [List.nil_append]
  congr 1
  funext t
  exact tag_links ch hch t

/-- **C71** A refresh written `5;url=x` gives the link `x`, cut at the next `=`. -/
theorem C71_refresh (ch : Links.Chars) (hch : CharsOk ch) (address n x y k : Text) (hn : ';' ∉ n ∧ '=' ∉ n) (hk : isUrl k = true) (hx : '=' ∉ x ∧ ';' ∉ x) (hy : ';' ∉ y) :
    ((LinkParser.new address).feed ch [("meta".toList, [("content".toList, some (n ++ ';' :: (k ++ '=' :: x)))])]).links = [trim ch.space x] ∧
    ((LinkParser.new address).feed ch [("meta".toList, [("content".toList, some (n ++ ';' :: (k ++ '=' :: (x ++ '=' :: y))))])]).links = [trim ch.space x] := by
  have hkc : ∀ c, isUrl k = true → c ∈ k → c.toLower ∈ "url".toList := by
    intro c h hc
    have := eq_of_beq h
    rw [← this]
    exact List.mem_map_of_mem hc
  have hks : ';' ∉ k := fun h => absurd (hkc _ hk h) (by decide)
  have hke : '=' ∉ k := fun h => absurd (hkc _ hk h) (by decide)
  rw [(C71_links ch hch _ _).1, (C71_links ch hch _ _).1]
  have hv : ∀ v : Text, v ≠ [] → linksOfTag ch.space ("meta".toList, [("content".toList, some v)]) = metaLinks ch.space v := by
    intro v hv
    simp only [linksOfTag, if_true, values]
    simp [valueOf, Option.filter, hv]
  simp only [List.flatMap_cons, List.flatMap_nil, List.append_nil]
  rw [hv _ (by simp), hv _ (by simp)]
  unfold metaLinks
  rw [split_app hn.1, split_app hn.1, split_one (a := k ++ '=' :: x) (by simp [hks, hx.2]), split_one (a := k ++ '=' :: (x ++ '=' :: y)) (by simp [hks, hx.2, hy])]
  simp only [List.filterMap_cons, List.filterMap_nil, split_one hn.2, split_app hke, split_one hx.1, split_app hx.1, hk, if_true]
  exact ⟨trivial, trivial⟩

/-- **C71** With a blank in front of `url`, as it is usually written (`5; url=x`), the link is not found. -/
theorem C71_refresh_blank (ch : Links.Chars) (hch : CharsOk ch) (address n x : Text) (hn : ';' ∉ n ∧ '=' ∉ n) (hx : ';' ∉ x) :
    ((LinkParser.new address).feed ch [("meta".toList, [("content".toList, some (n ++ "; url=".toList ++ x))])]).links = [] := by
  rw [(C71_links ch hch _ _).1]
  have e : n ++ "; url=".toList ++ x = n ++ ';' :: (" url".toList ++ '=' :: x) := by simp
  rw [e]
  have hv : linksOfTag ch.space ("meta".toList, [("content".toList, some (n ++ ';' :: (" url".toList ++ '=' :: x)))]) = metaLinks ch.space (n ++ ';' :: (" url".toList ++ '=' :: x)) := by
    simp only [linksOfTag, if_true, values]
    simp [valueOf, Option.filter]
  simp only [List.flatMap_cons, List.flatMap_nil, List.append_nil]
  rw [hv]
  unfold metaLinks
  rw [split_app hn.1, split_one (a := " url".toList ++ '=' :: x) (by
    intro h
    rcases List.mem_append.1 h with h | h
    · exact absurd h (by decide)
    · rcases List.mem_cons.1 h with h | h
      · exact absurd h (by decide)
      · exact hx h)]
  have h2 : split '=' (" url".toList ++ '=' :: x) = " url".toList :: split '=' x := split_app (by decide)
  have h3 : isUrl " url".toList = false := by decide
  simp only [List.filterMap_cons, List.filterMap_nil, split_one hn.2, h2]
  cases split '=' x with
  | nil => rfl
  | cons v r => simp only [h3]; rfl

/-- characters of ASCII -/
def Spec.asciiChars : Links.Chars := ⟨Char.isWhitespace, fun t => t.map Char.toLower⟩

theorem asciiChars_ok : CharsOk Spec.asciiChars := by
  intro k
  show (k.map Char.toLower = "url".toList) ↔ _
  unfold isUrl
  rw [beq_iff_eq]

example : ((LinkParser.new "http://d/".toList).feed Spec.asciiChars
      [("a".toList, [("href".toList, some "x".toList), ("name".toList, none), ("href".toList, some [])]), ("base".toList, [("href".toList, some "http://b/".toList)]),
       ("p".toList, [("href".toList, some "no".toList)]), ("meta".toList, [("content".toList, some "0;URL= y ".toList)]),
       ("img".toList, [("src".toList, some "i".toList), ("lowsrc".toList, some "j".toList)])]) =
    ⟨["x".toList, "y".toList, "i".toList, "j".toList], "http://b/".toList⟩ := by decide +kernel

example := C71_refresh Spec.asciiChars asciiChars_ok [] "5".toList "http://h/?a".toList "b".toList "URL".toList (by decide) (by decide) (by decide) (by decide)
example := C71_refresh_blank Spec.asciiChars asciiChars_ok [] "5".toList "http://h/".toList (by decide) (by decide)

/-! ## C72 -/

namespace Links

theorem linksOfRecord_nil (c : Codec) (extract : Option Bytes → Bytes → List Text) (w w' : World) (ls : List Text)
    (h : linksOfRecord c extract w = .ok ls w') : ls = [] := by
  obtain ⟨w0, w1, h0, h⟩ := Unpack.bind_some h
  cases h0
  obtain ⟨⟨ctype, body⟩, w2, h2, h⟩ := Unpack.bind_some h
  simp only at h
  split at h
  · cases ctype <;> simp only [Option.map_none, Option.map_some, Unpack.startswith] at h <;> cases h
  · cases h; rfl

end Links

/-- **C72** On Python 3 `extract_links_from_warcfh` yields no link, whatever the archive contains and whatever the HTML parser would find. -/
theorem C72_no_links (c : Codec) (extract : Option Bytes → Bytes → List Text) (run : Links.Run) :
    match extractLinks c extract run with
    | .ok _ r => r.yielded = run.yielded
    | .raise _ r => r.yielded = run.yielded
    | .hang => True := by
  have key : ∀ n (run : Links.Run), match Stream.forRecords Links.onStream true (linksOfEntry c extract) n none run with
      | .ok _ r => r.yielded = run.yielded
      | .raise _ r => r.yielded = run.yielded
      | .hang => True := by
    intro n
    induction n with
    | zero => intro run; trivial
    | succ n ih =>
      intro run
      simp only [Stream.forRecords, M.bind_apply, reduceCtorEq, if_false]
      unfold Links.onStream
      cases hr : readRecord true run.strm with
      | hang => trivial
      | raise e s => rfl
      | ok e s =>
        simp only
        have hE : linksOfEntry c extract e { run with strm := s } = .hang ∨ ∃ s', linksOfEntry c extract e { run with strm := s } = .ok () { run with strm := s' } := by
          unfold linksOfEntry
          cases e.rcd with
          | none => exact .inr ⟨s, rfl⟩
          | some r =>
            simp only
            cases hx : linksOfRecord c extract ⟨s, r, []⟩ with
            | hang => exact .inl rfl
            | raise ex w => exact .inr ⟨w.strm, rfl⟩
            | ok ls w => exact .inr ⟨w.strm, by simp only [linksOfRecord_nil c extract _ _ _ hx, List.append_nil]⟩
        rcases hE with h | ⟨s', h⟩
        · simp only [h]
        · simp only [h]
          cases e.rcd with
          | none => rfl
          | some r => exact ih { run with strm := s' }
  exact key _ run

example : (match extractLinks toy (fun _ _ => ["x".toList]) ⟨⟨File.openFile unpackDemo, none, .plain, .warc⟩, []⟩ with
    | .ok _ r => decide (r.strm.fh.rest = [] ∧ r.yielded = [])
    | _ => false) = true := by
  decide +kernel

end Warc
