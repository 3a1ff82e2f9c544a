import Verif.Model.UnpackRun
/-
  Model of the link extractor of warclinks: /repo/hanzo/warclinks.py:33-199, with the functions of `urllib.parse` and `os.path`
  that it calls (CPython Lib/urllib/parse.py, Lib/posixpath.py).

  The module cannot be imported on Python >= 3.5 (`html.parser.HTMLParseError` is gone); `LinkParser` does not depend on that
  name and is modelled as it stands, for `str` texts.

  Parameters: the checks that `urlsplit` makes on the host (brackets, Unicode normalisation) and the HTML parser, of which only
  the sequence of calls of `handle_starttag` matters.  Not modelled: `lxml`, which replaces `LinkParser` where it is installed, and logging.
-/
namespace Warc
namespace Links
open Unpack (Text)
open _root_.Warc.Stream

/-- `urlparse(url)`: a named tuple -/
structure Url where
  scheme : Text
  netloc : Text
  path : Text
  params : Text
  query : Text
  fragment : Text
  deriving Repr, DecidableEq

/-- `scheme_chars` -/
def schemeChar (c : Char) : Bool := c.isAlphanum || c == '+' || c == '-' || c == '.'

/-- `uses_params` -/
def usesParams : List Text :=
  ["", "ftp", "hdl", "prospero", "http", "imap", "https", "shttp", "rtsp", "rtsps", "rtspu", "sip", "sips", "mms", "sftp", "tel"].map String.toList

/-- `uses_netloc` -/
def usesNetloc : List Text :=
  ["", "ftp", "http", "gopher", "nntp", "telnet", "imap", "wais", "file", "mms", "https", "shttp", "snews", "prospero", "rtsp", "rtsps", "rtspu",
    "rsync", "svn", "svn+ssh", "sftp", "nfs", "git", "git+ssh", "ws", "wss"].map String.toList

/-- up to the first `c`, and what follows it (`text.split(c, 1)`; the second part is empty if there is no `c`) -/
def cut (c : Char) (t : Text) : Text × Text := (t.takeWhile (· ≠ c), (t.dropWhile (· ≠ c)).drop 1)

/-- `url.lstrip(_WHATWG_C0_CONTROL_OR_SPACE)` and the removal of tabs and line ends -/
def clean (t : Text) : Text := (t.dropWhile fun c => c.toNat ≤ 32).filter fun c => c ≠ '\t' ∧ c ≠ '\r' ∧ c ≠ '\n'

/-- the scheme and the rest (Lib/urllib/parse.py `urlsplit`); an empty scheme if there is none -/
def splitScheme (t : Text) : Text × Text :=
  let s := t.takeWhile (· ≠ ':')
  match s with
  | [] => ([], t)
  | c :: _ => if ':' ∈ t ∧ c.isAlpha ∧ s.all schemeChar then (s.map Char.toLower, t.drop (s.length + 1)) else ([], t)

/-- `_splitnetloc` behind `//` -/
def splitNetloc : Text → Text × Text
  | '/' :: '/' :: t => (t.takeWhile (fun c => c ≠ '/' ∧ c ≠ '?' ∧ c ≠ '#'), t.dropWhile (fun c => c ≠ '/' ∧ c ≠ '?' ∧ c ≠ '#'))
  | t => ([], t)

/-- what follows the last `/`, and what precedes it with the `/` -/
def splitLast (t : Text) : Text × Text := ((t.reverse.dropWhile (· ≠ '/')).reverse, (t.reverse.takeWhile (· ≠ '/')).reverse)

/-- `_splitparams` -/
def splitParams (t : Text) : Text × Text := ((splitLast t).1 ++ (cut ';' (splitLast t).2).1, (cut ';' (splitLast t).2).2)

/-- `urlparse(url)`; ValueError if the host is refused -/
def urlparse (hostOk : Text → Bool) (url : Text) : Except Exc Url :=
  let (scheme, t) := splitScheme (clean url)
  let (netloc, t) := splitNetloc t
  if hostOk netloc then
    let (t, fragment) := cut '#' t
    let (t, query) := cut '?' t
    let (path, params) := if scheme ∈ usesParams then splitParams t else (t, [])
    .ok ⟨scheme, netloc, path, params, query, fragment⟩
  else .error .valueError

/-- `urlunparse((scheme, netloc, path, params, query, None))` -/
def urlunparse (u : Url) : Text :=
  let t := if u.params ≠ [] then u.path ++ ';' :: u.params else u.path
  let t := if u.netloc ≠ [] ∨ (u.scheme ≠ [] ∧ u.scheme ∈ usesNetloc) ∨ t.take 2 = ['/', '/'] then
      '/' :: '/' :: u.netloc ++ (if t ≠ [] ∧ t.take 1 ≠ ['/'] then '/' :: t else t)
    else t
  let t := if u.scheme ≠ [] then u.scheme ++ ':' :: t else t
  let t := if u.query ≠ [] then t ++ '?' :: u.query else t
  if u.fragment ≠ [] then t ++ '#' :: u.fragment else t

/-- `os.path.split(p)[0]` -/
def dirOf (p : Text) : Text :=
  let head := (splitLast p).1
  if head.all (· = '/') then head else (head.reverse.dropWhile (· = '/')).reverse

/-- the loop over leading `../` and `./` (/repo/hanzo/warclinks.py:180-189): directory and path -/
def climb (dir : Text) : Text → Text × Text
  | '.' :: '.' :: '/' :: t => climb (dirOf dir) t
  | '.' :: '/' :: t => climb dir t
  | t => (dir, t)

/-- one link of `get_abs_links` (/repo/hanzo/warclinks.py:174-198) -/
def absLink (hostOk : Text → Bool) (root : Url) (link : Text) : Except Exc Text :=
  match urlparse hostOk link with
  | .error e => .error e
  | .ok p =>
    if p.netloc = [] then
      if p.path.head? = some '/' then .ok (urlunparse ⟨root.scheme, root.netloc, p.path, p.params, p.query, []⟩)
      else
        let (dir, path) := climb (dirOf root.path) p.path
        .ok (urlunparse ⟨root.scheme, root.netloc, Unpack.join dir path, p.params, p.query, []⟩)
    else .ok link

/-- `for link in self.links` -/
def absAll (hostOk : Text → Bool) (root : Url) : List Text → Except Exc (List Text)
  | [] => .ok []
  | l :: ls =>
    match absLink hostOk root l with
    | .error e => .error e
    | .ok a =>
      match absAll hostOk root ls with
      | .error e => .error e
      | .ok as => .ok (a :: as)

/-- an attribute of a start tag: name and value (None if there is no `=`) -/
abbrev Attr := Text × Option Text

/-- the value of an attribute if it is not None and not empty (`if value`) -/
def truthy (a : Attr) : Option Text :=
  match a.2 with
  | some v => if v = [] then none else some v
  | none => none

/-- `attr_extractor(*names)` (/repo/hanzo/warclinks.py:111-114) -/
def attrExtractor (names : List Text) (attrs : List Attr) : List Text :=
  attrs.filterMap fun a => if a.1 ∈ names then truthy a else none

/-- `text.split(c)` -/
def split (c : Char) : Text → List Text
  | [] => [[]]
  | x :: xs =>
    if x = c then [] :: split c xs
    else match split c xs with
      | [] => [[x]]
      | p :: ps => (x :: p) :: ps

/-- `pair.split("=", 2)` : the first two pieces; none if there is no `=` -/
def splitEq (t : Text) : Option (Text × Text) :=
  if '=' ∈ t then some ((cut '=' t).1, (cut '=' (cut '=' t).2).1) else none

/-- white space of `str.strip` -/
structure Chars where
  space : Char → Bool
  lower : Text → Text

/-- `meta_extractor` (/repo/hanzo/warclinks.py:116-124) -/
def metaExtractor (ch : Chars) (attrs : List Attr) : List Text :=
  (attrExtractor ["content".toList] attrs).flatMap fun v =>
    (split ';' v).filterMap fun pair =>
      match splitEq pair with
      | some (k, x) => if ch.lower k = "url".toList then some (((x.dropWhile ch.space).reverse.dropWhile ch.space).reverse) else none
      | none => none

/-- the tags with `attr_extractor` (/repo/hanzo/warclinks.py:133-153) -/
def table : List (Text × List Text) :=
  [("a", ["href"]), ("applet", ["code"]), ("area", ["href"]), ("bgsound", ["src"]), ("body", ["background"]), ("embed", ["href", "src"]),
    ("fig", ["src"]), ("form", ["action"]), ("frame", ["src"]), ("iframe", ["src"]), ("img", ["href", "src", "lowsrc"]), ("input", ["src"]),
    ("link", ["href"]), ("layer", ["src"]), ("object", ["data"]), ("overlay", ["src"]), ("script", ["src"]), ("table", ["background"]),
    ("td", ["background"]), ("th", ["background"])].map fun p => (p.1.toList, p.2.map String.toList)

/-- `LinkParser` (/repo/hanzo/warclinks.py:127-131) -/
structure LinkParser where
  links : List Text
  base : Text
  deriving Repr, DecidableEq

/-- `LinkParser(base)` -/
def LinkParser.new (base : Text) : LinkParser := ⟨[], base⟩

/-- `handle_starttag` with `base_extractor` (/repo/hanzo/warclinks.py:155-168) -/
def LinkParser.handleStarttag (ch : Chars) (p : LinkParser) (tag : Text) (attrs : List Attr) : LinkParser :=
  if tag = "meta".toList then { p with links := p.links ++ metaExtractor ch attrs }
  else if tag = "base".toList then
    match (attrExtractor ["href".toList] attrs).getLast? with
    | some b => { p with base := b }
    | none => p
  else
    match table.lookup tag with
    | some names => { p with links := p.links ++ attrExtractor names attrs }
    | none => p

/-- the start tags of a document, in order -/
def LinkParser.feed (ch : Chars) (p : LinkParser) (tags : List (Text × List Attr)) : LinkParser :=
  tags.foldl (fun p t => p.handleStarttag ch t.1 t.2) p

/-- `get_abs_links` (/repo/hanzo/warclinks.py:170-199) -/
def LinkParser.getAbsLinks (hostOk : Text → Bool) (p : LinkParser) : Except Exc (List Text) :=
  match urlparse hostOk p.base with
  | .error e => .error e
  | .ok root => absAll hostOk root p.links

/-- The body of the loop of `extract_links_from_warcfh` on Python 3 (/repo/hanzo/warclinks.py:57-66): the links that are yielded.
`extract` stands for `extract_links_from_html`. -/
def linksOfRecord (c : Codec) (extract : Option Bytes → Bytes → List Text) : M World (List Text) := do
  let w ← M.get
  let (ctype, _) ← World.content
  if w.rcd.type = some WT.RESPONSE then
    match Unpack.startswith (ctype.map .bytes) (.str "application/http") with
    | .error e => M.throw e
    | .ok false => pure []
    | .ok true => do
      let (code, mime, m) ← Unpack.parseHttpResponse c
      if 200 ≤ code ∧ code < 300 then
        match mime with
        | none => M.throw .attributeError
        | some t => if (List.range (t.length + 1)).any (fun i => "html".toList.isPrefixOf (t.drop i)) then pure (extract w.rcd.url m.getBody) else pure []
      else pure []
  else pure []

/-- what the generator holds: the stream and what it has yielded -/
structure Run where
  strm : Stream
  yielded : List Text

/-- one entry of `read_records`: exceptions are caught per record (/repo/hanzo/warclinks.py:55-75) -/
def linksOfEntry (c : Codec) (extract : Option Bytes → Bytes → List Text) (e : Entry) : M Run Unit := fun run =>
  match e.rcd with
  | none => .ok () run
  | some r =>
    match linksOfRecord c extract ⟨run.strm, r, []⟩ with
    | .ok ls w => .ok () ⟨w.strm, run.yielded ++ ls⟩
    | .raise _ w => .ok () { run with strm := w.strm }
    | .hang => .hang

/-- run a stream operation -/
def onStream {α : Type} (x : M Stream α) : M Run α := fun t =>
  match x t.strm with
  | .ok a s => .ok a { t with strm := s }
  | .raise e s => .raise e { t with strm := s }
  | .hang => .hang

/-- `extract_links_from_warcfh` (/repo/hanzo/warclinks.py:54-75) on an open archive, run to its end -/
def extractLinks (c : Codec) (extract : Option Bytes → Bytes → List Text) : M Run Unit := fun run =>
  Stream.forRecords onStream true (linksOfEntry c extract) (run.strm.fh.rest.length + 2) none run

end Links
end Warc
