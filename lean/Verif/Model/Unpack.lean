import Verif.Py.Exc
/-
  Model of `output_file` of warcunpack_ia: /repo/warcunpack_ia.py:168-215, with the functions of `os.path` it calls
  (CPython Lib/posixpath.py, Lib/genericpath.py).

  Texts are `str` objects, modelled as lists of characters.  The function is only usable with `str` URLs, that is under
  Python 2 or when called with decoded URLs: on Python 3 `record.url` is `bytes`, and `url.replace('://', '/', 1)` raises
  TypeError.

  Simplifications: there are no symbolic links, so a path is looked up by its components alone.
-/
namespace Warc
namespace Unpack

/-- a text, a path, a component of a path -/
abbrev Text := List Char

/-- `text.split('/')` -/
def splitSlash : Text → List Text
  | [] => [[]]
  | c :: cs =>
    if c = '/' then [] :: splitSlash cs
    else match splitSlash cs with
      | [] => [[c]]
      | p :: ps => (c :: p) :: ps

/-- `'/'.join(parts)` -/
def joinSlash : List Text → Text
  | [] => []
  | [p] => p
  | p :: ps => p ++ '/' :: joinSlash ps

/-- `text.replace('://', '/', 1)` -/
def replaceScheme : Text → Text
  | ':' :: '/' :: '/' :: cs => '/' :: cs
  | c :: cs => c :: replaceScheme cs
  | [] => []

/-- `os.path.join(a, b)` (Lib/posixpath.py `join`) -/
def join (a b : Text) : Text :=
  if b.head? = some '/' then b
  else if a = [] ∨ a.getLast? = some '/' then a ++ b
  else a ++ '/' :: b

/-- `os.path.join(*parts)` -/
def joinAll : List Text → Text
  | [] => []
  | p :: ps => ps.foldl join p

/-- one turn of the loop of `normpath`; `stack` is `new_comps`, last component first -/
def normStep (absolute : Bool) (stack : List Text) (comp : Text) : List Text :=
  if comp = [] ∨ comp = ['.'] then stack
  else if comp ≠ ['.', '.'] ∨ (absolute = false ∧ stack = []) ∨ stack.head? = some ['.', '.'] then comp :: stack
  else stack.tail

/-- the slashes that `normpath` keeps at the beginning -/
def slashes : Text → Text
  | ['/', '/'] => ['/', '/']
  | '/' :: '/' :: c :: _ => if c = '/' then ['/'] else ['/', '/']
  | '/' :: _ => ['/']
  | _ => []

/-- the components that `normpath` keeps, last one first -/
def normStack (p : Text) : List Text := (splitSlash p).foldl (normStep (p.head? = some '/')) []

/-- `os.path.normpath(p)` (Lib/posixpath.py `normpath`) -/
def normpath (p : Text) : Text :=
  if p = [] then ['.']
  else
    let q := slashes p ++ joinSlash (normStack p).reverse
    if q = [] then ['.'] else q

/-- `os.path.splitext(name)` for a name without `/` (Lib/genericpath.py `_splitext`): the extension begins at the last dot,
if there is a character other than a dot before it -/
def splitext (name : Text) : Text × Text :=
  let ext := (name.reverse.takeWhile (· ≠ '.')).reverse
  let stem := (name.reverse.dropWhile (· ≠ '.')).tail.reverse
  if '.' ∈ name ∧ stem.any (· ≠ '.') then (stem, '.' :: ext) else (name, [])

/-- `text[:n]` -/
def sliceTo (t : Text) (n : Int) : Text :=
  if 0 ≤ n then t.take n.toNat else t.take (t.length - (-n).toNat)

/-- the environment: which characters satisfy `c.isalpha() or c.isdigit()`; `mimetypes.guess_extension`; the current
directory (its components, last one first); which paths exist (as components, last one first); the texts
`str(uuid.uuid4())[:8]` of successive calls -/
structure Env where
  alnum : Char → Bool
  guessExtension : Text → Option Text
  cwd : List Text
  ex : List Text → Bool
  uuid : Nat → Text

/-- one component in the look-up of a path -/
def walk (at_ : List Text) (comp : Text) : List Text :=
  if comp = [] ∨ comp = ['.'] then at_
  else if comp = ['.', '.'] then at_.tail
  else comp :: at_

/-- where a path leads, from the current directory if it is relative -/
def resolve (cwd : List Text) (p : Text) : List Text :=
  (splitSlash p).foldl walk (if p.head? = some '/' then [] else cwd)

/-- the URL with all characters but letters, digits, underscore, hyphen, slash and dot replaced
(/repo/warcunpack_ia.py:169) -/
def cleanUrl (env : Env) (url : Text) : Text :=
  (replaceScheme url).map fun c => if env.alnum c ∨ c = '_' ∨ c = '-' ∨ c = '/' ∨ c = '.' then c else '_'

/-- the directory (/repo/warcunpack_ia.py:171-178, 195-196) -/
def directory (outputDir : Text) (parts : List Text) : Text :=
  (normpath (joinAll (outputDir :: parts.dropLast.filter (· ≠ [])))).take 200

/-- name and extension (/repo/warcunpack_ia.py:180-193).  `mimetypes.guess_type(url)` is a pair, which is never equal to the
text `mime_type`, so that the extension for the mime type is always preferred. -/
def nameExt (env : Env) (filename : Text) (mimeType : Option Text) (defaultName : Text) : Text × Text :=
  let (name, ext) := if filename ≠ [] then splitext filename else (defaultName, [])
  match mimeType with
  | some m =>
    if m ≠ [] then
      match env.guessExtension m with
      | some e => if e ≠ [] then (name, e) else (name, ext)
      | none => (name, ext)
    else if ext = [] then (name, ".html".toList) else (name, ext)
  | none => if ext = [] then (name, ".html".toList) else (name, ext)

/-- what exists after `os.makedirs(directory)`: what existed, the directory and the directories above it -/
def exAfter (env : Env) (dir : Text) (p : List Text) : Bool :=
  env.ex p || p.isSuffixOf (resolve env.cwd dir)

/-- the loop over names (/repo/warcunpack_ia.py:207-213) from the `k`-th call of `uuid4` on; `none` if it does not end within
`fuel` turns -/
def freshName (env : Env) (dir name ext : Text) : Nat → Nat → Text → Bool → Option (Text × Bool)
  | 0, _, _, _ => none
  | fuel + 1, k, fullname, collision =>
    if exAfter env dir (resolve env.cwd fullname) then
      freshName env dir name ext fuel (k + 1)
        (join dir (sliceTo name (45 - (ext.length : Int)) ++ "_R".toList ++ env.uuid k ++ ext)) true
    else some (fullname, collision)

/-- What `output_file` does: the directory that now exists (made if need be), the file (its components, last one first; the
result is the absolute path `os.path.realpath(os.path.normpath(fullname))`), whether names collided. -/
structure Out where
  dir : List Text
  file : List Text
  collision : Bool
  deriving DecidableEq, Repr

/-- `output_file(output_dir, url, mime_type, default_name)` (/repo/warcunpack_ia.py:168-215); `none` if the loop over names
does not end within `fuel` turns -/
def outputFile (env : Env) (fuel : Nat) (outputDir url : Text) (mimeType : Option Text) (defaultName : Text) : Option Out :=
  let parts := splitSlash (cleanUrl env url)
  let dir := directory outputDir parts
  let (name, ext) := nameExt env (parts.getLast?.getD []) mimeType defaultName
  let first := join dir (sliceTo name (45 - (ext.length : Int)) ++ ext)
  (freshName env dir name ext fuel 0 first false).map fun r =>
    ⟨resolve env.cwd dir, resolve env.cwd (normpath r.1), r.2⟩

end Unpack
end Warc
