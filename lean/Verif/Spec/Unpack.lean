import Verif.Model.Unpack
/-
  What the property about `output_file` of warcunpack_ia talks about.
-/
namespace Warc.Spec
open Warc.Unpack (Text Env)

/-- a name that a file or directory can have -/
def FileName (c : Text) : Prop := c ≠ [] ∧ '/' ∉ c ∧ c ≠ ['.'] ∧ c ≠ ['.', '.']

/-- the directories that a URL names: the parts between slashes but the last one, `://` counting as one slash -/
def urlDirs (url : Text) : List Text := (Unpack.splitSlash (Unpack.replaceScheme url)).dropLast

/-- what is assumed about the environment: extensions and UUID texts contain no slash -/
structure EnvOk (env : Env) : Prop where
  ext : ∀ m e, env.guessExtension m = some e → '/' ∉ e
  uuid : ∀ k, '/' ∉ env.uuid k

/-- an absolute path in normal form, with at least one component (given first to last) -/
def AbsPath (comps : List Text) : Text := '/' :: Unpack.joinSlash comps

/-- the location `at_` (components, last one first) is `dir` or is below it -/
def Within (dir at_ : List Text) : Prop := dir <:+ at_

/-! Where the file of an ordinary URL goes. -/

/-- what becomes of a character of a URL: letters, digits, underscores, hyphens and dots stay, every other one becomes an underscore -/
def safe (env : Env) (c : Char) : Char := if env.alnum c = true ∨ c ∈ ['_', '-', '.'] then c else '_'

/-- a name consists of a stem and an extension: the extension begins at the last dot, if there is something other than dots before it,
else it is empty -/
def Extension (name stem ext : Text) : Prop :=
  name = stem ++ ext ∧
    ((∃ e, ext = '.' :: e ∧ '.' ∉ e ∧ ∃ x ∈ stem, x ≠ '.') ∨
     (ext = [] ∧ ∀ a b, name = a ++ '.' :: b → ∀ x ∈ a, x = '.'))

/-- the extension that the file gets, `own` being the one of the URL -/
inductive Ends (env : Env) : Option Text → Text → Text → Prop
  /-- the mime type has an extension -/
  | guessed (m own e : Text) : m ≠ [] → env.guessExtension m = some e → e ≠ [] → Ends env (some m) own e
  /-- the mime type has none -/
  | unknown (m own : Text) : m ≠ [] → (∀ e, env.guessExtension m = some e → e = []) → Ends env (some m) own own
  /-- there is no mime type -/
  | own (m : Option Text) (own : Text) : (m = none ∨ m = some []) → own ≠ [] → Ends env m own own
  /-- there is neither -/
  | html (m : Option Text) : (m = none ∨ m = some []) → Ends env m [] ".html".toList

/-- the name is cut to 45 characters with its extension; a longer extension is kept, and the stem loses as many characters at its end -/
def Shortened (stem ext short : Text) : Prop :=
  short <+: stem ∧
    short.length = if ext.length ≤ 45 then min stem.length (45 - ext.length) else stem.length - (ext.length - 45)

/-- the names that are tried in turn -/
def candidate (env : Env) (short ext : Text) : Nat → Text
  | 0 => short ++ ext
  | k + 1 => short ++ "_R".toList ++ env.uuid k ++ ext

/-- a name that cannot be used in a directory, since it is in use or stands for the directory itself or the one above -/
def Taken (env : Env) (dir : List Text) (n : Text) : Prop :=
  n = [] ∨ n = ['.'] ∨ n = ['.', '.'] ∨ env.ex (n :: dir) = true

end Warc.Spec
