import Verif.Py.Exc
/-
  Model of /repo/hanzo/warctools/s3.py and of expand_files (/repo/hanzo/warctools/__init__.py:8-14).

  Names are the bytes of the UTF-8 text.  The boto library is a parameter: what a bucket lists and what it sends.
-/
namespace Warc.S3

/-- What boto offers for one bucket: `get_all_keys(prefix, marker)` gives the keys of one page and whether the
listing was truncated, `get_contents_to_file` with an optional `Range` header gives the pieces of the body that are
written to the file, or an exception. -/
structure Bucket where
  page : Bytes → Bytes → List Bytes × Bool
  fetch : Bytes → Option Bytes → Except Exc (List Bytes)

/-- An account: the buckets that can be opened. -/
abbrev Account := Bytes → Option Bucket

/-- everything up to the first byte that satisfies `p` -/
def before (p : Byte → Bool) (s : Bytes) : Bytes := s.takeWhile fun c => !p c

/-- `urlparse(url)` for an `s3://` url: netloc and path (CPython Lib/urllib/parse.py `urlsplit`): the netloc ends at
`/`, `?` or `#`; the fragment and then the query are cut off. Scheme `s3` has no params. Simplification: the
removal of tabs and newlines and the check of brackets are left out. -/
def urlparse (url : Bytes) : Bytes × Bytes :=
  let rest := url.drop 5
  let netloc := before (fun c => c == 47 || c == 63 || c == 35) rest
  let tail := rest.drop netloc.length
  (netloc, before (· == 63) (before (· == 35) tail))

/-- The `Range` header of `open_url` (/repo/hanzo/warctools/s3.py:26-31): `bytes=%d-%d` of offset and
offset + length, `bytes=%d-` of the offset, or none. -/
def rangeHeader : Option Nat → Option Nat → Option Bytes
  | some o, some l => some (b! "bytes=" ++ decimal o ++ b! "-" ++ decimal (o + l))
  | some o, none => some (b! "bytes=" ++ decimal o ++ b! "-")
  | none, _ => none

/-- Writing the pieces that were received to an `io.StringIO`: a text file, which refuses bytes with TypeError. -/
def writePieces : List Bytes → Except Exc Bytes
  | [] => .ok []
  | _ :: _ => .error .typeError

/-- `open_url` with boto (/repo/hanzo/warctools/s3.py:18-36): the contents of the returned file. -/
def openUrl (acc : Account) (url : Bytes) (offset length : Option Nat) : Except Exc Bytes :=
  let p := urlparse url
  match acc p.1 with
  | none => .error (.generic "bucket")
  | some b =>
    match b.fetch (p.2.drop 1) (rangeHeader offset length) with
    | .error e => .error e
    | .ok pieces => writePieces pieces

/-- What a generator yields, and whether it ended, raised, or goes on for ever. -/
structure Yield where
  names : List Bytes
  fin : Option (Option Exc)
  deriving Repr, DecidableEq

/-- The `while not complete` loop of `list_files` (/repo/hanzo/warctools/s3.py:48-54). -/
def listLoop (bucketName : Bytes) (b : Bucket) (pre : Bytes) : Nat → Bytes → Yield
  | 0, _ => ⟨[], none⟩
  | fuel + 1, marker =>
    let (keys, truncated) := b.page pre marker
    let marker := keys.getLastD marker
    let found := keys.map fun k => b! "s3://" ++ bucketName ++ b! "/" ++ k
    if truncated then
      let y := listLoop bucketName b pre fuel marker
      ⟨found ++ y.names, y.fin⟩
    else ⟨found, some none⟩

/-- `list_files` (/repo/hanzo/warctools/s3.py:38-54) -/
def listFiles (acc : Account) (fuel : Nat) (name : Bytes) : Yield :=
  let p := urlparse name
  match acc p.1 with
  | none => ⟨[], some (some (.generic "bucket"))⟩
  | some b => listLoop p.1 b (p.2.drop 1) fuel []

/-- `expand_files` (/repo/hanzo/warctools/__init__.py:8-14) -/
def expandFiles (acc : Account) (fuel : Nat) : List Bytes → Yield
  | [] => ⟨[], some none⟩
  | file :: files =>
    let here := if startsWith file (b! "s3:") then listFiles acc fuel file else ⟨[file], some none⟩
    match here.fin with
    | some none =>
      let y := expandFiles acc fuel files
      ⟨here.names ++ y.names, y.fin⟩
    | _ => here

end Warc.S3
