import Verif.Model.Tools
import Verif.Model.Unpack
/-
  Model of `main`, `unpack_records`, `parse_http_response` and `parse_warcinfo` of warcunpack_ia on Python 3:
  /repo/warcunpack_ia.py:32-166.

  Python 3 keeps `bytes` and `str` apart: headers of records and of HTTP messages are `bytes`, the literals in this module are
  `str`.  Values that are compared or searched are therefore modelled as `PyStr`.

  Not modelled: option parsing, the branch that reads `sys.stdin` (see Model/Stdin), messages on stderr, the text of the log (it is only
  written behind calls that are modelled) and the collection id that goes into it.  `parse_warcinfo` and the code around it
  (/repo/warcunpack_ia.py:87-98, 129-142) set only the collection id and raise nothing: `content.split('\n')` on bytes raises TypeError inside a `try`,
  and `get_header("WARC-Filename")` compares `str` with `bytes`.
-/
namespace Warc
namespace Unpack
open _root_.Warc.Stream

/-- `x.startswith(y)`; `None` has no such method, `bytes` and `str` cannot be mixed -/
def startswith : Option PyStr → PyStr → Except Exc Bool
  | none, _ => .error .attributeError
  | some (.bytes a), .bytes b => .ok (Warc.startsWith a b)
  | some (.str a), .str b => .ok (b.toList.isPrefixOf a.toList)
  | _, _ => .error .typeError

/-- `output_file(output_dir, url, ...)` (/repo/warcunpack_ia.py:168-215) for the value of `record.url`: `url.replace('://', '/', 1)` raises
TypeError for `bytes` and AttributeError for None -/
def outputFileOf (env : Env) (fuel : Nat) (outputDir : Text) (url : Option PyStr) (mimeType : Option Text) (defaultName : Text) : M World Out :=
  match url with
  | none => M.throw .attributeError
  | some (.bytes _) => M.throw .typeError
  | some (.str u) =>
    match outputFile env fuel outputDir u.toList mimeType defaultName with
    | some o => pure o
    | none => M.diverge

/-- `parse_http_response(record)` (/repo/warcunpack_ia.py:145-166): the code and the message.  `k.lower() == 'content-type'` is
never true for `bytes`, so the mime type is always None. -/
def parseHttpResponse (c : Codec) : M World (Int × Option Text × Http.Msg) := do
  let text ← WarcFilter.contentBytes
  let (_, m) ← WarcFilter.local' (WarcFilter.newResponse []) (Http.feedResponse c text)
  let m := m.close
  let mime := match m.header.headers.filter fun h => decide (PyStr.bytes (lower h.1) = PyStr.str "content-type") with
    | [] => none
    | h :: _ => (splitAll 59 h.2).head?.map fun b => b.map fun x => Char.ofNat x.toNat
  pure (m.header.code, mime, m)

/-- The body of the loop of `unpack_records` (/repo/warcunpack_ia.py:83-117): the file to write and its contents, if any. -/
def unpackRecord (c : Codec) (env : Env) (fuel : Nat) (outputDir defaultName : Text) : M World (Option (Out × Bytes)) := do
  let w ← M.get
  let (ctype, _) ← World.content
  if w.rcd.type = some WT.RESPONSE then
    match startswith (ctype.map .bytes) (.str "application/http") with
    | .error e => M.throw e
    | .ok false => pure none
    | .ok true => do
      let (code, mime, m) ← parseHttpResponse c
      if 200 ≤ code ∧ code < 300 then do
        let o ← outputFileOf env fuel outputDir (w.rcd.url.map .bytes) mime defaultName
        pure (some (o, m.getBody))
      else pure none
  else pure none

/-- the files on disk, by location (the components of the path, last one first) -/
abbrev Disk := List Text → Option Bytes

/-- what `unpack_records` holds: the stream, the files, `collisions` -/
structure Run where
  strm : Stream
  disk : Disk
  collisions : Nat

/-- one entry of `read_records`; exceptions are caught per record (/repo/warcunpack_ia.py:119-121) -/
def unpackEntry (c : Codec) (env : Env) (fuel : Nat) (outputDir defaultName : Text) (e : Entry) : M Run Unit := fun run =>
  match e.rcd with
  | none => .ok () run
  | some r =>
    match unpackRecord c env fuel outputDir defaultName ⟨run.strm, r, []⟩ with
    | .ok none w => .ok () { run with strm := w.strm }
    | .ok (some (o, body)) w => .ok () ⟨w.strm, fun p => if p = o.file then some body else run.disk p, run.collisions + if o.collision then 1 else 0⟩
    | .raise _ w => .ok () { run with strm := w.strm }
    | .hang => .hang

/-- run a stream operation -/
def onStream {α : Type} (x : M Stream α) : M Run α := fun t =>
  match x t.strm with
  | .ok a s => .ok a { t with strm := s }
  | .raise e s => .raise e { t with strm := s }
  | .hang => .hang

/-- `unpack_records` (/repo/warcunpack_ia.py:78-127) on an open archive -/
def unpackRecords (c : Codec) (env : Env) (fuel : Nat) (outputDir defaultName : Text) : M Run Unit := fun run =>
  Stream.forRecords onStream true (unpackEntry c env fuel outputDir defaultName) (run.strm.fh.rest.length + 2) none run

/-- `print(text, file=f)`: a file opened in binary mode refuses a `str` -/
def printTo {σ : Type} (binary : Bool) : M σ Unit := if binary then M.throw .typeError else pure ()

/-- `os.path.basename(p)` -/
def basename (p : Text) : Text := (p.reverse.takeWhile (· ≠ '/')).reverse

/-- the name of the log file (/repo/warcunpack_ia.py:63) -/
def logName (outputDir : Text) (logFile : Option Text) (name : Text) : Text :=
  match logFile with
  | some l => if l = [] then join outputDir (basename name ++ ".index.txt".toList) else l
  | none => join outputDir (basename name ++ ".index.txt".toList)

/-- `open(path, 'wb')`: the file is emptied; OSError if the location cannot be written -/
def openWb (env : Env) (writable : List Text → Bool) (path : Text) : M Disk Unit := fun d =>
  let at_ := resolve env.cwd path
  if writable at_ then .ok () (fun p => if p = at_ then some [] else d p) else .raise .osError d

/-- One file (/repo/warcunpack_ia.py:61-72): the log is opened in binary mode and its heading printed, then the archive is unpacked
and exceptions are reported. -/
def unpackFile (c : Codec) (env : Env) (fuel : Nat) (writable : List Text → Bool) (outputDir defaultName : Text) (logFile : Option Text) (name : Text) : M Disk Nat := do
  openWb env writable (logName outputDir logFile name)
  printTo true
  fun d =>
    match d (resolve env.cwd name) with
    | none => .ok 0 d
    | some contents =>
      match openArchive c none ("zg.".toList.isPrefixOf name.reverse) .auto none contents with
      | .error _ => .ok 0 d
      | .ok s =>
        match unpackRecords c env fuel outputDir defaultName ⟨s, d, 0⟩ with
        | .ok () r => .ok r.collisions r.disk
        | .raise _ r => .ok 0 r.disk
        | .hang => .hang

/-- the loop over the files (/repo/warcunpack_ia.py:61-72) -/
def unpackFiles (c : Codec) (env : Env) (fuel : Nat) (writable : List Text → Bool) (outputDir defaultName : Text) (logFile : Option Text) : List Text → M Disk Nat
  | [] => pure 0
  | name :: names => do
    let a ← unpackFile c env fuel writable outputDir defaultName logFile name
    let b ← unpackFiles c env fuel writable outputDir defaultName logFile names
    pure (a + b)

/-- `main` with at least one file name (/repo/warcunpack_ia.py:39-76), once the output directory exists -/
def main (c : Codec) (env : Env) (fuel : Nat) (writable : List Text → Bool) (outputDir defaultName : Text) (logFile : Option Text) (names : List Text) :
    M Disk Int := do
  let _ ← unpackFiles c env fuel writable outputDir defaultName logFile names
  pure 0

end Unpack
end Warc
