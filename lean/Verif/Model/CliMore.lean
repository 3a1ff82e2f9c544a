import Verif.Model.Cli
import Verif.Model.Links
import Verif.Model.UnpackRun
import Verif.Model.Stdin
/-
  The commands warclinks (/repo/hanzo/warclinks.py:202-226) and warcunpack_ia (/repo/warcunpack_ia.py:42-76) from their arguments on.

  warclinks cannot be imported on Python >= 3.5 (see Model/Links); this is what it does where it can be.
-/
namespace Warc
namespace Cli
open _root_.Warc.Stream
open Unpack (Text)

/-! ### warclinks -/

/-- One file (/repo/hanzo/warclinks.py:212-220): the links are printed; 1 if an exception was caught.  `line` is `print`: the bytes that standard
output receives for a link. -/
def linksOfFile (line : Text → Bytes) (extract : Option Bytes → Bytes → List Text) (c : Codec) (fs : FS) (name : Bytes) : M Bytes Nat := fun out =>
  match openName c fs .warc none name with
  | .error _ => .ok 1 out
  | .ok s =>
    match Links.extractLinks c extract ⟨s, []⟩ with
    | .ok () r => .ok 0 (out ++ r.yielded.flatMap line)
    | .raise _ r => .ok 1 (out ++ r.yielded.flatMap line)
    | .hang => .hang

/-- `for warc in expand_files(warcs): ...` (/repo/hanzo/warclinks.py:210-220): `-ret` at the end -/
def linksOfFiles (line : Text → Bytes) (extract : Option Bytes → Bytes → List Text) (c : Codec) (fs : FS) : List Bytes → M Bytes Nat
  | [] => pure 0
  | name :: names => do
    let a ← linksOfFile line extract c fs name
    let b ← linksOfFiles line extract c fs names
    pure (a + b)

/-- `sys.exit(n)`: the status that the system sees, the lowest eight bits -/
def exitStatus (n : Int) : Nat := (n % 256).toNat

/-- `warclinks ...` (/repo/hanzo/warclinks.py:202-226) -/
def warclinks (help : Bytes) (line : Text → Bytes) (extract : Option Bytes → Bytes → List Text) (c : Codec) (fs : FS) (acc : S3.Account) (fuel : Nat)
    (args : List Bytes) : M Bytes Nat :=
  match linksJob args with
  | none => M.throw (.generic "KeyError")
  | some (.exit .help) => do M.modify (· ++ help); pure 0
  | some (.exit .error) => pure 2
  | some (.stdin _) => pure 0
  | some (.files _ names) => do
    let y := S3.expandFiles acc fuel names
    let failed ← linksOfFiles line extract c fs y.names
    match y.fin with
    | some none => pure (exitStatus (-(failed : Int)))
    | some (some e) => M.throw e
    | none => M.diverge

/-! ### warcunpack_ia -/

/-- what the command can change: standard output, the directories made, the files -/
structure Effects where
  out : Bytes
  made : List (List Text)
  disk : Unpack.Disk

/-- an argument as text -/
def argText (b : Bytes) : Text := b.map fun x => Char.ofNat x.toNat

/-- `log_headers` (/repo/warcunpack_ia.py:35-36) -/
def logHeading : Bytes :=
  b! ">>warc_file\twarc_id\twarc_type\twarc_content_length\twarc_uri_date\twarc_subject_uri\turi_content_type\toutfile\twayback_uri\n"

/-- the output directory is made if it does not exist (/repo/warcunpack_ia.py:46-51); `canMake`: does `os.makedirs` succeed -/
def outputDir (env : Unpack.Env) (canMake : List Text → Bool) (cwd : Text) (o : UnpackOptions) : M Effects Text := fun w =>
  if o.output = [] then .ok cwd w
  else
    let at_ := Unpack.resolve env.cwd (argText o.output)
    if env.ex at_ then .ok (argText o.output) w
    else if canMake at_ then .ok (argText o.output) { w with made := w.made ++ [at_] }
    else .raise .osError w

/-- run something on the disk only -/
def onDisk {α : Type} (x : M Unpack.Disk α) : M Effects α := fun w =>
  match x w.disk with
  | .ok a d => .ok a { w with disk := d }
  | .raise e d => .raise e { w with disk := d }
  | .hang => .hang

/-- the branch without file names (/repo/warcunpack_ia.py:56-61): `console` is `unpack_records` on `sys.stdin` (Model/Stdin), which has read nothing
yet; the heading goes to standard output, or to the log file, which is opened in binary mode -/
def unpackStdin (env : Unpack.Env) (writable : List Text → Bool) (console : M Stdin.Console Unit) (lines : List (Option String)) (seekable : Bool)
    (o : UnpackOptions) : M Effects Unit :=
  if o.logFile = [] then fun w =>
    match console ⟨lines, seekable, none, w.out ++ logHeading⟩ with
    | .ok () t => .ok () { w with out := t.out }
    | .raise e t => .raise e { w with out := t.out }
    | .hang => .hang
  else do
    onDisk (Unpack.openWb env writable (argText o.logFile))
    Unpack.printTo true

/-- `warcunpack_ia ...` (/repo/warcunpack_ia.py:42-76): the exit status -/
def warcunpack (help : Bytes) (c : Codec) (env : Unpack.Env) (fuel : Nat) (writable canMake : List Text → Bool) (cwd : Text)
    (console : M Stdin.Console Unit) (lines : List (Option String)) (seekable : Bool) (args : List Bytes) : M Effects Nat :=
  match unpackJob args with
  | .exit .help => do M.modify (fun w => { w with out := w.out ++ help }); pure 0
  | .exit .error => pure 2
  | .stdin o => do
    let _ ← outputDir env canMake cwd o
    unpackStdin env writable console lines seekable o
    pure 0
  | .files o names => do
    let dir ← outputDir env canMake cwd o
    let _ ← onDisk (Unpack.main c env fuel writable dir (argText o.defaultName) (if o.logFile = [] then none else some (argText o.logFile)) (names.map argText))
    pure 0

end Cli
end Warc
