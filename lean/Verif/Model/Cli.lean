import Verif.Model.Stdin
import Verif.Model.Arc2Warc
import Verif.Model.HttpClient
import Verif.Model.Dump
import Verif.Model.S3
/-
  The command lines of the tools: `optparse.OptionParser` of the Python standard library with the tables of options in /repo, and what each
  `main` makes of options and operands.

  Arguments are the bytes of their UTF-8 text.  Simplifications: in numbers only ASCII digits and ASCII white space are looked at; the text of
  usage messages and of `--help` is not modelled (`help` is a parameter of the commands).
-/
namespace Warc
namespace Cli

/-- `action` of an option; `store` is the default -/
inductive Action where
  | store | storeTrue | append | help
  deriving Repr, DecidableEq

/-- One `parser.add_option(...)` -/
structure Opt where
  short : Option Byte
  long : Bytes
  dest : Bytes
  action : Action
  deriving Repr, DecidableEq

/-- `option.takes_value()` -/
def Opt.takesValue (o : Opt) : Bool := o.action == .store || o.action == .append

/-- How the parser can end the program: `--help` (SystemExit(0)) or an error (SystemExit(2)). -/
inductive Exit where
  | help | error
  deriving Repr, DecidableEq

/-- One assignment to `options`: destination and value (`none` for `True`) -/
abbrev Setting := Bytes × Option Bytes

/-- `_match_abbrev(s, self._long_opt)`: the option itself, or the only one that begins like this -/
def matchLong (t : List Opt) (s : Bytes) : Option Opt :=
  match t.find? (fun o => o.long == s) with
  | some o => some o
  | none =>
    match t.filter (fun o => startsWith o.long s) with
    | [o] => some o
    | _ => none

/-- `_process_long_opt` (optparse.py:1467-1501).  The second component is the option whose value is the next argument. -/
def longArg (t : List Opt) (arg : Bytes) : Except Exit (List Setting × Option Opt) :=
  match splitOnce 61 arg with
  | some (name, value) =>
    match matchLong t name with
    | none => .error .error
    | some o => if o.takesValue then .ok ([(o.dest, some value)], none) else .error .error
  | none =>
    match matchLong t arg with
    | none => .error .error
    | some o =>
      if o.takesValue then .ok ([], some o)
      else if o.action = .help then .error .help
      else .ok ([(o.dest, none)], none)

/-- `_process_short_opts` (optparse.py:1503-1548), the letters behind the dash -/
def shortArgs (t : List Opt) : Bytes → Except Exit (List Setting × Option Opt)
  | [] => .ok ([], none)
  | ch :: more =>
    match t.find? (fun o => o.short == some ch) with
    | none => .error .error
    | some o =>
      if o.takesValue then (if more = [] then .ok ([], some o) else .ok ([(o.dest, some more)], none))
      else if o.action = .help then .error .help
      else
        match shortArgs t more with
        | .error e => .error e
        | .ok (ss, p) => .ok ((o.dest, none) :: ss, p)

/-- `_process_args` (optparse.py:1407-1436): the settings in their order and the operands.  `pending`: an option that waits for its value. -/
def parseArgs (t : List Opt) : Option Opt → List Bytes → Except Exit (List Setting × List Bytes)
  | none, [] => .ok ([], [])
  | some _, [] => .error .error
  | some o, v :: rest =>
    match parseArgs t none rest with
    | .error e => .error e
    | .ok (ss, ops) => .ok ((o.dest, some v) :: ss, ops)
  | none, arg :: rest =>
    if arg = b! "--" then .ok ([], rest)
    else if startsWith arg (b! "--") then
      match longArg t arg with
      | .error e => .error e
      | .ok (ss, p) =>
        match parseArgs t p rest with
        | .error e => .error e
        | .ok (ss', ops) => .ok (ss ++ ss', ops)
    else if startsWith arg (b! "-") ∧ 1 < arg.length then
      match shortArgs t (arg.drop 1) with
      | .error e => .error e
      | .ok (ss, p) =>
        match parseArgs t p rest with
        | .error e => .error e
        | .ok (ss', ops) => .ok (ss ++ ss', ops)
    else
      match parseArgs t none rest with
      | .error e => .error e
      | .ok (ss, ops) => .ok (ss, arg :: ops)

/-- `parser.parse_args(args=argv[1:])` -/
def parse (t : List Opt) (args : List Bytes) : Except Exit (List Setting × List Bytes) := parseArgs t none args

/-- `options.dest` for a `store_true` option whose default is false -/
def flagged (dest : Bytes) (ss : List Setting) : Bool := ss.any fun s => s.1 == dest

/-- `options.dest` for a `store` option -/
def value (dest default : Bytes) (ss : List Setting) : Bytes :=
  match (ss.reverse.find? fun s => s.1 == dest) with
  | some (_, some v) => v
  | _ => default

/-- `options.dest` for an `append` option -/
def values (dest : Bytes) (ss : List Setting) : List Bytes := ss.filterMap fun s => if s.1 == dest then s.2 else none

/-! ### the tables -/

/-- `-h --help`, which every OptionParser has -/
def helpOpt : Opt := ⟨some 104, b! "--help", [], .help⟩

/-- /repo/hanzo/warcdump.py:18-20 -/
def dumpOpts : List Opt := [helpOpt, ⟨some 108, b! "--limit", b! "limit", .store⟩, ⟨some 73, b! "--input", b! "input_format", .store⟩,
  ⟨some 76, b! "--log-level", b! "log_level", .store⟩]

/-- /repo/hanzo/warcindex.py:16-20 -/
def indexOpts : List Opt := [helpOpt, ⟨some 108, b! "--limit", b! "limit", .store⟩, ⟨some 79, b! "--output-format", b! "output_format", .store⟩,
  ⟨some 111, b! "--output", b! "output_format", .store⟩, ⟨some 76, b! "--log-level", b! "log_level", .store⟩]

/-- /repo/hanzo/warcvalid.py:18-20 -/
def validOpts : List Opt := [helpOpt, ⟨some 108, b! "--limit", b! "limit", .store⟩, ⟨some 73, b! "--input", b! "input_format", .store⟩,
  ⟨some 76, b! "--log-level", b! "log_level", .store⟩]

/-- /repo/hanzo/warcextract.py:19-20 -/
def extractOpts : List Opt := [helpOpt, ⟨some 73, b! "--input", b! "input_format", .store⟩, ⟨some 76, b! "--log-level", b! "log_level", .store⟩]

/-- /repo/hanzo/warcpayload.py:18 -/
def payloadOpts : List Opt := [helpOpt]

/-- /repo/hanzo/warcfilter.py:16-24 -/
def filterOpts : List Opt := [helpOpt, ⟨some 108, b! "--limit", b! "limit", .store⟩, ⟨some 73, b! "--input", b! "input_format", .store⟩,
  ⟨some 105, b! "--invert", b! "invert", .storeTrue⟩, ⟨some 85, b! "--url", b! "url", .storeTrue⟩, ⟨some 84, b! "--type", b! "type", .storeTrue⟩,
  ⟨some 67, b! "--content-type", b! "content_type", .storeTrue⟩, ⟨some 72, b! "--http-content-type", b! "http_content_type", .storeTrue⟩,
  ⟨some 68, b! "--warc-date", b! "warc_date", .storeTrue⟩, ⟨some 76, b! "--log-level", b! "log_level", .store⟩]

/-- /repo/hanzo/warc2warc.py:19-26 -/
def copyOpts : List Opt := [helpOpt, ⟨some 111, b! "--output", b! "output", .store⟩, ⟨some 108, b! "--limit", b! "limit", .store⟩,
  ⟨some 73, b! "--input", b! "input_format", .store⟩, ⟨some 90, b! "--gzip", b! "gzip", .storeTrue⟩, ⟨some 68, b! "--decode_http", b! "decode_http", .storeTrue⟩,
  ⟨some 76, b! "--log-level", b! "log_level", .store⟩, ⟨none, b! "--wget-chunk-fix", b! "wget_workaround", .storeTrue⟩]

/-- /repo/hanzo/arc2warc.py:25-35 -/
def arcOpts : List Opt := [helpOpt, ⟨some 111, b! "--output", b! "output", .store⟩, ⟨some 108, b! "--limit", b! "limit", .store⟩,
  ⟨some 90, b! "--gzip", b! "gzip", .storeTrue⟩, ⟨some 76, b! "--log-level", b! "log_level", .store⟩, ⟨none, b! "--description", b! "description", .store⟩,
  ⟨none, b! "--operator", b! "operator", .store⟩, ⟨none, b! "--publisher", b! "publisher", .store⟩, ⟨none, b! "--audience", b! "audience", .store⟩,
  ⟨none, b! "--resource", b! "resource", .append⟩, ⟨none, b! "--response", b! "response", .append⟩]

/-- /repo/warcunpack_ia.py:27-30 -/
def unpackOpts : List Opt := [helpOpt, ⟨some 68, b! "--default-name", b! "default_name", .store⟩, ⟨some 111, b! "--output", b! "output", .store⟩,
  ⟨some 108, b! "--log", b! "log_file", .store⟩, ⟨some 87, b! "--wayback_prefix", b! "wayback", .store⟩]

/-- /repo/hanzo/warclinks.py:27 -/
def linksOpts : List Opt := [helpOpt, ⟨some 76, b! "--log-level", b! "log_level", .store⟩]

/-! ### what the tools do -/

/-- What a command line asks for: options of type `α`, and standard input or files. -/
inductive Job (α : Type) where
  | exit (e : Exit)
  | stdin (o : α)
  | files (o : α) (names : List Bytes)
  deriving Repr, DecidableEq

/-- `warc2warc` (/repo/hanzo/warc2warc.py:63-86): `-o`, `-l`, `-I` and `-L` are never looked at -/
def copyJob (args : List Bytes) : Job Warc2Warc.Opts :=
  match parse copyOpts args with
  | .error e => .exit e
  | .ok (ss, ops) =>
    let o : Warc2Warc.Opts := ⟨flagged (b! "gzip") ss, flagged (b! "decode_http") ss, flagged (b! "wget_workaround") ss⟩
    if ops.length < 1 then .stdin o else .files o ops

/-- `warcfilter` (/repo/hanzo/warcfilter.py:48-76): the first operand is the pattern -/
def filterJob (args : List Bytes) : Job (Bytes × WarcFilter.Opts) :=
  match parse filterOpts args with
  | .error e => .exit e
  | .ok (_, []) => .exit .error
  | .ok (ss, pattern :: ops) =>
    let o : WarcFilter.Opts := ⟨flagged (b! "url") ss, flagged (b! "type") ss, flagged (b! "content_type") ss, flagged (b! "http_content_type") ss,
      flagged (b! "warc_date") ss, flagged (b! "invert") ss⟩
    if ops = [] then .stdin (pattern, o) else .files (pattern, o) ops

/-- `warcdump` (/repo/hanzo/warcdump.py:24-39) -/
def dumpJob (args : List Bytes) : Job Unit :=
  match parse dumpOpts args with
  | .error e => .exit e
  | .ok (_, ops) => if ops.length < 1 then .stdin () else .files () ops

/-- `warcindex` (/repo/hanzo/warcindex.py:24-36) -/
def indexJob (args : List Bytes) : Job Unit :=
  match parse indexOpts args with
  | .error e => .exit e
  | .ok (_, ops) => if ops.length < 1 then .exit .error else .files () ops

/-- `warcvalid` (/repo/hanzo/warcvalid.py:24-34) -/
def validJob (args : List Bytes) : Job Unit :=
  match parse validOpts args with
  | .error e => .exit e
  | .ok (_, ops) => if ops.length < 1 then .exit .error else .files () ops

/-- `int(text)` -/
def intArg (s : Bytes) : Option Int := pyInt 10 (s.map fun b => if 28 ≤ b && b ≤ 31 then 32 else b)

/-- one place in one file, or an exception -/
inductive PlaceJob where
  | exit (e : Exit)
  | stdin
  | raises (e : Exc)
  | place (name : Bytes) (offset : Int) (length : Option Int)
  deriving Repr, DecidableEq

/-- `warcextract` (/repo/hanzo/warcextract.py:25-46): further operands are not looked at -/
def extractJob (args : List Bytes) : PlaceJob :=
  match parse extractOpts args with
  | .error e => .exit e
  | .ok (_, []) => .stdin
  | .ok (_, [name]) => .place name 0 none
  | .ok (_, name :: offset :: _) =>
    match intArg offset with
    | some n => .place name n none
    | none => .raises .valueError

/-- `s.rsplit(c, 1)`; `none` if there is no `c` -/
def rsplitOnce (c : Byte) (s : Bytes) : Option (Bytes × Bytes) :=
  match splitOnce c s.reverse with
  | some (a, b) => some (b.reverse, a.reverse)
  | none => none

/-- `warcpayload` (/repo/hanzo/warcpayload.py:22-31) -/
def payloadJob (args : List Bytes) : PlaceJob :=
  match parse payloadOpts args with
  | .error e => .exit e
  | .ok (_, []) => .raises .indexError
  | .ok (_, arg :: _) =>
    match rsplitOnce 58 arg with
    | none => .raises .valueError
    | some (name, offset) =>
      match splitOnce 44 offset with
      | some (a, b) =>
        match intArg a, intArg b with
        | some n, some k => .place name n (some k)
        | _, _ => .raises .valueError
      | none =>
        match intArg offset with
        | some n => .place name n none
        | none => .raises .valueError

/-- The options of arc2warc (/repo/hanzo/arc2warc.py:37-42) -/
structure ArcOptions where
  output : Bytes
  gzip : Bool
  description : Bytes
  operator : Bytes
  publisher : Bytes
  audience : Bytes
  resources : List Bytes
  responses : List Bytes
  deriving Repr, DecidableEq

/-- `arc2warc` (/repo/hanzo/arc2warc.py:196-217).  (The output file is opened, and so created, before the operands are counted.) -/
def arcJob (args : List Bytes) : Job ArcOptions :=
  match parse arcOpts args with
  | .error e => .exit e
  | .ok (ss, ops) =>
    let output := value (b! "output") [] ss
    let o : ArcOptions := ⟨output, flagged (b! "gzip") ss || endsWith output (b! ".gz"), value (b! "description") [] ss,
      value (b! "operator") [] ss, value (b! "publisher") [] ss, value (b! "audience") [] ss, values (b! "resource") ss, values (b! "response") ss⟩
    if ops.length < 1 then .exit .error else .files o ops

/-- The options of warcunpack_ia (/repo/warcunpack_ia.py:32); empty `output` and `logFile` count as not given -/
structure UnpackOptions where
  output : Bytes
  logFile : Bytes
  defaultName : Bytes
  wayback : Bytes
  deriving Repr, DecidableEq

/-- `warcunpack_ia` (/repo/warcunpack_ia.py:42-67) -/
def unpackJob (args : List Bytes) : Job UnpackOptions :=
  match parse unpackOpts args with
  | .error e => .exit e
  | .ok (ss, ops) =>
    let o : UnpackOptions := ⟨value (b! "output") [] ss, value (b! "log_file") [] ss, value (b! "default_name") (b! "crawlerdefault") ss,
      value (b! "wayback") (b! "http://wayback.archive-it.org/") ss⟩
    if ops.length < 1 then .stdin o else .files o ops

/-- The levels that warclinks knows (/repo/hanzo/warclinks.py:19-23) -/
def levels : List Bytes := [b! "debug", b! "info", b! "warning", b! "error", b! "critical"]

/-- `warclinks` (/repo/hanzo/warclinks.py:202-207): `none` is the KeyError for an unknown log level, which comes before the operands are counted -/
def linksJob (args : List Bytes) : Option (Job Unit) :=
  match parse linksOpts args with
  | .error e => some (.exit e)
  | .ok (ss, ops) =>
    if value (b! "log_level") (b! "info") ss ∈ levels then
      some (if ops.length < 1 then .exit .error else .files () ops)
    else none

/-! ### the commands -/

/-- the files named, with `s3:` names expanded: the tool runs on each as it comes, so an exception of the listing comes after the files before it -/
def overFiles {σ : Type} (acc : S3.Account) (fuel : Nat) (each : List Bytes → M σ Unit) (names : List Bytes) : M σ Unit := do
  let y := S3.expandFiles acc fuel names
  each y.names
  match y.fin with
  | some none => pure ()
  | some (some e) => M.throw e
  | none => M.diverge

/-- A command: its exit status.  `help` is the text that `--help` prints; `usage` is printed on stderr only. -/
def command {α : Type} (help : Bytes) (fromStdin : α → M Bytes Unit) (onFiles : α → List Bytes → M Bytes Unit) : Job α → M Bytes Nat
  | .exit .help => do M.modify (· ++ help); pure 0
  | .exit .error => pure 2
  | .stdin o => do fromStdin o; pure 0
  | .files o names => do onFiles o names; pure 0

/-- `warc2warc ...` (/repo/hanzo/warc2warc.py:63-89) -/
def warc2warc (help : Bytes) (fromStdin : Warc2Warc.Opts → M Bytes Unit) (c : Codec) (z : Http.Zlib) (fs : FS) (acc : S3.Account) (fuel : Nat)
    (args : List Bytes) : M Bytes Nat :=
  command help fromStdin (fun o => overFiles acc fuel (Warc2Warc.main c z fs o)) (copyJob args)

/-- `warcfilter ...` (/repo/hanzo/warcfilter.py:48-121); `compile` is `re.compile` of the encoded pattern, `none` for re.error -/
def warcfilter (help : Bytes) (fromStdin : (Bytes × WarcFilter.Opts) → M Bytes Unit) (compile : Bytes → Option (Bytes → Bool)) (c : Codec) (fs : FS)
    (acc : S3.Account) (fuel : Nat) (args : List Bytes) : M Bytes Nat :=
  command help (fun o => match compile o.1 with | none => M.throw (.generic "re.error") | some _ => fromStdin o)
    (fun o names => match compile o.1 with
      | none => M.throw (.generic "re.error")
      | some search => overFiles acc fuel (WarcFilter.main c fs search o.2) names) (filterJob args)

/-- `warcdump ...` (/repo/hanzo/warcdump.py:24-55) -/
def warcdump (help : Bytes) (fromStdin : M Bytes Unit) (c : Codec) (fs : FS) (acc : S3.Account) (fuel : Nat) (args : List Bytes) : M Bytes Nat :=
  command help (fun _ => fromStdin) (fun _ => overFiles acc fuel (WarcDump.main c fs)) (dumpJob args)

/-- `warcindex ...` (/repo/hanzo/warcindex.py:24-64).  (The heading is written before the files are looked for.) -/
def warcindex (help : Bytes) (c : Codec) (fs : FS) (acc : S3.Account) (fuel : Nat) (args : List Bytes) : M Bytes Nat :=
  command help (fun _ => pure ()) (fun _ => overFiles acc fuel (WarcIndex.main c fs)) (indexJob args)

/-- `warcvalid ...` (/repo/hanzo/warcvalid.py:24-69): the exit status, `none` if it never ends; `sys.exit(-1)` gives 255.  Nothing is written to
stdout but the text of `--help`.  An exception of the listing is caught like any other.
Simplification: when the listing never ends the tool is taken never to end, also if a file before had raised. -/
def warcvalid (help : Bytes) (c : Codec) (fs : FS) (acc : S3.Account) (fuel : Nat) (args : List Bytes) : M Bytes Nat :=
  match validJob args with
  | .exit .help => do M.modify (· ++ help); pure 0
  | .exit .error => pure 2
  | .stdin _ => pure 0
  | .files _ names =>
    let y := S3.expandFiles acc fuel names
    match WarcValid.main c fs y.names, y.fin with
    | none, _ => M.diverge
    | some _, none => M.diverge
    | some k, some fin => pure (if k = 0 ∧ fin = none then 0 else 255)

/-- `warcextract ...` (/repo/hanzo/warcextract.py:25-50): seeking to a negative offset is an OSError -/
def warcextract (help : Bytes) (fromStdin : M Bytes Unit) (c : Codec) (fs : FS) (args : List Bytes) : M Bytes Nat :=
  match extractJob args with
  | .exit .help => do M.modify (· ++ help); pure 0
  | .exit .error => pure 2
  | .stdin => do fromStdin; pure 0
  | .raises e => M.throw e
  | .place name offset _ => do
    (if 0 ≤ offset then WarcExtract.main c fs name offset.toNat else onArchive c fs .warc none name (M.throw .osError))
    pure 0

/-- `warcpayload ...` (/repo/hanzo/warcpayload.py:22-37; /repo/hanzo/warctools/stream.py:15-22: for files that are not `s3://...` the length is not
looked at; seeking to a negative offset is an OSError, and so is a missing file) -/
def warcpayload (help : Bytes) (c : Codec) (fs : FS) (args : List Bytes) : M Bytes Nat :=
  match payloadJob args with
  | .exit .help => do M.modify (· ++ help); pure 0
  | .exit .error => pure 2
  | .stdin => pure 0
  | .raises e => M.throw e
  | .place name offset _ => do
    (if 0 ≤ offset then WarcPayload.tool c fs name offset.toNat else M.throw .osError)
    pure 0

/-! ### arc2warc, with its output file -/

/-- an argument as a `str` object; the transformer only asks whether it is empty, and fails on it otherwise -/
def asStr (arg : Bytes) : PyStr := .str (String.ofList (arg.map fun b => Char.ofNat b.toNat))

/-- bytes added at the end of a file, which is created if there is none -/
def appendTo (fs : FS) (name b : Bytes) : FS := fun n => if n = name then some ((fs name).getD [] ++ b) else fs n

/-- The transformer that `main` makes (/repo/hanzo/arc2warc.py:212-218) -/
def arcCfg (sha1 : Bytes → Bytes) (clock : Nat → DateTime) (host : Bytes) (o : ArcOptions) : Arc2Warc.Cfg :=
  { sha1 := sha1, now := clock, outputFilename := if o.output = [] then none else some (asStr o.output),
    warcinfoFields := Arc2Warc.warcinfoFields host o.description o.operator o.publisher o.audience,
    resources := o.resources.map asStr, responses := o.responses.map asStr }

/-- `arc2warc ...` (/repo/hanzo/arc2warc.py:196-234).  The state is what is on standard output and on disk.  The output file is opened for appending
before the operands are counted.  Simplification: the input files are read as they were at the start, so the output file must not be one of them. -/
def arc2warc (help : Bytes) (c : Codec) (sha1 : Bytes → Bytes) (clock : Nat → DateTime) (host : Bytes) (acc : S3.Account) (fuel : Nat)
    (args : List Bytes) : M (Bytes × FS) Nat := fun s =>
  match parse arcOpts args with
  | .error .help => .ok 0 (s.1 ++ help, s.2)
  | .error .error => .ok 2 s
  | .ok (ss, _) =>
    let output := value (b! "output") [] ss
    let put : Bytes → Bytes × FS := fun b => if output = [] then (s.1 ++ b, s.2) else (s.1, appendTo s.2 output b)
    match arcJob args with
    | .files o names =>
      match overFiles acc fuel (Arc2Warc.main c s.2 (arcCfg sha1 clock host o) o.gzip) names ([], {}) with
      | .ok () t => .ok 0 (put t.1)
      | .raise e t => .raise e (put t.1)
      | .hang => .hang
    | _ => .ok 2 (put [])

end Cli
end Warc
