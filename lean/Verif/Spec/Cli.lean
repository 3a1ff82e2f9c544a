import Verif.Model.Cli
import Verif.Spec.Filter
import Verif.Spec.HttpTarget
/-
  What a command line means, written as a grammar, without the parser.

  A command line is a sequence of items, in any order: operands, clusters of one-letter options, long options.  A final `--` may be followed by
  anything; what follows it are operands.
-/
namespace Warc.Spec.Cli
open Warc.Cli (Opt Setting Action)

/-- not an option: does not begin with a dash, or is just a dash -/
def Plain (arg : Bytes) : Prop := ¬ [45] <+: arg ∨ arg = [45]

/-- `s` is the name of `o`, or the beginning of the name of `o` and of no other option -/
def Names (t : List Opt) (s : Bytes) (o : Opt) : Prop :=
  o ∈ t ∧ (o.long = s ∨ (s <+: o.long ∧ ∀ o' ∈ t, s <+: o'.long → o' = o))

/-- letters of options without value, and what they set -/
inductive Letters (t : List Opt) : Bytes → List Setting → Prop
  | nil : Letters t [] []
  | cons {o : Opt} {c : Byte} {cs : Bytes} {ss : List Setting} : o ∈ t → o.short = some c → o.action = .storeTrue → Letters t cs ss →
      Letters t (c :: cs) ((o.dest, none) :: ss)

/-- One item of a command line: the arguments it takes, the settings it makes, the operands it gives -/
inductive Item (t : List Opt) : List Bytes → List Setting → List Bytes → Prop
  /-- an operand -/
  | operand {a : Bytes} : Plain a → Item t [a] [] [a]
  /-- `-abc` -/
  | flags {cs : Bytes} {ss : List Setting} : cs ≠ [] → Letters t cs ss → Item t [45 :: cs] ss []
  /-- `-abofile` -/
  | attached {cs : Bytes} {ss : List Setting} {o : Opt} {c : Byte} {v : Bytes} : Letters t cs ss → o ∈ t → o.short = some c →
      (o.action = .store ∨ o.action = .append) → v ≠ [] → Item t [45 :: (cs ++ c :: v)] (ss ++ [(o.dest, some v)]) []
  /-- `-abo file` -/
  | separate {cs : Bytes} {ss : List Setting} {o : Opt} {c : Byte} {v : Bytes} : Letters t cs ss → o ∈ t → o.short = some c →
      (o.action = .store ∨ o.action = .append) → Item t [45 :: (cs ++ [c]), v] (ss ++ [(o.dest, some v)]) []
  /-- `--gzip` or an abbreviation -/
  | long {s : Bytes} {o : Opt} : [45, 45] <+: s → s ≠ [45, 45] → 61 ∉ s → Names t s o → o.action = .storeTrue → Item t [s] [(o.dest, none)] []
  /-- `--output=file` -/
  | longEq {s : Bytes} {o : Opt} {v : Bytes} : [45, 45] <+: s → 61 ∉ s → Names t s o → (o.action = .store ∨ o.action = .append) →
      Item t [s ++ 61 :: v] [(o.dest, some v)] []
  /-- `--output file` -/
  | longNext {s : Bytes} {o : Opt} {v : Bytes} : [45, 45] <+: s → s ≠ [45, 45] → 61 ∉ s → Names t s o → (o.action = .store ∨ o.action = .append) →
      Item t [s, v] [(o.dest, some v)] []

/-- a sequence of items -/
inductive Items (t : List Opt) : List Bytes → List Setting → List Bytes → Prop
  | nil : Items t [] [] []
  | cons {a as : List Bytes} {ss ss' : List Setting} {ops ops' : List Bytes} : Item t a ss ops → Items t as ss' ops' →
      Items t (a ++ as) (ss ++ ss') (ops ++ ops')

/-- the whole command line: the settings in the order given, and the operands in the order given -/
def Means (t : List Opt) (args : List Bytes) (ss : List Setting) (ops : List Bytes) : Prop :=
  Items t args ss ops ∨
  ∃ items ops' rest, Items t items ss ops' ∧ args = items ++ [45, 45] :: rest ∧ ops = ops' ++ rest

/-- the option with this destination occurs -/
def Given (dest : Bytes) (ss : List Setting) : Prop := ∃ v, (dest, v) ∈ ss

/-- an argument that asks for help: `--help` or an abbreviation, or a cluster `-abh...` -/
inductive AsksHelp (t : List Opt) : Bytes → Prop
  | long {s : Bytes} {o : Opt} : [45, 45] <+: s → s ≠ [45, 45] → 61 ∉ s → Names t s o → o.action = .help → AsksHelp t s
  | short {cs more : Bytes} {ss : List Setting} {o : Opt} {c : Byte} : Letters t cs ss → o ∈ t → o.short = some c → o.action = .help → AsksHelp t (45 :: (cs ++ c :: more))

/-- the first argument that is not an item (or part of one) asks for help -/
def WantsHelp (t : List Opt) (args : List Bytes) : Prop :=
  ∃ items ss ops a rest, Items t items ss ops ∧ AsksHelp t a ∧ args = items ++ a :: rest

/-- what `warcfilter` searches: the first of these options that occurs counts (`-H` is not treated here) -/
def Chooses (ss : List Setting) : Mode → Prop
  | .url => Given (b! "url") ss
  | .type => ¬ Given (b! "url") ss ∧ Given (b! "type") ss
  | .contentType => ¬ Given (b! "url") ss ∧ ¬ Given (b! "type") ss ∧ Given (b! "content_type") ss
  | .date => ¬ Given (b! "url") ss ∧ ¬ Given (b! "type") ss ∧ ¬ Given (b! "content_type") ss ∧ ¬ Given (b! "http_content_type") ss ∧
      Given (b! "warc_date") ss
  | .whole => ¬ Given (b! "url") ss ∧ ¬ Given (b! "type") ss ∧ ¬ Given (b! "content_type") ss ∧ ¬ Given (b! "http_content_type") ss ∧
      ¬ Given (b! "warc_date") ss

/-- a number as it is written on a command line -/
def Number (s : Bytes) (n : Nat) : Prop := s ≠ [] ∧ (∀ d ∈ s, isDigit d = true) ∧ Http.decimalValue s = n

/-- none of the names is an s3 name -/
def NoS3 (names : List Bytes) : Prop := ∀ n ∈ names, ¬ b! "s3:" <+: n

/-- the last value given for an option, or the default -/
def LastValue (dest : Bytes) (ss : List Setting) (default v : Bytes) : Prop :=
  (∃ a b, ss = a ++ (dest, some v) :: b ∧ ¬ Given dest b) ∨ (¬ Given dest ss ∧ v = default)

/-- A table in which every option can be addressed -/
structure Sound (t : List Opt) : Prop where
  nodup : t.Nodup
  dash : ∀ o ∈ t, o.short ≠ some 45
  longs : ∀ o ∈ t, ∀ o' ∈ t, o.long = o'.long → o = o'
  shorts : ∀ o ∈ t, ∀ o' ∈ t, o.short = o'.short → o.short ≠ none → o = o'

/-! ### The manual: the options of each tool -/

/-- One option: how it is written (`-x`, `--word`), whether it has a value, and what it sets. -/
structure Row where
  letter : Option Bytes
  word : Bytes
  hasValue : Bool
  dest : Bytes

/-- warcdump -/
def dumpRows : List Row := [⟨some (b! "-l"), b! "--limit", true, b! "limit"⟩,
  ⟨some (b! "-I"), b! "--input", true, b! "input_format"⟩,
  ⟨some (b! "-L"), b! "--log-level", true, b! "log_level"⟩]

/-- warcindex -/
def indexRows : List Row := [⟨some (b! "-l"), b! "--limit", true, b! "limit"⟩,
  ⟨some (b! "-O"), b! "--output-format", true, b! "output_format"⟩,
  ⟨some (b! "-o"), b! "--output", true, b! "output_format"⟩,
  ⟨some (b! "-L"), b! "--log-level", true, b! "log_level"⟩]

/-- warcvalid -/
def validRows : List Row := [⟨some (b! "-l"), b! "--limit", true, b! "limit"⟩,
  ⟨some (b! "-I"), b! "--input", true, b! "input_format"⟩,
  ⟨some (b! "-L"), b! "--log-level", true, b! "log_level"⟩]

/-- warcextract -/
def extractRows : List Row := [⟨some (b! "-I"), b! "--input", true, b! "input_format"⟩,
  ⟨some (b! "-L"), b! "--log-level", true, b! "log_level"⟩]

/-- warcfilter -/
def filterRows : List Row := [⟨some (b! "-l"), b! "--limit", true, b! "limit"⟩,
  ⟨some (b! "-I"), b! "--input", true, b! "input_format"⟩,
  ⟨some (b! "-i"), b! "--invert", false, b! "invert"⟩,
  ⟨some (b! "-U"), b! "--url", false, b! "url"⟩,
  ⟨some (b! "-T"), b! "--type", false, b! "type"⟩,
  ⟨some (b! "-C"), b! "--content-type", false, b! "content_type"⟩,
  ⟨some (b! "-H"), b! "--http-content-type", false, b! "http_content_type"⟩,
  ⟨some (b! "-D"), b! "--warc-date", false, b! "warc_date"⟩,
  ⟨some (b! "-L"), b! "--log-level", true, b! "log_level"⟩]

/-- warc2warc -/
def copyRows : List Row := [⟨some (b! "-o"), b! "--output", true, b! "output"⟩,
  ⟨some (b! "-l"), b! "--limit", true, b! "limit"⟩,
  ⟨some (b! "-I"), b! "--input", true, b! "input_format"⟩,
  ⟨some (b! "-Z"), b! "--gzip", false, b! "gzip"⟩,
  ⟨some (b! "-D"), b! "--decode_http", false, b! "decode_http"⟩,
  ⟨some (b! "-L"), b! "--log-level", true, b! "log_level"⟩,
  ⟨none, b! "--wget-chunk-fix", false, b! "wget_workaround"⟩]

/-- arc2warc -/
def arcRows : List Row := [⟨some (b! "-o"), b! "--output", true, b! "output"⟩,
  ⟨some (b! "-l"), b! "--limit", true, b! "limit"⟩,
  ⟨some (b! "-Z"), b! "--gzip", false, b! "gzip"⟩,
  ⟨some (b! "-L"), b! "--log-level", true, b! "log_level"⟩,
  ⟨none, b! "--description", true, b! "description"⟩,
  ⟨none, b! "--operator", true, b! "operator"⟩,
  ⟨none, b! "--publisher", true, b! "publisher"⟩,
  ⟨none, b! "--audience", true, b! "audience"⟩,
  ⟨none, b! "--resource", true, b! "resource"⟩,
  ⟨none, b! "--response", true, b! "response"⟩]

/-- warcunpack_ia -/
def unpackRows : List Row := [⟨some (b! "-D"), b! "--default-name", true, b! "default_name"⟩,
  ⟨some (b! "-o"), b! "--output", true, b! "output"⟩,
  ⟨some (b! "-l"), b! "--log", true, b! "log_file"⟩,
  ⟨some (b! "-W"), b! "--wayback_prefix", true, b! "wayback"⟩]

/-- warclinks -/
def linksRows : List Row := [⟨some (b! "-L"), b! "--log-level", true, b! "log_level"⟩]

/-- the parser does with each way of writing the option what the row says -/
def Row.Obeyed (t : List Opt) (r : Row) : Prop :=
  (r.hasValue = true → ∀ v,
    Warc.Cli.parse t [r.word, v] = .ok ([(r.dest, some v)], []) ∧
    Warc.Cli.parse t [r.word ++ b! "=" ++ v] = .ok ([(r.dest, some v)], []) ∧
    ∀ l, r.letter = some l → Warc.Cli.parse t [l, v] = .ok ([(r.dest, some v)], []) ∧
      (v ≠ [] → Warc.Cli.parse t [l ++ v] = .ok ([(r.dest, some v)], []))) ∧
  (r.hasValue = false →
    Warc.Cli.parse t [r.word] = .ok ([(r.dest, none)], []) ∧
    (∀ v, Warc.Cli.parse t [r.word ++ b! "=" ++ v] = .error .error) ∧
    ∀ l, r.letter = some l → Warc.Cli.parse t [l] = .ok ([(r.dest, none)], []))

/-- The transformer that the command `arc2warc` works with: the clock and the hash function of the system, the name of the output file (empty if there
is none), the text of the warcinfo records and the prefixes; the name and the prefixes are `str` objects, as all arguments of a program. -/
def commandCfg (sha1 : Bytes → Bytes) (clock : Nat → DateTime) (output text : Bytes) (resources responses : List Bytes) : Arc2Warc.Cfg where
  sha1 := sha1
  now := clock
  outputFilename := if output = [] then none else some (Warc.Cli.asStr output)
  warcinfoFields := text
  resources := resources.map Warc.Cli.asStr
  responses := responses.map Warc.Cli.asStr

end Warc.Spec.Cli
