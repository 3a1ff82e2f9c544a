import Verif.Model.CliMore
import Verif.Spec.Survey
import Verif.Props.Cli
import Verif.Props.Links
import Verif.Props.Stdin
import Verif.Props.Terminates
import Verif.Props.IndexAny
set_option linter.all false
/-
  C97: the commands warclinks and warcunpack_ia from their arguments on.
-/
namespace Warc
open Rx Stream Spec
open Warc.Cli Warc.Spec.Cli CliLemmas
open Unpack (Text)

/-! ### going through a file -/

/-- a record costs `extract_links_from_warcfh` only the reading of its content -/
theorem linksOfEntry_content (c : Codec) (extract : Option Bytes → Bytes → List Text) (e : Entry) (r : Rec) (he : e.rcd = some r) (run : Links.Run) :
    (∃ w, (World.content ⟨run.strm, r, []⟩ = .hang ∧ Links.linksOfEntry c extract e run = .hang) ∨
      (((∃ x, World.content ⟨run.strm, r, []⟩ = .ok x w) ∨ ∃ x, World.content ⟨run.strm, r, []⟩ = .raise x w) ∧
        Links.linksOfEntry c extract e run = .ok () { run with strm := w.strm })) := by
  simp only [Links.linksOfEntry, he, Links.linksOfRecord, M.bind_apply, M.get_apply]
  cases hx : World.content ⟨run.strm, r, []⟩ with
  | hang => exact ⟨⟨run.strm, r, []⟩, .inl ⟨rfl, rfl⟩⟩
  | raise ex w => exact ⟨w, .inr ⟨.inr ⟨ex, rfl⟩, rfl⟩⟩
  | ok x w =>
    refine ⟨w, .inr ⟨.inl ⟨x, rfl⟩, ?_⟩⟩
    obtain ⟨ctype, body⟩ := x
    simp only
    by_cases ht : r.type = some WT.RESPONSE
    · rw [if_pos ht]
      cases ctype <;> simp only [Option.map_none, Option.map_some, Unpack.startswith] <;> rfl
    · rw [if_neg ht]
      simp only [M.pure_apply, List.append_nil]

/-- how the loop of warclinks ends -/
theorem links_survey (c : Codec) (extract : Option Bytes → Bytes → List Text) (n : Nat) (run : Links.Run) :
    (survey n run.strm = .hangs ∧ Stream.forRecords Links.onStream true (Links.linksOfEntry c extract) n none run = .hang) ∨
    (survey n run.strm = .done ∧ ∃ s, Stream.forRecords Links.onStream true (Links.linksOfEntry c extract) n none run = .ok () { run with strm := s }) ∨
    (∃ e, survey n run.strm = .raised e ∧
      ∃ s, Stream.forRecords Links.onStream true (Links.linksOfEntry c extract) n none run = .raise e { run with strm := s }) := by
  induction n generalizing run with
  | zero => exact .inl ⟨rfl, rfl⟩
  | succ n ih =>
    simp only [survey, Stream.forRecords, M.bind_apply, reduceCtorEq, if_false, Links.onStream]
    cases hr : readRecord true run.strm with
    | hang => exact .inl ⟨rfl, rfl⟩
    | raise e s => exact .inr (.inr ⟨e, rfl, s, rfl⟩)
    | ok e s =>
      simp only
      cases he : e.rcd with
      | none =>
        refine .inr (.inl ⟨rfl, s, ?_⟩)
        simp only [Links.linksOfEntry, he, Option.isNone_none, if_true]
        rfl
      | some r =>
        simp only
        obtain ⟨w, ⟨h1, h2⟩ | ⟨h1, h2⟩⟩ := linksOfEntry_content c extract e r he { run with strm := s }
        · simp only at h1; rw [h1, h2]; exact .inl ⟨rfl, rfl⟩
        · have hih := ih { run with strm := w.strm }
          rcases h1 with ⟨x, h1⟩ | ⟨x, h1⟩ <;> simp only at h1 <;>
            simp only [h1, h2, Option.isNone_some, Bool.false_eq_true, if_false] <;> exact hih

/-- the number of rounds does not matter -/
theorem survey_fuel (n m : Nat) (s : Stream) (hn : s.fh.rest.length < n) (hm : s.fh.rest.length < m) : survey n s = survey m s := by
  induction n generalizing m s with
  | zero => omega
  | succ n ih =>
    obtain ⟨k, rfl⟩ : ∃ k, m = k + 1 := ⟨m - 1, by omega⟩
    simp only [survey]
    cases hq : readRecord true s with
    | hang => rfl
    | raise e s1 => rfl
    | ok e s1 =>
      simp only
      cases hr : e.rcd with
      | none => rfl
      | some r =>
        simp only
        obtain ⟨ha, hlt⟩ := readRecord_uses _ _ _ _ _ hq hr
        have hw := World.fwd_content ⟨s1, r, []⟩
        cases hx : World.content ⟨s1, r, []⟩ with
        | hang => rfl
        | raise e2 w =>
          rw [hx] at hw
          have hle := After.rest hw
          simp only at hle
          exact ih k w.strm (by omega) (by omega)
        | ok u w =>
          rw [hx] at hw
          have hle := After.rest hw
          simp only at hle
          exact ih k w.strm (by omega) (by omega)

theorem survey_mono (n k : Nat) (s : Stream) (h : survey n s ≠ .hangs) : survey (n + k) s = survey n s := by
  induction n generalizing s with
  | zero => exact absurd rfl h
  | succ n ih =>
    rw [show n + 1 + k = (n + k) + 1 by omega]
    simp only [survey] at h ⊢
    cases hq : readRecord true s with
    | hang => rfl
    | raise e s1 => rfl
    | ok e s1 =>
      simp only [hq] at h ⊢
      cases hr : e.rcd with
      | none => rfl
      | some r =>
        simp only [hr] at h ⊢
        cases hx : World.content ⟨s1, r, []⟩ with
        | hang => rfl
        | raise e2 w => simp only [hx] at h ⊢; exact ih w.strm h
        | ok u w => simp only [hx] at h ⊢; exact ih w.strm h

theorem survey_bound (n : Nat) (s : Stream) (h : survey n s ≠ .hangs) : survey (s.fh.rest.length + 2) s = survey n s := by
  rw [← survey_mono n (s.fh.rest.length + 2) s h]
  exact survey_fuel _ _ s (by omega) (by omega)

/-- **C97** Every file can be gone through, or not; there is nothing else, unless it holds a header block on which reading never ends (C09). -/
theorem C97_through_or_not (c : Codec) (fs : FS) (name : Bytes)
    (h : ∀ s, openName c fs .warc none name = .ok s → ¬ StuckData s.fh.data) : GoesThrough c fs name ∨ GivesUp c fs name := by
  cases ho : openName c fs .warc none name with
  | error e => exact .inr (.inl ⟨e, ho⟩)
  | ok s =>
    have key : ∀ n (t : Stream), t.fh.rest.length < n → ¬ StuckData t.fh.data → survey n t ≠ .hangs := by
      intro n
      induction n with
      | zero => intro t ht; omega
      | succ n ih =>
        intro t ht hs
        simp only [survey]
        cases hq : readRecord true t with
        | hang => exact absurd hq (C61_read true t hs)
        | raise e s1 => simp
        | ok e s1 =>
          simp only
          cases hr : e.rcd with
          | none => simp
          | some r =>
            simp only
            obtain ⟨ha, hlt⟩ := readRecord_uses _ _ _ _ _ hq hr
            have hw := World.fwd_content ⟨s1, r, []⟩
            cases hx : World.content ⟨s1, r, []⟩ with
            | hang => exact absurd hx (World.calm_content _)
            | raise e2 w =>
              rw [hx] at hw
              have hle := After.rest hw
              have hd : w.strm.fh.data = t.fh.data := by rw [hw.data, ha.data]
              simp only at hle
              exact ih w.strm (by omega) (by rw [hd]; exact hs)
            | ok u w =>
              rw [hx] at hw
              have hle := After.rest hw
              have hd : w.strm.fh.data = t.fh.data := by rw [hw.data, ha.data]
              simp only at hle
              exact ih w.strm (by omega) (by rw [hd]; exact hs)
    have := key (s.fh.rest.length + 1) s (by omega) (h s ho)
    cases hsv : survey (s.fh.rest.length + 1) s with
    | hangs => exact absurd hsv this
    | done => exact .inl ⟨s, _, ho, hsv⟩
    | raised e => exact .inr (.inr ⟨s, _, e, ho, hsv⟩)

theorem survey_collect (n : Nat) (s : Stream) (gs : List Got) (l : Option Entry) (h : collect true n s = ⟨gs, l, .done⟩) : survey n s = .done := by
  induction n generalizing s gs with
  | zero => simp [collect] at h
  | succ n ih =>
    simp only [collect] at h
    simp only [survey]
    cases hq : readRecord true s with
    | hang => simp [hq] at h
    | raise e s1 => simp [hq] at h
    | ok e s1 =>
      simp only [hq] at h ⊢
      cases hr : e.rcd with
      | none => rfl
      | some r =>
        simp only [hr] at h ⊢
        cases hx : World.content ⟨s1, r, []⟩ with
        | hang => simp [hx] at h
        | raise e2 w => simp [hx] at h
        | ok u w =>
          simp only [hx] at h ⊢
          cases hc : collect true n w.strm with
          | mk gs' l' fin =>
            rw [hc] at h
            simp only [Collected.mk.injEq] at h
            exact ih w.strm gs' (by rw [hc, h.2.1, h.2.2])

/-- **C97** Any file that a reader reads to its end, whatever its bytes and errors, can be gone through; a file that does not exist cannot. -/
theorem C97_readable (c : Codec) (fs : FS) (name : Bytes) :
    (∀ gs, ReadableAt c fs name gs → GoesThrough c fs name) ∧ (fs name = none → GivesUp c fs name) := by
  refine ⟨?_, ?_⟩
  · rintro gs ⟨s, n, l, ho, hcl⟩
    exact ⟨s, n, ho, survey_collect n s gs _ hcl⟩
  · intro h
    exact .inl ⟨.osError, by simp only [openName, h]⟩

/-! ### warclinks -/

theorem linksOfFile_run (line : Text → Bytes) (extract : Option Bytes → Bytes → List Text) (c : Codec) (fs : FS) (name out : Bytes) :
    (GoesThrough c fs name → linksOfFile line extract c fs name out = .ok 0 out) ∧ (GivesUp c fs name → linksOfFile line extract c fs name out = .ok 1 out) := by
  refine ⟨?_, ?_⟩
  · rintro ⟨s, n, ho, hs⟩
    have hb := survey_bound n s (by rw [hs]; simp)
    rw [hs] at hb
    simp only [linksOfFile, ho, Links.extractLinks]
    rcases links_survey c extract (s.fh.rest.length + 2) ⟨s, []⟩ with ⟨h, _⟩ | ⟨_, s', h⟩ | ⟨e, h, _⟩
    · simp only [hb] at h; cases h
    · simp only [h, List.flatMap_nil, List.append_nil]
    · simp only [hb] at h; cases h
  · rintro (⟨e, ho⟩ | ⟨s, n, e, ho, hs⟩)
    · simp only [linksOfFile, ho]
    · have hb := survey_bound n s (by rw [hs]; simp)
      rw [hs] at hb
      simp only [linksOfFile, ho, Links.extractLinks]
      rcases links_survey c extract (s.fh.rest.length + 2) ⟨s, []⟩ with ⟨h, _⟩ | ⟨h, _⟩ | ⟨e', h, s', h'⟩
      · simp only [hb] at h; cases h
      · simp only [hb] at h; cases h
      · simp only [h', List.flatMap_nil, List.append_nil]

theorem linksOfFiles_run (line : Text → Bytes) (extract : Option Bytes → Bytes → List Text) (c : Codec) (fs : FS) (out : Bytes) (bad : Bytes → Bool) :
    ∀ names : List Bytes, (∀ n ∈ names, (bad n = false → GoesThrough c fs n) ∧ (bad n = true → GivesUp c fs n)) →
      linksOfFiles line extract c fs names out = .ok (names.countP bad) out
  | [], _ => rfl
  | n :: names, h => by
    simp only [linksOfFiles, M.bind_apply]
    have ih := linksOfFiles_run line extract c fs out bad names (fun m hm => h m (by simp [hm]))
    obtain ⟨h0, h1⟩ := h n (by simp)
    cases hb : bad n with
    | false =>
      simp only [(linksOfFile_run line extract c fs n out).1 (h0 hb), ih, M.pure_apply, List.countP_cons, hb]
      simp
    | true =>
      simp only [(linksOfFile_run line extract c fs n out).2 (h1 hb), ih, M.pure_apply, List.countP_cons, hb]
      simp [Nat.add_comm]

variable (help : Bytes) (c : Codec) (fs : FS) (acc : S3.Account) (fuel : Nat) (line : Text → Bytes) (extract : Option Bytes → Bytes → List Text)

/-- **C97** `warclinks`, with a log level that exists: no link is printed, whatever the files hold; a file that cannot be opened or read to its end does
not keep the others from being read; the exit status is minus the number of such files modulo 256. -/
theorem C97_warclinks (args : List Bytes) (ss : List Setting) (names : List Bytes) (hm : Means linksOpts args ss names) (hne : names ≠ [])
    (hs3 : NoS3 names) (level : Bytes) (hl : LastValue (b! "log_level") ss (b! "info") level)
    (hlev : level ∈ [b! "debug", b! "info", b! "warning", b! "error", b! "critical"]) (bad : Bytes → Bool)
    (h : ∀ n ∈ names, (bad n = false → GoesThrough c fs n) ∧ (bad n = true → GivesUp c fs n)) (out : Bytes) :
    ∃ status, Cli.warclinks help line extract c fs acc fuel args out = .ok status out ∧ status < 256 ∧
      (status + names.countP bad) % 256 = 0 := by
  have hj := (C94_warclinks args ss names hm level hl).2 hlev
  rw [if_neg hne] at hj
  refine ⟨exitStatus (-((names.countP bad : Nat) : Int)), ?_, ?_, ?_⟩
  · simp only [Cli.warclinks, hj, expand_local acc fuel names hs3, M.bind_apply, linksOfFiles_run line extract c fs out bad names h]
    rfl
  · unfold exitStatus; omega
  · unfold exitStatus; omega

/-- **C97** (defect) The exit status is 0 exactly if the number of files that failed is a multiple of 256: not only if there is none. -/
theorem C97_status_zero (args : List Bytes) (ss : List Setting) (names : List Bytes) (hm : Means linksOpts args ss names) (hne : names ≠ [])
    (hs3 : NoS3 names) (level : Bytes) (hl : LastValue (b! "log_level") ss (b! "info") level)
    (hlev : level ∈ [b! "debug", b! "info", b! "warning", b! "error", b! "critical"]) (bad : Bytes → Bool)
    (h : ∀ n ∈ names, (bad n = false → GoesThrough c fs n) ∧ (bad n = true → GivesUp c fs n)) (out : Bytes) :
    Cli.warclinks help line extract c fs acc fuel args out = .ok 0 out ↔ 256 ∣ names.countP bad := by
  obtain ⟨status, h1, h2, h3⟩ := C97_warclinks help c fs acc fuel line extract args ss names hm hne hs3 level hl hlev bad h out
  rw [h1]
  simp only [Res.ok.injEq, and_true]
  omega

/-- **C97** Command lines that `warclinks` does not carry out: help, errors, no operand, and (defect) a log level that does not exist, which raises KeyError. -/
theorem C97_links_usage (args : List Bytes) (out : Bytes) :
    (WantsHelp linksOpts args → Cli.warclinks help line extract c fs acc fuel args out = .ok 0 (out ++ help)) ∧
    ((¬ ∃ ss ops, Means linksOpts args ss ops) → ¬ WantsHelp linksOpts args → Cli.warclinks help line extract c fs acc fuel args out = .ok 2 out) ∧
    (∀ ss ops level, Means linksOpts args ss ops → LastValue (b! "log_level") ss (b! "info") level →
      level ∉ [b! "debug", b! "info", b! "warning", b! "error", b! "critical"] →
      Cli.warclinks help line extract c fs acc fuel args out = .raise (.generic "KeyError") out) ∧
    (∀ ss level, Means linksOpts args ss [] → LastValue (b! "log_level") ss (b! "info") level →
      level ∈ [b! "debug", b! "info", b! "warning", b! "error", b! "critical"] →
      Cli.warclinks help line extract c fs acc fuel args out = .ok 2 out) := by
  have hsound := C94_tables linksOpts (by simp)
  refine ⟨fun h => ?_, fun h1 h2 => ?_, fun ss ops level hm hl hn => ?_, fun ss level hm hl hn => ?_⟩
  · simp only [Cli.warclinks, linksJob, ((C94_parse linksOpts hsound args).2.1).2 h]; rfl
  · simp only [Cli.warclinks, linksJob, ((C94_parse linksOpts hsound args).2.2).2 ⟨h1, h2⟩]; rfl
  · simp only [Cli.warclinks, (C94_warclinks args ss ops hm level hl).1 hn]; rfl
  · simp only [Cli.warclinks, (C94_warclinks args ss [] hm level hl).2 hn, if_true]; rfl

/-! ### warcunpack_ia -/

variable (env : Unpack.Env) (writable canMake : List Text → Bool) (cwd : Text) (console : M Stdin.Console Unit) (lines : List (Option String)) (seekable : Bool)

/-- the outcome of the attempt to have an output directory: where it is, and which directories are made; `none` if that fails -/
def Spec.Cli.place (env : Unpack.Env) (canMake : List Text → Bool) (output : Bytes) : Option (List Text × List (List Text)) :=
  if output = [] then some (env.cwd, [])
  else
    let at_ := Unpack.resolve env.cwd (argText output)
    if env.ex at_ then some (at_, []) else if canMake at_ then some (at_, [at_]) else none

/-- **C97** `warcunpack_ia name …` on Python 3: the directory given with `-o` is made if it does not exist (OSError if that fails); then the log file is
emptied - the one given with `-l`, or the one in the output directory named after the first archive - and the command ends with TypeError before it has
looked at any archive, or with OSError if the log file cannot be written.  Nothing else changes, and nothing is written to standard output. -/
theorem C97_unpack (args : List Bytes) (ss : List Setting) (name : Bytes) (names : List Bytes) (hm : Means unpackOpts args ss (name :: names))
    (output log : Bytes) (ho : LastValue (b! "output") ss [] output) (hl : LastValue (b! "log_file") ss [] log)
    (hcwd : Unpack.resolve env.cwd cwd = env.cwd) (base : Text) (hbase : '/' ∉ base)
    (hname : argText name = base ∨ ∃ folder, argText name = folder ++ '/' :: base) (w : Effects)
    (logAt : List Text → List Text)
    (hlog : ∀ dir, logAt dir = if log = [] then (base ++ ".index.txt".toList) :: dir else Unpack.resolve env.cwd (argText log)) :
    Cli.warcunpack help c env fuel writable canMake cwd console lines seekable args w =
      match Spec.Cli.place env canMake output with
      | none => .raise .osError w
      | some (dir, made) =>
        if writable (logAt dir) then
          .raise .typeError ⟨w.out, w.made ++ made, fun p => if p = logAt dir then some [] else w.disk p⟩
        else .raise .osError ⟨w.out, w.made ++ made, w.disk⟩ := by
  have hns : '/' ∉ base ++ ".index.txt".toList := by
    rw [List.mem_append]; rintro (h | h)
    · exact hbase h
    · exact absurd h (by decide)
  have hfile : FileName (base ++ ".index.txt".toList) := by
    have hlen : 10 ≤ (base ++ ".index.txt".toList).length := by
      rw [List.length_append]
      have : ".index.txt".toList.length = 10 := by decide
      omega
    refine ⟨?_, hns, ?_, ?_⟩ <;> (intro h; rw [h] at hlen; exact absurd hlen (by decide))
  have hbn : Unpack.basename (argText name) = base := by
    rcases hname with h | ⟨f, h⟩
    · rw [h]; exact Unpack.basename_own hbase
    · rw [h]; exact Unpack.basename_last hbase f
  have hne : ∀ b : Bytes, b ≠ [] → argText b ≠ [] := by
    intro b hb h
    exact hb (List.map_eq_nil_iff.1 h)
  have key : ∀ dir at_, Unpack.resolve env.cwd dir = at_ →
      Unpack.resolve env.cwd (Unpack.logName dir (if log = [] then none else some (argText log)) (argText name)) = logAt at_ := by
    intro dir at_ hd
    rw [hlog]
    by_cases h : log = []
    · rw [if_pos h, if_pos h]
      simp only [Unpack.logName]
      rw [hbn, Unpack.resolve_join _ _ hns, hd, Unpack.walk_good hfile]
    · rw [if_neg h, if_neg h]
      simp only [Unpack.logName, if_neg (hne log h)]
  simp only [Cli.warcunpack, unpackJob, parse_means (C94_tables unpackOpts (by simp)) hm, value_last _ _ _ _ ho, value_last _ _ _ _ hl]
  rw [if_neg (by simp)]
  simp only [M.bind_apply, Cli.outputDir, onDisk, List.map_cons, C69_main, Spec.Cli.place]
  by_cases h0 : output = []
  · simp only [if_pos h0, key cwd env.cwd hcwd, List.append_nil]
    by_cases hw : writable (logAt env.cwd) = true
    · simp only [hw, if_true]
    · simp only [hw, if_false]; rfl
  · simp only [if_neg h0]
    by_cases h1 : env.ex (Unpack.resolve env.cwd (argText output)) = true
    · simp only [h1, if_true, key _ _ rfl, List.append_nil]
      by_cases hw : writable (logAt (Unpack.resolve env.cwd (argText output))) = true
      · simp only [hw, if_true]
      · simp only [hw, if_false]; rfl
    · simp only [h1, if_false]
      by_cases h2 : canMake (Unpack.resolve env.cwd (argText output)) = true
      · simp only [h2, if_true, if_false, key _ _ rfl]
        by_cases hw : writable (logAt (Unpack.resolve env.cwd (argText output))) = true
        · simp [hw]
        · simp [hw]
      · simp only [h2, if_false]; rfl

/-- **C97** `warcunpack_ia` without file names, on Python 3: after the directory has been made, with `-l` the log file is emptied and TypeError is raised
(OSError if it cannot be written); without `-l` the heading of the log goes to standard output, and reading standard input fails as C84 says.  No
file is unpacked. -/
theorem C97_unpack_stdin (args : List Bytes) (ss : List Setting) (hm : Means unpackOpts args ss [])
    (output log : Bytes) (ho : LastValue (b! "output") ss [] output) (hl : LastValue (b! "log_file") ss [] log)
    (skip : M Stdin.Console Unit) (parse : Option Nat → PyStr → M Stdin.Console Entry) (unpack : Entry → M Stdin.Console Unit) (n : Nat) (w : Effects) :
    Cli.warcunpack help c env fuel writable canMake cwd (Stdin.unpackMain skip parse unpack (n + 1)) lines seekable args w =
      match Spec.Cli.place env canMake output with
      | none => .raise .osError w
      | some (_, made) =>
        if log = [] then
          .raise (if seekable = false then .osError else firstLineError lines)
            ⟨w.out ++ b! ">>warc_file\twarc_id\twarc_type\twarc_content_length\twarc_uri_date\twarc_subject_uri\turi_content_type\toutfile\twayback_uri\n",
              w.made ++ made, w.disk⟩
        else if writable (Unpack.resolve env.cwd (argText log)) then
          .raise .typeError ⟨w.out, w.made ++ made, fun p => if p = Unpack.resolve env.cwd (argText log) then some [] else w.disk p⟩
        else .raise .osError ⟨w.out, w.made ++ made, w.disk⟩ := by
  have run : ∀ made, unpackStdin env writable (Stdin.unpackMain skip parse unpack (n + 1)) lines seekable
      ⟨output, log, value (b! "default_name") (b! "crawlerdefault") ss, value (b! "wayback") (b! "http://wayback.archive-it.org/") ss⟩ ⟨w.out, made, w.disk⟩ =
        if log = [] then .raise (if seekable = false then .osError else firstLineError lines) ⟨w.out ++ logHeading, made, w.disk⟩
        else if writable (Unpack.resolve env.cwd (argText log)) then
          .raise .typeError ⟨w.out, made, fun p => if p = Unpack.resolve env.cwd (argText log) then some [] else w.disk p⟩
        else .raise .osError ⟨w.out, made, w.disk⟩ := by
    intro made
    simp only [unpackStdin]
    by_cases h : log = []
    · obtain ⟨-, -, -, t', h1, h2⟩ := C84_stdin skip parse (fun _ => pure ()) (fun _ => pure ()) (fun _ => pure ()) unpack n lines seekable (w.out ++ logHeading)
      simp only [if_pos h, h1, h2]
    · simp only [if_neg h, M.bind_apply, onDisk, Unpack.openWb]
      by_cases hw : writable (Unpack.resolve env.cwd (argText log)) = true
      · simp only [hw, if_true]; rfl
      · simp only [hw, if_false]; rfl
  have fin : ∀ made, (do
      unpackStdin env writable (Stdin.unpackMain skip parse unpack (n + 1)) lines seekable
        ⟨output, log, value (b! "default_name") (b! "crawlerdefault") ss, value (b! "wayback") (b! "http://wayback.archive-it.org/") ss⟩
      pure 0 : M Effects Nat) ⟨w.out, made, w.disk⟩ = if log = [] then .raise (if seekable = false then .osError else firstLineError lines) ⟨w.out ++ logHeading, made, w.disk⟩
        else if writable (Unpack.resolve env.cwd (argText log)) then
          .raise .typeError ⟨w.out, made, fun p => if p = Unpack.resolve env.cwd (argText log) then some [] else w.disk p⟩
        else .raise .osError ⟨w.out, made, w.disk⟩ := by
    intro made
    simp only [M.bind_apply]
    rw [run]
    by_cases h : log = []
    · simp only [if_pos h]
    · simp only [if_neg h]
      by_cases hw : writable (Unpack.resolve env.cwd (argText log)) = true
      · simp only [hw, if_true]
      · simp only [hw, if_false]; rfl
  simp only [Cli.warcunpack, unpackJob, parse_means (C94_tables unpackOpts (by simp)) hm, value_last _ _ _ _ ho, value_last _ _ _ _ hl]
  rw [if_pos (by simp)]
  simp only
  rw [M.bind_apply]
  simp only [Cli.outputDir, Spec.Cli.place]
  by_cases h0 : output = []
  · simp only [if_pos h0, List.append_nil]
    subst h0
    exact fin w.made
  · simp only [if_neg h0]
    by_cases h1 : env.ex (Unpack.resolve env.cwd (argText output)) = true
    · simp only [h1, if_true, List.append_nil]
      exact fin w.made
    · by_cases h2 : canMake (Unpack.resolve env.cwd (argText output)) = true
      · simp only [h1, h2, if_true, if_false]
        exact fin _
      · simp only [h1, h2, if_false]; rfl

/-- **C97** Command lines of `warcunpack_ia` that ask for help or are rejected touch nothing. -/
theorem C97_unpack_usage (args : List Bytes) (w : Effects) :
    (WantsHelp unpackOpts args → Cli.warcunpack help c env fuel writable canMake cwd console lines seekable args w = .ok 0 ⟨w.out ++ help, w.made, w.disk⟩) ∧
    ((¬ ∃ ss ops, Means unpackOpts args ss ops) → ¬ WantsHelp unpackOpts args →
      Cli.warcunpack help c env fuel writable canMake cwd console lines seekable args w = .ok 2 w) := by
  have hsound := C94_tables unpackOpts (by simp)
  refine ⟨fun h => ?_, fun h1 h2 => ?_⟩
  · simp only [Cli.warcunpack, unpackJob, ((C94_parse unpackOpts hsound args).2.1).2 h]; rfl
  · simp only [Cli.warcunpack, unpackJob, ((C94_parse unpackOpts hsound args).2.2).2 ⟨h1, h2⟩]; rfl

/-! ### cases -/

theorem links_plain (names : List Bytes) (h : ∀ n ∈ names, Plain n) : Means linksOpts names [] names := by
  refine .inl ?_
  induction names with
  | nil => exact .nil
  | cons n ns ih => exact .cons (a := [n]) (ss := []) (ops := [n]) (.operand (h n (by simp))) (ih fun m hm => h m (by simp [hm]))

/-- one archive on the disk -/
def Spec.oneArchive : FS := fun n => if n = b! "a.warc" then some unpackDemo else none

theorem demo_through : GoesThrough toy oneArchive (b! "a.warc") := by
  have h : (match openName toy oneArchive .warc none (b! "a.warc") with
    | .ok s => decide (survey 5 s = .done)
    | .error _ => false) = true := by decide +kernel
  cases ho : openName toy oneArchive .warc none (b! "a.warc") with
  | error e => rw [ho] at h; cases h
  | ok s => rw [ho] at h; exact ⟨s, 5, ho, of_decide_eq_true h⟩

/-- one archive that can be read and one that is missing: status 255 -/
example : Cli.warclinks [] (fun _ => []) (fun _ _ => []) toy oneArchive (fun _ => none) 0 [b! "a.warc", b! "b.warc", b! "--log=error"] [] = .ok 255 [] := by
  obtain ⟨st, h1, h2, h3⟩ := C97_warclinks [] toy oneArchive (fun _ => none) 0 (fun _ => []) (fun _ _ => [])
    [b! "a.warc", b! "b.warc", b! "--log=error"] [(b! "log_level", some (b! "error"))] [b! "a.warc", b! "b.warc"]
    (((C94_parse linksOpts (C94_tables _ (by simp)) _).1 _ _).1 (by rfl)) (by simp) (by
      intro n hn
      simp only [List.mem_cons, List.not_mem_nil, or_false] at hn
      rcases hn with rfl | rfl <;> decide) (b! "error") (.inl ⟨[], [], rfl, by rintro ⟨v, hv⟩; cases hv⟩) (by decide) (fun n => n == b! "b.warc") (by
      intro n hn
      simp only [List.mem_cons, List.not_mem_nil, or_false] at hn
      rcases hn with rfl | rfl
      · exact ⟨fun _ => demo_through, fun h => absurd h (by decide)⟩
      · exact ⟨fun h => absurd h (by decide), fun _ => (C97_readable _ _ _).2 rfl⟩) []
  rw [h1]
  have : st = 255 := by
    have h4 : [b! "a.warc", b! "b.warc"].countP (fun n => n == b! "b.warc") = 1 := by decide
    rw [h4] at h3
    omega
  rw [this]

/-- (defect) 256 missing files: status 0 -/
example : Cli.warclinks [] (fun _ => []) (fun _ _ => []) toy (fun _ => none) (fun _ => none) 0 (List.replicate 256 (b! "b.warc")) [] = .ok 0 [] := by
  refine (C97_status_zero [] toy (fun _ => none) (fun _ => none) 0 (fun _ => []) (fun _ _ => []) _ [] (List.replicate 256 (b! "b.warc"))
    (links_plain _ fun n hn => by rw [List.eq_of_mem_replicate hn]; exact .inl (by decide)) (List.ne_nil_of_mem (List.mem_replicate.2 ⟨by decide, rfl⟩))
    (fun n hn => by rw [List.eq_of_mem_replicate hn]; decide) (b! "info")
    (.inr ⟨(by rintro ⟨v, hv⟩; exact absurd hv List.not_mem_nil), rfl⟩) (by decide) (fun _ => true)
    (fun n hn => ⟨(fun h => absurd h (by decide)), fun _ => (C97_readable toy (fun _ => none) n).2 rfl⟩) []).2 ?_
  rw [List.countP_replicate]
  decide

/-- an unknown log level -/
example : Cli.warclinks [] (fun _ => []) (fun _ _ => []) toy oneArchive (fun _ => none) 0 [b! "-Lloud", b! "a.warc"] [] = .raise (.generic "KeyError") [] :=
  (C97_links_usage [] toy oneArchive (fun _ => none) 0 (fun _ => []) (fun _ _ => []) _ []).2.2.1 [(b! "log_level", some (b! "loud"))] [b! "a.warc"] (b! "loud")
    (((C94_parse linksOpts (C94_tables _ (by simp)) _).1 _ _).1 (by rfl)) (.inl ⟨[], [], rfl, by rintro ⟨v, hv⟩; cases hv⟩) (by decide)

/-- `warcunpack_ia -o out a/b.warc` in the directory /w: /w/out is made, /w/out/b.warc.index.txt emptied, TypeError -/
example (w : Effects) : Cli.warcunpack [] toy unpackEnv 5 (fun _ => true) (fun _ => true) ['.'] (pure ()) [] true [b! "-o", b! "out", b! "a/b.warc"] w =
    .raise .typeError ⟨w.out, w.made ++ [["out".toList, ['w']]],
      fun p => if p = ["b.warc.index.txt".toList, "out".toList, ['w']] then some [] else w.disk p⟩ := by
  rw [C97_unpack [] toy 5 unpackEnv (fun _ => true) (fun _ => true) ['.'] (pure ()) [] true _ [(b! "output", some (b! "out"))] (b! "a/b.warc") []
    (((C94_parse unpackOpts (C94_tables _ (by simp)) _).1 _ _).1 (by rfl)) (b! "out") [] (.inl ⟨[], [], rfl, by rintro ⟨v, hv⟩; cases hv⟩)
    (.inr ⟨(by rintro ⟨v, hv⟩; simp at hv), rfl⟩) (by decide) "b.warc".toList (by decide) (.inr ⟨['a'], by decide⟩) w
    (fun dir => "b.warc.index.txt".toList :: dir) (fun dir => by simp)]
  have : Spec.Cli.place unpackEnv (fun _ => true) (b! "out") = some (["out".toList, ['w']], [["out".toList, ['w']]]) := by decide +kernel
  rw [this]
  rfl

/-- `warcunpack_ia < file`: the heading, then TypeError -/
example (w : Effects) : Cli.warcunpack [] toy unpackEnv 5 (fun _ => true) (fun _ => true) ['.']
    (Stdin.unpackMain (pure ()) (fun _ _ => pure ⟨none, none, []⟩) (fun _ => pure ()) 4) [some "WARC/1.0\r\n"] true [] w =
    .raise .typeError ⟨w.out ++ logHeading, w.made ++ [], w.disk⟩ := by
  rw [C97_unpack_stdin [] toy 5 unpackEnv (fun _ => true) (fun _ => true) ['.'] [some "WARC/1.0\r\n"] true _ []
    (((C94_parse unpackOpts (C94_tables _ (by simp)) _).1 _ _).1 (by rfl)) [] [] (.inr ⟨(by rintro ⟨v, hv⟩; simp at hv), rfl⟩)
    (.inr ⟨(by rintro ⟨v, hv⟩; simp at hv), rfl⟩) _ _ _ 3 w]
  rfl

end Warc
