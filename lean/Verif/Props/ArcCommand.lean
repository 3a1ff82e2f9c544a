import Verif.Props.Cli
import Verif.Props.Arc2Warc
set_option linter.all false
/-
  C96: the command arc2warc from its arguments to its output.
-/
namespace Warc
open Rx Stream Spec
open Warc.Cli Warc.Spec.Cli CliLemmas

variable (help : Bytes) (c : Codec) (sha1 : Bytes → Bytes) (clock : Nat → DateTime) (host : Bytes) (acc : S3.Account) (fuel : Nat)

theorem infoText_eq (h d o p a : Bytes) : Arc2Warc.warcinfoFields h d o p a = infoText h d o p a := by
  simp [Arc2Warc.warcinfoFields, infoText, join, CRLF]

theorem asStr_ne (b : Bytes) (h : b ≠ []) : ∃ s, asStr b = .str s ∧ s ≠ "" := by
  refine ⟨_, rfl, ?_⟩
  intro he
  have := congrArg String.toList he
  rw [String.toList_ofList] at this
  cases b with
  | nil => exact h rfl
  | cons x xs => simp at this

/-- the values given for an option that may be repeated -/
theorem values_none (dest : Bytes) (ss : List Setting) (h : ¬ Given dest ss) : values dest ss = [] := by
  rw [values, List.filterMap_eq_nil_iff]
  rintro ⟨d, v⟩ hm
  by_cases hd : d = dest
  · subst hd; exact absurd ⟨v, hm⟩ h
  · simp [hd]

/-- the command, once its arguments are understood -/
theorem arc_run (s : Bytes × FS) (args : List Bytes) (ss : List Setting) (names : List Bytes) (hm : Means arcOpts args ss names) (hne : names ≠ [])
    (hs3 : NoS3 names) (output d o p a : Bytes) (ho : LastValue (b! "output") ss [] output) (hd : LastValue (b! "description") ss [] d)
    (hop : LastValue (b! "operator") ss [] o) (hp : LastValue (b! "publisher") ss [] p) (ha : LastValue (b! "audience") ss [] a)
    (gz : Bool) (hgz : gz = true ↔ Given (b! "gzip") ss ∨ b! ".gz" <:+ output) :
    Cli.arc2warc help c sha1 clock host acc fuel args s =
      match Arc2Warc.main c s.2 (commandCfg sha1 clock output (infoText host d o p a) (Cli.values (b! "resource") ss) (Cli.values (b! "response") ss)) gz names ([], {}) with
      | .ok () t => .ok 0 (if output = [] then (s.1 ++ t.1, s.2) else (s.1, appendTo s.2 output t.1))
      | .raise e t => .raise e (if output = [] then (s.1 ++ t.1, s.2) else (s.1, appendTo s.2 output t.1))
      | .hang => .hang := by
  obtain ⟨g, hj, hg⟩ := C94_arc2warc args ss names hm hne output d o p a ho hd hop hp ha
  have hgg : g = gz := by
    cases g <;> cases gz <;> simp_all
  subst hgg
  have hv : ∀ dest, ss.filterMap (fun s => if s.1 = dest then s.2 else none) = values dest ss := by
    intro dest; simp only [values, beq_iff_eq]
  simp only [Cli.arc2warc, parse_means arc_sound hm, hj, value_last _ _ _ _ ho, overFiles_local _ _ _ _ hs3, arcCfg, infoText_eq, hv]
  rfl

/-- **C96** `arc2warc name …` without `-o`, `--resource` and `--response`: exit status 0, and standard output receives exactly the records that
`Spec.Converts` lists, compressed with `-Z`; the warcinfo records have the text `infoText`, with the values of `--description`, `--operator`,
`--publisher` and `--audience` (the last of each counts); the disk is not touched. -/
theorem C96_stdout (hc : Codec.Laws c) (disk : FS) (out : Bytes) (files : List MixedFile) (hst : ∀ f ∈ files, f.Stored c disk) (hfiles : files ≠ [])
    (hs3 : NoS3 (files.map MixedFile.name)) (args : List Bytes) (ss : List Setting) (hm : Means arcOpts args ss (files.map MixedFile.name))
    (hno : ¬ Given (b! "output") ss) (hnr : ¬ Given (b! "resource") ss) (hnp : ¬ Given (b! "response") ss) (d o p a : Bytes)
    (hd : LastValue (b! "description") ss [] d) (hop : LastValue (b! "operator") ss [] o) (hp : LastValue (b! "publisher") ss [] p)
    (ha : LastValue (b! "audience") ss [] a) (rs : List R) (st : Arc2Warc.St)
    (hcv : ConvertsFiles c (commandCfg sha1 clock [] (infoText host d o p a) [] []) {} files rs st) :
    (¬ Given (b! "gzip") ss → Cli.arc2warc help c sha1 clock host acc fuel args (out, disk) = .ok 0 (out ++ rs.flatMap R.bytes, disk)) ∧
    (Given (b! "gzip") ss → Cli.arc2warc help c sha1 clock host acc fuel args (out, disk) = .ok 0 (out ++ rs.flatMap (fun r => c.enc r.bytes), disk)) := by
  have hne : files.map MixedFile.name ≠ [] := by simpa using hfiles
  have key : ∀ gz : Bool, (gz = true ↔ Given (b! "gzip") ss) →
      Cli.arc2warc help c sha1 clock host acc fuel args (out, disk) = .ok 0 (out ++ written c gz rs, disk) := by
    intro gz hgz
    rw [arc_run help c sha1 clock host acc fuel (out, disk) args ss _ hm hne hs3 [] d o p a (.inr ⟨hno, rfl⟩) hd hop hp ha gz
      (by rw [hgz]; simp)]
    have := C48_converts c hc disk (commandCfg sha1 clock [] (infoText host d o p a) [] []) gz files hst {} st rs hcv []
    simp only [values_none _ _ hnr, values_none _ _ hnp, if_true, List.map_nil, this, List.nil_append]
  exact ⟨fun hg => key false (by simp [hg]), fun hg => key true (by simp [hg])⟩

/-- **C96** A record on which the conversion fails (`Spec.Stops`) ends the command with the exception; what was converted before it is on standard
output, nothing of what comes after it. -/
theorem C96_stops (hc : Codec.Laws c) (disk : FS) (out : Bytes) (files : List MixedFile) (hst : ∀ f ∈ files, f.Stored c disk)
    (f : MixedFile) (hf : f.Stored c disk) (its : List ArcItem) (bad : ArcItem) (more : List ArcItem) (hits : f.items = its ++ bad :: more)
    (rest : List Bytes) (hs3 : NoS3 (files.map MixedFile.name ++ f.name :: rest)) (args : List Bytes) (ss : List Setting)
    (hm : Means arcOpts args ss (files.map MixedFile.name ++ f.name :: rest)) (hno : ¬ Given (b! "output") ss) (d o p a : Bytes)
    (hd : LastValue (b! "description") ss [] d) (hop : LastValue (b! "operator") ss [] o) (hp : LastValue (b! "publisher") ss [] p)
    (ha : LastValue (b! "audience") ss [] a) (g : Arc2Warc.Cfg)
    (hg : g = commandCfg sha1 clock [] (infoText host d o p a) (Cli.values (b! "resource") ss) (Cli.values (b! "response") ss))
    (rs rs' : List R) (st1 st2 : Arc2Warc.St) (hcv : ConvertsFiles c g {} files rs st1) (hcv' : ConvertsAll c g st1 [] its rs' st2)
    (gz : Bool) (hgz : gz = true ↔ Given (b! "gzip") ss) (e : Exc) (o' : Bytes) (hbad : Stops c g gz st2 (namesAfter [] its) bad e o') :
    Cli.arc2warc help c sha1 clock host acc fuel args (out, disk) = .raise e (out ++ (written c gz (rs ++ rs') ++ o'), disk) := by
  subst hg
  rw [arc_run help c sha1 clock host acc fuel (out, disk) args ss _ hm (by simp) hs3 [] d o p a (.inr ⟨hno, rfl⟩) hd hop hp ha gz
    (by rw [hgz]; simp)]
  obtain ⟨st3, h⟩ := C48_stops c hc disk _ gz files hst {} st1 st2 rs rs' hcv f hf its bad more hits hcv' e o' hbad rest []
  simp only [if_true, h, List.nil_append]

/-- **C96** (defect) `--resource` and `--response` cannot be used: with either of them (and without `-o`) the first data record ends the command with
TypeError, when only the warcinfo record and the copy of the filedesc record have been written. -/
theorem C96_prefix_option (hc : Codec.Laws c) (disk : FS) (out : Bytes) (f : MixedFile) (hf : f.Stored c disk)
    (values ns : List Bytes) (version body T : Bytes) (values' : List Bytes) (body' T' : Bytes) (more : List ArcItem)
    (hits : f.items = .filedesc values version ns body T :: .data values' body' T' :: more)
    (url date wdate url' date' wdate' ctype' : Bytes)
    (hurl : firstValue (b! "URL") (ns.zip values) = some url) (hdate : firstValue (b! "Archive-date") (ns.zip values) = some date)
    (hwdate : ArcDate date wdate) (hurl' : firstValue (b! "URL") (ns.zip values') = some url')
    (hdate' : firstValue (b! "Archive-date") (ns.zip values') = some date') (hwdate' : ArcDate date' wdate')
    (hctype' : firstValue (b! "Content-type") (ns.zip values') = some ctype')
    (rest : List Bytes) (hs3 : NoS3 (f.name :: rest)) (args : List Bytes) (ss : List Setting)
    (hm : Means arcOpts args ss (f.name :: rest)) (hno : ¬ Given (b! "output") ss)
    (hgiven : (∃ v, (b! "resource", some v) ∈ ss) ∨ ∃ v, (b! "response", some v) ∈ ss) (hgz : ¬ Given (b! "gzip") ss) (d o p a : Bytes)
    (hd : LastValue (b! "description") ss [] d) (hop : LastValue (b! "operator") ss [] o) (hp : LastValue (b! "publisher") ss [] p)
    (ha : LastValue (b! "audience") ss [] a) :
    Cli.arc2warc help c sha1 clock host acc fuel args (out, disk) = .raise .typeError
      (out ++ ((infoRecord (warcUuid sha1 (url ++ warcDatetimeStr (clock 0))) (warcDatetimeStr (clock 0)) none (infoText host d o p a)).bytes ++
        (filedescRecord (warcUuid sha1 (url ++ warcDatetimeStr (clock 0))) (warcUuid sha1 (url ++ date ++ b! "-meta")) (withoutScheme url) wdate
          (arcLine values ++ ArcItem.preamble version ns ++ body)).bytes), disk) := by
  have hfirst : ∀ dest v, (dest, some v) ∈ ss → ∃ x xs, Cli.values dest ss = x :: xs := by
    intro dest v hv
    cases hh : Cli.values dest ss with
    | cons x xs => exact ⟨x, xs, rfl⟩
    | nil =>
      rw [Cli.values, List.filterMap_eq_nil_iff] at hh
      have := hh _ hv
      simp at this
  have hstop : Stops c (commandCfg sha1 clock [] (infoText host d o p a) (Cli.values (b! "resource") ss) (Cli.values (b! "response") ss)) false
      ⟨some (warcUuid sha1 (url ++ warcDatetimeStr (clock 0))), 1⟩ ns (.data values' body' T') .typeError [] := by
    by_cases hr : ∃ v, (b! "resource", some v) ∈ ss
    · obtain ⟨v, hv⟩ := hr
      obtain ⟨x, xs, hx⟩ := hfirst _ _ hv
      exact .resource values' body' T' url' date' wdate' ctype' _ (xs.map asStr) hurl' hdate' hwdate' hctype' (by rw [hx]; rfl)
    · rcases hgiven with h | ⟨v, hv⟩
      · exact absurd h hr
      · obtain ⟨x, xs, hx⟩ := hfirst _ _ hv
        refine .response values' body' T' url' date' wdate' ctype' _ (xs.map asStr) hurl' hdate' hwdate' hctype' ?_ (by rw [hx]; rfl)
        have hnil : Cli.values (b! "resource") ss = [] := by
          rw [Cli.values, List.filterMap_eq_nil_iff]
          rintro ⟨d, v⟩ hm
          by_cases hd : d = b! "resource"
          · subst hd
            cases v with
            | none => simp
            | some v => exact absurd ⟨v, hm⟩ hr
          · simp [hd]
        simp only [hnil]
        intro q hq
        cases hq
  have := C96_stops help c sha1 clock host acc fuel hc disk out [] (by simp) f hf [.filedesc values version ns body T] (.data values' body' T')
    more hits rest (by simpa using hs3) args ss (by simpa using hm) hno d o p a hd hop hp ha _ rfl [] _ {} _ (.nil _)
    (.cons (.filedesc values version ns body T url date wdate none hurl hdate hwdate ⟨rfl, by simp⟩) (.nil _ _)) false (by simp [hgz]) .typeError []
    hstop
  rw [this]
  simp only [List.nil_append, List.append_nil, written, List.flatMap_cons, List.flatMap_nil, Bool.false_eq_true, if_false]
  rfl

/-- **C96** `arc2warc -o file name …` on files that hold WARC records only: they are appended to the file (which is created if there is none), compressed
if `-Z` is given or the name ends in `.gz`; standard output stays as it is. -/
theorem C96_output (hc : Codec.Laws c) (disk : FS) (out : Bytes) (files : List MixedFile) (hst : ∀ f ∈ files, f.Stored c disk) (hfiles : files ≠ [])
    (hw : ∀ f ∈ files, ∀ it ∈ f.items, ∃ r, it = .warc r) (hs3 : NoS3 (files.map MixedFile.name)) (args : List Bytes) (ss : List Setting)
    (hm : Means arcOpts args ss (files.map MixedFile.name)) (output : Bytes) (ho : LastValue (b! "output") ss [] output) (hne : output ≠ [])
    (d o p a : Bytes) (hd : LastValue (b! "description") ss [] d) (hop : LastValue (b! "operator") ss [] o) (hp : LastValue (b! "publisher") ss [] p)
    (ha : LastValue (b! "audience") ss [] a) (gz : Bool) (hgz : gz = true ↔ Given (b! "gzip") ss ∨ b! ".gz" <:+ output) :
    ∃ disk', Cli.arc2warc help c sha1 clock host acc fuel args (out, disk) = .ok 0 (out, disk') ∧
      disk' output = some ((disk output).getD [] ++
        (files.flatMap MixedFile.items).flatMap (fun it => if gz then c.enc it.bytes else it.bytes)) ∧
      ∀ n, n ≠ output → disk' n = disk n := by
  have hall : ∀ g : Arc2Warc.Cfg, ∀ st names (its : List ArcItem), (∀ it ∈ its, ∃ r, it = .warc r) →
      ∃ rs, ConvertsAll c g st names its rs st ∧ written c gz rs = its.flatMap (fun it => if gz then c.enc it.bytes else it.bytes) := by
    intro g st names its
    induction its generalizing names with
    | nil => intro _; exact ⟨[], .nil _ _, rfl⟩
    | cons it its ih =>
      intro h
      obtain ⟨r, rfl⟩ := h it (by simp)
      obtain ⟨rs, h1, h2⟩ := ih ((ArcItem.warc r).names names) (fun it hit => h it (by simp [hit]))
      refine ⟨[r] ++ rs, .cons (.warc r) h1, ?_⟩
      rw [Arc2Warc.written_append, h2]
      simp only [written, List.flatMap_cons, List.flatMap_nil, List.append_nil]
      rfl
  have hfs : ∀ g : Arc2Warc.Cfg, ∀ st (files : List MixedFile), (∀ f ∈ files, ∀ it ∈ f.items, ∃ r, it = .warc r) →
      ∃ rs, ConvertsFiles c g st files rs st ∧ written c gz rs = (files.flatMap MixedFile.items).flatMap (fun it => if gz then c.enc it.bytes else it.bytes) := by
    intro g st files
    induction files with
    | nil => intro _; exact ⟨[], .nil _, rfl⟩
    | cons f files ih =>
      intro h
      obtain ⟨rs1, h1, h2⟩ := hall g st [] f.items (h f (by simp))
      obtain ⟨rs2, h3, h4⟩ := ih (fun f hf => h f (by simp [hf]))
      refine ⟨rs1 ++ rs2, .cons h1 h3, ?_⟩
      rw [Arc2Warc.written_append, h2, h4, List.flatMap_cons, List.flatMap_append]
  refine ⟨appendTo disk output ((files.flatMap MixedFile.items).flatMap (fun it => if gz then c.enc it.bytes else it.bytes)), ?_, by simp [appendTo],
    fun n hn => by simp [appendTo, hn]⟩
  rw [arc_run help c sha1 clock host acc fuel (out, disk) args ss _ hm (by simpa using hfiles) hs3 output d o p a ho hd hop hp ha gz hgz]
  obtain ⟨rs, h1, h2⟩ := hfs (commandCfg sha1 clock output (infoText host d o p a) (Cli.values (b! "resource") ss) (Cli.values (b! "response") ss)) {} files hw
  have := C48_converts c hc disk _ gz files hst {} {} rs h1 []
  simp only [this, if_neg hne, List.nil_append, h2]

/-- **C96** (defect) `arc2warc -o file name …` on a file that begins with a filedesc record, as ARC files do: TypeError, and the output file holds the
beginning of a warcinfo record, or nothing new if it was to be compressed. -/
theorem C96_output_arc (hc : Codec.Laws c) (disk : FS) (out : Bytes) (f : MixedFile) (hf : f.Stored c disk)
    (values : List Bytes) (version : Bytes) (ns : List Bytes) (body T : Bytes) (more : List ArcItem)
    (hits : f.items = .filedesc values version ns body T :: more) (url date wdate : Bytes)
    (hurl : firstValue (b! "URL") (ns.zip values) = some url)
    (hdate : firstValue (b! "Archive-date") (ns.zip values) = some date) (hwdate : ArcDate date wdate) (rest : List Bytes)
    (hs3 : NoS3 (f.name :: rest)) (args : List Bytes) (ss : List Setting)
    (hm : Means arcOpts args ss (f.name :: rest)) (output : Bytes) (ho : LastValue (b! "output") ss [] output) (hne : output ≠ [])
    (d o p a : Bytes) (hd : LastValue (b! "description") ss [] d) (hop : LastValue (b! "operator") ss [] o) (hp : LastValue (b! "publisher") ss [] p)
    (ha : LastValue (b! "audience") ss [] a) (gz : Bool) (hgz : gz = true ↔ Given (b! "gzip") ss ∨ b! ".gz" <:+ output) :
    ∃ disk', Cli.arc2warc help c sha1 clock host acc fuel args (out, disk) = .raise .typeError (out, disk') ∧
      disk' output = some ((disk output).getD [] ++ (if gz then [] else
          b! "WARC/1.0\r\nWARC-Type: warcinfo\r\nWARC-Record-ID: " ++ warcUuid sha1 (url ++ warcDatetimeStr (clock 0)) ++
          b! "\r\nWARC-Date: " ++ warcDatetimeStr (clock 0) ++ b! "\r\nWARC-Filename: ")) ∧
      ∀ n, n ≠ output → disk' n = disk n := by
  refine ⟨appendTo disk output (if gz then [] else
          b! "WARC/1.0\r\nWARC-Type: warcinfo\r\nWARC-Record-ID: " ++ warcUuid sha1 (url ++ warcDatetimeStr (clock 0)) ++
          b! "\r\nWARC-Date: " ++ warcDatetimeStr (clock 0) ++ b! "\r\nWARC-Filename: "), ?_, by simp only [appendTo, if_true], fun n hn => by simp [appendTo, hn]⟩
  rw [arc_run help c sha1 clock host acc fuel (out, disk) args ss _ hm (by simp) hs3 output d o p a ho hd hop hp ha gz hgz]
  obtain ⟨name, hname, hn0⟩ := asStr_ne output hne
  obtain ⟨st3, h⟩ := C48_stops c hc disk (commandCfg sha1 clock output (infoText host d o p a) (Cli.values (b! "resource") ss) (Cli.values (b! "response") ss)) gz [] (by simp) {} {} {} [] [] (.nil _) f hf [] (.filedesc values version ns body T) more hits
    (.nil _ _) .typeError _ (.filename values version ns body T url date wdate name hurl hdate hwdate (by simp only [commandCfg, if_neg hne, hname]) hn0) rest []
  simp only [written, List.append_nil, List.nil_append, List.map_nil, List.flatMap_nil] at h
  simp only [h, if_neg hne]
  rfl

/-- **C96** Without operands the exit status is 2 and nothing is written, but an output file that was named has been created if there was none. -/
theorem C96_no_operand (disk : FS) (out : Bytes) (args : List Bytes) (ss : List Setting) (hm : Means arcOpts args ss []) (output : Bytes)
    (ho : LastValue (b! "output") ss [] output) :
    (output = [] → Cli.arc2warc help c sha1 clock host acc fuel args (out, disk) = .ok 2 (out, disk)) ∧
    (output ≠ [] → ∃ disk', Cli.arc2warc help c sha1 clock host acc fuel args (out, disk) = .ok 2 (out, disk') ∧
      disk' output = some ((disk output).getD []) ∧ ∀ n, n ≠ output → disk' n = disk n) := by
  have hj : arcJob args = .exit .error := by
    simp only [arcJob, parse_means arc_sound hm]
    rfl
  constructor
  · rintro rfl
    simp only [Cli.arc2warc, parse_means arc_sound hm, hj, value_last _ _ _ _ ho, if_true, List.append_nil]
  · intro hne
    refine ⟨appendTo disk output [], ?_, by simp [appendTo], fun n hn => by simp [appendTo, hn]⟩
    simp only [Cli.arc2warc, parse_means arc_sound hm, hj, value_last _ _ _ _ ho, if_neg hne]

/-- **C96** Help and arguments that are not understood: exit status 0 and 2; nothing else happens. -/
theorem C96_usage (disk : FS) (out : Bytes) (args : List Bytes) :
    (WantsHelp arcOpts args → Cli.arc2warc help c sha1 clock host acc fuel args (out, disk) = .ok 0 (out ++ help, disk)) ∧
    ((¬ ∃ ss ops, Means arcOpts args ss ops) → ¬ WantsHelp arcOpts args →
      Cli.arc2warc help c sha1 clock host acc fuel args (out, disk) = .ok 2 (out, disk)) := by
  constructor
  · intro h
    simp only [Cli.arc2warc, ((C94_parse arcOpts arc_sound args).2.1).2 h]
  · intro h1 h2
    simp only [Cli.arc2warc, ((C94_parse arcOpts arc_sound args).2.2).2 ⟨h1, h2⟩]

/-! ### a case -/

theorem demo2_prefixless : ∃ rs st', ConvertsFiles toy (commandCfg demoCfg.sha1 demoCfg.now [] (infoText (b! "host") (b! "test") [] [] []) [] []) {} [demo2File] rs st' ∧ rs.length = 5 := by
  have hr : ∀ u, NotListed (commandCfg demoCfg.sha1 demoCfg.now [] (infoText (b! "host") (b! "test") [] [] []) [] []).resources u := by intro u p hp; cases hp
  have hs : ∀ u, NotListed (commandCfg demoCfg.sha1 demoCfg.now [] (infoText (b! "host") (b! "test") [] [] []) [] []).responses u := by intro u p hp; cases hp
  refine ⟨_, _, .cons (.cons (.filedesc _ _ _ _ _ _ _ _ none rfl rfl
      ⟨⟨2000, 1, 1, 0, 0, 0, 0, none⟩, by decide, Or.inl ⟨rfl, rfl⟩⟩ ⟨rfl, by decide⟩)
    (.cons (.data _ _ _ _ _ _ _ _ _ _ rfl rfl ⟨⟨2012, 2, 29, 0, 0, 0, 0, none⟩, by decide, Or.inr ⟨rfl, rfl⟩⟩ rfl
      (.other (hr _) (hs _) (by decide)) rfl)
    (.cons (.data _ _ _ _ _ _ _ _ _ _ rfl rfl ⟨⟨2000, 1, 1, 0, 0, 1, 0, none⟩, by decide, Or.inl ⟨rfl, rfl⟩⟩ rfl
      (.http (hr _) (hs _) (by decide) (C48_response toy Spec.demoPage demoPage_ok)) rfl)
    (.cons (.data _ _ _ _ _ _ _ _ _ _ rfl rfl ⟨⟨2000, 1, 1, 0, 0, 2, 0, none⟩, by decide, Or.inl ⟨rfl, rfl⟩⟩ rfl
      (.notHttp (hr _) (hs _) (by decide) (C48_truncated toy Spec.demoShort demoShort_ok rfl 40 (by decide))) rfl)
    (.nil _ _))))) (.nil _), rfl⟩

example (help : Bytes) (acc : S3.Account) : ∃ rs : List R, rs.length = 5 ∧
    Cli.arc2warc help toy demoCfg.sha1 demoCfg.now (b! "host") acc 1 [b! "--desc", b! "test", b! "a.arc", b! "-Z"] ([], demo2FS) =
      .ok 0 (rs.flatMap (fun r => toy.enc r.bytes), demo2FS) := by
  obtain ⟨rs, st, h, hl⟩ := demo2_prefixless
  have hno : ∀ dest : Bytes, dest ≠ b! "description" → dest ≠ b! "gzip" → ¬ Given dest [(b! "description", some (b! "test")), (b! "gzip", none)] := by
    rintro dest h1 h2 ⟨v, hv⟩
    simp only [List.mem_cons, Prod.mk.injEq, List.not_mem_nil, or_false] at hv
    rcases hv with ⟨h, -⟩ | ⟨h, -⟩
    · exact h1 h
    · exact h2 h
  have := (C96_stdout help toy demoCfg.sha1 demoCfg.now (b! "host") acc 1 toy_laws demo2FS [] [demo2File] (by simp [demo2_stored]) (by simp)
    (by intro n hn; simp [demo2File] at hn; subst hn; decide) [b! "--desc", b! "test", b! "a.arc", b! "-Z"]
    [(b! "description", some (b! "test")), (b! "gzip", none)] (((C94_parse arcOpts arc_sound _).1 _ _).1 (by rfl))
    (hno _ (by decide) (by decide)) (hno _ (by decide) (by decide)) (hno _ (by decide) (by decide)) (b! "test") [] [] []
    (.inl ⟨[], _, rfl, by rintro ⟨v, hv⟩; simp at hv⟩) (.inr ⟨hno _ (by decide) (by decide), rfl⟩) (.inr ⟨hno _ (by decide) (by decide), rfl⟩)
    (.inr ⟨hno _ (by decide) (by decide), rfl⟩) rs st h).2 ⟨none, by simp⟩
  exact ⟨rs, hl, by simpa using this⟩

/-- with `--resource`, and with `-o` -/
example (help : Bytes) (acc : S3.Account) : ∃ out disk', 
    Cli.arc2warc help toy demoCfg.sha1 demoCfg.now (b! "host") acc 1 [b! "a.arc", b! "--resource=ftp:"] ([], demo2FS) = .raise .typeError (out, demo2FS) ∧
    Cli.arc2warc help toy demoCfg.sha1 demoCfg.now (b! "host") acc 1 [b! "a.arc", b! "-oout.warc.gz"] ([], demo2FS) = .raise .typeError ([], disk') ∧
    disk' (b! "out.warc.gz") = some [] := by
  have hno : ∀ (x dest : Bytes) (v : Option Bytes), dest ≠ x → ¬ Given dest [(x, v)] := by
    rintro x dest v h1 ⟨w, hv⟩
    simp only [List.mem_cons, Prod.mk.injEq, List.not_mem_nil, or_false] at hv
    exact h1 hv.1
  have hs3 : NoS3 (demo2File.name :: []) := by intro n hn; simp [demo2File] at hn; subst hn; decide
  have h1 := C96_prefix_option help toy demoCfg.sha1 demoCfg.now (b! "host") acc 1 toy_laws demo2FS [] demo2File demo2_stored _ _ _ _ _ _ _ _ _ rfl
    _ _ _ _ _ _ _ rfl rfl ⟨⟨2000, 1, 1, 0, 0, 0, 0, none⟩, by decide, Or.inl ⟨rfl, rfl⟩⟩ rfl rfl
    ⟨⟨2012, 2, 29, 0, 0, 0, 0, none⟩, by decide, Or.inr ⟨rfl, rfl⟩⟩ rfl [] hs3 [b! "a.arc", b! "--resource=ftp:"] [(b! "resource", some (b! "ftp:"))]
    (((C94_parse arcOpts arc_sound _).1 _ _).1 (by rfl)) (hno _ _ _ (by decide)) (.inl ⟨b! "ftp:", by simp⟩) (hno _ _ _ (by decide)) [] [] [] []
    (.inr ⟨hno _ _ _ (by decide), rfl⟩) (.inr ⟨hno _ _ _ (by decide), rfl⟩) (.inr ⟨hno _ _ _ (by decide), rfl⟩) (.inr ⟨hno _ _ _ (by decide), rfl⟩)
  obtain ⟨disk', h2, h3, -⟩ := C96_output_arc help toy demoCfg.sha1 demoCfg.now (b! "host") acc 1 toy_laws demo2FS [] demo2File demo2_stored _ _ _ _ _ _ rfl
    _ _ _ rfl rfl ⟨⟨2000, 1, 1, 0, 0, 0, 0, none⟩, by decide, Or.inl ⟨rfl, rfl⟩⟩ [] hs3 [b! "a.arc", b! "-oout.warc.gz"] [(b! "output", some (b! "out.warc.gz"))]
    (((C94_parse arcOpts arc_sound _).1 _ _).1 (by rfl)) (b! "out.warc.gz") (.inl ⟨[], [], rfl, by rintro ⟨v, hv⟩; simp at hv⟩) (by decide) [] [] [] []
    (.inr ⟨hno _ _ _ (by decide), rfl⟩) (.inr ⟨hno _ _ _ (by decide), rfl⟩) (.inr ⟨hno _ _ _ (by decide), rfl⟩) (.inr ⟨hno _ _ _ (by decide), rfl⟩)
    true (by simp only [true_iff]; exact .inr (by decide))
  exact ⟨_, disk', h1, h2, h3⟩

end Warc
