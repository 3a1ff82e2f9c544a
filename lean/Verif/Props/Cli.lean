import Verif.Proofs.Cli
import Verif.Props.Copy
import Verif.Props.Filter
import Verif.Props.Index
import Verif.Props.Valid
import Verif.Props.Extract
import Verif.Props.Dump
import Verif.Props.S3
import Verif.Proofs.HttpUrl
set_option linter.all false
/-
  C94: what the command lines of the tools mean.
-/
namespace Warc
open Rx Stream Spec
open Warc.Cli Warc.Spec.Cli CliLemmas

/-- **C94** For every table of options that has no doubled names, and every command line: it is accepted exactly if it consists of operands, clusters
of letters and long options (abbreviated at will, as long as that is unambiguous), in any order, and possibly `--` and more operands; then the settings
and the operands are those of the items, in their order.  It leads to the help text exactly if the first argument that is no such item asks for help;
in every other case it is rejected. -/
theorem C94_parse (t : List Opt) (ht : Sound t) (args : List Bytes) :
    (∀ ss ops, Cli.parse t args = .ok (ss, ops) ↔ Means t args ss ops) ∧
    (Cli.parse t args = .error .help ↔ WantsHelp t args) ∧
    (Cli.parse t args = .error .error ↔ (¬ ∃ ss ops, Means t args ss ops) ∧ ¬ WantsHelp t args) := by
  have ho := outcome ht args.length args (Nat.le_refl _)
  change Outcome t args (Cli.parse t args) at ho
  have h1 : ∀ ss ops, Cli.parse t args = .ok (ss, ops) ↔ Means t args ss ops := by
    intro ss ops
    refine ⟨fun h => ?_, parse_means ht⟩
    rw [h] at ho
    cases ho with
    | ok h => exact h
  have h2 : Cli.parse t args = .error .help ↔ WantsHelp t args := by
    refine ⟨fun h => ?_, parse_wantsHelp ht⟩
    rw [h] at ho
    cases ho with
    | help h => exact h
  refine ⟨h1, h2, ?_⟩
  constructor
  · intro h
    refine ⟨?_, fun hw => ?_⟩
    · rintro ⟨ss, ops, hm⟩
      rw [(h1 ss ops).2 hm] at h; cases h
    · rw [h2.2 hw] at h; cases h
  · rintro ⟨hn, hw⟩
    cases hr : Cli.parse t args with
    | ok x => exact absurd ⟨x.1, x.2, (h1 _ _).1 hr⟩ hn
    | error e =>
      cases e with
      | error => rfl
      | help => exact absurd (h2.1 hr) hw

/-- **C94** The tables of the tools are of this kind. -/
theorem C94_tables : ∀ t ∈ [copyOpts, filterOpts, dumpOpts, indexOpts, validOpts, extractOpts, payloadOpts, arcOpts, unpackOpts, linksOpts],
    Sound t := by
  intro t ht
  simp only [List.mem_cons, List.not_mem_nil, or_false] at ht
  rcases ht with rfl | rfl | rfl | rfl | rfl | rfl | rfl | rfl | rfl | rfl <;>
    exact ⟨by decide +kernel, by decide +kernel, by decide +kernel, by decide +kernel⟩

theorem copy_sound : Sound copyOpts := C94_tables _ (by simp)
theorem filter_sound : Sound filterOpts := C94_tables _ (by simp)
theorem dump_sound : Sound dumpOpts := C94_tables _ (by simp)
theorem index_sound : Sound indexOpts := C94_tables _ (by simp)
theorem valid_sound : Sound validOpts := C94_tables _ (by simp)
theorem extract_sound : Sound extractOpts := C94_tables _ (by simp)
theorem payload_sound : Sound payloadOpts := C94_tables _ (by simp)
theorem arc_sound : Sound arcOpts := C94_tables _ (by simp)

theorem expand_local (acc : S3.Account) (fuel : Nat) : ∀ names, NoS3 names → S3.expandFiles acc fuel names = ⟨names, some none⟩
  | [], _ => rfl
  | n :: names, h => by
    have h1 : ¬ startsWith n (b! "s3:") = true := by rw [startsWith_iff']; exact h n (by simp)
    simp only [S3.expandFiles]
    rw [if_neg h1]
    simp only [expand_local acc fuel names (fun n hn => h n (by simp [hn]))]
    rfl

theorem overFiles_local {σ : Type} (acc : S3.Account) (fuel : Nat) (each : List Bytes → M σ Unit) (names : List Bytes) (h : NoS3 names) :
    overFiles acc fuel each names = each names := by
  funext s
  simp only [overFiles, expand_local acc fuel names h]
  change (each names >>= fun _ => pure ()) s = _
  simp only [M.bind_apply]
  cases each names s with
  | ok a t => rfl
  | raise e t => rfl
  | hang => rfl

theorem flagged_iff (dest : Bytes) (ss : List Setting) : flagged dest ss = true ↔ Given dest ss := by
  simp only [flagged, List.any_eq_true, beq_iff_eq, Given]
  constructor
  · rintro ⟨⟨a, b⟩, hm, rfl⟩; exact ⟨b, hm⟩
  · rintro ⟨v, hm⟩; exact ⟨_, hm, rfl⟩

theorem flagged_not (dest : Bytes) (ss : List Setting) (h : ¬ Given dest ss) : flagged dest ss = false := by
  cases hf : flagged dest ss with
  | false => rfl
  | true => exact absurd ((flagged_iff dest ss).1 hf) h

theorem status_ok {σ : Type} (x : M σ Unit) (s t : σ) (h : x s = .ok () t) : (do x; pure 0 : M σ Nat) s = .ok 0 t := by
  simp only [M.bind_apply, h]
  rfl

theorem status_raise {σ : Type} (x : M σ Unit) (s t : σ) (e : Exc) (h : x s = .raise e t) : (do x; pure 0 : M σ Nat) s = .raise e t := by
  simp only [M.bind_apply, h]

variable (help : Bytes) (c : Codec) (fs : FS) (acc : S3.Account) (fuel : Nat)

/-- **C94** `warc2warc` with any options but `-D`, in any order among the file names: the records of the files go to standard output, compressed
exactly if `-Z` was given; the exit status is 0. -/
theorem C94_warc2warc (stdin : Warc2Warc.Opts → M Bytes Unit) (hc : Codec.Laws c) (z : Http.Zlib) (files : List StoredFile) (h : AllStored c fs files)
    (hs3 : NoS3 (files.map StoredFile.name)) (hne : files ≠ []) (args : List Bytes) (ss : List Setting)
    (hm : Means copyOpts args ss (files.map StoredFile.name)) (hD : ¬ Given (b! "decode_http") ss) :
    (¬ Given (b! "gzip") ss → Cli.warc2warc help stdin c z fs acc fuel args [] = .ok 0 (archive (allRecords files))) ∧
    (Given (b! "gzip") ss → Cli.warc2warc help stdin c z fs acc fuel args [] =
      .ok 0 ((allRecords files).flatMap fun r => c.enc r.bytes)) := by
  have hlen : ¬ (files.map StoredFile.name).length < 1 := by
    cases files with
    | nil => exact absurd rfl hne
    | cons f fs => simp
  have hj : copyJob args = .files ⟨flagged (b! "gzip") ss, false, flagged (b! "wget_workaround") ss⟩ (files.map StoredFile.name) := by
    simp only [copyJob, parse_means copy_sound hm, flagged_not _ _ hD]
    rw [if_neg hlen]
  constructor
  · intro hg
    simp only [Cli.warc2warc, hj, command, overFiles_local _ _ _ _ hs3, flagged_not _ _ hg]
    exact status_ok _ _ _ (C46_copies c hc z fs files h)
  · intro hg
    simp only [Cli.warc2warc, hj, command, overFiles_local _ _ _ _ hs3, (flagged_iff _ _).2 hg]
    exact status_ok _ _ _ (C46_compresses c hc z fs files h)

theorem filter_mode (search : Bytes → Bool) (ss : List Setting) (m : Mode) (hm : Chooses ss m) (i : Bool) :
    WarcFilter.filterRecord c search ⟨flagged (b! "url") ss, flagged (b! "type") ss, flagged (b! "content_type") ss,
      flagged (b! "http_content_type") ss, flagged (b! "warc_date") ss, i⟩ = WarcFilter.filterRecord c search (m.opts i) := by
  cases m with
  | url =>
    have h1 := (flagged_iff _ _).2 hm
    simp only [WarcFilter.filterRecord, Mode.opts, h1, if_true]
  | type =>
    have h1 := flagged_not _ _ hm.1
    have h2 := (flagged_iff _ _).2 hm.2
    simp only [WarcFilter.filterRecord, Mode.opts, h1, h2, if_true]
  | contentType =>
    have h1 := flagged_not _ _ hm.1
    have h2 := flagged_not _ _ hm.2.1
    have h3 := (flagged_iff _ _).2 hm.2.2
    simp only [WarcFilter.filterRecord, Mode.opts, h1, h2, h3, if_true]
  | date =>
    have h1 := flagged_not _ _ hm.1
    have h2 := flagged_not _ _ hm.2.1
    have h3 := flagged_not _ _ hm.2.2.1
    have h4 := flagged_not _ _ hm.2.2.2.1
    have h5 := (flagged_iff _ _).2 hm.2.2.2.2
    simp only [WarcFilter.filterRecord, Mode.opts, h1, h2, h3, h4, h5, if_true]
  | whole =>
    have h1 := flagged_not _ _ hm.1
    have h2 := flagged_not _ _ hm.2.1
    have h3 := flagged_not _ _ hm.2.2.1
    have h4 := flagged_not _ _ hm.2.2.2.1
    have h5 := flagged_not _ _ hm.2.2.2.2
    rw [h1, h2, h3, h4, h5]
    rfl

/-- **C94** `warcfilter`: the first operand is the pattern, the others are the files; `-i` inverts, the first of `-U`, `-T`, `-C`, (`-H`,) `-D` tells
what is searched, whatever the order in which they are given. -/
theorem C94_warcfilter (stdin : Bytes × WarcFilter.Opts → M Bytes Unit) (compile : Bytes → Option (Bytes → Bool)) (hc : Codec.Laws c)
    (files : List StoredFile) (h : AllStored c fs files) (hs3 : NoS3 (files.map StoredFile.name)) (hne : files ≠ [])
    (pattern : Bytes) (search : Bytes → Bool) (hp : compile pattern = some search) (args : List Bytes) (ss : List Setting)
    (hm : Means filterOpts args ss (pattern :: files.map StoredFile.name)) (m : Mode) (hch : Chooses ss m)
    (invert : Bool) (hi : invert = true ↔ Given (b! "invert") ss) :
    Cli.warcfilter help stdin compile c fs acc fuel args [] =
      .ok 0 (archive (((allRecords files).filter fun r => m.selects search r != invert).map m.copy)) := by
  have hi' : flagged (b! "invert") ss = invert := by
    cases invert with
    | true => exact (flagged_iff _ _).2 (hi.1 rfl)
    | false => exact flagged_not _ _ (fun hg => by simpa using hi.2 hg)
  have hf : ¬ files.map StoredFile.name = [] := by simpa using hne
  simp only [Cli.warcfilter, filterJob, parse_means filter_sound hm]
  rw [if_neg hf]
  simp only [command, hp, overFiles_local _ _ _ _ hs3]
  refine status_ok _ _ _ ?_
  simp only [WarcFilter.main, filter_mode c search ss m hch, hi']
  exact C45_filter c hc fs files h search m invert

/-- **C94** A pattern that does not compile: an exception, nothing is written. -/
theorem C94_bad_pattern (stdin : Bytes × WarcFilter.Opts → M Bytes Unit) (compile : Bytes → Option (Bytes → Bool)) (pattern : Bytes)
    (names : List Bytes) (hp : compile pattern = none) (args : List Bytes) (ss : List Setting) (hm : Means filterOpts args ss (pattern :: names)) (out : Bytes) :
    Cli.warcfilter help stdin compile c fs acc fuel args out = .raise (.generic "re.error") out := by
  simp only [Cli.warcfilter, filterJob, parse_means filter_sound hm]
  by_cases hf : names = []
  · rw [if_pos hf]; simp only [command, hp]; rfl
  · rw [if_neg hf]; simp only [command, hp]; rfl

/-- **C94** `warcindex` with any options: the index of C44 -/
theorem C94_warcindex (hc : Codec.Laws c) (files : List StoredFile) (h : AllStored c fs files) (hs3 : NoS3 (files.map StoredFile.name))
    (hne : files ≠ []) (args : List Bytes) (ss : List Setting) (hm : Means indexOpts args ss (files.map StoredFile.name)) :
    Cli.warcindex help c fs acc fuel args [] =
      .ok 0 (b! "#WARC filename offset warc-type warc-subject-uri warc-record-id content-type content-length\n" ++
        files.flatMap fun f => indexOf f.name f.compressed f.records) := by
  have hlen : ¬ (files.map StoredFile.name).length < 1 := by
    cases files with
    | nil => exact absurd rfl hne
    | cons f fs => simp
  simp only [Cli.warcindex, indexJob, parse_means index_sound hm]
  rw [if_neg hlen]
  simp only [command, overFiles_local _ _ _ _ hs3]
  exact status_ok _ _ _ (C44_index c hc fs files h)

/-- **C94** `warcdump` with any options: the output of C66 -/
theorem C94_warcdump (stdin : M Bytes Unit) (files : List (Bytes × List Got × Entry)) (h : ∀ f ∈ files, Scans c fs f.1 f.2.1 f.2.2)
    (hs : ∀ f ∈ files, ∀ g ∈ f.2.1, Showable g) (hs3 : NoS3 (files.map Prod.fst)) (hne : files ≠ []) (args : List Bytes) (ss : List Setting)
    (hm : Means dumpOpts args ss (files.map Prod.fst)) :
    Cli.warcdump help stdin c fs acc fuel args [] =
      .ok 0 (files.flatMap fun f => (f.2.1.flatMap fun g => (dumpBlock f.1 g).1) ++ tailNote f.1 f.2.2) := by
  have hlen : ¬ (files.map Prod.fst).length < 1 := by
    cases files with
    | nil => exact absurd rfl hne
    | cons f fs => simp
  simp only [Cli.warcdump, dumpJob, parse_means dump_sound hm]
  rw [if_neg hlen]
  simp only [command, overFiles_local _ _ _ _ hs3]
  exact status_ok _ _ _ (C66_files c fs files h hs)

/-- **C94** `warcvalid` with any options has exit status 0 exactly if all files named can be scanned without exception or error, otherwise 255 (or it
never ends); it writes nothing. -/
theorem C94_warcvalid (names : List Bytes) (hs3 : NoS3 names) (hne : names ≠ []) (args : List Bytes) (ss : List Setting)
    (hm : Means validOpts args ss names) (out : Bytes) :
    (Cli.warcvalid help c fs acc fuel args out = .ok 0 out ↔ ∀ name ∈ names, ∃ s, openName c fs .warc none name = .ok s ∧ ScansClean s) ∧
    (Cli.warcvalid help c fs acc fuel args out = .ok 0 out ∨ Cli.warcvalid help c fs acc fuel args out = .ok 255 out ∨
      Cli.warcvalid help c fs acc fuel args out = .hang) := by
  have hlen : ¬ names.length < 1 := by
    cases names with
    | nil => exact absurd rfl hne
    | cons f fs => simp
  rw [← C43_accepts_iff c fs names]
  simp only [Cli.warcvalid, validJob, parse_means valid_sound hm]
  rw [if_neg hlen]
  simp only [expand_local _ _ _ hs3]
  cases hv : WarcValid.main c fs names with
  | none =>
    refine ⟨⟨fun h => ?_, fun h => ?_⟩, .inr (.inr rfl)⟩
    · exact absurd h (by simp [M.diverge])
    · cases h
  | some k =>
    simp only [and_true]
    by_cases hk : k = 0
    · subst hk; simp
    · rw [if_neg hk]
      refine ⟨⟨fun h => ?_, fun h => ?_⟩, .inr (.inl rfl)⟩
      · simp at h
      · exact absurd (Option.some.inj h) hk

theorem digit_not (s : Bytes) (h : ∀ d ∈ s, isDigit d = true) (b : Byte) (hb : isDigit b = false) : b ∉ s := by
  intro hm
  have := h b hm
  rw [hb] at this
  cases this

theorem intArg_number {s : Bytes} {n : Nat} (h : Number s n) : intArg s = some (n : Int) := by
  have key : s.map (fun b => if 28 ≤ b && b ≤ 31 then 32 else b) = s := by
    rw [List.map_congr_left (g := id), List.map_id]
    intro b hb
    have hd := h.2.1 b hb
    have : ∀ n < 256, isDigit (UInt8.ofNat n) = true → (if 28 ≤ UInt8.ofNat n && UInt8.ofNat n ≤ 31 then 32 else UInt8.ofNat n) = UInt8.ofNat n := by
      decide +kernel
    have h2 := this b.toNat b.toNat_lt
    simp only [UInt8.ofNat_toNat] at h2
    exact h2 hd
  rw [intArg, key, Http.pyInt_digits s h.2.1 h.1, h.2.2]

/-- **C94** `warcextract [options] file offset`: the payload of the record at that offset; without offset, of the first record.  Further operands are
not looked at. -/
theorem C94_warcextract (stdin : M Bytes Unit) (hc : Codec.Laws c) (name : Bytes) (off : Nat) (r : R)
    (h : PlainAt fs name off r ∨ CompressedAt c fs name off r) (args : List Bytes) (ss : List Setting) (ops : List Bytes)
    (hops : (∃ s more, ops = name :: s :: more ∧ Number s off) ∨ (ops = [name] ∧ off = 0)) (hm : Means extractOpts args ss ops) (out : Bytes) :
    Cli.warcextract help stdin c fs args out = .ok 0 (out ++ r.body) := by
  have hmain : WarcExtract.main c fs name off out = .ok () (out ++ r.body) := by
    rcases h with h | h
    · exact C51_extract c fs name off r h out
    · exact C51_extract_gz c hc fs name off r h out
  have hj : extractJob args = .place name (off : Int) none := by
    rcases hops with ⟨s, more, rfl, hn⟩ | ⟨rfl, rfl⟩
    · simp only [extractJob, parse_means extract_sound hm, intArg_number hn]
    · simp only [extractJob, parse_means extract_sound hm]; rfl
  simp only [Cli.warcextract, hj]
  rw [if_pos (by omega), Int.toNat_natCast]
  exact status_ok _ _ _ hmain

/-- **C94** (defect) A negative offset is taken for an option: exit status 2. -/
theorem C94_negative (stdin : M Bytes Unit) (name : Bytes) (hn : Plain name) (d : Byte) (hd : isDigit d = true) (ds : Bytes) (out : Bytes) :
    Cli.warcextract help stdin c fs [name, 45 :: d :: ds] out = .ok 2 out := by
  have h1 : Cli.parse extractOpts [name, 45 :: d :: ds] = .error .error := by
    rw [Cli.parse, parseArgs_plain _ _ hn, parseArgs_short _ _ (by simp) (by
      simp only [List.head?_cons, ne_eq, Option.some.injEq]; rintro rfl; revert hd; decide)]
    have : shortArgs extractOpts (d :: ds) = .error .error := by
      have key : ∀ n < 256, isDigit (UInt8.ofNat n) = true → (extractOpts.find? fun o => o.short == some (UInt8.ofNat n)) = none := by
        decide +kernel
      have h2 := key d.toNat d.toNat_lt
      simp only [UInt8.ofNat_toNat] at h2
      simp only [shortArgs, h2 hd]
    rw [this]
    rfl
  simp only [Cli.warcextract, extractJob, h1]
  rfl

theorem rsplit_last (c : Byte) (a b : Bytes) (h : c ∉ b) : rsplitOnce c (a ++ c :: b) = some (a, b) := by
  have : (a ++ c :: b).reverse = b.reverse ++ c :: a.reverse := by simp
  rw [rsplitOnce, this, Http.splitOnce_append _ _ (by simpa using h)]
  simp

/-- **C94** `warcpayload file:offset` and `warcpayload file:offset,length`, where the name may contain colons: the record at that offset is shown; the
length is not looked at (C51 and C92 say what is shown).  The exit status is 0 if there was no exception. -/
theorem C94_warcpayload (name s : Bytes) (off : Nat) (hs : Number s off) (len : Bytes) (hlen : len = [] ∨ ∃ l k, len = 44 :: l ∧ Number l k)
    (more : List Bytes) (args : List Bytes) (ss : List Setting) (hm : Means payloadOpts args ss ((name ++ 58 :: (s ++ len)) :: more)) (out : Bytes) :
    Cli.warcpayload help c fs args out = match WarcPayload.tool c fs name off out with
      | .ok () out' => .ok 0 out'
      | .raise e out' => .raise e out'
      | .hang => .hang := by
  have h58 : 58 ∉ s ++ len := by
    rw [List.mem_append]
    rintro (h | h)
    · exact digit_not s hs.2.1 58 (by decide) h
    · rcases hlen with rfl | ⟨l, k, rfl, hl⟩
      · simp at h
      · simp only [List.mem_cons] at h
        rcases h with h | h
        · exact absurd h (by decide)
        · exact digit_not l hl.2.1 58 (by decide) h
  have hj : ∃ l, payloadJob args = .place name (off : Int) l := by
    simp only [payloadJob, parse_means payload_sound hm, rsplit_last 58 name _ h58]
    rcases hlen with rfl | ⟨l, k, rfl, hl⟩
    · rw [List.append_nil, Http.splitOnce_none (digit_not s hs.2.1 44 (by decide)), intArg_number hs]
      exact ⟨_, rfl⟩
    · rw [Http.splitOnce_append s l (digit_not s hs.2.1 44 (by decide))]
      simp only [intArg_number hs, intArg_number hl]
      exact ⟨_, rfl⟩
  obtain ⟨l, hj⟩ := hj
  simp only [Cli.warcpayload, hj]
  rw [if_pos (by omega), Int.toNat_natCast]
  simp only [M.bind_apply]
  cases WarcPayload.tool c fs name off out <;> rfl

/-- **C94** (defect) Without operand `warcpayload` raises IndexError, and with an operand that has no colon ValueError, instead of an error message. -/
theorem C94_warcpayload_usage (args : List Bytes) (ss : List Setting) (ops : List Bytes) (hm : Means payloadOpts args ss ops) (out : Bytes) :
    (ops = [] → Cli.warcpayload help c fs args out = .raise .indexError out) ∧
    (∀ a more, ops = a :: more → 58 ∉ a → Cli.warcpayload help c fs args out = .raise .valueError out) := by
  constructor
  · rintro rfl
    simp only [Cli.warcpayload, payloadJob, parse_means payload_sound hm]
    rfl
  · rintro a more rfl h
    have : rsplitOnce 58 a = none := by
      rw [rsplitOnce, Http.splitOnce_none (by simpa using h)]
    simp only [Cli.warcpayload, payloadJob, parse_means payload_sound hm, this]
    rfl

/-- **C94** A command line that is rejected ends with status 2 and writes nothing to standard output, and one that asks for help writes the help
text and ends with status 0; no file is looked at. -/
theorem C94_usage (stdinC : Warc2Warc.Opts → M Bytes Unit) (stdinF : Bytes × WarcFilter.Opts → M Bytes Unit) (stdinD : M Bytes Unit)
    (compile : Bytes → Option (Bytes → Bool)) (z : Http.Zlib) (out : Bytes) (t : List Opt) (run : List Bytes → M Bytes Nat)
    (hrun : (t, run) ∈ [(copyOpts, Cli.warc2warc help stdinC c z fs acc fuel), (filterOpts, Cli.warcfilter help stdinF compile c fs acc fuel),
      (dumpOpts, Cli.warcdump help stdinD c fs acc fuel), (indexOpts, Cli.warcindex help c fs acc fuel), (validOpts, Cli.warcvalid help c fs acc fuel),
      (extractOpts, Cli.warcextract help stdinD c fs), (payloadOpts, Cli.warcpayload help c fs)]) (args : List Bytes) :
    ((¬ ∃ ss ops, Means t args ss ops) → ¬ WantsHelp t args → run args out = .ok 2 out) ∧
    (WantsHelp t args → run args out = .ok 0 (out ++ help)) := by
  have ht : Sound t := by
    refine C94_tables t ?_
    simp only [List.mem_cons, Prod.mk.injEq, List.not_mem_nil, or_false] at hrun ⊢
    rcases hrun with ⟨rfl, _⟩ | ⟨rfl, _⟩ | ⟨rfl, _⟩ | ⟨rfl, _⟩ | ⟨rfl, _⟩ | ⟨rfl, _⟩ | ⟨rfl, _⟩ <;> simp
  obtain ⟨_, h2, h3⟩ := C94_parse t ht args
  refine ⟨fun hn hw => ?_, fun hw => ?_⟩
  · have he := h3.2 ⟨hn, hw⟩
    simp only [List.mem_cons, Prod.mk.injEq, List.not_mem_nil, or_false] at hrun
    rcases hrun with ⟨rfl, rfl⟩ | ⟨rfl, rfl⟩ | ⟨rfl, rfl⟩ | ⟨rfl, rfl⟩ | ⟨rfl, rfl⟩ | ⟨rfl, rfl⟩ | ⟨rfl, rfl⟩
    · simp only [Cli.warc2warc, copyJob, he]; rfl
    · simp only [Cli.warcfilter, filterJob, he]; rfl
    · simp only [Cli.warcdump, dumpJob, he]; rfl
    · simp only [Cli.warcindex, indexJob, he]; rfl
    · simp only [Cli.warcvalid, validJob, he]; rfl
    · simp only [Cli.warcextract, extractJob, he]; rfl
    · simp only [Cli.warcpayload, payloadJob, he]; rfl
  · have he := h2.2 hw
    simp only [List.mem_cons, Prod.mk.injEq, List.not_mem_nil, or_false] at hrun
    rcases hrun with ⟨rfl, rfl⟩ | ⟨rfl, rfl⟩ | ⟨rfl, rfl⟩ | ⟨rfl, rfl⟩ | ⟨rfl, rfl⟩ | ⟨rfl, rfl⟩ | ⟨rfl, rfl⟩
    · simp only [Cli.warc2warc, copyJob, he]; rfl
    · simp only [Cli.warcfilter, filterJob, he]; rfl
    · simp only [Cli.warcdump, dumpJob, he]; rfl
    · simp only [Cli.warcindex, indexJob, he]; rfl
    · simp only [Cli.warcvalid, validJob, he]; rfl
    · simp only [Cli.warcextract, extractJob, he]; rfl
    · simp only [Cli.warcpayload, payloadJob, he]; rfl

/-- **C94** warcfilter without pattern, warcindex and warcvalid without file name: exit status 2, nothing is written. -/
theorem C94_no_operand (stdin : Bytes × WarcFilter.Opts → M Bytes Unit) (compile : Bytes → Option (Bytes → Bool)) (args : List Bytes)
    (ss : List Setting) (out : Bytes) :
    (Means filterOpts args ss [] → Cli.warcfilter help stdin compile c fs acc fuel args out = .ok 2 out) ∧
    (Means indexOpts args ss [] → Cli.warcindex help c fs acc fuel args out = .ok 2 out) ∧
    (Means validOpts args ss [] → Cli.warcvalid help c fs acc fuel args out = .ok 2 out) := by
  refine ⟨fun h => ?_, fun h => ?_, fun h => ?_⟩
  · simp only [Cli.warcfilter, filterJob, parse_means filter_sound h]; rfl
  · simp only [Cli.warcindex, indexJob, parse_means index_sound h]; rfl
  · simp only [Cli.warcvalid, validJob, parse_means valid_sound h]; rfl

theorem row_obeyed {t : List Opt} (ht : Sound t) {o : Opt} (ho : o ∈ t) (r : Row) (hw : r.word = o.long) (hd : r.dest = o.dest)
    (hl : r.letter = o.short.map fun c => [45, c]) (hv : r.hasValue = o.takesValue) (hh : o.action ≠ .help)
    (h1 : [45, 45] <+: o.long) (h2 : o.long ≠ [45, 45]) (h3 : 61 ∉ o.long) : r.Obeyed t := by
  obtain ⟨letter, word, hasValue, dest⟩ := r
  simp only at hw hd hl hv
  subst hw hd hl hv
  have hn : Names t o.long o := ⟨ho, .inl rfl⟩
  have one : ∀ {a ss ops}, Item t a ss ops → Cli.parse t a = .ok (ss, ops) := by
    intro a ss ops h
    have := Items.cons h Items.nil
    simp only [List.append_nil] at this
    exact parse_means ht (.inl this)
  refine ⟨fun htv v => ?_, fun htv => ?_⟩
  · have ha := (takes_iff o).1 htv
    refine ⟨one (.longNext h1 h2 h3 hn ha), ?_, ?_⟩
    · rw [List.append_assoc]; exact one (.longEq h1 h3 hn ha)
    · intro l hl
      simp only [Option.map_eq_some_iff] at hl
      obtain ⟨ch, hc, rfl⟩ := hl
      exact ⟨one (.separate (cs := []) .nil ho hc ha), fun hv => one (.attached (cs := []) .nil ho hc ha hv)⟩
  · simp only at htv
    have ha : o.action = .storeTrue := by
      have : ¬ (o.action = .store ∨ o.action = .append) := by rw [← takes_iff, htv]; simp
      cases hx : o.action <;> simp_all
    refine ⟨one (.long h1 h2 h3 hn ha), ?_, ?_⟩
    · intro v
      have hp : [45, 45] <+: o.long ++ b! "=" ++ v := by
        rw [List.append_assoc]; exact h1.trans (List.prefix_append _ _)
      have hne : o.long ++ b! "=" ++ v ≠ [45, 45] := by
        intro h
        have : (61 : Byte) ∈ ([45, 45] : Bytes) := by rw [← h]; simp
        exact absurd this (by decide)
      rw [Cli.parse, parseArgs_long t _ hp hne]
      have hs : splitOnce 61 (o.long ++ b! "=" ++ v) = some (o.long, v) := by
        rw [List.append_assoc]
        exact Http.splitOnce_append _ _ h3
      simp only [longArg, hs, (matchLong_iff ht _ _).2 hn, htv]
      rfl
    · intro l hl
      simp only [Option.map_eq_some_iff] at hl
      obtain ⟨ch, hc, rfl⟩ := hl
      exact one (.flags (by simp) (.cons ho hc ha .nil))

/-- **C94** The options of each tool are those of the manual, and `-h`/`--help`: with every value, each way to write them sets what the manual says, and
there are no others. -/
theorem C94_options : ∀ x ∈ [(copyOpts, copyRows), (filterOpts, filterRows), (dumpOpts, dumpRows), (indexOpts, indexRows), (validOpts, validRows),
      (extractOpts, extractRows), (payloadOpts, []), (arcOpts, arcRows), (unpackOpts, unpackRows), (linksOpts, linksRows)],
    x.1.length = x.2.length + 1 ∧ (∀ r ∈ x.2, r.Obeyed x.1) ∧ WantsHelp x.1 [b! "-h"] ∧ WantsHelp x.1 [b! "--help"] := by
  have key : ∀ (t : List Opt) (rows : List Row), Sound t →
      (∀ r ∈ rows, ∃ o ∈ t, r.word = o.long ∧ r.dest = o.dest ∧ r.letter = o.short.map (fun c => [45, c]) ∧ r.hasValue = o.takesValue ∧
        o.action ≠ .help ∧ [45, 45] <+: o.long ∧ o.long ≠ [45, 45] ∧ 61 ∉ o.long) → ∀ r ∈ rows, r.Obeyed t := by
    intro t rows ht h r hr
    obtain ⟨o, ho, a1, a2, a3, a4, a5, a6, a7, a8⟩ := h r hr
    exact row_obeyed ht ho r a1 a2 a3 a4 a5 a6 a7 a8
  intro x hx
  simp only [List.mem_cons, List.not_mem_nil, or_false] at hx
  rcases hx with rfl | rfl | rfl | rfl | rfl | rfl | rfl | rfl | rfl | rfl <;>
    exact ⟨by decide, key _ _ (C94_tables _ (by simp)) (by decide +kernel),
      (C94_parse _ (C94_tables _ (by simp)) _).2.1.1 (by rfl), (C94_parse _ (C94_tables _ (by simp)) _).2.1.1 (by rfl)⟩

/-- **C94** Without file names, warc2warc, warcfilter (which has a pattern), warcdump and warcextract work on standard input, with the options given
(C84 says what they do there); the exit status is 0 unless there is an exception. -/
theorem C94_stdin (stdinC : Warc2Warc.Opts → M Bytes Unit) (stdinF : Bytes × WarcFilter.Opts → M Bytes Unit) (stdinD : M Bytes Unit)
    (compile : Bytes → Option (Bytes → Bool)) (z : Http.Zlib) (args : List Bytes) (ss : List Setting) :
    (Means copyOpts args ss [] → ∃ o : Warc2Warc.Opts, (o.gzip = true ↔ Given (b! "gzip") ss) ∧ (o.decode = true ↔ Given (b! "decode_http") ss) ∧
      (o.wgetFix = true ↔ Given (b! "wget_workaround") ss) ∧
      Cli.warc2warc help stdinC c z fs acc fuel args = (do stdinC o; pure 0)) ∧
    (∀ pattern, Means filterOpts args ss [pattern] → compile pattern ≠ none → ∃ o : WarcFilter.Opts,
      (o.url = true ↔ Given (b! "url") ss) ∧ (o.type = true ↔ Given (b! "type") ss) ∧ (o.contentType = true ↔ Given (b! "content_type") ss) ∧
      (o.httpContentType = true ↔ Given (b! "http_content_type") ss) ∧ (o.warcDate = true ↔ Given (b! "warc_date") ss) ∧
      (o.invert = true ↔ Given (b! "invert") ss) ∧
      Cli.warcfilter help stdinF compile c fs acc fuel args = (do stdinF (pattern, o); pure 0)) ∧
    (Means dumpOpts args ss [] → Cli.warcdump help stdinD c fs acc fuel args = (do stdinD; pure 0)) ∧
    (Means extractOpts args ss [] → Cli.warcextract help stdinD c fs args = (do stdinD; pure 0)) := by
  refine ⟨fun h => ?_, fun pattern h hp => ?_, fun h => ?_, fun h => ?_⟩
  · refine ⟨⟨flagged (b! "gzip") ss, flagged (b! "decode_http") ss, flagged (b! "wget_workaround") ss⟩, flagged_iff _ _, flagged_iff _ _, flagged_iff _ _, ?_⟩
    simp only [Cli.warc2warc, copyJob, parse_means copy_sound h]; rfl
  · refine ⟨⟨flagged (b! "url") ss, flagged (b! "type") ss, flagged (b! "content_type") ss, flagged (b! "http_content_type") ss,
      flagged (b! "warc_date") ss, flagged (b! "invert") ss⟩, flagged_iff _ _, flagged_iff _ _, flagged_iff _ _, flagged_iff _ _, flagged_iff _ _, flagged_iff _ _, ?_⟩
    simp only [Cli.warcfilter, filterJob, parse_means filter_sound h, command]
    cases hc : compile pattern with
    | none => exact absurd hc hp
    | some f => simp only [if_true, command, hc]
  · simp only [Cli.warcdump, dumpJob, parse_means dump_sound h]; rfl
  · simp only [Cli.warcextract, extractJob, parse_means extract_sound h]

/-- where a part of the command line with these settings and no operand stands does not matter for the rest -/
theorem parse_middle {t : List Opt} (ht : Sound t) {a b : List Bytes} {ss s1 : List Setting} {ops : List Bytes} (ha : Items t a ss ops)
    (hb : Items t b s1 []) (post : List Bytes) :
    (∃ e, Cli.parse t (a ++ b ++ post) = .error e ∧ Cli.parse t (a ++ post) = .error e) ∨
    ∃ s2 ops2, Cli.parse t (a ++ b ++ post) = .ok (ss ++ s1 ++ s2, ops ++ ops2) ∧ Cli.parse t (a ++ post) = .ok (ss ++ s2, ops ++ ops2) := by
  simp only [Cli.parse]
  rw [List.append_assoc, parse_items ht ha, parse_items ht hb, parse_items ht ha]
  cases parseArgs t none post with
  | error e => exact .inl ⟨e, rfl, rfl⟩
  | ok x => exact .inr ⟨x.1, x.2, by simp [before], by simp [before]⟩

theorem flagged_append (dest : Bytes) (a b : List Setting) : flagged dest (a ++ b) = (flagged dest a || flagged dest b) := by
  simp [flagged]

/-- **C94** (defect) `warc2warc` ignores `-o` (the output still goes to standard output), and likewise `-l`, `-I` and `-L`: such options can be added
to or taken from any place of any command line without any effect. -/
theorem C94_output_ignored (stdin : Warc2Warc.Opts → M Bytes Unit) (z : Http.Zlib) (a b post : List Bytes) (ss s1 : List Setting) (ops : List Bytes)
    (ha : Items copyOpts a ss ops) (hb : Items copyOpts b s1 [])
    (hs : ∀ s ∈ s1, s.1 ∈ [b! "output", b! "limit", b! "input_format", b! "log_level"]) :
    Cli.warc2warc help stdin c z fs acc fuel (a ++ b ++ post) = Cli.warc2warc help stdin c z fs acc fuel (a ++ post) := by
  have hno : ∀ d, d ∉ [b! "output", b! "limit", b! "input_format", b! "log_level"] → flagged d s1 = false := by
    intro d hd
    exact flagged_not _ _ (fun ⟨v, hv⟩ => hd (hs _ hv))
  have hj : copyJob (a ++ b ++ post) = copyJob (a ++ post) := by
    rcases parse_middle copy_sound ha hb post with ⟨e, h1, h2⟩ | ⟨s2, ops2, h1, h2⟩
    · simp only [copyJob, h1, h2]
    · simp only [copyJob, h1, h2, flagged_append, hno (b! "gzip") (by decide), hno (b! "decode_http") (by decide),
        hno (b! "wget_workaround") (by decide), Bool.or_false]
  simp only [Cli.warc2warc, hj]

/-- **C94** `-l`, `-I` and `-L` of the other tools, and `-o` and `-O` of warcindex, are ignored as well. -/
theorem C94_ignored (stdinF : Bytes × WarcFilter.Opts → M Bytes Unit) (stdinD : M Bytes Unit) (compile : Bytes → Option (Bytes → Bool))
    (t : List Opt) (run : List Bytes → M Bytes Nat)
    (hrun : (t, run) ∈ [(filterOpts, Cli.warcfilter help stdinF compile c fs acc fuel),
      (dumpOpts, Cli.warcdump help stdinD c fs acc fuel), (indexOpts, Cli.warcindex help c fs acc fuel), (validOpts, Cli.warcvalid help c fs acc fuel),
      (extractOpts, Cli.warcextract help stdinD c fs)])
    (a b post : List Bytes) (ss s1 : List Setting) (ops : List Bytes) (ha : Items t a ss ops) (hb : Items t b s1 [])
    (hs : ∀ s ∈ s1, s.1 ∈ [b! "limit", b! "input_format", b! "log_level", b! "output_format"]) : run (a ++ b ++ post) = run (a ++ post) := by
  have hno : ∀ d, d ∉ [b! "limit", b! "input_format", b! "log_level", b! "output_format"] → flagged d s1 = false := by
    intro d hd
    exact flagged_not _ _ (fun ⟨v, hv⟩ => hd (hs _ hv))
  simp only [List.mem_cons, Prod.mk.injEq, List.not_mem_nil, or_false] at hrun
  rcases hrun with ⟨rfl, rfl⟩ | ⟨rfl, rfl⟩ | ⟨rfl, rfl⟩ | ⟨rfl, rfl⟩ | ⟨rfl, rfl⟩
  · have hj : filterJob (a ++ b ++ post) = filterJob (a ++ post) := by
      rcases parse_middle filter_sound ha hb post with ⟨e, h1, h2⟩ | ⟨s2, ops2, h1, h2⟩
      · simp only [filterJob, h1, h2]
      · simp only [filterJob, h1, h2]
        cases ops ++ ops2 with
        | nil => rfl
        | cons p names => simp only [flagged_append, hno (b! "url") (by decide), hno (b! "type") (by decide), hno (b! "content_type") (by decide),
          hno (b! "http_content_type") (by decide), hno (b! "warc_date") (by decide), hno (b! "invert") (by decide), Bool.or_false]
    simp only [Cli.warcfilter, hj]
  · have hj : dumpJob (a ++ b ++ post) = dumpJob (a ++ post) := by
      rcases parse_middle dump_sound ha hb post with ⟨e, h1, h2⟩ | ⟨s2, ops2, h1, h2⟩ <;> simp only [dumpJob, h1, h2]
    simp only [Cli.warcdump, hj]
  · have hj : indexJob (a ++ b ++ post) = indexJob (a ++ post) := by
      rcases parse_middle index_sound ha hb post with ⟨e, h1, h2⟩ | ⟨s2, ops2, h1, h2⟩ <;> simp only [indexJob, h1, h2]
    simp only [Cli.warcindex, hj]
  · have hj : validJob (a ++ b ++ post) = validJob (a ++ post) := by
      rcases parse_middle valid_sound ha hb post with ⟨e, h1, h2⟩ | ⟨s2, ops2, h1, h2⟩ <;> simp only [validJob, h1, h2]
    simp only [Cli.warcvalid, hj]
  · have hj : extractJob (a ++ b ++ post) = extractJob (a ++ post) := by
      rcases parse_middle extract_sound ha hb post with ⟨e, h1, h2⟩ | ⟨s2, ops2, h1, h2⟩
      · simp only [extractJob, h1, h2]
      · simp only [extractJob, h1, h2]
        match ops ++ ops2 with
        | [] => rfl
        | [_] => rfl
        | _ :: _ :: _ => rfl
    simp only [Cli.warcextract, hj]

theorem value_last (dest default v : Bytes) (ss : List Setting) (h : LastValue dest ss default v) : value dest default ss = v := by
  unfold value
  rcases h with ⟨a, b, rfl, hb⟩ | ⟨hn, rfl⟩
  · have : (a ++ (dest, some v) :: b).reverse = b.reverse ++ (dest, some v) :: a.reverse := by simp
    rw [this, List.find?_append]
    have hnone : b.reverse.find? (fun s => s.1 == dest) = none := by
      rw [List.find?_eq_none]
      rintro ⟨x, y⟩ hx
      simp only [List.mem_reverse] at hx
      simp only [beq_iff_eq]
      rintro rfl
      exact hb ⟨y, hx⟩
    rw [hnone]
    simp
  · have hnone : ss.reverse.find? (fun s => s.1 == dest) = none := by
      rw [List.find?_eq_none]
      rintro ⟨x, y⟩ hx
      simp only [List.mem_reverse] at hx
      simp only [beq_iff_eq]
      rintro rfl
      exact hn ⟨y, hx⟩
    rw [hnone]

/-- **C94** What a command line of `arc2warc` asks for: the last `-o`, `--description`, `--operator`, `--publisher` and `--audience` count, of
`--resource` and `--response` all, in their order; the output is compressed if `-Z` is given or the output name ends in `.gz`. -/
theorem C94_arc2warc (args : List Bytes) (ss : List Setting) (names : List Bytes) (hm : Means arcOpts args ss names) (hne : names ≠ [])
    (output description operator publisher audience : Bytes) (ho : LastValue (b! "output") ss [] output)
    (hd : LastValue (b! "description") ss [] description) (hop : LastValue (b! "operator") ss [] operator)
    (hp : LastValue (b! "publisher") ss [] publisher) (ha : LastValue (b! "audience") ss [] audience) :
    ∃ gzip, arcJob args = .files ⟨output, gzip, description, operator, publisher, audience,
        ss.filterMap (fun s => if s.1 = b! "resource" then s.2 else none), ss.filterMap (fun s => if s.1 = b! "response" then s.2 else none)⟩ names ∧
      (gzip = true ↔ Given (b! "gzip") ss ∨ b! ".gz" <:+ output) := by
  have hlen : ¬ names.length < 1 := by
    cases names with
    | nil => exact absurd rfl hne
    | cons f fs => simp
  refine ⟨flagged (b! "gzip") ss || endsWith output (b! ".gz"), ?_, ?_⟩
  · simp only [arcJob, parse_means arc_sound hm, value_last _ _ _ _ ho, value_last _ _ _ _ hd, value_last _ _ _ _ hop, value_last _ _ _ _ hp,
      value_last _ _ _ _ ha]
    rw [if_neg hlen]
    simp only [values, beq_iff_eq]
  · rw [Bool.or_eq_true, flagged_iff]
    simp [endsWith, List.isSuffixOf_iff_suffix]

/-- **C94** What a command line of `warcunpack_ia` asks for: the last `-o`, `-l`, `-D` and `-W` count. -/
theorem C94_warcunpack (args : List Bytes) (ss : List Setting) (names : List Bytes) (hm : Means unpackOpts args ss names) (hne : names ≠ [])
    (output log default wayback : Bytes) (ho : LastValue (b! "output") ss [] output) (hl : LastValue (b! "log_file") ss [] log)
    (hd : LastValue (b! "default_name") ss (b! "crawlerdefault") default)
    (hw : LastValue (b! "wayback") ss (b! "http://wayback.archive-it.org/") wayback) :
    unpackJob args = .files ⟨output, log, default, wayback⟩ names := by
  have hlen : ¬ names.length < 1 := by
    cases names with
    | nil => exact absurd rfl hne
    | cons f fs => simp
  simp only [unpackJob, parse_means (C94_tables unpackOpts (by simp)) hm, value_last _ _ _ _ ho, value_last _ _ _ _ hd, value_last _ _ _ _ hl, value_last _ _ _ _ hw]
  rw [if_neg hlen]

/-- **C94** `warclinks` raises KeyError for a log level other than debug, info, warning, error, critical (the last one given counts), before it looks
at anything else; otherwise it needs at least one file name. -/
theorem C94_warclinks (args : List Bytes) (ss : List Setting) (names : List Bytes) (hm : Means linksOpts args ss names) (level : Bytes)
    (hl : LastValue (b! "log_level") ss (b! "info") level) :
    (level ∉ [b! "debug", b! "info", b! "warning", b! "error", b! "critical"] → linksJob args = none) ∧
    (level ∈ [b! "debug", b! "info", b! "warning", b! "error", b! "critical"] →
      linksJob args = some (if names = [] then .exit .error else .files () names)) := by
  simp only [linksJob, parse_means (C94_tables linksOpts (by simp)) hm, value_last _ _ _ _ hl]
  refine ⟨fun h => if_neg h, fun h => ?_⟩
  rw [if_pos (show level ∈ levels from h)]
  cases names with
  | nil => rfl
  | cons n ns => rfl

/-! ### examples -/

example : unpackJob [b! "-Dx", b! "-o", b! "a", b! "f.arc", b! "--out=b"] = .files ⟨b! "b", [], b! "x", b! "http://wayback.archive-it.org/"⟩ [b! "f.arc"] :=
  C94_warcunpack _ [(b! "default_name", some (b! "x")), (b! "output", some (b! "a")), (b! "output", some (b! "b"))] [b! "f.arc"]
    (((C94_parse unpackOpts (C94_tables _ (by simp)) _).1 _ _).1 (by rfl)) (by decide) (b! "b") [] (b! "x") (b! "http://wayback.archive-it.org/")
    (.inl ⟨[_, _], [], rfl, by rintro ⟨v, hv⟩; simp at hv⟩) (.inr ⟨by rintro ⟨v, hv⟩; simp at hv, rfl⟩)
    (.inl ⟨[], _, rfl, by rintro ⟨v, hv⟩; simp at hv⟩) (.inr ⟨by rintro ⟨v, hv⟩; simp at hv, rfl⟩)


/-- `warc2warc -Zo out a.warc --inp=x --log info -- b.warc.gz` -/
example : Means copyOpts [b! "-Zo", b! "out", b! "a.warc", b! "--inp=x", b! "--log", b! "info", b! "--", b! "b.warc.gz"]
    [(b! "gzip", none), (b! "output", some (b! "out")), (b! "input_format", some (b! "x")), (b! "log_level", some (b! "info"))]
    [b! "a.warc", b! "b.warc.gz"] :=
  ((C94_parse copyOpts copy_sound _).1 _ _).1 (by rfl)

example (z : Http.Zlib) : Cli.warc2warc [] (fun _ => pure ()) toy z demoFS (fun _ => none) 0
    [b! "-Zo", b! "out", b! "a.warc", b! "--inp=x", b! "--log", b! "info", b! "--", b! "b.warc.gz"] [] =
      .ok 0 ((allRecords [⟨b! "a.warc", false, demoRT⟩, ⟨b! "b.warc.gz", true, demoRT⟩]).flatMap fun r => toy.enc r.bytes) :=
  (C94_warc2warc [] toy demoFS (fun _ => none) 0 (fun _ => pure ()) toy_laws z [⟨b! "a.warc", false, demoRT⟩, ⟨b! "b.warc.gz", true, demoRT⟩]
    (by
      intro f hf
      simp only [List.mem_cons, List.not_mem_nil, or_false] at hf
      rcases hf with rfl | rfl
      · exact demo_plain
      · exact demo_gz)
    (by unfold NoS3; decide) (by decide) _ _ (((C94_parse copyOpts copy_sound _).1 _ _).1 (by rfl))
    (by
      rintro ⟨v, hv⟩
      simp at hv)).2 ⟨none, by simp⟩

example : Cli.warcextract [] (pure ()) toy demoFS [b! "-Iwarc", b! "a.warc", b! "000"] [] = .ok 0 demo1.R.body :=
  C94_warcextract [] toy demoFS (pure ()) toy_laws (b! "a.warc") 0 demo1.R
    (.inl ⟨item_R_ok _ demo1_ok, by decide, [], CRLF ++ CRLF ++ demo2.R.bytes, by
      simp [demoFS, archiveT, demoRT, R.bytes, R.core, recordBytes], rfl, by decide +kernel⟩) _ _ _
    (.inl ⟨b! "000", [], rfl, by decide, by decide, by decide⟩) (((C94_parse extractOpts extract_sound _).1 _ _).1 (by rfl)) []

example : WantsHelp filterOpts [b! "-iU", b! "x", b! "--he", b! "--nonsense"] := (C94_parse filterOpts filter_sound _).2.1.1 (by rfl)

example : Means payloadOpts [b! "http:a.warc:12,5"] [] [b! "http:a.warc" ++ 58 :: (b! "12" ++ b! ",5")] :=
  ((C94_parse payloadOpts payload_sound _).1 _ _).1 (by rfl)

example : Number (b! "12") 12 := ⟨by decide, by decide, by decide⟩

example : ∃ gzip, arcJob [b! "-oout.gz", b! "--resource", b! "a", b! "--resource=b", b! "f.arc"] = .files ⟨b! "out.gz", gzip, [], [], [], [], [b! "a", b! "b"], []⟩
    [b! "f.arc"] ∧ (gzip = true ↔ Given (b! "gzip") [(b! "output", some (b! "out.gz")), (b! "resource", some (b! "a")), (b! "resource", some (b! "b"))] ∨
      b! ".gz" <:+ b! "out.gz") :=
  C94_arc2warc _ [(b! "output", some (b! "out.gz")), (b! "resource", some (b! "a")), (b! "resource", some (b! "b"))] [b! "f.arc"]
    (((C94_parse arcOpts arc_sound _).1 _ _).1 (by rfl)) (by decide) (b! "out.gz") [] [] [] []
    (.inl ⟨[], _, rfl, by rintro ⟨v, hv⟩; simp at hv⟩) (.inr ⟨by rintro ⟨v, hv⟩; simp at hv, rfl⟩) (.inr ⟨by rintro ⟨v, hv⟩; simp at hv, rfl⟩)
    (.inr ⟨by rintro ⟨v, hv⟩; simp at hv, rfl⟩) (.inr ⟨by rintro ⟨v, hv⟩; simp at hv, rfl⟩)

end Warc
