import Verif.Proofs.ArcMore
import Verif.Proofs.Open
import Verif.Proofs.Lines
import Verif.Spec.Toy
/-
  C27, C28, C29, C30: ARC files and files that mix ARC and WARC records.
-/
set_option linter.all false
namespace Warc
open Rx Stream Spec

/-- an ARC file starts with a filedesc record -/
theorem arc_start (its : List ArcItem) (h : ArcItem.AllOk false [] its) :
    its.flatMap ArcItem.bytes = [] ∨ ∃ t, its.flatMap ArcItem.bytes = b! "filedesc:" ++ t := by
  cases its with
  | nil => exact Or.inl rfl
  | cons it its =>
    right
    obtain ⟨h1, _⟩ := h
    cases it with
    | data v b T => exact absurd rfl h1.1.1
    | warc r => exact absurd h1.1 (by simp)
    | filedesc v ver ns b T =>
      obtain ⟨t, ht⟩ := h1.2.2.1
      refine ⟨t ++ (ArcItem.preamble ver ns ++ b ++ T ++ its.flatMap ArcItem.bytes), ?_⟩
      simp only [List.flatMap_cons, ArcItem.bytes]
      rw [← List.append_assoc (b! "filedesc:"), ht]
      simp

/-! ### C27 -/

/-- **C27** Reading an ARC file (any number of filedesc records, each followed by any number of data
records laid out by its field names) with `ArcRecord.open_archive` yields exactly these records: pairs
(field name, value) in order, no errors, the declared bytes as content, and exact offsets; then a final
entry without record or errors. -/
theorem C27_round_trip (c : Codec) (its : List ArcItem) (h : ArcItem.AllOk false [] its)
    (gz : GzMode) (hgz : gz = .auto ∨ gz = .off) (fuel : Nat) (hfuel : its.length < fuel) :
    ∃ s, openArchive c (some .arc) false gz none (its.flatMap ArcItem.bytes) = .ok s ∧
      collect true fuel s =
        ⟨ArcItem.allGot some 0 [] its, some ⟨some (its.flatMap ArcItem.bytes).length, none, []⟩, .done⟩ := by
  refine ⟨⟨File.openFile (its.flatMap ArcItem.bytes), none, .plain, .arc ArcSt.init⟩, ?_, ?_⟩
  · apply openArchive_plain c (some .arc) .arc gz _ hgz (Or.inl rfl)
    rcases arc_start its h with h | ⟨t, h⟩ <;> rw [h] <;> simp
  · rw [collect_arc true fuel ⟨File.openFile (its.flatMap ArcItem.bytes), none, .plain, .arc ArcSt.init⟩ its ArcSt.init
      (by simp) rfl rfl rfl h (by simp [File.openFile, File.rest]) hfuel]
    have hrep : reported .plain true = some := by funext p; rfl
    simp [hrep, File.openFile, ArcSt.init]

/-- **C27** The same with format guessing, when the first record is named by a `filedesc://` URL (whose
line does not contain `WARC/`, see C23). -/
theorem C27_round_trip_guess (c : Codec) (its : List ArcItem) (h : ArcItem.AllOk false [] its)
    (name more : Bytes) (hname : 10 ∉ name) (htag : afterTag (b! "filedesc://" ++ name ++ [10]) = none)
    (hfile : its.flatMap ArcItem.bytes = b! "filedesc://" ++ name ++ [10] ++ more)
    (fuel : Nat) (hfuel : its.length < fuel) :
    ∃ s, openArchive c none false .auto none (its.flatMap ArcItem.bytes) = .ok s ∧
      collect true fuel s =
        ⟨ArcItem.allGot some 0 [] its, some ⟨some (its.flatMap ArcItem.bytes).length, none, []⟩, .done⟩ := by
  obtain ⟨s, h1, h2⟩ := C27_round_trip c its h .auto (Or.inl rfl) fuel hfuel
  refine ⟨s, ?_, h2⟩
  rw [← h1]
  have hne : (its.flatMap ArcItem.bytes).take 2 ≠ [0x1f, 0x8b] := by rw [hfile]; simp
  rw [openArchive_plain c (some .arc) .arc .auto _ (Or.inl rfl) (Or.inl rfl) hne]
  apply openArchive_plain c none .arc .auto _ (Or.inl rfl) _ hne
  refine Or.inr ⟨rfl, ?_⟩
  have hfl : File.firstLine (b! "filedesc://" ++ name ++ [10] ++ more) = b! "filedesc://" ++ name ++ [10] := by
    rw [show b! "filedesc://" ++ name ++ [10] ++ more = (b! "filedesc://" ++ name) ++ 10 :: more by simp,
      File.firstLine_append _ _ (by simp [hname])]
  rw [hfile, hfl]
  have hv : rxTest versionRx (b! "filedesc://" ++ name ++ [10]) = false := by
    have hl : LineLike (b! "filedesc://" ++ name ++ [10]) := by
      rw [← hfl]; exact firstLine_lineLike _
    have := vspec_number hl
    rw [versionNumber, htag] at this
    have h2 : rxTest versionRx (b! "filedesc://" ++ name ++ [10]) = (vspec (b! "filedesc://" ++ name ++ [10])).isSome := by
      simp [rxTest, pmatch_versionRx]
    rw [h2]
    cases hh : vspec (b! "filedesc://" ++ name ++ [10]) with
    | none => rfl
    | some x =>
      rw [hh] at this
      simp at this
  unfold Detect.classify
  rw [hv]
  have hb : rxTest Detect.blankRx (b! "filedesc://" ++ name ++ [10]) = false := by
    simp [rxTest, Detect.blankRx, pmatch, seqs, m]
  have hfd : rxTest Detect.filedescRx (b! "filedesc://" ++ name ++ [10]) = true := by
    simp [rxTest, Detect.filedescRx, pmatch, seqs, m, str, lit]
  rw [hb, hfd]; rfl

/-- **C27** The same for a compressed ARC file, however its bytes are distributed over gzip members;
offsets are not reported then. -/
theorem C27_round_trip_gzip (c : Codec) (hc : Codec.Laws c) (its : List ArcItem) (h : ArcItem.AllOk false [] its)
    (members : List Bytes) (hm : members ≠ []) (hflat : members.flatten = its.flatMap ArcItem.bytes)
    (fuel : Nat) (hfuel : its.length < fuel) :
    ∃ s, openArchive c (some .arc) true .auto none (members.flatMap c.enc) = .ok s ∧
      collect true fuel s =
        ⟨ArcItem.allGot (fun _ => none) 0 [] its, some ⟨none, none, []⟩, .done⟩ := by
  have hdec := hc.members members
  refine ⟨⟨gzipFileOf c (File.openFile (members.flatMap c.enc)), none, .gzipRecord, .arc ArcSt.init⟩, ?_, ?_⟩
  · apply openArchive_gzip c (some .arc) .arc true .auto _ (Or.inl rfl) (Or.inl rfl)
    · cases members with
      | nil => exact absurd rfl hm
      | cons b bs =>
        obtain ⟨t, ht⟩ := hc.magic b
        rw [List.flatMap_cons, ht]; rfl
    · rw [hdec]; exact Or.inl rfl
  · have hrest : (File.openFile (members.flatMap c.enc)).rest = members.flatMap c.enc := by simp [File.openFile, File.rest]
    rw [collect_arc true fuel ⟨gzipFileOf c (File.openFile (members.flatMap c.enc)), none, .gzipRecord, .arc ArcSt.init⟩ its ArcSt.init
      (by simp) rfl (by simp [gzipFileOf, hrest, hdec]) rfl h
      (by show List.drop 0 (c.dec (File.openFile (members.flatMap c.enc)).rest).1 = _; rw [hrest, hdec, List.drop_zero]; exact hflat) hfuel]
    have hrep : reported .gzipRecord true = fun _ => none := by funext p; rfl
    simp [hrep, gzipFileOf, ArcSt.init]

/-! #### a concrete ARC file -/

/-- field names of version 1 ARC files -/
def Spec.v1Names : List Bytes :=
  [b! "URL", b! "IP-address", b! "Archive-date", b! "Content-type", b! "Archive-length"]

/-- filedesc record with a body that looks like a record, a page with a blank in its URL, an empty page -/
def Spec.demoArc : List ArcItem :=
  [.filedesc [b! "filedesc://a.arc", b! "0.0.0.0", b! "20000101000000", b! "text/plain", b! "74"] (b! "1 0 Archive") v1Names
      (b! "hello\n") (b! "\n"),
   .data [b! "http://h/a b", b! "1.2.3.4", b! "20000101000001", b! "text/html", b! "11"] (b! "filedesc:\n\n") (b! "\n"),
   .data [b! "http://h/", b! "1.2.3.4", b! "20000101000002", b! "text/html", b! "0"] [] (b! "\n")]

theorem demoArc_ok : ArcItem.AllOk false [] demoArc := by
  have hn : NamesOk v1Names := by unfold NamesOk; decide
  have t : Terminator [10] := ⟨by decide, Or.inr rfl⟩
  have e : b! "\n" = [10] := rfl
  have s0 : Sep (b! "filedesc://a.arc") (b! "0.0.0.0") := Or.inl ⟨_, rfl, by decide⟩
  refine ⟨⟨hn, ⟨rfl, ⟨Or.inl ⟨_, rfl, by decide⟩, Or.inl ⟨_, rfl, by decide⟩, Or.inl ⟨_, rfl, by decide⟩,
      Or.inl ⟨_, rfl, by decide⟩, trivial⟩, by decide, ?_⟩, by decide, by decide, by decide, by decide, by decide, t⟩,
    ⟨hn, ⟨rfl, ⟨Or.inl ⟨_, rfl, by decide⟩, Or.inl ⟨_, rfl, by decide⟩, Or.inl ⟨_, rfl, by decide⟩,
      Or.inl ⟨_, rfl, by decide⟩, trivial⟩, by decide, ?_⟩, by decide, by decide, by decide, by decide, t⟩,
    ⟨hn, ⟨rfl, ⟨Or.inr ⟨_, rfl, by decide⟩, Or.inl ⟨_, rfl, by decide⟩, Or.inl ⟨_, rfl, by decide⟩,
      Or.inl ⟨_, rfl, by decide⟩, trivial⟩, by decide, ?_⟩, by decide, by decide, by decide, by decide, t⟩, trivial⟩
  · intro v0 h; cases h; left; decide
  · intro v0 h; cases h; right; decide
  · intro v0 h; cases h; left; decide

example : ∃ s, openArchive toy (some .arc) false .auto none (demoArc.flatMap ArcItem.bytes) = .ok s ∧
    (collect true 4 s).records.map (fun g => (g.offset, g.content.2)) =
      [(some 0, some (b! "hello\n")), (some 129, some (b! "filedesc:\n\n")), (some 190, some [])] := by
  obtain ⟨s, h1, h2⟩ := C27_round_trip toy demoArc demoArc_ok .auto (Or.inl rfl) 4 (by decide)
  exact ⟨s, h1, by rw [h2]; decide +kernel⟩

example : ∃ s, openArchive toy none false .auto none (demoArc.flatMap ArcItem.bytes) = .ok s ∧
    collect true 4 s = ⟨ArcItem.allGot some 0 [] demoArc, some ⟨some 236, none, []⟩, .done⟩ :=
  C27_round_trip_guess toy demoArc demoArc_ok (b! "a.arc 0.0.0.0 20000101000000 text/plain 74")
    ((demoArc.flatMap ArcItem.bytes).drop 54) (by decide) (by decide +kernel) (by decide +kernel) 4 (by decide)

example : ∃ s, openArchive toy (some .arc) true .auto none
      ((demoArc.map ArcItem.bytes).flatMap toy.enc) = .ok s ∧
    collect true 4 s = ⟨ArcItem.allGot (fun _ => none) 0 [] demoArc, some ⟨none, none, []⟩, .done⟩ :=
  C27_round_trip_gzip toy toy_laws demoArc demoArc_ok (demoArc.map ArcItem.bytes) (by decide)
    (by simp [List.flatMap]) 4 (by decide)

/-! ### C28 -/

/-- **C28** With `URL` as the first of two or more field names, a header line assigns the last values
to the last fields and everything before them, blanks included, to the URL. -/
theorem C28_url_with_blanks (offs : Bool) (s : Stream) (st : ArcSt) (ns vs : List Bytes) (url more : Bytes) (n : Int)
    (hk : s.kind ≠ .gzipFile) (he : s.eoc = none) (hp : s.parser = .arc st) (hst : st.headers = b! "URL" :: ns)
    (hns : ns ≠ []) (hnames : NamesOk ns) (hlen : vs.length = ns.length)
    (hurl : 10 ∉ url) (hnf : ¬ b! "filedesc:" <+: url ++ [32])
    (hws : ∀ v ∈ vs, ∀ c ∈ v, isWs c = false) (hsep : Separated (url :: vs))
    (hok : ∀ h ∈ ns.zip vs, ArcValueOk h) (hl : arcLength (ns.zip vs) = some n)
    (hr : s.fh.rest = url ++ [32] ++ join [32] vs ++ [10] ++ more) :
    ∃ s' r, readRecord offs s = .ok ⟨reported s.kind offs s.fh.pos, some r, []⟩ s' ∧
      r.headers = (b! "URL", url) :: ns.zip vs ∧ r.errors = [] ∧ s'.eoc = some n ∧ s'.fh.rest = more := by
  obtain ⟨v0, vt, rfl⟩ : ∃ v0 vt, vs = v0 :: vt := by
    cases vs with
    | nil => simp at hlen; exact absurd (List.eq_nil_of_length_eq_zero hlen.symm) hns
    | cons a b => exact ⟨a, b, rfl⟩
  have hline : arcLine (url :: v0 :: vt) = url ++ [32] ++ join [32] (v0 :: vt) ++ [10] := by
    simp [arcLine, join]
  have hN : NamesOk st.headers := by
    rw [hst]
    refine ⟨by simp, ?_⟩
    intro x hx
    rcases List.mem_cons.1 hx with rfl | hx
    · decide
    · exact hnames.2 x hx
  have hF : FieldsOk st.headers (url :: v0 :: vt) := by
    rw [hst]
    refine ⟨by simpa using hlen, hsep, hws, ?_⟩
    intro w hw; cases hw
    right
    refine ⟨hurl, ?_, Or.inl rfl⟩
    cases ns with
    | nil => exact absurd rfl hns
    | cons a b => simp
  have hread := readRecord_data offs [] (url :: v0 :: vt) n more s st hk he (by rw [hp]; rfl) (by rw [hp]; simp [Parser.isMixed])
    ⟨by simp, Or.inl rfl⟩ hN hF (by
      rw [hline]
      intro hpre
      apply hnf
      rw [List.append_assoc, List.append_assoc] at hpre
      rcases Nat.lt_or_ge (url ++ [32]).length 9 with hlt | hge
      · exfalso
        rw [← List.append_assoc] at hpre
        have h32 : (32 : Byte) ∈ b! "filedesc:" := by
          rw [List.prefix_iff_eq_take] at hpre
          rw [hpre]
          have : url ++ [32] <+: List.take (b! "filedesc:").length (url ++ [32] ++ (join [32] (v0 :: vt) ++ [10])) := by
            rw [List.prefix_take_iff]
            exact ⟨List.prefix_append _ _, by have : (b! "filedesc:").length = 9 := rfl; omega⟩
          exact this.subset (by simp)
        exact absurd h32 (by decide)
      · rw [← List.append_assoc] at hpre
        exact List.prefix_of_prefix_length_le hpre (List.prefix_append _ _) hge)
    (by
      rw [hst]
      intro h hh
      rw [List.zip_cons_cons] at hh
      rcases List.mem_cons.1 hh with rfl | hh
      · exact ⟨by intro hc; exact absurd (show lower (b! "URL") = _ from hc) (by decide), by intro hc; exact absurd (show lower (b! "URL") = _ from hc) (by decide)⟩
      · exact hok h hh)
    (by rw [hst, List.zip_cons_cons, arcLength]; exact hl)
    (by rw [hr, hline]; simp)
  refine ⟨_, _, by simpa using hread, ?_, rfl, rfl, ?_⟩
  · simp [arcRec, hst]
  · show (s.adv _).fh.rest = more
    rw [adv_fh, File.advance_rest, hr, hline]
    simp

/-- a URL with three blanks, two of them in a row -/
example (more : Bytes) : ∃ s' r,
    readRecord true ⟨File.openFile (b! "http://h/a b  c 1.2.3.4 20000101000001 text/html 11\n" ++ more), none, .plain,
      .arc ⟨some (b! "1"), v1Names⟩⟩ = .ok ⟨some 0, some r, []⟩ s' ∧
    r.headers = (b! "URL", b! "http://h/a b  c") :: [(b! "IP-address", b! "1.2.3.4"), (b! "Archive-date", b! "20000101000001"),
      (b! "Content-type", b! "text/html"), (b! "Archive-length", b! "11")] ∧ r.errors = [] ∧ s'.eoc = some 11 ∧ s'.fh.rest = more :=
  C28_url_with_blanks true _ ⟨some (b! "1"), v1Names⟩ v1Names.tail
    [b! "1.2.3.4", b! "20000101000001", b! "text/html", b! "11"] (b! "http://h/a b  c") more 11 (by simp) rfl rfl rfl
    (by decide) (by unfold NamesOk; decide) rfl (by decide) (by decide) (by decide)
    ⟨Or.inl ⟨_, rfl, by decide⟩, Or.inl ⟨_, rfl, by decide⟩, Or.inl ⟨_, rfl, by decide⟩, Or.inl ⟨_, rfl, by decide⟩, trivial⟩
    (by decide) (by decide) (by simp [File.openFile, File.rest, join])

/-- **C28** A header line with too few blanks for the field names raises (TypeError, from building the
message of the intended exception). -/
theorem C28_too_few_values (offs : Bool) (s : Stream) (st : ArcSt) (u more : Bytes)
    (hk : s.kind ≠ .gzipFile) (he : s.eoc = none) (hp : s.parser = .arc st)
    (hu : 10 ∉ u) (hnf : ¬ b! "filedesc:" <+: u ++ [10]) (hvis : ∃ c ∈ u, isWs c = false)
    (hfew : 1 + u.countP isWs < st.headers.length) (hr : s.fh.rest = u ++ [10] ++ more) :
    ∃ s', readRecord offs s = .raise .typeError s' := by
  have hvis' : Visible (u ++ [10]) := by
    obtain ⟨c, h1, h2⟩ := hvis; exact ⟨c, by simp [h1], h2⟩
  have hr' : s.fh.rest = [] ++ (u ++ 10 :: more) := by rw [hr]; simp
  refine ⟨s.adv (([] : Bytes).length + (u.length + 1)), readRecord_line_raise offs [] u more s _ .typeError hk he ⟨by simp, Or.inl rfl⟩ hu hvis' hr' ?_⟩
  intro o
  rw [parseWith_arc _ st o (u ++ [10]) (by show s.parser.arcSt? = _; rw [hp]; rfl) hvis'.ne.1
    (by show s.parser.isMixed = true → _; rw [hp]; simp [Parser.isMixed]) hvis'.ne.2]
  apply parse_few st _ o _ _ _ hvis' hnf
  · have h1 : (rstripCRLF (u ++ [10])).countP isWs ≤ u.countP isWs := by
      have : rstripCRLF (u ++ [10]) = rstripCRLF u := by simp [rstripCRLF, rstripP, List.dropWhile_cons]
      rw [this]; exact rstripCRLF_le u
    omega
  · intro e; rw [e] at hfew; simp at hfew

example (more : Bytes) : ∃ s', readRecord true ⟨File.openFile (b! "http://h/ 1.2.3.4 text/html 11" ++ [10] ++ more), none, .plain,
      .arc ⟨some (b! "1"), v1Names⟩⟩ = .raise .typeError s' :=
  C28_too_few_values true _ ⟨some (b! "1"), v1Names⟩ (b! "http://h/ 1.2.3.4 text/html 11") more (by simp) rfl rfl
    (by decide) (by decide) (by decide) (by decide) (by simp [File.openFile, File.rest])

/-- a blank beside a word character is a place to split -/
theorem splitScan_two (pre post : Bytes) (x : Byte) (hx : isWs x = true) (prev : Option Byte) (cur : Bytes)
    (h : wordAt (match pre.getLast? with | some c => some c | none => prev) = true ∨ wordAt post.head? = true) :
    2 ≤ (splitScan none prev (pre ++ x :: post) cur).length := by
  have hone : ∀ (l : Bytes) (p : Option Byte) (cur : Bytes), 1 ≤ (splitScan none p l cur).length := by
    intro l
    induction l with
    | nil => intro p cur; simp [splitScan]
    | cons c cs ih =>
      intro p cur
      rw [splitScan]
      split
      · simp
      · exact ih _ _
  induction pre generalizing prev cur with
  | nil =>
    simp only [List.getLast?_nil] at h
    rw [List.nil_append, splitScan, if_pos]
    · simp only [List.length_cons]
      have := hone post (some x) []
      simp only [Option.map_none]
      omega
    · refine ⟨by simp, ?_⟩
      rw [splitAt_isSome, hx]
      rcases h with h | h <;> simp [h]
  | cons c cs ih =>
    have h' : wordAt (match cs.getLast? with | some c => some c | none => some c) = true ∨ wordAt post.head? = true := by
      rcases h with h | h
      · left
        cases cs with
        | nil => simpa using h
        | cons d ds =>
          rw [List.getLast?_cons_cons] at h
          cases hl : (d :: ds).getLast? with
          | none => simp at hl
          | some y => rw [hl] at h; exact h
      · exact .inr h
    rw [List.cons_append, splitScan]
    split
    · simp only [List.length_cons]
      have := hone (cs ++ x :: post) (some c) []
      simp only [Option.map_none]
      omega
    · exact ih (some c) _ h'

theorem rstripCRLF_keep (a : Bytes) (b : Bytes) (x : Byte) (hx : x ≠ 13 ∧ x ≠ 10) : ∃ b', rstripCRLF (a ++ x :: b) = a ++ x :: b' := by
  simp only [rstripCRLF, rstripP, List.reverse_append, List.reverse_cons, List.append_assoc]
  induction b.reverse with
  | nil =>
    refine ⟨[], ?_⟩
    simp only [List.nil_append, List.cons_append]
    rw [List.dropWhile_cons, if_neg (by simp [hx.1, hx.2])]
    simp
  | cons y ys ih =>
    rw [List.cons_append, List.dropWhile_cons]
    split
    · exact ih
    · exact ⟨(y :: ys).reverse, by simp⟩

/-- **C28 (limit of the rule)** With a single field, `URL` or any other, a header line with a blank after a word character is refused: the rule for
blanks in URLs does not apply. -/
theorem C28_single_field (offs : Bool) (s : Stream) (st : ArcSt) (name pre post more : Bytes) (w : Byte) (hw : isWord w = true)
    (hk : s.kind ≠ .gzipFile) (he : s.eoc = none) (hp : s.parser = .arc st) (hst : st.headers = [name])
    (h1 : 10 ∉ pre) (h2 : 10 ∉ post) (hnf : ¬ b! "filedesc:" <+: pre ++ [w, 32] ++ post ++ [10])
    (hr : s.fh.rest = pre ++ [w, 32] ++ post ++ [10] ++ more) :
    ∃ s', readRecord offs s = .raise .typeError s' := by
  have hw10 : w ≠ 10 := by rintro rfl; exact absurd hw (by decide)
  have hwws : isWs w = false := by
    have : ∀ n < 256, isWord (UInt8.ofNat n) = true → isWs (UInt8.ofNat n) = false := by decide +kernel
    have := this w.toNat w.toNat_lt
    simp only [UInt8.ofNat_toNat] at this
    exact this hw
  have hu : 10 ∉ pre ++ [w, 32] ++ post := by simp [h1, h2, hw10.symm]
  have hvis' : Visible (pre ++ [w, 32] ++ post ++ [10]) := ⟨w, by simp, hwws⟩
  have hr' : s.fh.rest = [] ++ ((pre ++ [w, 32] ++ post) ++ 10 :: more) := by rw [hr]; simp
  refine ⟨s.adv (([] : Bytes).length + ((pre ++ [w, 32] ++ post).length + 1)),
    readRecord_line_raise offs [] (pre ++ [w, 32] ++ post) more s _ .typeError hk he ⟨by simp, Or.inl rfl⟩ hu hvis' hr' ?_⟩
  intro o
  rw [parseWith_arc _ st o (pre ++ [w, 32] ++ post ++ [10]) (by show s.parser.arcSt? = _; rw [hp]; rfl) hvis'.ne.1
    (by show s.parser.isMixed = true → _; rw [hp]; simp [Parser.isMixed]) hvis'.ne.2]
  have hsw : startsWith (pre ++ [w, 32] ++ post ++ [10]) ArcParser.filedescTag = false := by
    cases hh : startsWith (pre ++ [w, 32] ++ post ++ [10]) ArcParser.filedescTag with
    | false => rfl
    | true => exact absurd (List.isPrefixOf_iff_prefix.1 hh) hnf
  obtain ⟨b', hb'⟩ := rstripCRLF_keep (pre ++ [w]) (post ++ [10]) 32 (by decide)
  have hb : rstripCRLF (pre ++ [w, 32] ++ post ++ [10]) = (pre ++ [w]) ++ 32 :: b' := by rw [← hb']; simp
  have hsplit : 2 ≤ (splitScan none none ((pre ++ [w]) ++ 32 :: b') []).length := by
    apply splitScan_two _ _ _ (by decide)
    left
    simp [wordAt, hw]
  have hsplit' : 2 ≤ (splitScan none none ((pre ++ [w]) ++ 32 :: b').reverse []).length := by
    rw [show ((pre ++ [w]) ++ 32 :: b').reverse = b'.reverse ++ 32 :: (w :: pre.reverse) by simp]
    apply splitScan_two _ _ _ (by decide)
    right
    simp [wordAt, hw]
  have hlist : ArcParser.parseHeaderList [name] (pre ++ [w, 32] ++ post ++ [10]) = .error .typeError := by
    have hv : ∃ values, ArcParser.headerValues [name] (pre ++ [w, 32] ++ post ++ [10]) = .ok values ∧ 2 ≤ values.length := by
      unfold ArcParser.headerValues
      have a0 : ∀ l, arcSplit l 0 = splitScan none none l [] := fun l => by simp [arcSplit]
      have a1 : ((([name] : List Bytes).length : Int) - 1) = 0 := by simp
      simp only [hb, a1, a0]
      rw [if_pos (by simp only [List.length_singleton]; omega)]
      by_cases hn : name = AH.URL ∨ name = AH.CONTENT_TYPE
      · rw [if_pos hn]
        exact ⟨_, rfl, by simp only [List.length_map, List.length_reverse]; simpa using hsplit'⟩
      · rw [if_neg hn]
        exact ⟨_, rfl, by simpa using hsplit⟩
    obtain ⟨values, h1, h2⟩ := hv
    simp only [ArcParser.parseHeaderList, h1]
    rw [if_pos (by simp; omega)]
  simp only [ArcParser.parse, M.bind_apply, M.get_apply, skipBlank_visible _ _ hvis', hsw, hst, hlist, M.throw_apply, Bool.false_eq_true, if_false,
    List.cons_ne_nil]

example (more : Bytes) : ∃ s', readRecord true ⟨File.openFile (b! "http://h/" ++ [97, 32] ++ b! "b" ++ [10] ++ more), none, .plain, .arc ⟨some (b! "1"), [b! "URL"]⟩⟩ =
    .raise .typeError s' :=
  C28_single_field true _ ⟨some (b! "1"), [b! "URL"]⟩ (b! "URL") (b! "http://h/") (b! "b") more 97 (by decide) (by simp) rfl rfl rfl (by decide) (by decide)
    (by decide) (by simp [File.openFile, File.rest])

/-! ### C29 -/

/-- **C29** Before any filedesc record, an ARC stream refuses every other record: for every line that is
not blank and does not start with `filedesc:`. -/
theorem C29_refused (offs : Bool) (s : Stream) (u more T : Bytes)
    (hk : s.kind ≠ .gzipFile) (he : s.eoc = none) (hp : s.parser = .arc ArcSt.init) (hT : Terminator T)
    (hu : 10 ∉ u) (hnf : ¬ b! "filedesc:" <+: u ++ [10]) (hvis : ∃ c ∈ u, isWs c = false)
    (hr : s.fh.rest = T ++ (u ++ [10] ++ more)) :
    ∃ s', readRecord offs s = .raise (.generic "missing filedesc") s' := by
  have hvis' : Visible (u ++ [10]) := by
    obtain ⟨c, h1, h2⟩ := hvis; exact ⟨c, by simp [h1], h2⟩
  refine ⟨s.adv (T.length + (u.length + 1)), readRecord_line_raise offs T u more s _ _ hk he hT hu hvis' (by rw [hr]; simp) ?_⟩
  intro o
  rw [parseWith_arc _ ArcSt.init o (u ++ [10]) (by show s.parser.arcSt? = _; rw [hp]; rfl) hvis'.ne.1
    (by show s.parser.isMixed = true → _; rw [hp]; simp [Parser.isMixed]) hvis'.ne.2]
  exact parse_no_filedesc _ _ _ _ _ rfl hvis' hnf

example : ∃ s', readRecord true ⟨File.openFile (b! "\n" ++ (b! "http://h/ 1.2.3.4 20000101000001 text/html 0" ++ [10] ++ [])), none,
    .plain, .arc ArcSt.init⟩ = .raise (.generic "missing filedesc") s' :=
  C29_refused true _ (b! "http://h/ 1.2.3.4 20000101000001 text/html 0") [] [10] (by simp) rfl rfl ⟨by simp, Or.inr rfl⟩
    (by decide) (by decide) (by decide) (by simp [File.openFile, File.rest])

/-- what a program does with the stream between and for the records -/
inductive Spec.Act where
  /-- ask for the next record, with or without offsets -/
  | next (offs : Bool)
  /-- a call on the content file -/
  | op (o : ReadOp)

/-- perform the calls; the records that came out, in order, if no call raised -/
def Spec.runActs : List Act → Stream → Option (List Rec)
  | [], _ => some []
  | .next offs :: as, s =>
    match readRecord offs s with
    | .ok e s' => (runActs as s').map (e.rcd.toList ++ ·)
    | _ => none
  | .op o :: as, s =>
    match o.run s with
    | .ok _ s' => runActs as s'
    | _ => none

/-- the field names that apply to each record are those of the latest filedesc record before it (or the
given ones), and there are some -/
def Spec.NamesFollow : List Bytes → List Rec → Prop
  | _, [] => True
  | names, r :: rs =>
    match r.cls with
    | .arcHeader => NamesFollow (r.headers.map Prod.fst) rs
    | .arc => names ≠ [] ∧ r.headers.map Prod.fst = names ∧ NamesFollow names rs
    | .warc => NamesFollow names rs

theorem readOp_keeps (o : ReadOp) : Keeps true o.run := by
  cases o with
  | read n => exact Keeps.read _
  | readline n => exact Keeps.readline _
  | readinto n => exact Keeps.read _

/-- **C29** In every history of calls, on every file, the field names stay in force until the next
filedesc record: each ARC data record that is returned is laid out by the names of the latest filedesc
record before it, whatever else was read in between. -/
theorem C29_names_in_force (as : List Act) (s : Stream) (st : ArcSt) (rs : List Rec)
    (hp : s.parser = .arc st ∨ s.parser = .mixed st) (h : runActs as s = some rs) : NamesFollow st.headers rs := by
  have hp' : s.parser.arcSt? = some st := by rcases hp with hp | hp <;> rw [hp] <;> rfl
  clear hp
  induction as generalizing s st rs with
  | nil => simp [runActs] at h; subst h; trivial
  | cons a as ih =>
    cases a with
    | op o =>
      simp only [runActs] at h
      cases hr : o.run s with
      | hang => simp [hr] at h
      | raise e t => simp [hr] at h
      | ok b s' =>
        simp only [hr] at h
        have := Keeps.parserEq (readOp_keeps o) hr
        exact ih s' st rs h (by rw [this]; exact hp')
    | next offs =>
      simp only [runActs] at h
      cases hr : readRecord offs s with
      | hang => simp [hr] at h
      | raise e t => simp [hr] at h
      | ok e s' =>
        simp only [hr, Option.map_eq_some_iff] at h
        obtain ⟨rs', h1, rfl⟩ := h
        obtain ⟨st', h2, h3⟩ := readRecord_names offs s s' e st hp' hr
        have h4 := ih s' st' rs' h1 (by rw [h2]; exact withArc_arcSt _ st _ hp')
        cases hrcd : e.rcd with
        | none => rw [hrcd] at h3; simp only [NameStep] at h3; subst h3; simpa using h4
        | some r =>
          rw [hrcd] at h3
          simp only [Option.toList_some, List.singleton_append, NamesFollow]
          simp only [NameStep] at h3
          cases hc : r.cls with
          | warc => rw [hc] at h3; simp only at h3 ⊢; subst h3; exact h4
          | arc => rw [hc] at h3; simp only at h3 ⊢; obtain ⟨rfl, h5, h6⟩ := h3; exact ⟨h5, h6, h4⟩
          | arcHeader => rw [hc] at h3; simp only at h3 ⊢; rw [h3]; exact h4

/-- reading the demo file, with a partial read of the filedesc body in between -/
example : (runActs [.next true, .op (.read (some 3)), .next false, .next true, .next true]
    ⟨File.openFile (demoArc.flatMap ArcItem.bytes), none, .plain, .arc ArcSt.init⟩).map (fun rs => rs.map (·.cls)) =
    some [.arcHeader, .arc, .arc] := by decide +kernel

/-! ### C30 -/

/-- **C30** Reading a file that interleaves WARC records, ARC filedesc records and ARC data records in any
way with `MixedRecord.open_archive` yields each record by the rules of its own format, and WARC records
do not change the field names in force. -/
theorem C30_mixed (c : Codec) (its : List ArcItem) (h : ArcItem.AllOk true [] its)
    (gz : GzMode) (hgz : gz = .off ∨ gz = .auto ∧ ¬ [0x1f, 0x8b] <+: its.flatMap ArcItem.bytes)
    (fuel : Nat) (hfuel : its.length < fuel) :
    ∃ s, openArchive c (some .mixed) false gz none (its.flatMap ArcItem.bytes) = .ok s ∧
      collect true fuel s =
        ⟨ArcItem.allGot some 0 [] its, some ⟨some (its.flatMap ArcItem.bytes).length, none, []⟩, .done⟩ := by
  refine ⟨⟨File.openFile (its.flatMap ArcItem.bytes), none, .plain, .mixed ArcSt.init⟩, ?_, ?_⟩
  · rcases hgz with rfl | ⟨rfl, hg⟩
    · rfl
    · apply openArchive_plain c (some .mixed) .mixed .auto _ (Or.inl rfl) (Or.inl rfl)
      intro hh; apply hg; rw [← hh]; exact List.take_prefix _ _
  · rw [collect_arc true fuel ⟨File.openFile (its.flatMap ArcItem.bytes), none, .plain, .mixed ArcSt.init⟩ its ArcSt.init
      (by simp) rfl rfl rfl h (by simp [File.openFile, File.rest]) hfuel]
    have hrep : reported .plain true = some := by funext p; rfl
    simp [hrep, File.openFile, ArcSt.init]

/-- the demo ARC file with WARC records before, between and after its records -/
def Spec.demoMixed : List ArcItem :=
  .warc demo1.R :: (demoArc.take 2 ++ .warc demo1.R :: demoArc.drop 2 ++ [.warc demo1.R])

theorem demoMixed_ok : ArcItem.AllOk true [] demoMixed := by
  have hw : ∀ before, (ArcItem.warc demo1.R).Ok true before := fun _ =>
    ⟨rfl, item_R_ok demo1 demo1_ok, by decide⟩
  obtain ⟨⟨a1, a2, a3, a4, a5, a6, a7, a8⟩, ⟨b1, b2, b3, b4, b5, b6, b7⟩, ⟨c1, c2, c3, c4, c5, c6, c7⟩, _⟩ := demoArc_ok
  exact ⟨hw _, ⟨a1, a2, a3, a4, a5, a6, a7, a8⟩, ⟨b1, b2, b3, fun _ => by decide, b5, b6, b7⟩, hw _,
    ⟨c1, c2, c3, fun _ => by decide, c5, c6, c7⟩, hw _, trivial⟩

example : ∃ s, openArchive toy (some .mixed) false .auto none (demoMixed.flatMap ArcItem.bytes) = .ok s ∧
    (collect true 7 s).records.map (fun g => (g.headers.length, g.content.2)) =
      [(3, some demo1.body), (5, some (b! "hello\n")), (5, some (b! "filedesc:\n\n")), (3, some demo1.body), (5, some []),
       (3, some demo1.body)] := by
  obtain ⟨s, h1, h2⟩ := C30_mixed toy demoMixed demoMixed_ok .auto (Or.inr ⟨rfl, by decide +kernel⟩) 7 (by decide)
  exact ⟨s, h1, by rw [h2]; decide +kernel⟩

end Warc
