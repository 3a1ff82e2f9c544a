import Verif.Props.Arc
import Verif.Props.Records
import Verif.Props.Opening
import Verif.Proofs.ArcFirst
import Verif.Spec.ArcSeek
/-
  C101: random access in ARC files.
-/
set_option linter.all false
namespace Warc
open Rx Stream Spec

theorem allOk_split (m : Bool) (pre rest : List ArcItem) (names : List Bytes) (h : ArcItem.AllOk m names (pre ++ rest)) :
    ArcItem.AllOk m (namesAfter names pre) rest := by
  induction pre generalizing names with
  | nil => exact h
  | cons it pre ih => exact ih _ h.2

theorem seek_to (o : Nat) (s : Stream) :
    Stream.seek (o : Int) 0 s = .ok () { s with fh := { s.fh with pos := o } } := by
  simp [Stream.seek, onFile, File.seek]

/-- **C101** A stream over an ARC file that is not in the middle of a record (nothing was read, or the last record was read to its
end) and whose last filedesc record named the fields that the wanted record uses, can be moved to this record: from there a scan sees
exactly this record and all the following ones, with their offsets. -/
theorem C101_seek (offs : Bool) (file : List ArcItem) (pre post : List ArcItem) (hfile : file = pre ++ post)
    (h : ArcItem.AllOk false [] file) (s : Stream) (st : ArcSt) (hk : s.kind = .plain) (hp : s.parser = .arc st)
    (hd : s.fh.data = file.flatMap ArcItem.bytes) (hf : s.fh.fault = none) (he : s.eoc = none ∨ s.eoc = some 0)
    (hnames : st.headers = namesAfter [] pre) (fuel : Nat) (hfuel : post.length < fuel) :
    ∃ s1, Stream.seek (startOf pre : Int) 0 s = .ok () s1 ∧
      collect offs fuel s1 =
        ⟨ArcItem.allGot (fun p => if offs then some p else none) (startOf pre) (namesAfter [] pre) post,
         some ⟨if offs then some (file.flatMap ArcItem.bytes).length else none, none, []⟩, .done⟩ := by
  refine ⟨_, seek_to _ s, ?_⟩
  have hkey : collect offs fuel { s with fh := { s.fh with pos := startOf pre } } =
      collect offs fuel { s with fh := { s.fh with pos := startOf pre }, eoc := none } := by
    rcases he with he | he
    · congr 1; rw [← he]
    · obtain ⟨fuel, rfl⟩ : ∃ k, fuel = k + 1 := ⟨fuel - 1, by omega⟩
      exact collect_congr offs _ _ _ (readRecord_neg offs 0 _ he (by omega))
  rw [hkey]
  have hrest : ({ s with fh := { s.fh with pos := startOf pre }, eoc := none } : Stream).fh.rest = post.flatMap ArcItem.bytes := by
    show List.drop (startOf pre) s.fh.data = _
    rw [hd, hfile, List.flatMap_append, startOf, List.drop_left]
  have hpost := allOk_split false pre post [] (hfile ▸ h)
  rw [collect_arc offs fuel { s with fh := { s.fh with pos := startOf pre }, eoc := none } post st (by show s.kind ≠ _; rw [hk]; simp) rfl hf (by show s.parser.arcSt? = _; rw [hp]; rfl)
    (by show ArcItem.AllOk s.parser.isMixed _ _; rw [hp]; show ArcItem.AllOk false st.headers post; rw [hnames]; exact hpost) hrest hfuel]
  have hrep : reported s.kind offs = fun p => if offs then some p else none := by rw [hk]; funext p; rfl
  have hlen : startOf pre + (post.flatMap ArcItem.bytes).length = (file.flatMap ArcItem.bytes).length := by
    rw [hfile]; simp [startOf]
  rw [hrep]
  simp only [hnames, hlen]

/-- **C101** End to end: open an ARC file that starts with a filedesc record, read this record and its content, and seek to any record
before the next filedesc record: the scan goes on there, with this record and all the following ones. -/
theorem C101_open_and_seek (c : Codec) (offs : Bool) (v : List Bytes) (ver : Bytes) (names : List Bytes) (b T : Bytes) (pre post : List ArcItem)
    (h : ArcItem.AllOk false [] (.filedesc v ver names b T :: (pre ++ post)))
    (hpre : ∀ it ∈ pre, ∃ x y z, it = .data x y z) (gz : GzMode) (hgz : gz = .auto ∨ gz = .off) (fuel : Nat) (hfuel : post.length < fuel) :
    ∃ s e r s1 t r1 s2 r2, openArchive c (some .arc) false gz none ((ArcItem.filedesc v ver names b T :: (pre ++ post)).flatMap ArcItem.bytes) = .ok s ∧
      readRecord false s = .ok e s1 ∧ e.rcd = some r ∧
      World.content ⟨s1, r, []⟩ = .ok (t, some b) ⟨r1, r2, []⟩ ∧
      Stream.seek (startOf (.filedesc v ver names b T :: pre) : Int) 0 r1 = .ok () s2 ∧
      collect offs fuel s2 =
        ⟨ArcItem.allGot (fun p => if offs then some p else none) (startOf (.filedesc v ver names b T :: pre)) names post,
         some ⟨if offs then some ((ArcItem.filedesc v ver names b T :: (pre ++ post)).flatMap ArcItem.bytes).length else none, none, []⟩, .done⟩ := by
  have hna : ∀ (l : List ArcItem) (ns : List Bytes), (∀ it ∈ l, ∃ x y z, it = ArcItem.data x y z) → namesAfter ns l = ns := by
    intro l
    induction l with
    | nil => intro ns _; rfl
    | cons a l ih =>
      intro ns hl
      obtain ⟨x, y, z, rfl⟩ := hl a (by simp)
      exact ih ns (fun it hi => hl it (by simp [hi]))
  have hN : namesAfter [] (.filedesc v ver names b T :: pre) = names := hna pre names hpre
  have hit := h.1
  obtain ⟨h1, h2, h3, h4, h5, h6, h7, h8⟩ := hit
  have hopen : openArchive c (some .arc) false gz none ((ArcItem.filedesc v ver names b T :: (pre ++ post)).flatMap ArcItem.bytes) =
      .ok ⟨File.openFile ((ArcItem.filedesc v ver names b T :: (pre ++ post)).flatMap ArcItem.bytes), none, .plain, .arc ArcSt.init⟩ := by
    apply openArchive_plain c (some .arc) .arc gz _ hgz (Or.inl rfl)
    rcases arc_start _ h with h | ⟨t, h⟩ <;> rw [h] <;> simp
  have hread := readRecord_filedesc false [] v names ver _ (b ++ (T ++ (pre ++ post).flatMap ArcItem.bytes))
    ⟨File.openFile ((ArcItem.filedesc v ver names b T :: (pre ++ post)).flatMap ArcItem.bytes), none, .plain, .arc ArcSt.init⟩ ArcSt.init
    (by simp) rfl rfl ⟨by simp, Or.inl rfl⟩ h1 h2 h3 h4 h5 h6 h7 (by simp [File.openFile, File.rest, ArcItem.bytes])
  have hsub : (((ArcItem.preamble ver names).length + b.length : Nat) : Int) - (ArcItem.preamble ver names).length
      = (b.length : Int) := by omega
  rw [hsub] at hread
  have hrest : ∀ (x : Stream), x.fh = (File.openFile ((ArcItem.filedesc v ver names b T :: (pre ++ post)).flatMap ArcItem.bytes)).advance
      (([] : Bytes).length + (arcLine v).length + (ArcItem.preamble ver names).length) → x.fh.rest = b ++ (T ++ (pre ++ post).flatMap ArcItem.bytes) := by
    intro x hx
    rw [hx, File.advance_rest]
    rw [show (File.openFile ((ArcItem.filedesc v ver names b T :: (pre ++ post)).flatMap ArcItem.bytes)).rest =
      (arcLine v ++ ArcItem.preamble ver names) ++ (b ++ (T ++ (pre ++ post).flatMap ArcItem.bytes)) by simp [File.openFile, File.rest, ArcItem.bytes]]
    rw [show ([] : Bytes).length + (arcLine v).length + (ArcItem.preamble ver names).length = (arcLine v ++ ArcItem.preamble ver names).length by simp]
    rw [List.drop_left]
  have hx := hrest _ (rfl : (Stream.mk ((File.openFile ((ArcItem.filedesc v ver names b T :: (pre ++ post)).flatMap ArcItem.bytes)).advance
      (([] : Bytes).length + (arcLine v).length + (ArcItem.preamble ver names).length)) (some (b.length : Int)) .plain
      (.arc ⟨(splitWs (strip ver)).head?, names⟩)).fh = _)
  obtain ⟨r', hc⟩ := content_fresh _ (arcHeaderRec names v ver) b.length rfl rfl rfl (by rw [hx]; simp)
  rw [hx, List.take_left] at hc
  obtain ⟨s2, hs2, hcol⟩ := C101_seek offs _ (.filedesc v ver names b T :: pre) post rfl h
    { (Stream.mk ((File.openFile ((ArcItem.filedesc v ver names b T :: (pre ++ post)).flatMap ArcItem.bytes)).advance
      (([] : Bytes).length + (arcLine v).length + (ArcItem.preamble ver names).length)) (some (b.length : Int)) .plain
      (.arc ⟨(splitWs (strip ver)).head?, names⟩)).adv b.length with eoc := some 0 } ⟨(splitWs (strip ver)).head?, names⟩ rfl rfl rfl rfl
    (Or.inr rfl) hN.symm fuel hfuel
  refine ⟨_, _, _, _, _, _, s2, _, hopen, hread, rfl, hc, hs2, ?_⟩
  rw [hcol, hN]
  rfl

/-! ### opening at an offset -/

theorem openArchive_at_any (c : Codec) (cls : Option RecClass) (gz : GzMode) (data : Bytes) (o : Nat) (hgz : gz = .auto ∨ gz = .off)
    (hg : ¬ [0x1f, 0x8b] <+: data.drop o) :
    openArchive c cls false gz (some o) data =
      (match (cls.map some).getD (formatOf (File.firstLine (data.drop o))) with
       | some k => .ok ⟨{ File.openFile data with pos := o }, none, .plain, k.makeParser⟩
       | none => .error (.generic "Failed to guess compression")) := by
  have hsk : File.seek (o : Int) 0 (File.openFile data) = .ok () { File.openFile data with pos := o } := by simp [File.seek]
  have hf : ({ File.openFile data with pos := o } : File).fault = none := rfl
  have hrest : ({ File.openFile data with pos := o } : File).rest = data.drop o := by simp [File.openFile, File.rest]
  have hg' : (data.drop o).take 2 ≠ [0x1f, 0x8b] := fun e => hg ⟨_, by rw [← e]; exact List.take_append_drop 2 _⟩
  have hgu := C23_plain c { File.openFile data with pos := o } hf (by rw [hrest]; exact hg)
  have his := Detect.isGzipFile_apply _ hf
  rw [hrest] at his hgu
  have hb : ((data.drop o).take 2 == [0x1f, 0x8b]) = false := by simpa using hg'
  rw [hb] at his
  cases cls with
  | some k =>
    rcases hgz with rfl | rfl <;>
    simp [openArchive, openRecordStream, M.bind_apply, hsk, his]
  | none =>
    cases hfm : formatOf (File.firstLine (data.drop o)) with
    | none =>
      rw [hfm] at hgu
      simp [openArchive, openRecordStream, M.bind_apply, hsk, hgu, M.throw_apply]
    | some k =>
      rw [hfm] at hgu
      rcases hgz with rfl | rfl <;>
      simp [openArchive, openRecordStream, M.bind_apply, hsk, his, hgu]

/-- **C101** Opening an ARC file at the offset of a filedesc record works like opening it at its beginning: a scan sees this record and all
the following ones. -/
theorem C101_open_filedesc (c : Codec) (offs : Bool) (pre post : List ArcItem) (v : List Bytes) (ver : Bytes) (names : List Bytes) (b T : Bytes)
    (h : ArcItem.AllOk false [] (pre ++ .filedesc v ver names b T :: post)) (gz : GzMode) (hgz : gz = .auto ∨ gz = .off)
    (fuel : Nat) (hfuel : post.length + 1 < fuel) :
    ∃ s, openArchive c (some .arc) false gz (some (startOf pre)) ((pre ++ .filedesc v ver names b T :: post).flatMap ArcItem.bytes) = .ok s ∧
      collect offs fuel s =
        ⟨ArcItem.allGot (fun p => if offs then some p else none) (startOf pre) (namesAfter [] pre) (.filedesc v ver names b T :: post),
         some ⟨if offs then some ((pre ++ .filedesc v ver names b T :: post).flatMap ArcItem.bytes).length else none, none, []⟩, .done⟩ := by
  have hpost := allOk_split false pre _ [] h
  have hdrop : ((pre ++ ArcItem.filedesc v ver names b T :: post).flatMap ArcItem.bytes).drop (startOf pre) =
      (ArcItem.filedesc v ver names b T :: post).flatMap ArcItem.bytes := by
    rw [List.flatMap_append, startOf, List.drop_left]
  obtain ⟨t, ht⟩ := hpost.1.2.2.1
  refine ⟨_, openArchive_at_any c (some .arc) gz _ (startOf pre) hgz (by
    rw [hdrop, List.flatMap_cons, ArcItem.bytes, ← ht]
    rintro ⟨u, hu⟩
    simp at hu), ?_⟩
  have hok : ArcItem.AllOk false ArcSt.init.headers (.filedesc v ver names b T :: post) := ⟨hpost.1, hpost.2⟩
  show collect offs fuel ⟨{ File.openFile _ with pos := startOf pre }, none, .plain, .arc ArcSt.init⟩ = _
  rw [collect_arc offs fuel ⟨{ File.openFile ((pre ++ ArcItem.filedesc v ver names b T :: post).flatMap ArcItem.bytes) with pos := startOf pre }, none, .plain, .arc ArcSt.init⟩ (.filedesc v ver names b T :: post) ArcSt.init (by simp) rfl rfl rfl hok hdrop (by simpa using hfuel)]
  have hrep : reported .plain offs = fun p => if offs then some p else none := by funext p; rfl
  have hlen : startOf pre + ((ArcItem.filedesc v ver names b T :: post).flatMap ArcItem.bytes).length =
      ((pre ++ .filedesc v ver names b T :: post).flatMap ArcItem.bytes).length := by
    simp only [List.flatMap_append, List.length_append, startOf]
  simp only [hrep, hlen]
  rfl

/-- **C101** Opening an ARC file at the offset of a data record never gives this record: with `ArcRecord` the first read raises 'missing
filedesc', and without a class the opening itself raises (or, if the header line of the record contains `warc/`, the file is taken for a
WARC file). -/
theorem C101_open_data (c : Codec) (offs : Bool) (pre post : List ArcItem) (v : List Bytes) (b T : Bytes)
    (h : ArcItem.AllOk false [] (pre ++ .data v b T :: post)) (gz : GzMode) (hgz : gz = .auto ∨ gz = .off)
    (hg : ¬ [0x1f, 0x8b] <+: arcLine v) :
    (∃ s s', openArchive c (some .arc) false gz (some (startOf pre)) ((pre ++ .data v b T :: post).flatMap ArcItem.bytes) = .ok s ∧
      readRecord offs s = .raise (.generic "missing filedesc") s') ∧
    openArchive c none false gz (some (startOf pre)) ((pre ++ .data v b T :: post).flatMap ArcItem.bytes) =
      if (afterTag (arcLine v)).isSome then
        .ok ⟨{ File.openFile ((pre ++ .data v b T :: post).flatMap ArcItem.bytes) with pos := startOf pre }, none, .plain, .warc⟩
      else .error (.generic "Failed to guess compression") := by
  have hpost := allOk_split false pre _ [] h
  have hdrop : ((pre ++ ArcItem.data v b T :: post).flatMap ArcItem.bytes).drop (startOf pre) =
      arcLine v ++ (b ++ (T ++ post.flatMap ArcItem.bytes)) := by
    rw [List.flatMap_append, startOf, List.drop_left]; simp [ArcItem.bytes]
  obtain ⟨h1, h2, h3, h4, h5, h6, h7⟩ := hpost.1
  have hnl : 10 ∉ join [32] v := fields_noLF h2
  have hvis := arcLength_visible h5 h6
  have hvis' : ∃ c ∈ join [32] v, isWs c = false := by
    obtain ⟨x, hx, hw⟩ := hvis
    rcases List.mem_append.1 (show x ∈ join [32] v ++ [10] from hx) with hx | hx
    · exact ⟨x, hx, hw⟩
    · simp at hx; subst hx; simp [isWs] at hw
  have hg' : ¬ [0x1f, 0x8b] <+: ((pre ++ ArcItem.data v b T :: post).flatMap ArcItem.bytes).drop (startOf pre) := by
    rw [hdrop]
    intro hh
    apply hg
    refine List.prefix_of_prefix_length_le hh ⟨_, rfl⟩ ?_
    obtain ⟨x, hx, hw⟩ := hvis'
    have := List.length_pos_of_mem hx
    simp [arcLine]; omega
  have hfl : File.firstLine (arcLine v ++ (b ++ (T ++ post.flatMap ArcItem.bytes))) = arcLine v := by
    rw [show arcLine v ++ (b ++ (T ++ post.flatMap ArcItem.bytes)) = join [32] v ++ 10 :: (b ++ (T ++ post.flatMap ArcItem.bytes)) by simp [arcLine],
      File.firstLine_append _ _ hnl]
    rfl
  refine ⟨?_, ?_⟩
  · have ho := openArchive_at_any c (some .arc) gz _ (startOf pre) hgz hg'
    obtain ⟨s', hs'⟩ := C29_refused offs ⟨{ File.openFile ((pre ++ ArcItem.data v b T :: post).flatMap ArcItem.bytes) with pos := startOf pre }, none, .plain, .arc ArcSt.init⟩
      (join [32] v) (b ++ (T ++ post.flatMap ArcItem.bytes)) [] (by simp) rfl rfl ⟨by simp, Or.inl rfl⟩ hnl h3 hvis' hdrop
    exact ⟨_, s', ho, hs'⟩
  · rw [openArchive_at_any c none gz _ (startOf pre) hgz hg', hdrop, hfl]
    have hcomp : complete (arcLine v) = true := by
      rw [arcLine, complete, List.getLast?_append]; rfl
    have hne1 : arcLine v ≠ [] := by simp [arcLine]
    have hne2 : arcLine v ≠ [10] := hvis.ne.2.1
    have hfd : ¬ b! "filedesc://" <+: arcLine v := fun hh => h3 (List.IsPrefix.trans ⟨b! "//", rfl⟩ hh)
    have hfm : formatOf (arcLine v) = if (afterTag (arcLine v)).isSome then some .warc else none := by
      simp only [formatOf, versionNumber, hcomp, if_true, hne1, hne2, or_false, hfd, if_false, Option.isSome_map]
    simp only [Option.map_none, Option.getD_none, hfm]
    by_cases ht : (afterTag (arcLine v)).isSome = true
    · simp only [ht, if_true]; rfl
    · simp only [ht, if_false, Bool.false_eq_true]

/-! ### examples -/

/-- two ARC files behind each other (which C27 says can be read like one); the second one does not record IP addresses -/
def Spec.twoArcs : List ArcItem :=
  demoArc ++
  [.filedesc [b! "filedesc://b.arc", b! "20000102000000", b! "text/plain", b! "55"] (b! "1 0 Other") [b! "URL", b! "Archive-date", b! "Content-type", b! "Archive-length"]
      (b! "") (b! "\n"),
   .data [b! "http://h/c", b! "20000102000001", b! "text/html", b! "2"] (b! "ok") (b! "\n")]

theorem twoArcs_ok : ArcItem.AllOk false [] twoArcs := by
  obtain ⟨a, b, c, _⟩ := demoArc_ok
  have hn : NamesOk [b! "URL", b! "Archive-date", b! "Content-type", b! "Archive-length"] := by unfold NamesOk; decide
  have t : Terminator [10] := ⟨by decide, Or.inr rfl⟩
  refine ⟨a, b, c, ⟨hn, ⟨rfl, ⟨Or.inl ⟨_, rfl, by decide⟩, Or.inl ⟨_, rfl, by decide⟩, Or.inl ⟨_, rfl, by decide⟩, trivial⟩, by decide, ?_⟩,
      by decide, by decide, by decide, by decide, by decide, t⟩,
    ⟨hn, ⟨rfl, ⟨Or.inl ⟨_, rfl, by decide⟩, Or.inl ⟨_, rfl, by decide⟩, Or.inl ⟨_, rfl, by decide⟩, trivial⟩, by decide, ?_⟩,
      by decide, by decide, by decide, by decide, t⟩, trivial⟩
  · intro v0 h; cases h; left; decide
  · intro v0 h; cases h; left; decide

/-- read four records (the last one is the header of the second file) and the content of the last, then go back to the third record -/
def Spec.backToThird : M Stream Entry := do
  let _ ← readRecord true
  let _ ← readRecord true
  let _ ← readRecord true
  let _ ← readRecord true
  let _ ← Stream.read none
  Stream.seek (startOf (twoArcs.take 2)) 0
  readRecord true

/-- **C101 (defect)** The field names do not move back with the position: in these two files behind each other, going back from the second one
to a record of the first one gives this record with wrong fields: here the IP address is taken for a part of the URL. -/
theorem C101_wrong_names : ∃ s s1 e, openArchive toy (some .arc) false .auto none (twoArcs.flatMap ArcItem.bytes) = .ok s ∧
    backToThird s = .ok e s1 ∧
    e.offset = some (startOf (twoArcs.take 2)) ∧
    (twoArcs[2]?.map fun it => (it.got some 0 v1Names).headers.head?) = some (some (b! "URL", b! "http://h/")) ∧
    (e.rcd.map fun r => r.headers.head?) = some (some (b! "URL", b! "http://h/ 1.2.3.4")) := by
  refine ⟨⟨File.openFile (twoArcs.flatMap ArcItem.bytes), none, .plain, .arc ArcSt.init⟩, ?_⟩
  have key : (match backToThird ⟨File.openFile (twoArcs.flatMap ArcItem.bytes), none, .plain, .arc ArcSt.init⟩ with
      | .ok e s => decide (e.offset = some (startOf (twoArcs.take 2)) ∧
          (e.rcd.map fun r => r.headers.head?) = some (some (b! "URL", b! "http://h/ 1.2.3.4")))
      | _ => false) = true := by decide +kernel
  split at key
  · rename_i e s1 heq
    have k := of_decide_eq_true key
    exact ⟨s1, e, openArchive_plain toy (some .arc) .arc .auto _ (Or.inl rfl) (Or.inl rfl) (by decide +kernel), heq, k.1, by decide +kernel, k.2⟩
  · cases key

/-- from a fresh stream with the names of the first filedesc record to the third record -/
example : ∃ s1, Stream.seek (startOf (demoArc.take 2) : Int) 0
      ⟨File.openFile (demoArc.flatMap ArcItem.bytes), none, .plain, .arc ⟨some (b! "1"), v1Names⟩⟩ = .ok () s1 ∧
    (collect true 2 s1).records.map (fun g => (g.offset, g.headers.head?)) = [(some 190, some (b! "URL", b! "http://h/"))] := by
  obtain ⟨s1, h1, h2⟩ := C101_seek true demoArc (demoArc.take 2) (demoArc.drop 2) rfl demoArc_ok
    ⟨File.openFile (demoArc.flatMap ArcItem.bytes), none, .plain, .arc ⟨some (b! "1"), v1Names⟩⟩ _ rfl rfl rfl rfl (Or.inl rfl) rfl 2 (by decide)
  exact ⟨s1, h1, by rw [h2]; decide +kernel⟩

example (c : Codec) := C101_open_and_seek c true _ _ _ _ _ [demoArc[1]] [demoArc[2]] demoArc_ok
  (by intro it hi; simp at hi; subst hi; exact ⟨_, _, _, rfl⟩) .auto (Or.inl rfl) 2 (by decide)

example (c : Codec) := C101_open_filedesc c true demoArc _ _ _ _ _ _ twoArcs_ok .auto (Or.inl rfl) 3 (by decide)

example (c : Codec) := C101_open_data c true [demoArc[0]] [demoArc[2]] _ _ _ demoArc_ok .auto (Or.inl rfl) (by decide)

end Warc
