import Verif.Proofs.ArcReadAll
import Verif.Props.Grammar
set_option linter.all false
/-
  C107: what every sequence of bytes means as an ARC file or as a mixed file.
-/
namespace Warc
open Rx Stream Spec

/-- the parser of `ArcRecord.make_parser()` or of `MixedRecord.make_parser()` in a state with those field names -/
def arcParserWith (mixed : Bool) (ver : Option Bytes) (names : List Bytes) : Parser := if mixed then .mixed ⟨ver, names⟩ else .arc ⟨ver, names⟩

/-- **C107** For every sequence of bytes and every list of field names in force: the next record of an ARC file or of a mixed file (its kind, offset, version, headers and complaints,
where its payload begins, how long it is, and the field names in force behind it), or that there is none, or the exception, is what `Spec.nextIn` says. -/
theorem C107_next (offs mixed : Bool) (ver : Option Bytes) (names : List Bytes) (hn : ∀ n ∈ names, 10 ∉ n) (s : Stream)
    (hp : s.parser = arcParserWith mixed ver names) (hk : s.kind ≠ .gzipFile) (he : s.eoc = none) (hf : s.fh.fault = none) :
    (nextIn mixed names s.fh.rest).Describes offs s := by
  have h1 : s.parser.arcSt? = some ⟨ver, names⟩ := by rw [hp]; cases mixed <;> rfl
  have h2 : s.parser.isMixed = mixed := by rw [hp]; cases mixed <;> rfl
  have h := readRecord_arc_exact offs s ⟨ver, names⟩ h1 hn hk he hf
  rw [h2] at h; exact h

/-- the record class for ARC files or for mixed files -/
def arcClass (mixed : Bool) : RecClass := if mixed then .mixed else .arc

/-- the stream that a reader at position `o` of an uncompressed ARC file or mixed file has -/
def arcReaderFrom (mixed : Bool) (data : Bytes) (o : Nat) : Stream := ⟨{ File.openFile data with pos := o }, none, .plain, arcParserWith mixed none []⟩

/-- **C107** Reading all records with their contents from any position of any file that is not taken for a compressed one. -/
theorem C107_file (c : Codec) (mixed : Bool) (data : Bytes) (o : Nat) (gz : GzMode) (hgz : gz = .auto ∨ gz = .off) (hg : ¬ [0x1f, 0x8b] <+: data.drop o)
    (offs : Bool) (rounds : Nat) (hr : data.length < rounds) :
    openArchive c (some (arcClass mixed)) false gz (some o) data = .ok (arcReaderFrom mixed data o) ∧
    collect offs rounds (arcReaderFrom mixed data o) = meaningIn mixed (fun p => if offs then some p else none) rounds o [] (data.drop o) := by
  constructor
  · rw [openArchive_at_any c (some (arcClass mixed)) gz data o hgz hg]
    cases mixed <;> rfl
  · have hrest : (arcReaderFrom mixed data o).fh.rest = data.drop o := by simp [arcReaderFrom, File.openFile, File.rest]
    have h1 : (arcReaderFrom mixed data o).parser.arcSt? = some ⟨none, []⟩ := by cases mixed <;> rfl
    have h2 : (arcReaderFrom mixed data o).parser.isMixed = mixed := by cases mixed <;> rfl
    have h := collect_arc_exact offs rounds (arcReaderFrom mixed data o) ⟨none, []⟩ h1 (by simp) (by simp [arcReaderFrom]) rfl rfl rfl
      (by rw [hrest, List.length_drop]; omega)
    rw [h, hrest, h2]
    have : (reported (arcReaderFrom mixed data o).kind offs) = fun p => if offs then some p else none := by
      funext p; rfl
    rw [this]; rfl

/-- **C107** The same for a compressed file (by its name) that decompresses without an error; no offsets are reported. -/
theorem C107_compressed (c : Codec) (mixed : Bool) (fs : FS) (name stored data : Bytes) (hn : b! ".gz" <:+ name) (hfs : fs name = some stored)
    (hd : c.dec stored = (data, none)) (offs : Bool) (rounds : Nat) (hr : data.length < rounds) :
    ∃ s, openName c fs (arcClass mixed) none name = .ok s ∧ collect offs rounds s = meaningIn mixed (fun _ => none) rounds 0 [] data := by
  have hng : nameGz name = true := by
    rw [nameGz]; exact (endsWith_iff _ _).2 hn
  have hrest : (File.openFile stored).rest = stored := by simp [File.openFile, File.rest]
  have hg : gzipFileOf c (File.openFile stored) = { data := data, pos := 0, strictNeg := true, fault := none } := by
    simp [gzipFileOf, hrest, hd]
  refine ⟨⟨{ data := data, pos := 0, strictNeg := true, fault := none }, none, .gzipRecord, arcParserWith mixed none []⟩, ?_, ?_⟩
  · simp only [openName, hfs, hng]
    rw [openArchive_named c (arcClass mixed), hg]
    cases mixed <;> rfl
  · have h1 : (arcParserWith mixed none []).arcSt? = some ⟨none, []⟩ := by cases mixed <;> rfl
    have h2 : (arcParserWith mixed none []).isMixed = mixed := by cases mixed <;> rfl
    have h := collect_arc_exact offs rounds ⟨{ data := data, pos := 0, strictNeg := true, fault := none }, none, .gzipRecord, arcParserWith mixed none []⟩ ⟨none, []⟩
      h1 (by simp) (by simp) rfl rfl rfl (by simp [File.rest]; omega)
    rw [h]
    have e1 : (reported Kind.gzipRecord offs) = fun _ => none := by funext p; rfl
    have e2 : ({ data := data, pos := 0, strictNeg := true, fault := none } : File).rest = data := by simp [File.rest]
    simp only [e1, e2, h2]

/-! ### concrete cases -/

/-- a version 1 file with messy records: blanks in a URL, a payload, white lines, a line with too few fields -/
def messyArc : Bytes := b! "\nfiledesc://a.arc 1.2.3.4 20100101000000 text/plain 66\n1 0 IA\nURL IP-address Archive-date Content-type Archive-length\nXX\n\r\n  \nhttp://h/a b c 1.2.3.4 2010 text/html 3\r\nabc\nhttp://h/ 1.2.3.4 2010 - 0x\n"

theorem messyArc_all : meaningIn false some 999 0 [] messyArc =
    ⟨[⟨some 1, b! "1 0 IA", [(b! "URL", b! "filedesc://a.arc"), (b! "IP-address", b! "1.2.3.4"), (b! "Archive-date", b! "20100101000000"), (b! "Content-type", b! "text/plain"),
          (b! "Archive-length", b! "66")], [], (some (b! "text/plain"), some (b! "XX\n"))⟩,
       ⟨some 123, [], [(b! "URL", b! "http://h/a b c"), (b! "IP-address", b! "1.2.3.4"), (b! "Archive-date", b! "2010"), (b! "Content-type", b! "text/html"),
          (b! "Archive-length", b! "3")], [], (some (b! "text/html"), some (b! "abc"))⟩,
       ⟨some 171, [], [(b! "URL", b! "http://h/"), (b! "IP-address", b! "1.2.3.4"), (b! "Archive-date", b! "2010"), (b! "Content-type", b! "-"),
          (b! "Archive-length", b! "0x")], [.invalidHeader (b! "Archive-length") (b! "0x")], (some (b! "-"), some [])⟩],
      some ⟨some 199, none, []⟩, .done⟩ := by decide +kernel

example := C107_next true false none [] (by simp) (arcReaderFrom false messyArc 0) rfl (by decide) rfl rfl
example := C107_file toy false messyArc 0 .auto (Or.inl rfl) (by decide) true 999 (by decide +kernel)
example := C107_file toy true (messy ++ messyArc) 0 .auto (Or.inl rfl) (by decide) true 999 (by decide +kernel)

/-- the other outcomes -/
example : nextIn false [] (b! "http://h/ 1.2.3.4 2010 - 0\n") = .raises (.generic "missing filedesc") ∧
    nextIn false [b! "URL", b! "Archive-length"] (b! "http://h/\n") = .raises .typeError ∧
    nextIn false [] (b! "filedesc://x 0\n") = .raises .indexError ∧
    nextIn false [] (b! "\r\n \n\t\n") = .nothing 2 [] 6 ∧
    nextIn true [] (b! "WARC/1.0\r\nno field\r\n\r\n") = .stuck := by decide +kernel

/-- without the URL as its first field, the first separators count; with it, the last ones -/
example : lineHeaders [b! "Archive-length", b! "URL"] (b! "3 http://h/ a b\n") = some [(b! "Archive-length", b! "3"), (b! "URL", b! "http://h/ a b")] ∧
    lineHeaders [b! "URL", b! "Archive-length"] (b! "http://h/ a b 3\n") = some [(b! "URL", b! "http://h/ a b"), (b! "Archive-length", b! "3")] := by decide +kernel

example : ∃ (fs : FS) (name stored data : Bytes), b! ".gz" <:+ name ∧ fs name = some stored ∧ toy.dec stored = (data, none) ∧ data = messyArc :=
  ⟨fun _ => some (toy.enc messyArc), b! "a.gz", toy.enc messyArc, messyArc, ⟨b! "a", rfl⟩, rfl, by have := toy_laws.members [messyArc]; simpa using this, rfl⟩

end Warc
