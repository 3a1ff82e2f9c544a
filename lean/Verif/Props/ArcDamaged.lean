import Verif.Proofs.ArcDamaged
import Verif.Props.ArcGrammar
import Verif.Props.GrammarDamaged
set_option linter.all false
/-
  C117: what the bytes of a damaged compressed ARC file or mixed file mean.
-/
namespace Warc
open Rx Stream Spec

/-- **C117** The next record of a damaged compressed ARC file or mixed file (the data that are left are `s.fh.rest`, and the decompressor raises `e` when a read goes past
them), with any field names in force: if the lines it needs are there completely, it is (or raises) what it is in an undamaged file with the same bytes; otherwise the
exception of the decompressor comes through. -/
theorem C117_next (e : Exc) (offs mixed : Bool) (ver : Option Bytes) (names : List Bytes) (hn : ∀ n ∈ names, 10 ∉ n) (s : Stream)
    (hp : s.parser = arcParserWith mixed ver names) (hk : s.kind ≠ .gzipFile) (he : s.eoc = none) (hf : s.fh.fault = some e) (hpos : s.fh.pos ≤ s.fh.data.length) :
    DescribesInDamaged e (nextInDamaged mixed names s.fh.rest) offs s := by
  have h1 : s.parser.arcSt? = some ⟨ver, names⟩ := by rw [hp]; cases mixed <;> rfl
  have h2 : s.parser.isMixed = mixed := by rw [hp]; cases mixed <;> rfl
  have h := (readRecord_arc_damaged offs s ⟨ver, names⟩ h1 hn ⟨hf, hpos⟩ hk he).1
  rw [h2] at h; exact h

/-- **C117** Reading all records, with their contents, of a compressed ARC file or mixed file that is damaged anywhere, in any way, of any content: if the decompressor gives
`data` and then raises `e`, what is noted is what the grammar says, record by record, and the exception comes through unless the loop has ended before. -/
theorem C117_file (c : Codec) (mixed : Bool) (fs : FS) (name stored data : Bytes) (e : Exc) (hn : b! ".gz" <:+ name) (hfs : fs name = some stored)
    (hd : c.dec stored = (data, some e)) (offs : Bool) (rounds : Nat) (hr : data.length < rounds) :
    ∃ s, openName c fs (arcClass mixed) none name = .ok s ∧ collect offs rounds s = meaningInDamaged e mixed rounds [] data := by
  have hng : nameGz name = true := by
    rw [nameGz]; exact (endsWith_iff _ _).2 hn
  have hrest : (File.openFile stored).rest = stored := by simp [File.openFile, File.rest]
  have hg : gzipFileOf c (File.openFile stored) = { data := data, pos := 0, strictNeg := true, fault := some e } := by
    simp [gzipFileOf, hrest, hd]
  refine ⟨⟨{ data := data, pos := 0, strictNeg := true, fault := some e }, none, .gzipRecord, arcParserWith mixed none []⟩, ?_, ?_⟩
  · simp only [openName, hfs, hng]
    rw [openArchive_named c (arcClass mixed), hg]
    cases mixed <;> rfl
  · have h1 : (arcParserWith mixed none []).arcSt? = some ⟨none, []⟩ := by cases mixed <;> rfl
    have h2 : (arcParserWith mixed none []).isMixed = mixed := by cases mixed <;> rfl
    have h := collect_arc_damaged (e := e) offs rounds ⟨{ data := data, pos := 0, strictNeg := true, fault := some e }, none, .gzipRecord, arcParserWith mixed none []⟩
      ⟨none, []⟩ h1 (by simp) rfl rfl ⟨rfl, Nat.zero_le _⟩ rfl (by simp [File.rest]; omega)
    rw [h]
    have e2 : ({ data := data, pos := 0, strictNeg := true, fault := some e } : File).rest = data := by simp [File.rest]
    simp only [e2, h2]

/-! ### concrete cases: the data end at different places -/

/-- a filedesc record with its payload, and the header line of a second record -/
def halfArc : Bytes := b! "filedesc://a.arc 1.2.3.4 20100101000000 text/plain 66\n1 0 IA\nURL IP-address Archive-date Content-type Archive-length\nXX\n\nhttp://h/ 1.2.3.4 2010 text/html 3\n"

/-- in the second and in the third line of a filedesc record; behind them; a header line without its end; complete; with too few fields; and only line ends -/
theorem halfArc_heads :
    nextInDamaged false [] (b! "filedesc://a 2\n1 0 IA") = none ∧
    nextInDamaged false [] (b! "filedesc://a 2\n1 0 IA\nURL Archive-length") = none ∧
    nextInDamaged false [] (b! "filedesc://a 30\n1 0 IA\nURL Archive-length\n") = some (.record ⟨0, 42, .arcHeader, b! "1 0 IA",
      [(b! "URL", b! "filedesc://a"), (b! "Archive-length", b! "30")], [], [b! "filedesc://a 30\n", b! "1 0 IA\n", b! "URL Archive-length\n"], some 4, [b! "URL", b! "Archive-length"]⟩) ∧
    nextInDamaged false [b! "URL", b! "Archive-length"] (b! "\nhttp://h/ 3") = none ∧
    nextInDamaged false [b! "URL", b! "Archive-length"] (b! "\nhttp://h/ 3\n") = some (.record ⟨1, 13, .arc, [], [(b! "URL", b! "http://h/"), (b! "Archive-length", b! "3")], [], [],
      some 3, [b! "URL", b! "Archive-length"]⟩) ∧
    nextInDamaged false [b! "URL", b! "Archive-length"] (b! "http://h/\n") = some (.raises .typeError) ∧
    nextInDamaged false [] (b! "\r\n \n\t\n") = none ∧
    nextInDamaged true [] (b! "WARC/1.0\r\nContent-Length: 3\r\n") = none ∧ nextInDamaged false [] (b! "WARC/1.0\r\n") = some (.raises (.generic "missing filedesc")) := by
  decide +kernel

/-- the filedesc record is noted, of the second record nothing, with its payload cut or not there to its end -/
theorem halfArc_all :
    (meaningInDamaged .eofError false 300 [] (halfArc ++ b! "ab")).records.length = 1 ∧
    (meaningInDamaged .eofError false 300 [] (halfArc ++ b! "ab")).fin = .raised .eofError ∧
    (meaningInDamaged .eofError true 300 [] (halfArc ++ b! "abc\n")).records.map (fun g => (g.headers.head?.map Prod.snd, g.content.2)) =
      [(some (b! "filedesc://a.arc"), some (b! "XX\n")), (some (b! "http://h/"), some (b! "abc"))] ∧
    (meaningInDamaged .eofError true 300 [] (halfArc ++ b! "abc\n")).fin = .raised .eofError := by decide +kernel

/-- a compressed ARC file cut in its second member, with the toy codec -/
def cutArc : Bytes := toy.enc halfArc ++ (toy.enc (b! "abc\n\n")).take 4

theorem cutArc_dec : toy.dec cutArc = (halfArc ++ b! "a", some .eofError) := by decide +kernel

example (offs : Bool) : ∃ s, openName toy (fun _ => some cutArc) (arcClass false) none (b! "a.arc.gz") = .ok s ∧
    collect offs 300 s = meaningInDamaged .eofError false 300 [] (halfArc ++ b! "a") :=
  C117_file toy false (fun _ => some cutArc) (b! "a.arc.gz") cutArc (halfArc ++ b! "a") .eofError ⟨b! "a.arc", rfl⟩ rfl cutArc_dec offs 300 (by decide +kernel)

/-- a stream in the middle of such a file -/
def cutArcStream : Stream :=
  ⟨{ data := halfArc ++ b! "a", pos := 120, strictNeg := true, fault := some .eofError }, none, .gzipRecord, arcParserWith true none [b! "URL", b! "Rest"]⟩

example : DescribesInDamaged .eofError (nextInDamaged true [b! "URL", b! "Rest"] cutArcStream.fh.rest) false cutArcStream ∧
    (nextInDamaged true [b! "URL", b! "Rest"] cutArcStream.fh.rest).isSome = true :=
  ⟨C117_next .eofError false true none [b! "URL", b! "Rest"] (by decide) cutArcStream rfl (by decide) rfl rfl (by decide +kernel), by decide +kernel⟩

end Warc
