import Verif.Proofs.GrammarDamaged
import Verif.Props.Grammar
import Verif.Props.ToolRun
set_option linter.all false
/-
  C113: what the bytes of a damaged compressed file mean.
-/
namespace Warc
open Rx Stream Spec

/-- what asking the stream `s` for the next record does, if the data in front of the damage mean `n` -/
def Spec.DescribesDamaged (e : Exc) (n : Option Next) (offs : Bool) (s : Stream) : Prop :=
  match n with
  | none => ∃ s', readRecord offs s = .raise e s'
  | some n => n.Describes offs s

/-- **C113** The next record of a damaged compressed file (the data that are left are `s.fh.rest`, and the decompressor raises `e` when a read goes past them): a record is found
exactly if its head is there completely, and then it is the one that an undamaged file with the same bytes has; otherwise the exception of the decompressor comes through. -/
theorem C113_next (e : Exc) (offs : Bool) (s : Stream) (hp : s.parser = .warc) (hk : s.kind ≠ .gzipFile) (he : s.eoc = none)
    (hf : s.fh.fault = some e) (hpos : s.fh.pos ≤ s.fh.data.length) :
    DescribesDamaged e (nextDamaged s.fh.rest) offs s := by
  have h := readRecord_damaged offs s ⟨hf, hpos⟩ hp hk he
  unfold DescribesDamaged Spec.Next.Describes
  cases hn : nextDamaged s.fh.rest with
  | none => rw [hn] at h; exact h
  | some n =>
    cases n with
    | none a b => rw [hn] at h; exact h.1
    | record a b c d e => rw [hn] at h; exact h.1
    | unknown => rw [hn] at h; exact h
    | stuck => rw [hn] at h; exact h

/-- **C113** Reading all records of a compressed file that is damaged anywhere, in any way, of any content: if the decompressor gives `data` and then raises `e`, what is noted
is what the grammar says, record by record, and the exception comes through unless the loop has ended before. -/
theorem C113_file (c : Codec) (fs : FS) (name stored data : Bytes) (e : Exc) (hn : b! ".gz" <:+ name) (hfs : fs name = some stored)
    (hd : c.dec stored = (data, some e)) (offs : Bool) (rounds : Nat) (hr : data.length < rounds) :
    ∃ s, openName c fs .warc none name = .ok s ∧ collect offs rounds s = meaningDamaged e rounds data := by
  have hng : nameGz name = true := by
    rw [nameGz]; exact (endsWith_iff _ _).2 hn
  have hrest : (File.openFile stored).rest = stored := by simp [File.openFile, File.rest]
  have hg : gzipFileOf c (File.openFile stored) = { data := data, pos := 0, strictNeg := true, fault := some e } := by
    simp [gzipFileOf, hrest, hd]
  refine ⟨⟨{ data := data, pos := 0, strictNeg := true, fault := some e }, none, .gzipRecord, .warc⟩, ?_, ?_⟩
  · simp only [openName, hfs, hng]
    rw [openArchive_named c .warc, hg]; rfl
  · have h := collect_damaged (e := e) offs rounds ⟨{ data := data, pos := 0, strictNeg := true, fault := some e }, none, .gzipRecord, .warc⟩ rfl rfl rfl
      ⟨rfl, Nat.zero_le _⟩ rfl (by simp [File.rest]; omega)
    rw [h]
    have e2 : ({ data := data, pos := 0, strictNeg := true, fault := some e } : File).rest = data := by simp [File.rest]
    simp only [e2]

/-! ### concrete cases: the data end at different places -/

/-- a complete record, and the head of a second one -/
def halfRead : Bytes := b! "WARC/1.0\r\nContent-Length: 2\r\n\r\nhi\r\n\r\nWARC/1.0\r\nContent-Length: 3\r\n\r\n"

/-- in the middle of the header block, directly behind it, in the middle of the payload, behind the payload -/
theorem halfRead_heads :
    nextDamaged (b! "WARC/1.0\r\nContent-Length: 3\r\n") = none ∧
    nextDamaged (b! "WARC/1.0\r\nContent-Length: 3\r\n\r") = none ∧
    nextDamaged (b! "WARC/1.0\r\nContent-Length: 3\r\n\r\n") = some (.record 0 (b! "WARC/1.0") [(b! "Content-Length", b! "3")] [] 31) ∧
    nextDamaged (b! "\r\n\r\n") = none ∧
    nextDamaged (b! "a\nb\nc\nd\ne\nWARC/1.0") = none ∧
    nextDamaged (b! "a\nb\nc\nd\ne\nf\nWARC") = some (.none [.ignoredLine (b! "a\n"), .ignoredLine (b! "b\n"), .ignoredLine (b! "c\n"),
      .ignoredLine (b! "d\n"), .ignoredLine (b! "e\n"), .ignoredLine (b! "f\n"), .tooMany] 12) ∧
    nextDamaged (b! "WARC/2.0\r\n") = some .unknown ∧ nextDamaged (b! "WARC/1.0\r\nno field\r\n") = some .stuck := by decide +kernel

/-- the first record is noted, of the second one nothing, even with its head there -/
theorem halfRead_all :
    meaningDamaged .eofError 99 (halfRead ++ b! "ab") =
      ⟨[⟨none, b! "WARC/1.0", [(b! "Content-Length", b! "2")], [], (none, some (b! "hi"))⟩], none, .raised .eofError⟩ ∧
    (meaningDamaged .eofError 99 (halfRead ++ b! "abc")).records.length = 2 ∧
    (meaningDamaged .eofError 99 (halfRead ++ b! "abc")).fin = .raised .eofError := by decide +kernel

/-- a file cut in its second member, with the toy codec -/
def cutTwice : Bytes := toy.enc halfRead ++ (toy.enc (b! "abc\r\n\r\n")).take 4

theorem cutTwice_dec : toy.dec cutTwice = (halfRead ++ b! "a", some .eofError) := by decide +kernel

theorem cutTwice_all : meaningDamaged .eofError 99 (halfRead ++ b! "a") =
    ⟨[⟨none, b! "WARC/1.0", [(b! "Content-Length", b! "2")], [], (none, some (b! "hi"))⟩], none, .raised .eofError⟩ := by decide +kernel

example (offs : Bool) : ∃ s, openName toy (fun _ => some cutTwice) .warc none (b! "a.gz") = .ok s ∧
    collect offs 99 s = ⟨[⟨none, b! "WARC/1.0", [(b! "Content-Length", b! "2")], [], (none, some (b! "hi"))⟩], none, .raised .eofError⟩ := by
  rw [← cutTwice_all]
  exact C113_file toy (fun _ => some cutTwice) (b! "a.gz") cutTwice (halfRead ++ b! "a") .eofError ⟨b! "a", rfl⟩ rfl cutTwice_dec offs 99 (by decide)

/-- a stream in the middle of such a file -/
def cutStream2 : Stream := ⟨{ data := halfRead ++ b! "a", pos := 37, strictNeg := true, fault := some .eofError }, none, .gzipRecord, .warc⟩

example : nextDamaged cutStream2.fh.rest = some (.record 0 (b! "WARC/1.0") [(b! "Content-Length", b! "3")] [] 31) ∧
    DescribesDamaged .eofError (nextDamaged cutStream2.fh.rest) false cutStream2 :=
  ⟨by decide +kernel, C113_next .eofError false cutStream2 rfl (by decide) rfl rfl (by decide)⟩

end Warc
