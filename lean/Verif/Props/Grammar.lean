import Verif.Proofs.ReadAll
import Verif.Props.ArcSeek
set_option linter.all false
/-
  C106: what every sequence of bytes means as a WARC file.
-/
namespace Warc
open Rx Stream Spec

/-- what asking the stream `s` for the next record does, if the bytes in front of it mean `n` -/
def Spec.Next.Describes (n : Next) (offs : Bool) (s : Stream) : Prop :=
  match n with
  | .none errors size => readRecord offs s = .ok ⟨reported s.kind offs (s.fh.pos + size), Option.none, errors⟩ (s.adv size)
  | .record start version headers errors size => readRecord offs s =
      .ok ⟨reported s.kind offs (s.fh.pos + start), some { parsed version headers with errors := errors }, []⟩
        { s.adv size with eoc := some (declaredLength headers) }
  | .unknown => ∃ s', readRecord offs s = .raise .typeError s'
  | .stuck => readRecord offs s = .hang

/-- **C106** For every sequence of bytes: the next record, its offset, version, headers and complaints, where its payload begins and how long it is (or that there is no
record, an unknown version, or a header block that is never left) is what the grammar `Spec.next` says. -/
theorem C106_next (offs : Bool) (s : Stream) (hp : s.parser = .warc) (hk : s.kind ≠ .gzipFile) (he : s.eoc = none) (hf : s.fh.fault = none) :
    (next s.fh.rest).Describes offs s := by
  have h := readRecord_exact offs s hp hk he hf
  unfold Spec.Next.Describes
  cases hn : next s.fh.rest with
  | none a b => rw [hn] at h; exact h
  | record a b c d e => rw [hn] at h; exact h
  | unknown => rw [hn] at h; exact h
  | stuck => rw [hn] at h; exact h

/-- the stream that a reader at position `o` of an uncompressed file has -/
def readerFrom (data : Bytes) (o : Nat) : Stream := ⟨{ File.openFile data with pos := o }, none, .plain, .warc⟩

/-- **C106** Reading all records with their contents from any position of any file that is not taken for a compressed one: what is noted is what the grammar says,
record by record, up to the end of the file or the error that ends the loop. -/
theorem C106_file (c : Codec) (data : Bytes) (o : Nat) (gz : GzMode) (hgz : gz = .auto ∨ gz = .off) (hg : ¬ [0x1f, 0x8b] <+: data.drop o)
    (offs : Bool) (rounds : Nat) (hr : data.length < rounds) :
    openArchive c (some .warc) false gz (some o) data = .ok (readerFrom data o) ∧
    collect offs rounds (readerFrom data o) = meaning (fun p => if offs then some p else none) rounds o (data.drop o) := by
  constructor
  · rw [openArchive_at_any c (some .warc) gz data o hgz hg]; rfl
  · have hrest : (readerFrom data o).fh.rest = data.drop o := by simp [readerFrom, File.openFile, File.rest]
    have h := collect_exact offs rounds (readerFrom data o) rfl (by simp [readerFrom]) rfl rfl rfl (by rw [hrest, List.length_drop]; omega)
    rw [h, hrest]
    have : (reported (readerFrom data o).kind offs) = fun p => if offs then some p else none := by
      funext p; rfl
    rw [this]; rfl

/-- **C106** The same for a compressed file (by its name) that decompresses without an error; no offsets are reported. -/
theorem C106_compressed (c : Codec) (fs : FS) (name stored data : Bytes) (hn : b! ".gz" <:+ name) (hfs : fs name = some stored)
    (hd : c.dec stored = (data, none)) (offs : Bool) (rounds : Nat) (hr : data.length < rounds) :
    ∃ s, openName c fs .warc none name = .ok s ∧ collect offs rounds s = meaning (fun _ => none) rounds 0 data := by
  have hng : nameGz name = true := by
    rw [nameGz]; exact (endsWith_iff _ _).2 hn
  have hrest : (File.openFile stored).rest = stored := by simp [File.openFile, File.rest]
  have hg : gzipFileOf c (File.openFile stored) = { data := data, pos := 0, strictNeg := true, fault := none } := by
    simp [gzipFileOf, hrest, hd]
  refine ⟨⟨{ data := data, pos := 0, strictNeg := true, fault := none }, none, .gzipRecord, .warc⟩, ?_, ?_⟩
  · simp only [openName, hfs, hng]
    rw [openArchive_named c .warc, hg]; rfl
  · have h := collect_exact offs rounds ⟨{ data := data, pos := 0, strictNeg := true, fault := none }, none, .gzipRecord, .warc⟩ rfl (by simp) rfl rfl rfl
      (by simp [File.rest]; omega)
    rw [h]
    have e1 : (reported Kind.gzipRecord offs) = fun _ => none := by funext p; rfl
    have e2 : ({ data := data, pos := 0, strictNeg := true, fault := none } : File).rest = data := by simp [File.rest]
    simp only [e1, e2]

/-! ### concrete cases: the grammar on messy bytes -/

/-- junk, a prefix, folded and misspelled header lines, LF line ends, a bad Content-Type, a payload and what stands behind it -/
def messy : Bytes := b! "\r\njunk\nxx WARC/1.0\nA b : c\r\n  d \n\te\r\ncontent-TYPE:\r\nContent-Length: 3\r\n\r\nabc\r\n\r\nmore"

theorem messy_next : next messy = .record 9 (b! " WARC/1.0")
    [(b! "A b", b! "c d e"), (b! "content-TYPE", []), (b! "Content-Length", b! "3")]
    [.ignoredLine (b! "junk\n"), .badNlVersion (b! "\n"), .badPrefix (b! "xx"), .badNlFollow (b! "  d \n") (b! "\n"),
      .badNlHeader (b! "\n"), .invalidHeader (b! "content-TYPE") []] 73 := by decide +kernel

theorem messy_all : meaning some 99 0 messy =
    ⟨[⟨some 9, b! " WARC/1.0", [(b! "A b", b! "c d e"), (b! "content-TYPE", []), (b! "Content-Length", b! "3")],
        [.ignoredLine (b! "junk\n"), .badNlVersion (b! "\n"), .badPrefix (b! "xx"), .badNlFollow (b! "  d \n") (b! "\n"),
          .badNlHeader (b! "\n"), .invalidHeader (b! "content-TYPE") []], (some [], some (b! "abc"))⟩],
      some ⟨some 84, none, [.ignoredLine (b! "more")]⟩, .done⟩ := by decide +kernel

example := C106_next true (readerFrom messy 0) rfl (by decide) rfl rfl
example := C106_file toy messy 0 .auto (Or.inl rfl) (by decide) true 99 (by decide)

/-- the other outcomes -/
example : next (b! "WARC/2.0\r\n\r\n") = .unknown ∧ next (b! "WARC/1.0\r\nno field\r\n\r\n") = .stuck ∧
    next (b! "a\nb\nc\n\nd\ne\nf\ng\n") = .none
      [.ignoredLine (b! "a\n"), .ignoredLine (b! "b\n"), .ignoredLine (b! "c\n"), .ignoredLine (b! "d\n"), .ignoredLine (b! "e\n"),
        .ignoredLine (b! "f\n"), .tooMany] 13 := by decide +kernel

example : ∃ (fs : FS) (name stored data : Bytes), b! ".gz" <:+ name ∧ fs name = some stored ∧ toy.dec stored = (data, none) ∧ next data = next messy :=
  ⟨fun _ => some (toy.enc messy), b! "a.gz", toy.enc messy, messy, ⟨b! "a", rfl⟩, rfl, by have := toy_laws.members [messy]; simpa using this, rfl⟩

end Warc
