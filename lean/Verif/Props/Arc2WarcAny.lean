import Verif.Proofs.Arc2WarcAny
import Verif.Props.ToolRun
import Verif.Props.Arc2Warc
import Verif.Props.ArcGrammar
set_option linter.all false
/-
  C111: what arc2warc writes, as a function of the bytes of its input files.
-/
namespace Warc
open Rx Stream Spec

/-- **C111** `arc2warc` on any list of files, whatever is in them (compressed ones must decompress without an error), with any transformer: what is written, how the run ends and
the state of the transformer are what `Spec.convertFiles` says. -/
theorem C111_convert (c : Codec) (fs : FS) (g : Arc2Warc.Cfg) (gzip : Bool) (names : List Bytes) (hi : Intact c fs names) (out : Bytes) (st : Arc2Warc.St) :
    RanTo out (Arc2Warc.main c fs g gzip names (out, st)) (convertFiles c fs g gzip st names) := by
  have h := Arc2Warc.Any.main_any c fs g gzip names hi out st
  unfold RanTo
  cases hs : (convertFiles c fs g gzip st names).1.stop with
  | done => rw [hs] at h; exact h
  | raised e => rw [hs] at h; exact h
  | hangs => rw [hs] at h; exact h

/-- **C111** The command line. -/
theorem C111_command (c : Codec) (fs : FS) (sha1 : Bytes → Bytes) (clock : Nat → DateTime) (fields : Bytes) (gzip : Bool) (names : List Bytes) (hi : Intact c fs names) :
    RanTo [] (Arc2Warc.cli c fs sha1 clock fields none gzip [] [] names ([], {}))
      (convertFiles c fs { sha1 := sha1, now := clock, warcinfoFields := fields } gzip {} names) := by
  have h := C111_convert c fs { sha1 := sha1, now := clock, warcinfoFields := fields } gzip names hi [] {}
  simpa [Arc2Warc.cli] using h

/-- **C111 (defect)** With the option `-o`, whatever the files are, no ARC record is ever converted: the first one ends the run (or keeps it busy for ever), unless it was ended before. -/
theorem C111_output_option (c : Codec) (g : Arc2Warc.Cfg) (gzip : Bool) (file : String) (hf : file ≠ "") (hg : g.outputFilename = some (.str file)) (st : Arc2Warc.St)
    (hst : st.warcinfoId = none) (f : Located) (behind : Bytes) :
    match converted c g gzip st f behind with
    | .goes _ st' => f.cls = .warc ∧ st' = st
    | _ => True := by
  unfold converted
  cases hc : f.cls with
  | warc =>
    simp only
    unfold convertedWarc
    cases (if gzip = true then compressing c.enc ⟨none, f.version, f.headers, [], behind⟩ else copying ⟨none, f.version, f.headers, [], behind⟩) <;> simp
  | arcHeader =>
    simp only
    unfold convertedFiledesc
    cases firstValue (b! "URL") f.headers with
    | none => trivial
    | some url =>
      cases firstValue (b! "Archive-date") f.headers with
      | none => trivial
      | some date =>
        simp only
        cases metaMoment (g.now st.ticks) date with
        | none => trivial
        | some d =>
          cases contentOf f.length behind with
          | error e => trivial
          | ok body => simp only [hg, if_neg hf]
  | arc =>
    simp only
    unfold convertedData
    cases firstValue (b! "URL") f.headers with
    | none => trivial
    | some url =>
      cases firstValue (b! "Archive-date") f.headers with
      | none => trivial
      | some date =>
        simp only
        cases (if date = [] then some (g.now st.ticks) else momentOf date) with
        | none => trivial
        | some d =>
          cases contentOf f.length behind with
          | error e => trivial
          | ok body =>
            cases firstValue (b! "Content-type") f.headers with
            | none => trivial
            | some t =>
              simp only
              cases kindFor c g url (arcType t) body with
              | fails e => trivial
              | never => trivial
              | is type ctype => simp only [hst]

/-- **C111 (defect)** With one of the options `--resource` and `--response`, whatever the files are, no data record of an ARC file is ever converted: the first one ends the run. -/
theorem C111_prefix_option (c : Codec) (g : Arc2Warc.Cfg) (gzip : Bool) (x : String) (xs : List PyStr)
    (hg : g.resources = .str x :: xs ∨ (g.resources = [] ∧ g.responses = .str x :: xs)) (st : Arc2Warc.St) (f : Located) (behind : Bytes) (hc : f.cls = .arc) :
    ∃ e, converted c g gzip st f behind = .stops [] e := by
  unfold converted
  rw [hc]
  simp only
  have hk : ∀ url t body, kindFor c g url t body = .fails .typeError := by
    intro url t body
    have h1 : ∀ url ys, listed (.str x :: ys) url = none := by intro url ys; simp [listed]
    have h2 : ∀ url, listed [] url = some false := by intro url; simp [listed]
    unfold kindFor
    rcases hg with h | ⟨h, h'⟩
    · rw [h, h1]
    · rw [h, h', h1, h2]
  unfold convertedData
  cases firstValue (b! "URL") f.headers with
  | none => exact ⟨_, rfl⟩
  | some url =>
    cases firstValue (b! "Archive-date") f.headers with
    | none => exact ⟨_, rfl⟩
    | some date =>
      simp only
      cases (if date = [] then some (g.now st.ticks) else momentOf date) with
      | none => exact ⟨_, rfl⟩
      | some d =>
        cases contentOf f.length behind with
        | error e => exact ⟨_, rfl⟩
        | ok body =>
          cases firstValue (b! "Content-type") f.headers with
          | none => exact ⟨_, rfl⟩
          | some t => simp only [hk]; exact ⟨_, rfl⟩

/-! ### concrete cases -/

/-- a transformer with a stopped clock, and ids that are easy to read -/
def plainCfg : Arc2Warc.Cfg := { sha1 := fun _ => List.replicate 20 0xab, now := fun _ => ⟨2020, 1, 2, 3, 4, 5, 0, none⟩, warcinfoFields := b! "f" }

/-- of the messy ARC file of C107, the data records have dates that are none: the run ends at the first of them -/
theorem messyArc_converted : convertOn toy plainCfg false 999 {} [] messyArc =
    (⟨b! "WARC/1.0\r\nWARC-Type: warcinfo\r\nWARC-Record-ID: <urn:uuid:abababab-abab-abab-abab-abababababab>\r\nWARC-Date: 2020-01-02T03:04:05Z\r\nContent-Type: application/warc-fields\r\nContent-Length: 1\r\n\r\nf\r\n\r\nWARC/1.0\r\nWARC-Type: metadata\r\nWARC-Concurrent-To: <urn:uuid:abababab-abab-abab-abab-abababababab>\r\nWARC-Record-ID: <urn:uuid:abababab-abab-abab-abab-abababababab>\r\nWARC-Target-URI: a.arc\r\nWARC-Date: 2010-01-01T00:00:00Z\r\nWARC-Warcinfo-ID: <urn:uuid:abababab-abab-abab-abab-abababababab>\r\nContent-Type: application/arc\r\nContent-Length: 120\r\n\r\nfiledesc://a.arc 1.2.3.4 20100101000000 text/plain 66\n1 0 IA\nURL IP-address Archive-date Content-type Archive-length\nXX\n\r\n\r\n",
      .raised .valueError⟩, ⟨some (b! "<urn:uuid:abababab-abab-abab-abab-abababababab>"), 1⟩) := by decide +kernel

/-- a file with a record without a length, which takes the rest of the file; and with a blank content type -/
def endlessArc : Bytes := b! "filedesc://a 20100101000000 0 20\n1 0 IA\nURL Archive-date Content-type X\nftp://h/ 20100101 \x0b 3\nabc\nftp://h/ 20100101 text/html 3\nabc"

theorem endlessArc_converted : (convertOn toy plainCfg false 999 {} [] endlessArc).1.stop = .raised .typeError := by decide +kernel

def lengthArc (len : Bytes) : Bytes := b! "filedesc://a 20100101000000 - 52\n1 0 IA\nURL Archive-date Content-type Archive-length\nftp://h/ 20100101 x " ++ len ++ b! "\nabcd"

/-- announced lengths: fewer bytes than there are (the rest is a line with too few fields), all of them, more than there are, the length -1, and one below -/
example : (convertOn toy plainCfg false 999 {} [] (lengthArc (b! "3"))).1.stop = .raised .typeError ∧
    (convertOn toy plainCfg false 999 {} [] (lengthArc (b! "4"))).1.stop = .done ∧
    (convertOn toy plainCfg false 999 {} [] (lengthArc (b! "5"))).1.stop = .raised (.generic "expected more bytes") ∧
    (convertOn toy plainCfg false 999 {} [] (lengthArc (b! "-1"))).1 = (convertOn toy plainCfg false 999 {} [] (lengthArc (b! "4"))).1 ∧
    (convertOn toy plainCfg false 999 {} [] (lengthArc (b! "-2"))).1.stop = .raised .valueError := by decide +kernel

example : b! "WARC-Date: 2010-01-01T00:00:00Z\r\nWARC-Type: response\r\nContent-Type: x\r\nContent-Length: 4\r\n\r\nabcd\r\n\r\n" <:+
    (convertOn toy plainCfg false 999 {} [] (lengthArc (b! "4"))).1.text := by decide +kernel

example := C111_convert toy (fun n => if n = b! "a.arc" then some (lengthArc (b! "4")) else none) plainCfg false [b! "a.arc", b! "a.arc", b! "b"]
  (by intro n hn s hs hc; exfalso; by_cases h : n = b! "a.arc" <;> simp only [h, if_true, if_false] at hs <;> simp at hs <;> subst hs <;> subst h <;> revert hc <;> decide +kernel) [] {}

end Warc
