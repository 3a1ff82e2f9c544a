import Verif.Spec.Tools
import Verif.Model.Dump
/-
  What warcdump should print.
-/
namespace Warc.Spec
open _root_.Warc.Stream

/-- the characters shown as they are: ASCII letters and digits, `_`, tab, space, `|`, `\`, `/` -/
def PlainByte (b : Byte) : Prop :=
  (48 ≤ b ∧ b ≤ 57) ∨ (65 ≤ b ∧ b ≤ 90) ∨ (97 ≤ b ∧ b ≤ 122) ∨ b ∈ b! "_\t |\\/"

instance (b : Byte) : Decidable (PlainByte b) := by unfold PlainByte; infer_instance

/-- the upper case hexadecimal digits -/
def hexDigits : Bytes := b! "0123456789ABCDEF"

/-- the hexadecimal number of a byte, one digit if that is enough -/
def hexNumber (b : Byte) : Bytes :=
  let d := fun n => hexDigits.getD n 0
  if b.toNat < 16 then [d b.toNat] else [d (b.toNat / 16), d (b.toNat % 16)]

/-- the content as shown: at most 1024 bytes, with `\x` and a hexadecimal number for the others -/
def preview (content : Bytes) : Bytes :=
  (content.take 1024).flatMap fun b => if PlainByte b then [b] else b! "\\x" ++ hexNumber b

/-- the first lines of the block for a record -/
def dumpHead (file : Bytes) (g : Got) : Bytes :=
  b! "archive record at " ++ file ++ b! ":" ++ (match g.offset with | some n => decimal n | none => b! "None") ++ b! "\n" ++
  b! "Headers:\n" ++ (g.headers.flatMap fun h => b! "\t" ++ h.1 ++ b! ":" ++ h.2 ++ b! "\n")

/-- the rest of the block, for a record with a content type -/
def dumpContent (ctype content : Bytes) : Bytes :=
  b! "Content Headers:\n" ++ b! "\tContent-Type : " ++ ctype ++ b! "\n" ++
  b! "\tContent-Length : " ++ decimal content.length ++ b! "\n" ++
  b! "Content:\n" ++ b! "\t" ++ preview content ++ b! "\n\t...\n\n"

/-- the block for a record: complete, or up to the point where the tool gives up, with the exception -/
def dumpBlock (file : Bytes) (g : Got) : Bytes × Option Exc :=
  match firstValue (b! "Content-Type") g.headers with
  | none => (dumpHead file g ++ b! "Content Headers:\n", some .attributeError)
  | some t =>
    if g.errors = [] then (dumpHead file g ++ dumpContent t (g.content.2.getD []), none)
    else (dumpHead file g ++ dumpContent t (g.content.2.getD []) ++ b! "Errors:\n", some .typeError)

/-- what is printed for the records, up to the first on which the tool gives up -/
def dumpBlocks (file : Bytes) : List Got → Bytes × Option Exc
  | [] => ([], none)
  | g :: gs =>
    match (dumpBlock file g).2 with
    | some ex => ((dumpBlock file g).1, some ex)
    | none => ((dumpBlock file g).1 ++ (dumpBlocks file gs).1, (dumpBlocks file gs).2)

/-- what is printed at the end of the file -/
def tailNote (file : Bytes) (last : Entry) : Bytes :=
  if last.errors = [] then b! "\nnote: no errors encountered in tail of file\n"
  else b! "warc errors at " ++ file ++ b! ":" ++ decimal (last.offset.getD 0) ++ b! "\n" ++
    last.errors.flatMap fun e => b! "\t " ++ e.repr ++ b! "\n"

/-- what reading the stream with offsets gives, record contents included; there are never more records than bytes -/
def scanAll (s : Stream) : Collected := collect true (s.fh.rest.length + 2) s

/-- the file can be opened and read to its end, giving these records and this last entry -/
def Scans (c : Codec) (fs : FS) (name : Bytes) (gs : List Got) (last : Entry) : Prop :=
  ∃ s, openName c fs .warc none name = .ok s ∧ scanAll s = ⟨gs, some last, .done⟩

/-- the record has a Content-Type header and was read without errors -/
def Showable (g : Got) : Prop := firstValue (b! "Content-Type") g.headers ≠ none ∧ g.errors = []

/-- a record of a stored file as a reader sees it -/
def gotAt (compressed : Bool) (p : Nat × R) : Got :=
  ⟨reportedAt compressed p.1, p.2.version, p.2.headers, [], (firstValue (b! "Content-Type") p.2.headers, some p.2.body)⟩

/-- the value of a lower case hexadecimal digit -/
def LowerHex (d : Byte) (n : Nat) : Prop := n < 16 ∧ (b! "0123456789abcdef")[n]? = some d

/-- What the text between the quotes `q` of a Python bytes literal stands for. -/
inductive Literal (q : Byte) : Bytes → Bytes → Prop
  | nil : Literal q [] []
  | char {t b : Bytes} (c : Byte) (h1 : c ≠ q) (h2 : c ≠ 92) (h3 : 32 ≤ c) (h4 : c < 127) : Literal q t b → Literal q (c :: t) (c :: b)
  | quote {t b : Bytes} : Literal q t b → Literal q (92 :: q :: t) (q :: b)
  | backslash {t b : Bytes} : Literal q t b → Literal q (92 :: 92 :: t) (92 :: b)
  | tab {t b : Bytes} : Literal q t b → Literal q (92 :: 116 :: t) (9 :: b)
  | newline {t b : Bytes} : Literal q t b → Literal q (92 :: 110 :: t) (10 :: b)
  | ret {t b : Bytes} : Literal q t b → Literal q (92 :: 114 :: t) (13 :: b)
  | hex {t b : Bytes} (d e : Byte) (m n : Nat) (hd : LowerHex d m) (he : LowerHex e n) :
      Literal q t b → Literal q (92 :: 120 :: d :: e :: t) (UInt8.ofNat (16 * m + n) :: b)

end Warc.Spec
