import Verif.Model.Tools
import Verif.Model.HttpMore
/-
  Model of `ArchiveRecord.dump` (/repo/hanzo/warctools/record.py:143-165) and of warcdump (/repo/hanzo/warcdump.py).

  What is printed is text; it is given here in latin-1 (one byte per character), which is how the code turns header
  bytes into text.  Not modelled: file names with characters outside latin-1, an output encoding that cannot show a
  character, option parsing (the branch that reads `sys.stdin` is in Model/Stdin).
-/
namespace Warc
open _root_.Warc.Stream

/-- an upper case hexadecimal digit -/
def upperHexDigit (n : Nat) : Byte := if n < 10 then UInt8.ofNat (48 + n) else UInt8.ofNat (55 + n)

/-- `'%00X' % n` for `n < 256`: no padding, the width is 0 -/
def upperHex (n : Nat) : Bytes :=
  if n < 16 then [upperHexDigit n] else [upperHexDigit (n / 16), upperHexDigit (n % 16)]

/-- one byte in `strip.sub(lambda x: ('\\x%00X' % ord(x.group())).encode('ascii'), ...)`
(/repo/hanzo/warctools/record.py:9, 154): `strip` is `[^\w\t \|\\\/]` -/
def escapeByte (b : Byte) : Bytes :=
  if isWord b || b == 9 || b == 32 || b == 124 || b == 92 || b == 47 then [b]
  else 92 :: 120 :: upperHex b.toNat

/-- `repr` of an entry of an error list, a tuple of `str` and `bytes` (what `print('\t', e)` shows) -/
def Err.repr : Err → Bytes
  | .ignoredLine l => b! "('ignored line', " ++ Http.reprBytes l ++ b! ")"
  | .tooMany => b! "('too many errors, giving up hope',)"
  | .badNlVersion nl => b! "('incorrect newline in version', " ++ Http.reprBytes nl ++ b! ")"
  | .badPrefix p => b! "('bad prefix on WARC version header', " ++ Http.reprBytes p ++ b! ")"
  | .badNlHeader nl => b! "('incorrect newline in header', " ++ Http.reprBytes nl ++ b! ")"
  | .badNlFollow l nl => b! "('incorrect newline in follow header', " ++ Http.reprBytes l ++ b! ", " ++ Http.reprBytes nl ++ b! ")"
  | .invalidHeader n v => b! "('invalid header', " ++ Http.reprBytes n ++ b! ", " ++ Http.reprBytes v ++ b! ")"

namespace World

/-- `print(text)` -/
def print (text : Bytes) : M World Unit := write (text ++ [10])

/-- `for (h, v) in self.headers: print('\t%s:%s' % ...)` (/repo/hanzo/warctools/record.py:145-146) -/
def printHeaders : List Header → M World Unit
  | [] => pure ()
  | h :: hs => do
    print (9 :: h.1 ++ [58] ++ h.2)
    printHeaders hs

/-- `record.dump(content)` (/repo/hanzo/warctools/record.py:143-165).  `self.content` is a pair, so it is true; a missing
content type or buffer has no `decode` or `len`; an entry of `self.errors` is a tuple (record.py:51-52), which cannot be
added to `'\t'`. -/
def dump (withContent : Bool) : M World Unit := do
  print (b! "Headers:")
  let w ← M.get
  printHeaders w.rcd.headers
  if withContent then do
    let c ← content
    print (b! "Content Headers:")
    match c.1 with
    | none => M.throw .attributeError
    | some t => print (9 :: w.rcd.cls.contentTypeName ++ b! " : " ++ t)
    match c.2 with
    | none => M.throw .typeError
    | some body => do
      print (9 :: w.rcd.cls.contentLengthName ++ b! " : " ++ decimal body.length)
      print (b! "Content:")
      print (9 :: (body.take (min 1024 body.length)).flatMap escapeByte)
      print (b! "\t...")
      print []
  else do
    print (b! "Content: none")
    print []
    print []
  if w.rcd.errors = [] then pure ()
  else do
    print (b! "Errors:")
    M.throw .typeError

end World

namespace WarcDump

/-- `print(text)` while no record is at hand -/
def print (text : Bytes) : M Tool Unit := M.modify fun t => { t with out := t.out ++ text ++ [10] }

/-- `for e in errors: print('\t', e)` (/repo/hanzo/warcdump.py:48-49) -/
def printErrors : List Err → M Tool Unit
  | [] => pure ()
  | e :: es => do
    print (b! "\t " ++ e.repr)
    printErrors es

/-- the body of the loop of `dump_archive` (/repo/hanzo/warcdump.py:43-52) -/
def entry (name : Bytes) (e : Entry) : M Tool Unit :=
  match e.rcd with
  | some r => do
    print (b! "archive record at " ++ name ++ [58] ++ WarcIndex.offsetText e.offset)
    Tool.withRecord r (World.dump true)
  | none =>
    if e.errors ≠ [] then do
      print (b! "warc errors at " ++ name ++ [58] ++ decimal (e.offset.getD 0))
      printErrors e.errors
    else do
      print []
      print (b! "note: no errors encountered in tail of file")

/-- `dump_archive(fh, name)` (/repo/hanzo/warcdump.py:42-52) -/
def dumpArchive (name : Bytes) : M Tool Unit := fun t =>
  Stream.forRecords Tool.onStream true (entry name) (Tool.rounds t) none t

/-- `warcdump name ...` (/repo/hanzo/warcdump.py:24-40): what is printed -/
def main (c : Codec) (fs : FS) (names : List Bytes) : M Bytes Unit :=
  forFiles (fun name => onArchive c fs .warc none name (dumpArchive name)) names

end WarcDump
end Warc
