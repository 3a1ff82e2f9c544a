import Verif.Model.Arc2Warc
/-
  What an exception leaves of a compressed record (property C121).  `World.writeToGz` shows the output as it is before Python takes the frame of `write_to` down.
  CPython (3.11; observed with files and with standard output) then finalises the `GzipFile`, which closes it: the member is completed with what was written into it so far.
  The definitions here are those of /repo/hanzo/warctools/record.py, warc2warc.py and arc2warc.py with that taken into account; everything else is as in
  Model/Record.lean, Model/Tools.lean and Model/Arc2Warc.lean.
-/
namespace Warc
open Rx _root_.Warc.Stream

namespace World

/-- does `write_to` come to the point where it makes the `GzipFile`? (/repo/hanzo/warctools/record.py:168-170) -/
def opensGz (r : Rec) : Bool :=
  match r.cfile with
  | .unset => false
  | _ => !(hasCfile r && !r.cfileValid)

/-- `write_to(out, newline, gzip=True)` (/repo/hanzo/warctools/record.py:167-185), with the finalisation of the `GzipFile` when writing raises -/
def writeToGzLeft (enc : Bytes → Bytes) (nl : Bytes) : M World Unit := fun w =>
  match writeTo nl { w with out := [] } with
  | .ok () w' => .ok () { w' with out := w.out ++ enc w'.out }
  | .raise e w' => .raise e { w' with out := if opensGz w.rcd then w.out ++ enc w'.out else w.out }
  | .hang => .hang

end World

namespace Warc2Warc

/-- `process` with `-Z` (/repo/hanzo/warc2warc.py:35-64) -/
def processLeft (c : Codec) (z : Http.Zlib) (o : Opts) : M World Unit := do
  if o.decode then decodeRecord c z o
  World.writeToGzLeft c.enc CRLF

/-- `warc2warc -Z [options] name ...` (/repo/hanzo/warc2warc.py:66-88) -/
def mainLeft (c : Codec) (z : Http.Zlib) (fs : FS) (o : Opts) (names : List Bytes) : M Bytes Unit :=
  forFiles (fun name => onArchive c fs .warc none name (Tool.each (processLeft c z o))) names

end Warc2Warc

namespace Arc2Warc

/-- write a new record, compressed (/repo/hanzo/arc2warc.py:222-230, record.py:167-185) -/
def writeNewLeft (c : Codec) (n : New) : M XW Unit := onWorld fun w =>
  match allBytes n.headers with
  | some hs =>
    match World.writeToGzLeft c.enc CRLF { w with rcd := Rec.mkWarc (b! "WARC/1.0") hs (some n.ctype) (some n.content) } with
    | .ok () w' => .ok () { w' with rcd := w.rcd }
    | .raise e w' => .raise e { w' with rcd := w.rcd }
    | .hang => .hang
  | none => .raise .typeError { w with out := w.out ++ c.enc (partialHead n.headers) }

/-- `for warcrecord in warcs: warcrecord.write_to(out, gzip=True)` (/repo/hanzo/arc2warc.py:229-230) -/
def writeNewsLeft (c : Codec) : List New → M XW Unit
  | [] => pure ()
  | n :: ns => do
    writeNewLeft c n
    writeNewsLeft c ns

/-- the body of the loop in `main` (/repo/hanzo/arc2warc.py:222-230) -/
def handleLeft (c : Codec) (g : Cfg) : M XW Unit := do
  let s ← M.get
  if s.1.rcd.cls = .warc then onWorld (World.writeToGzLeft c.enc CRLF)
  else do
    let ns ← convert c g
    writeNewsLeft c ns

/-- `for record in fh: …` with the transformer (/repo/hanzo/arc2warc.py:221-230) -/
def loopLeft (c : Codec) (g : Cfg) : Nat → M (Tool × St) Unit
  | 0 => M.diverge
  | fuel + 1 => fun s =>
    match readRecord false s.1.strm with
    | .hang => .hang
    | .raise e t => .raise e ({ s.1 with strm := t }, s.2)
    | .ok e t =>
      match e.rcd with
      | none => if e.errors = [] then .ok () ({ s.1 with strm := t }, s.2)
          else .raise (.generic "Errors while decoding") ({ s.1 with strm := t }, s.2)
      | some r =>
        match handleLeft c g (⟨t, r, s.1.out⟩, s.2) with
        | .hang => .hang
        | .raise e w => .raise e (⟨w.1.strm, w.1.out⟩, w.2)
        | .ok () w => loopLeft c g fuel (⟨w.1.strm, w.1.out⟩, w.2)

/-- `for name in expand_files(input_files): …` with compressed output (/repo/hanzo/arc2warc.py:218-232) -/
def mainLeft (c : Codec) (fs : FS) (g : Cfg) : List Bytes → M (Bytes × St) Unit
  | [] => pure ()
  | name :: names => fun s =>
    match openName c fs .mixed none name with
    | .error e => .raise e s
    | .ok t =>
      match loopLeft c g (t.fh.rest.length + 2) (⟨t, s.1⟩, s.2) with
      | .hang => .hang
      | .raise e u => .raise e (u.1.out, u.2)
      | .ok () u => mainLeft c fs g names (u.1.out, u.2)

end Arc2Warc
end Warc
