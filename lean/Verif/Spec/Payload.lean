import Verif.Spec.Arc
import Verif.Spec.Reads
/-
  The payload that a record announces, for WARC and ARC records; and the streams that a program can have in hand.
-/
namespace Warc.Spec
open _root_.Warc.Stream

/-- The number of payload bytes that a record which was read announces.  WARC: the last Content-Length that is a number
(0 if there is none).  ARC: the last Archive-length that is a number; `none` if there is none.  In a filedesc record
the version line and the line with the field names, which the reader has already taken, count too. -/
def payloadLength (r : Rec) : Option Int :=
  match r.cls with
  | .warc => some (declaredLength r.headers)
  | .arc => arcLength r.headers
  | .arcHeader => (arcLength r.headers).map fun n => n - ((r.rawHeaders.drop 1).flatten.length : Int)

/-- Streams that a program can have in hand: opened in any way on any file, and then used in any way: reading records,
successfully or not, calls on content files with any sizes, and seeks. -/
inductive Live (c : Codec) : Stream → Prop
  | opened {cls : Option RecClass} {name : Bool} {gz : GzMode} {off : Option Nat} {contents : Bytes} {s : Stream} :
      openArchive c cls name gz off contents = .ok s → Live c s
  | record {s s' : Stream} {offs : Bool} {e : Entry} : Live c s → readRecord offs s = .ok e s' → Live c s'
  | failedRecord {s s' : Stream} {offs : Bool} {e : Exc} : Live c s → readRecord offs s = .raise e s' → Live c s'
  | read {s s' : Stream} {n : Option Int} {a : Bytes} : Live c s → Stream.read n s = .ok a s' → Live c s'
  | failedRead {s s' : Stream} {n : Option Int} {e : Exc} : Live c s → Stream.read n s = .raise e s' → Live c s'
  | readline {s s' : Stream} {n : Option Int} {a : Bytes} : Live c s → Stream.readline n s = .ok a s' → Live c s'
  | failedReadline {s s' : Stream} {n : Option Int} {e : Exc} : Live c s → Stream.readline n s = .raise e s' → Live c s'
  | seek {s s' : Stream} {o : Int} {w : Nat} : Live c s → Stream.seek o w s = .ok () s' → Live c s'
  | failedSeek {s s' : Stream} {o : Int} {w : Nat} {e : Exc} : Live c s → Stream.seek o w s = .raise e s' → Live c s'

end Warc.Spec
