import Verif.Spec.Scan
import Verif.Spec.Tools
import Verif.Spec.Dump
import Verif.Spec.Concat
/-
  An uncompressed archive to which records are appended although the writing of a record was interrupted (property C102).
-/
namespace Warc.Spec
open _root_.Warc.Stream

/-- the version that the library writes -/
def v1 : Bytes := b! "WARC/1.0"

/-- Where the writing of a record stopped. -/
inductive Place where
  /-- inside `WARC/` (or before it) -/
  | tag (p : Bytes)
  /-- inside `1.0` CR LF: `p` of it was written -/
  | number (p : Bytes)
  /-- the headers `hs` are complete; of the next name `p` was written -/
  | name (hs : List Header) (p : Bytes)
  /-- the headers `hs` are complete; of `h` the name and the colon was written, and then `q` -/
  | value (hs : List Header) (h : Header) (q : Bytes)
  /-- the headers are complete; of the CR LF behind them only CR was written -/
  | blank
  /-- `j` bytes of the payload were written -/
  | payload (j : Nat)
  /-- the payload is complete; of the two CR LF behind it `T` was written -/
  | trailer (T : Bytes)

/-- the version line and these header lines -/
def begun (hs : List Header) : Bytes := v1 ++ CRLF ++ hs.flatMap headerLine

/-- what was written of the record -/
def Place.piece (r : R) : Place → Bytes
  | .tag p => p
  | .number p => b! "WARC/" ++ p
  | .name hs p => begun hs ++ p
  | .value hs h q => begun hs ++ (h.1 ++ 58 :: q)
  | .blank => begun r.headers ++ [13]
  | .payload j => begun r.headers ++ CRLF ++ r.body.take j
  | .trailer T => begun r.headers ++ CRLF ++ r.body ++ T

/-- the place exists in the record -/
def Place.In (r : R) : Place → Prop
  | .tag p => p <+: b! "WARC"
  | .number p => p <+: b! "1.0\r"
  | .name hs p => (∃ h t, r.headers = hs ++ h :: t ∧ p <+: h.1) ∨ hs = r.headers ∧ p = []
  | .value hs h q => (∃ t, r.headers = hs ++ h :: t) ∧ q <+: 32 :: h.2 ++ [13]
  | .blank => True
  | .payload j => j < r.body.length
  | .trailer T => T <+: b! "\r\n\r"

/-- The file called `name` holds the records `rs`, what was written of `r` until `pl`, and then records that were appended later, the first
of which is `r'`.  It is not compressed. -/
structure Resumed (fs : FS) (name : Bytes) (rs : List RT) (r : R) (pl : Place) (r' : R) (T' : Bytes) (ss : List RT) : Prop where
  before : OkT rs
  broken : r.Ok
  version : r.version = v1
  place : pl.In r
  after : OkT ((r', T') :: ss)
  version' : r'.version = v1
  file : fs name = some (archiveT rs ++ (pl.piece r ++ archiveT ((r', T') :: ss)))
  notGz : ¬ b! ".gz" <:+ name

/-- what a reader notes about the records of a list, the first of which stands at `pos` -/
def noting (offs : Bool) (pos : Nat) (rs : List RT) : List Got := (positions pos rs).map (gotAt (!offs))

/-- the error that is noted about a header whose value `v` is no number: none, unless it is a Content-Length -/
def lengthError (name v : Bytes) : List Err := if lower name = b! "content-length" then [Err.invalidHeader name v] else []

/-- the entry at the end of an uncompressed file of `n` bytes -/
def ended (offs : Bool) (n : Nat) : Option Entry := some ⟨reportedAt (!offs) n, none, []⟩

/-- a reader at the beginning of an uncompressed file -/
def readerOn (data : Bytes) : Stream := ⟨File.openFile data, none, .plain, .warc⟩

/-- what a reader notes if `k` more bytes stand in front -/
def Collected.later (k : Nat) (q : Collected) : Collected :=
  { q with records := q.records.map fun g => { g with offset := g.offset.map (k + ·) }, last := q.last.map (Entry.later k) }

/-- first these records, then the others -/
def Collected.behind (gs : List Got) (q : Collected) : Collected := { q with records := gs ++ q.records }

end Warc.Spec
