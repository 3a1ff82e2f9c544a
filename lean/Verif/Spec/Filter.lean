import Verif.Spec.Tools
import Verif.Spec.HttpText
/-
  What warcfilter should select.
-/
namespace Warc.Spec
open _root_.Warc.Stream

/-- the value is there, is not empty, and matches -/
def matched (search : Bytes → Bool) : Option Bytes → Bool
  | some (b :: v) => search (b :: v)
  | _ => false

/-- what warcfilter looks at: the target uri (-U), the record type (-T), the content type (-C), the date (-D),
or every header value and the content -/
inductive Mode where
  | url | type | contentType | date | whole
  deriving DecidableEq

/-- the command line options -/
def Mode.opts : Mode → Bool → WarcFilter.Opts
  | .url, i => { url := true, invert := i }
  | .type, i => { type := true, invert := i }
  | .contentType, i => { contentType := true, invert := i }
  | .date, i => { warcDate := true, invert := i }
  | .whole, i => { invert := i }

/-- the record matches -/
def Mode.selects (m : Mode) (search : Bytes → Bool) (r : R) : Bool :=
  match m with
  | .url => matched search (firstValue (b! "WARC-Target-URI") r.headers)
  | .type => matched search (firstValue (b! "WARC-Type") r.headers)
  | .contentType => matched search (firstValue (b! "Content-Type") r.headers)
  | .date => matched search (firstValue (b! "WARC-Date") r.headers)
  | .whole => r.headers.any (fun h => search h.2) || search r.body

/-- the record as it is written: `rewritten` if its content was read -/
def Mode.copy (m : Mode) (r : R) : R :=
  match m with
  | .whole => r.rewritten
  | .contentType => if firstValue (b! "Content-Type") r.headers = none then r.rewritten else r
  | _ => r

/-- a response record that carries an HTTP message -/
def isHttp (r : R) : Bool :=
  firstValue (b! "WARC-Type") r.headers == some (b! "response") &&
  match firstValue (b! "Content-Type") r.headers with
  | some t => (b! "application/http").isPrefixOf t
  | none => false

/-- the media type of an HTTP message: the first Content-Type field up to the semicolon -/
def mediaType (x : Http.Message) : Option Bytes :=
  (firstValue (b! "Content-Type") x.fields).map fun v => v.takeWhile (· ≠ 59)

end Warc.Spec
