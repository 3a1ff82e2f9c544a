import Verif.Py.Rx
import Verif.Model.Record
/-
  Model of the WARC parser: /repo/hanzo/warctools/warc.py:155-281.
-/
namespace Warc

open Rx

/-- `(?P<nl>\r\n|\r|\n)` (/repo/hanzo/warctools/warc.py:160-163). -/
def nlGroup : Rx := group .nl (alt (str CRLF) (alt (lit 13) (lit 10)))

/-- `version_rx` (/repo/hanzo/warctools/warc.py:159-160):
`^(?P<prefix>.*?)(?P<version>\s*WARC/(?P<number>.*?))(?P<nl>\r\n|\r|\n)\Z`, IGNORECASE. -/
def versionRx : Rx :=
  seqs [bos, group .prefix_ (starL isDot),
        group .version (seqs [starG isWs, strI (b! "WARC/"), group .number (starL isDot)]),
        nlGroup, eos]

/-- `header_rx` (/repo/hanzo/warctools/warc.py:162):
`^(?P<name>.*?):\s?(?P<value>.*?)(?P<nl>\r\n|\r|\n)\Z`. -/
def headerRx : Rx :=
  seqs [bos, group .name (starL isDot), lit 58, opt (cls isWs), group .value (starL isDot),
        nlGroup, eos]

/-- `value_rx` (/repo/hanzo/warctools/warc.py:163): `^\s+(?P<value>.+?)(?P<nl>\r\n|\r|\n)\Z`. -/
def valueRx : Rx :=
  seqs [bos, cls isWs, starG isWs, group .value (seq (cls isDot) (starL isDot)), nlGroup, eos]

/-- `nl_rx` (/repo/hanzo/warctools/warc.py:164): `^(?P<nl>\r\n|\r|\n\Z)`. -/
def nlRx : Rx :=
  seq bos (group .nl (alt (str CRLF) (alt (lit 13) (seq (lit 10) eos))))

/-- `length_rx` (/repo/hanzo/warctools/warc.py:165): `^Content-Length$`, IGNORECASE. -/
def lengthRx : Rx := seqs [bos, strI WH.CONTENT_LENGTH, dollar]

/-- `type_rx` (/repo/hanzo/warctools/warc.py:166): `^Content-Type$`, IGNORECASE. -/
def typeRx : Rx := seqs [bos, strI WH.CONTENT_TYPE, dollar]

/-- does `rx.match(s)` succeed? -/
def rxTest (r : Rx) (s : Bytes) : Bool := (pmatch r s).isSome

/-- `bad_lines` (/repo/hanzo/warctools/warc.py:10). -/
def badLines : Nat := 5

/-- `WarcParser.KNOWN_VERSIONS` (/repo/hanzo/warctools/warc.py:177). -/
def knownVersions : List Bytes := [b! "1.0", b! "0.17", b! "0.18"]

namespace WarcParser

/-- How the search for the version line ends. -/
inductive VLoop where
  /-- a version line was found (warc.py:194-198) -/
  | found (mt : Match) (errors : List Err) (offset : Option Nat)
  /-- more than `bad_lines` junk lines (warc.py:204-206) -/
  | giveUp (errors : List Err) (offset : Option Nat)
  /-- end of file (warc.py:208-211) -/
  | eof (errors : List Err) (offset : Option Nat)
  deriving Repr, DecidableEq

/-- The loop that looks for a version line (/repo/hanzo/warctools/warc.py:191-207). -/
def versionLoop : Nat → Bytes → List Err → Option Nat → M Stream VLoop
  | 0, _, _, _ => M.diverge
  | fuel + 1, line, errors, offset =>
    if line = [] then pure (.eof errors offset)
    else match pmatch versionRx line with
    | some mt => pure (.found mt errors (offset.map (· + (mt.grp .prefix_).length)))
    | none =>
      let offset := offset.map (· + line.length)
      if rxTest nlRx line then do
        let line ← Stream.readline none
        versionLoop fuel line errors offset
      else
        let errors := errors ++ [Err.ignoredLine line]
        if badLines < errors.length then pure (.giveUp (errors ++ [Err.tooMany]) offset)
        else do
          let line ← Stream.readline none
          versionLoop fuel line errors offset

/-- State of the header loop: headers and errors of the record under construction, and
`content_length` (/repo/hanzo/warctools/warc.py:213-216).  (`content_type` is assigned but never
used by the code.) -/
structure HState where
  headers : List Header
  errors : List Err
  contentLength : Int
  deriving Repr, DecidableEq

/-- The continuation-line loop (/repo/hanzo/warctools/warc.py:245-254): `line` is the line just
read; returns the first line that is not a continuation, the collected value pieces and errors. -/
def followLoop : Nat → Bytes → List Bytes → List Err → M Stream (Bytes × List Bytes × List Err)
  | 0, _, _, _ => M.diverge
  | fuel + 1, line, value, errors =>
    match pmatch valueRx line with
    | none => pure (line, value, errors)
    | some mt =>
      let errors := if mt.grp .nl ≠ CRLF then errors ++ [Err.badNlFollow line (mt.grp .nl)] else errors
      let value := value ++ [strip (mt.grp .value)]
      do
        let line ← Stream.readline none
        followLoop fuel line value errors

/-- What the parser does with a complete header (/repo/hanzo/warctools/warc.py:258-271). -/
def addHeader (st : HState) (name value : Bytes) : HState :=
  let st := { st with headers := st.headers ++ [(name, value)] }
  if rxTest typeRx name then
    if value ≠ [] then st
    else { st with errors := st.errors ++ [Err.invalidHeader name value] }
  else if rxTest lengthRx name then
    match pyInt 10 value with
    | some n => { st with contentLength := n }
    | none => { st with errors := st.errors ++ [Err.invalidHeader name value] }
  else st

/-- The header loop (/repo/hanzo/warctools/warc.py:233-271).  Note that a line which is not blank
and does not match `header_rx` changes nothing: the Python loop runs again with the same line. -/
def headerLoop : Nat → Bytes → HState → M Stream HState
  | 0, _, _ => M.diverge
  | fuel + 1, line, st =>
    if line = [] ∨ rxTest nlRx line then pure st
    else match pmatch headerRx line with
    | none => headerLoop fuel line st
    | some mt =>
      let errors := if mt.grp .nl ≠ CRLF then st.errors ++ [Err.badNlHeader (mt.grp .nl)]
                    else st.errors
      let name := strip (mt.grp .name)
      let value := [strip (mt.grp .value)]
      do
        let s ← M.get
        let line ← Stream.readline none
        let (line, value, errors) ← followLoop (s.fh.rest.length + 2) line value errors
        headerLoop fuel line (addHeader { st with errors := errors } name (join [32] value))

/-- Checks on the version line (/repo/hanzo/warctools/warc.py:216-229): the resulting error list,
or `none` for an unknown version number, where building the message with
`",".join(self.KNOWN_VERSIONS)` (a `str` joined over `bytes`) raises `TypeError`. -/
def versionErrors (mt : Match) (errors : List Err) : Option (List Err) :=
  let errors := if mt.grp .nl ≠ CRLF then errors ++ [Err.badNlVersion (mt.grp .nl)] else errors
  if knownVersions.contains (mt.grp .number) then
    some (if mt.grp .prefix_ ≠ [] then errors ++ [Err.badPrefix (mt.grp .prefix_)] else errors)
  else none

/-- Result of a parser: (record or None, errors, offset). -/
abbrev ParseOut := Option Rec × List Err × Option Nat

/-- `WarcParser.parse` (/repo/hanzo/warctools/warc.py:179-281) with `line` given. -/
def parse (offset : Option Nat) (line : Bytes) : M Stream ParseOut := do
  let s ← M.get
  let v ← versionLoop (s.fh.rest.length + 2) line [] offset
  match v with
  | .eof errors offset => pure (none, errors, offset)
  | .giveUp errors offset => pure (none, errors, offset)
  | .found mt errors offset =>
    match versionErrors mt errors with
    | none => M.throw .typeError
    | some errors =>
      let s ← M.get
      let line ← Stream.readline none
      let st ← headerLoop (s.fh.rest.length + 2) line ⟨[], errors, 0⟩
      M.modify fun s => { s with eoc := some st.contentLength }
      pure (some { cls := .warc, version := mt.grp .version, headers := st.headers,
                   errors := st.errors, content := none, cfile := .stream, cfileValid := true },
            [], offset)

end WarcParser
end Warc
