import Verif.Model.WarcParser
/-
  Model of the ARC parser: /repo/hanzo/warctools/arc.py:63-194.
-/
namespace Warc

open Rx

/-- `\b\s|\s\b` (/repo/hanzo/warctools/arc.py:71). -/
def splitRx : Rx := alt (seq wordb (cls isWs)) (seq (cls isWs) wordb)

/-- Does `splitRx` match at a position with previous byte `prev`?  Every match is one byte long;
the returned list is the rest after it. -/
def splitAt? (prev : Option Byte) (rest : Bytes) : Option Bytes :=
  m splitRx ⟨prev, rest, []⟩ fun st => some st.rest

/-- `re.split` for `splitRx`: scan from the left, `cur` is the reversed current piece, `n` the
number of splits still allowed (`none` = unlimited). -/
def splitScan : Option Nat → Option Byte → Bytes → Bytes → List Bytes
  | _, _, [], cur => [cur.reverse]
  | n, prev, c :: cs, cur =>
    if n ≠ some 0 ∧ (splitAt? prev (c :: cs)).isSome then
      cur.reverse :: splitScan (n.map (· - 1)) (some c) cs []
    else splitScan n (some c) cs (c :: cur)

/-- `SPLIT(line, maxsplit)` (/repo/hanzo/warctools/arc.py:71); `maxsplit = 0` means unlimited, a
negative one means no split at all. -/
def arcSplit (line : Bytes) (maxsplit : Int) : List Bytes :=
  if maxsplit < 0 then [line]
  else if maxsplit = 0 then splitScan none none line []
  else splitScan (some maxsplit.toNat) none line []

/-- `length_rx` (/repo/hanzo/warctools/arc.py:69): `^Archive-length$`, IGNORECASE. -/
def arcLengthRx : Rx := seqs [bos, strI AH.CONTENT_LENGTH, dollar]

/-- `type_rx` (/repo/hanzo/warctools/arc.py:70): `^Content-type$`, IGNORECASE. -/
def arcTypeRx : Rx := seqs [bos, strI AH.CONTENT_TYPE, dollar]

namespace ArcParser

/-- The values of a header line (/repo/hanzo/warctools/arc.py:159-168), `names` being
`self.headers`. -/
def headerValues (names : List Bytes) (line : Bytes) : Except Exc (List Bytes) :=
  let line := rstripCRLF line
  let values := arcSplit line 0
  if names.length ≠ values.length then
    match names with
    | [] => .error .indexError          -- `self.headers[0]` on an empty list
    | n0 :: _ =>
      if n0 = AH.URL ∨ n0 = AH.CONTENT_TYPE then
        .ok ((arcSplit line.reverse ((names.length : Int) - 1)).reverse.map List.reverse)
      else .ok (arcSplit line ((names.length : Int) - 1))
  else .ok values

/-- `ArcParser.parse_header_list` (/repo/hanzo/warctools/arc.py:159-173).  When the counts still
differ the code means to raise `Exception('missing headers ...')`, but formatting the message
(`",".join` over bytes) raises `TypeError` first. -/
def parseHeaderList (names : List Bytes) (line : Bytes) : Except Exc (List Header) :=
  match headerValues names line with
  | .error e => .error e
  | .ok values =>
    if names.length ≠ values.length then .error .typeError
    else .ok (names.zip values)

/-- `ArcParser.get_content_headers` (/repo/hanzo/warctools/arc.py:176-194): the declared length and
the errors (`content_type` is computed but never used by the callers). -/
def contentHeaders : List Header → Option Int × List Err → Option Int × List Err
  | [], acc => acc
  | (name, value) :: rest, (len, errors) =>
    if rxTest arcTypeRx name then
      if value ≠ [] then contentHeaders rest (len, errors)
      else contentHeaders rest (len, errors ++ [Err.invalidHeader name value])
    else if rxTest arcLengthRx name then
      match pyInt 10 value with
      | some n => contentHeaders rest (some n, errors)
      | none => contentHeaders rest (len, errors ++ [Err.invalidHeader name value])
    else contentHeaders rest (len, errors)

/-- Skipping blank lines (/repo/hanzo/warctools/arc.py:98-101): `none` at end of file. -/
def skipBlank : Nat → Bytes → M Stream (Option Bytes)
  | 0, _ => M.diverge
  | fuel + 1, line =>
    if rstrip line = [] then
      if line = [] then pure none
      else do
        let line ← Stream.readline none
        skipBlank fuel line
    else pure (some line)

/-- `b'filedesc:'` -/
def filedescTag : Bytes := b! "filedesc:"

/-- `ArcParser.parse` (/repo/hanzo/warctools/arc.py:89-154) with `line` given; the parser state is
passed in and returned. On an exception the parser object keeps whatever was assigned before. -/
def parse (st : ArcSt) (setSt : ArcSt → M Stream Unit) (offset : Option Nat) (line : Bytes) :
    M Stream WarcParser.ParseOut := do
  let s ← M.get
  match ← skipBlank (s.fh.rest.length + 2) line with
  | none => pure (none, [], offset)
  | some line =>
    if startsWith line filedescTag then
      let versionLine ← Stream.readline none
      let namesLine ← Stream.readline none
      let arcVersion := strip versionLine
      match splitWs arcVersion with
      | [] => M.throw .indexError                   -- `arc_version.split()[0]`
      | v :: _ =>
        let st' : ArcSt := ⟨some v, splitWs (strip namesLine)⟩
        setSt st'
        match parseHeaderList st'.headers line with
        | .error e => M.throw e
        | .ok headers =>
          match contentHeaders headers (none, []) with
          | (none, _) => M.throw .typeError         -- `None - len(...)`
          | (some len, errors) =>
            M.modify fun s =>
              { s with eoc := some (len - versionLine.length - namesLine.length) }
            pure (some { cls := .arcHeader, version := arcVersion, headers := headers,
                         errors := errors, content := none, cfile := .stream, cfileValid := true,
                         rawHeaders := [line, versionLine, namesLine] }, [], offset)
    else if st.headers = [] then M.throw (.generic "missing filedesc")
    else
      match parseHeaderList st.headers line with
      | .error e => M.throw e
      | .ok headers =>
        let (len, errors) := contentHeaders headers (none, [])
        M.modify fun s => { s with eoc := len }
        pure (some { cls := .arc, version := [], headers := headers, errors := errors,
                     content := none, cfile := .stream, cfileValid := true }, [], offset)

end ArcParser

namespace MixedParser

/-- The loop of `MixedParser.parse` (/repo/hanzo/warctools/mixed.py:21-28). -/
def parse (st : ArcSt) (setSt : ArcSt → M Stream Unit) (offset : Option Nat) :
    Nat → Bytes → M Stream WarcParser.ParseOut
  | 0, _ => M.diverge
  | fuel + 1, line =>
    if line = [] then pure (none, [], offset)
    else if startsWith line (b! "WARC") then WarcParser.parse offset line
    else if line ≠ [10] ∧ line ≠ [13, 10] ∧ line ≠ [13] then
      ArcParser.parse st setSt offset line
    else do
      let line ← Stream.readline none
      parse st setSt offset fuel line

end MixedParser
end Warc
