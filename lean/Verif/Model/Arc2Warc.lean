import Verif.Model.Tools
import Verif.Model.Dates
import Verif.Model.Ids
/-
  Model of arc2warc: /repo/hanzo/arc2warc.py.

  Not modelled: option parsing, the messages on stderr, opening the file named by `-o` (what is written to it is the output
  of the model).
-/
namespace Warc
open _root_.Warc.Stream
namespace Arc2Warc

/-- What a transformer is made with (/repo/hanzo/arc2warc.py:51-58), and the parts of the environment it uses: the SHA-1
function and the clock (`now k` is the value of the `k`-th call of `datetime.datetime.now()`).  The arguments may be
`bytes` or `str` objects; the command line gives `str` objects. -/
structure Cfg where
  sha1 : Bytes → Bytes
  now : Nat → DateTime
  outputFilename : Option PyStr := none
  warcinfoFields : Bytes := b! "software: hanzo.arc2warc\r\n"
  resources : List PyStr := []
  responses : List PyStr := []

/-- The state of a transformer: `self.warcinfo_id`, and the number of calls of `now` so far. -/
structure St where
  warcinfoId : Option Bytes := none
  ticks : Nat := 0
  deriving Repr, DecidableEq

/-- A new WARC record `WarcRecord(headers=…, content=(ctype, content), version=b"WARC/1.0")`; the value `none` of a header
stands for an object that is not `bytes` (`None`, or a `str`), which cannot be written to a binary file. -/
structure New where
  headers : List (Bytes × Option Bytes)
  ctype : Bytes
  content : Bytes
  deriving Repr, DecidableEq

/-- everything that converting a record can touch -/
abbrev XW := World × St

/-- run code that does not touch the transformer -/
def onWorld {α : Type} (x : M World α) : M XW α := fun s =>
  match x s.1 with
  | .ok a w => .ok a (w, s.2)
  | .raise e w => .raise e (w, s.2)
  | .hang => .hang

/-- `datetime.datetime.now()` -/
def now (g : Cfg) : M XW DateTime := fun s => .ok (g.now s.2.ticks) (s.1, { s.2 with ticks := s.2.ticks + 1 })

/-- the operand `x` of `bytes + x`: `None` raises TypeError -/
def operand : Option Bytes → M XW Bytes
  | some b => pure b
  | none => M.throw .typeError

/-- turn the outcome of a function without effects into code -/
def lift {α : Type} : Except Exc α → M XW α
  | .ok a => pure a
  | .error e => M.throw e

/-- the value that a `bytes` or `str` object has as a header value -/
def headerValue : PyStr → Option Bytes
  | .bytes b => some b
  | .str _ => none

/-- truth of an argument that may be None -/
def given : PyStr → Bool
  | .bytes b => b ≠ []
  | .str s => s ≠ ""

/-- `ArcRecordHeader.raw()` (/repo/hanzo/warctools/arc.py:59-61) -/
def raw : M XW Bytes := do
  let s ← M.get
  let body ← onWorld WarcFilter.contentBytes
  pure (s.1.rcd.rawHeaders.flatten ++ body)

/-- the file name in the warcinfo record (/repo/hanzo/arc2warc.py:82-83) -/
def filenameHeader : Option PyStr → List (Bytes × Option Bytes)
  | some f => if given f then [(WH.FILENAME, headerValue f)] else []
  | none => []

/-- the date of the metadata record (/repo/hanzo/arc2warc.py:89-98) -/
def metaDate (infoDate : Bytes) : Option Bytes → M XW Bytes
  | none => pure infoDate
  | some d =>
    if d = [] then pure infoDate
    else if 14 ≤ d.length then do pure (warcDatetimeStr (← lift (Strptime.full (d.take 14))))
    else do pure (warcDatetimeStr (← lift (Strptime.short (d.take 8))))

/-- `convert_filedesc` (/repo/hanzo/arc2warc.py:71-118) -/
def convertFiledesc (g : Cfg) : M XW (List New) := do
  let s ← M.get
  let r := s.1.rcd
  let infoNow ← now g
  let infoDate := warcDatetimeStr infoNow
  let url ← operand r.url
  let infoId := warcUuid g.sha1 (url ++ infoDate)
  let infoHeaders := [(WH.TYPE, some WT.WARCINFO), (WH.ID, some infoId), (WH.DATE, some infoDate)] ++
    filenameHeader g.outputFilename
  let metaDate ← metaDate infoDate r.date
  let date ← operand r.date
  let metaId := warcUuid g.sha1 (url ++ date ++ b! "-meta")
  let metaUrl := if startsWith url (b! "filedesc://") then url.drop 11 else url
  let text ← raw
  M.modify fun s => (s.1, { s.2 with warcinfoId := some infoId })
  pure
    [⟨infoHeaders, b! "application/warc-fields", g.warcinfoFields⟩,
     ⟨[(WH.TYPE, some WT.METADATA), (WH.CONCURRENT_TO, some infoId), (WH.ID, some metaId), (WH.URL, some metaUrl),
       (WH.DATE, some metaDate), (WH.WARCINFO_ID, some infoId)], b! "application/arc", text⟩]

/-- `any(url.startswith(p) for p in prefixes)`: a `str` prefix raises TypeError when it is reached -/
def anyPrefix (url : Bytes) : List PyStr → Except Exc Bool
  | [] => .ok false
  | .str _ :: _ => .error .typeError
  | .bytes p :: ps => if startsWith url p then .ok true else anyPrefix url ps

/-- `is_http_response` (/repo/hanzo/arc2warc.py:44-48) -/
def isHttpResponse (c : Codec) (content : Bytes) : M XW Bool := do
  let (remainder, m) ← onWorld (WarcFilter.local' (WarcFilter.newResponse []) (Http.feedResponse c content))
  pure (m.close.complete && remainder = [])

/-- record type and content type (/repo/hanzo/arc2warc.py:152-172).  In the branch for `dns`, a `str` is compared with
`bytes`, which is never true, so the type is always `response`. -/
def chooseType (c : Codec) (g : Cfg) (url ctype content : Bytes) : M XW (Bytes × Bytes) := do
  if ← lift (anyPrefix url g.resources) then pure (WT.RESOURCE, ctype)
  else if ← lift (anyPrefix url g.responses) then pure (WT.RESPONSE, ctype)
  else if startsWith url (b! "http") then do
    if ← isHttpResponse c content then pure (WT.RESPONSE, Warc2Warc.responseType)
    else pure (WT.RESOURCE, ctype)
  else pure (WT.RESPONSE, ctype)

/-- the date of a data record (/repo/hanzo/arc2warc.py:129-136): the short format is tried when the long one raises
ValueError; without a date, the current time -/
def recordDate (g : Cfg) : Option Bytes → M XW DateTime
  | none => now g
  | some d =>
    if d = [] then now g
    else match Strptime.full d with
      | .ok t => pure t
      | .error .valueError => lift (Strptime.short d)
      | .error e => M.throw e

/-- the IP address header (/repo/hanzo/arc2warc.py:138-142) -/
def ipHeader : Option Bytes → List (Bytes × Option Bytes)
  | none => []
  | some ip => if ip = [] then [] else if strip ip = b! "0.0.0.0" then [] else [(WH.IP_ADDRESS, some (strip ip))]

/-- `convert_record` (/repo/hanzo/arc2warc.py:120-178) -/
def convertRecord (c : Codec) (g : Cfg) : M XW (List New) := do
  let s ← M.get
  let r := s.1.rcd
  let url ← operand r.url
  let date ← operand r.date
  let id := warcUuid g.sha1 (url ++ date)
  let d ← recordDate g (some date)
  let (ctype, content) ← onWorld World.content
  match ctype with
  | none => M.throw .attributeError
  | some ctype =>
    let ctype := if strip ctype = [] then b! "application/octet-stream" else ctype
    match content with
    | none => M.throw .typeError
    | some content => do
      let (type, ctype) ← chooseType c g (lower url) ctype content
      pure [⟨[(WH.ID, some id), (WH.URL, some url), (WH.WARCINFO_ID, s.2.warcinfoId)] ++ ipHeader (r.getHeader AH.IP) ++
        [(WH.DATE, some (warcDatetimeStr d)), (WH.TYPE, some type)], ctype, content⟩]

/-- `convert` (/repo/hanzo/arc2warc.py:64-69) -/
def convert (c : Codec) (g : Cfg) : M XW (List New) := do
  let s ← M.get
  if s.1.rcd.type = some (b! "filedesc") then convertFiledesc g else convertRecord c g

/-- `record.write_to(out, gzip=…)` (/repo/hanzo/warctools/record.py:167-185) for the record at hand -/
def writeAs (c : Codec) (gzip : Bool) : M World Unit :=
  if gzip then World.writeToGz c.enc CRLF else World.writeTo CRLF

/-- the headers if all the values are `bytes` -/
def allBytes : List (Bytes × Option Bytes) → Option (List Header)
  | [] => some []
  | (k, some v) :: hs => (allBytes hs).map ((k, v) :: ·)
  | (_, none) :: _ => none

/-- what is written before the first value that is not `bytes`: the version line, the headers before it, its name -/
def partialHead (hs : List (Bytes × Option Bytes)) : Bytes :=
  b! "WARC/1.0" ++ CRLF ++
    (hs.takeWhile (·.2.isSome)).flatMap (fun h => h.1 ++ b! ": " ++ h.2.getD [] ++ CRLF) ++
    (match hs.dropWhile (·.2.isSome) with | h :: _ => h.1 ++ b! ": " | [] => [])

/-- write a new record.  When a value is not `bytes`, writing raises TypeError half way; as in `World.writeToGz`, the
partial gzip member that is left then is not modelled. -/
def writeNew (c : Codec) (gzip : Bool) (n : New) : M XW Unit := onWorld fun w =>
  match allBytes n.headers with
  | some hs =>
    match writeAs c gzip { w with rcd := Rec.mkWarc (b! "WARC/1.0") hs (some n.ctype) (some n.content) } with
    | .ok () w' => .ok () { w' with rcd := w.rcd }
    | .raise e w' => .raise e { w' with rcd := w.rcd }
    | .hang => .hang
  | none => .raise .typeError (if gzip then w else { w with out := w.out ++ partialHead n.headers })

/-- `for warcrecord in warcs: warcrecord.write_to(out, gzip=…)` -/
def writeNews (c : Codec) (gzip : Bool) : List New → M XW Unit
  | [] => pure ()
  | n :: ns => do
    writeNew c gzip n
    writeNews c gzip ns

/-- the body of the loop in `main` (/repo/hanzo/arc2warc.py:222-230) -/
def handle (c : Codec) (g : Cfg) (gzip : Bool) : M XW Unit := do
  let s ← M.get
  if s.1.rcd.cls = .warc then onWorld (writeAs c gzip)
  else do
    let ns ← convert c g
    writeNews c gzip ns

/-- `for record in fh: …` with the transformer -/
def loop (c : Codec) (g : Cfg) (gzip : Bool) : Nat → M (Tool × St) Unit
  | 0 => M.diverge
  | fuel + 1 => fun s =>
    match readRecord false s.1.strm with
    | .hang => .hang
    | .raise e t => .raise e ({ s.1 with strm := t }, s.2)
    | .ok e t =>
      match e.rcd with
      | none => if e.errors = [] then .ok () ({ s.1 with strm := t }, s.2)
          else .raise (.generic "Errors while decoding") ({ s.1 with strm := t }, s.2)
      | some r =>
        match handle c g gzip (⟨t, r, s.1.out⟩, s.2) with
        | .hang => .hang
        | .raise e w => .raise e (⟨w.1.strm, w.1.out⟩, w.2)
        | .ok () w => loop c g gzip fuel (⟨w.1.strm, w.1.out⟩, w.2)

/-- `for name in expand_files(input_files): …` (/repo/hanzo/arc2warc.py:218-232); the state is the output and the
transformer, which is shared by all files -/
def main (c : Codec) (fs : FS) (g : Cfg) (gzip : Bool) : List Bytes → M (Bytes × St) Unit
  | [] => pure ()
  | name :: names => fun s =>
    match openName c fs .mixed none name with
    | .error e => .raise e s
    | .ok t =>
      match loop c g gzip (t.fh.rest.length + 2) (⟨t, s.1⟩, s.2) with
      | .hang => .hang
      | .raise e u => .raise e (u.1.out, u.2)
      | .ok () u => main c fs g gzip names (u.1.out, u.2)

/-- `warcinfo_fields` (/repo/hanzo/arc2warc.py:180-188); the arguments are the UTF-8 encodings of the texts -/
def warcinfoFields (hostname description operator publisher audience : Bytes) : Bytes :=
  join CRLF [b! "software: hanzo.arc2warc", b! "hostname: " ++ hostname, b! "description: " ++ description,
    b! "operator: " ++ operator, b! "publisher: " ++ publisher, b! "audience: " ++ audience]

/-- The command line tool `arc2warc [options] name …` (/repo/hanzo/arc2warc.py:196-234): `output` is the value of `-o`, and
the prefixes are the values of `--resource` and `--response`; all are `str` objects. -/
def cli (c : Codec) (fs : FS) (sha1 : Bytes → Bytes) (clock : Nat → DateTime) (fields : Bytes) (output : Option String)
    (gzip : Bool) (resources responses : List String) (names : List Bytes) : M (Bytes × St) Unit :=
  main c fs
    { sha1 := sha1, now := clock, outputFilename := output.map .str, warcinfoFields := fields,
      resources := resources.map .str, responses := responses.map .str }
    (gzip || (match output with | some f => f.endsWith ".gz" | none => false)) names

end Arc2Warc
end Warc
