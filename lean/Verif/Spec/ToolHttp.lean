import Verif.Spec.ToolRun
import Verif.Spec.HttpGrammar
import Verif.Model.Tools
/-
  What `warcfilter -H` and `warc2warc -D` do with a record, as a function of its bytes: in terms of what the content means as an HTTP message (`Http.Grammar.meaning`).
-/
namespace Warc.Spec
open _root_.Warc.Stream
open _root_.Warc.Http.Grammar

/-- a response whose request is not known -/
abbrev lonely : Http.Kind := .response (.str "")

/-- the media type: the first Content-Type field, up to a semicolon if there is one -/
def mediaIn (fields : List Header) : Option Bytes := (firstValue (b! "Content-Type") fields).map (·.takeWhile (· ≠ 59))

/-- `warcfilter -H`: of the response records whose content type begins with application/http, those with a matching media type.  A response record must have a content type; the
content must be one complete HTTP response. -/
def httpFiltering (c : Codec) (search : Bytes → Bool) (invert : Bool) (h : Head) : Done :=
  if firstValue (b! "WARC-Type") h.headers = some (b! "response") then
    match firstValue (b! "Content-Type") h.headers with
    | none => h.reading fun _ => .stops [] .attributeError
    | some t =>
      if b! "application/http" <+: t then
        h.reading fun content =>
          match Http.Grammar.meaning c lonely [] content with
          | .refused e => .stops [] e
          | .forever => .never
          | .seen s =>
            if s.left = [] ∧ s.closes = true then
              .goes (if matched search (mediaIn s.fields) != invert then (h.record content).rewritten.bytes else []) true
            else .stops [] .nameError
      else .goes [] false
  else .goes [] false

/-- is this an absolute URL of http or https without a path: scheme, host and perhaps a port, nothing else? -/
def bareUrl (t : Bytes) : Bool :=
  match (if lower (t.take 7) = b! "http://" then some (t.drop 7) else if lower (t.take 8) = b! "https://" then some (t.drop 8) else none) with
  | none => false
  | some r =>
    let behind := r.dropWhile fun c => c ≠ 58 && c ≠ 47
    r.takeWhile (fun c => c ≠ 58 && c ≠ 47) ≠ [] && (behind == [] || (behind.head? == some 58 && behind.drop 1 ≠ [] && (behind.drop 1).all fun d => 48 ≤ d && d ≤ 57))

/-- how `warc2warc -D` ends when it has decoded a message: it cannot store the result.  (A request for a URL without a path cannot be decoded.) -/
def Decoded.exc : Option Opening → Exc
  | some (.request me t _) => if upper me ≠ b! "CONNECT" ∧ bareUrl t = true then .typeError else .attributeError
  | _ => .attributeError

/-- which kind of message `warc2warc -D` expects in a response record -/
def decodedKind (ctype : Option Bytes) : Option Http.Kind :=
  if ctype = some (b! "application/http;msgtype=response") then some lonely
  else if ctype = some (b! "application/http;msgtype=request") then some .request
  else none

/-- `warc2warc -D`, with or without `-Z`: the content of a response record is read; a complete message with nothing behind it ends the run, otherwise the record is written, with new
Content-Type and Content-Length headers.  Other records are copied. -/
def decoding (c : Codec) (gzip : Bool) (h : Head) : Done :=
  if firstValue (b! "WARC-Type") h.headers = some (b! "response") then
    h.reading fun content =>
      let again : Done := .goes (if gzip then c.enc (h.record content).rewritten.bytes else (h.record content).rewritten.bytes) true
      match decodedKind (firstValue (b! "Content-Type") h.headers) with
      | none => again
      | some k =>
        match Http.Grammar.meaning c k [] content with
        | .refused e => .stops [] e
        | .forever => .never
        | .seen s => if s.left = [] ∧ s.closes = true then .stops [] (Decoded.exc s.opening) else again
  else if gzip then compressing c.enc h else copying h

end Warc.Spec
