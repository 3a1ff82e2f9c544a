import Verif.Spec.Builders
import Verif.Spec.HttpText
/-
  A crawl: HTTP requests and the responses to them, each stored in a record made by the builders.
-/
namespace Warc.Spec
open Warc.Http

/-- one exchange with a server, and the texts for its two records -/
structure Exchange where
  request : Message
  response : Message
  requestId : Bytes
  responseId : Bytes
  date : Bytes
  url : Bytes

/-- the method of the request -/
def Exchange.method (e : Exchange) : Bytes :=
  match e.request.start with
  | .request m _ _ => m
  | .response .. => []

/-- the response is one to the request: a response to HEAD has no body -/
def Exchange.answer (e : Exchange) : Http.Kind := .response (.bytes e.method)

/-- both messages are well formed, and the texts for the headers of the records can stand in headers -/
structure Exchange.Ok (e : Exchange) : Prop where
  request : e.request.Ok .request []
  response : e.response.Ok e.answer []
  requestId : Build.Plain e.requestId
  responseId : Build.Plain e.responseId
  date : Build.Plain e.date
  url : Build.Plain e.url

/-- the call of `make_request` for an exchange -/
def Exchange.requestCall (e : Exchange) : Build :=
  .request e.requestId e.date e.url (some (b! "application/http;msgtype=request"), e.request.text) none

/-- the call of `make_response`, which refers to the request -/
def Exchange.responseCall (e : Exchange) : Build :=
  .response e.responseId e.date e.url (some (b! "application/http;msgtype=response"), e.response.text) (some e.requestId)

/-- the calls of the builders for an exchange -/
def Exchange.builds (e : Exchange) : List Build := [e.requestCall, e.responseCall]

/-- the content of the record, fed in any pieces to a new parser that is then closed, is the message: the parser takes
everything, is complete, and shows the start line, the fields and the body -/
def Replays (c : Codec) (k : Http.Kind) (x : Message) (g : Got) : Prop :=
  ∀ ts : List Bytes, some ts.flatten = g.content.2 →
    ∃ m, feedAll (k.feed c) ts (k.message []) = .ok [] m ∧ m.close.complete = true ∧ Parsed x m.close

/-- the records are those of the exchanges: a request record and a response record for each, in order, with their messages,
the url and the date; the response record has the id of the request record in WARC-Concurrent-To -/
def Shows (c : Codec) : List Exchange → List Got → Prop
  | [], [] => True
  | e :: es, q :: p :: gs =>
    (firstValue (b! "WARC-Type") q.headers = some (b! "request") ∧ firstValue (b! "WARC-Record-ID") q.headers = some e.requestId ∧
      firstValue (b! "WARC-Target-URI") q.headers = some e.url ∧ firstValue (b! "WARC-Date") q.headers = some e.date ∧
      q.content.1 = some (b! "application/http;msgtype=request") ∧ q.content.2.isSome = true ∧ Replays c .request e.request q) ∧
    (firstValue (b! "WARC-Type") p.headers = some (b! "response") ∧ firstValue (b! "WARC-Record-ID") p.headers = some e.responseId ∧
      firstValue (b! "WARC-Target-URI") p.headers = some e.url ∧ firstValue (b! "WARC-Date") p.headers = some e.date ∧
      (e.requestId ≠ [] → firstValue (b! "WARC-Concurrent-To") p.headers = firstValue (b! "WARC-Record-ID") q.headers) ∧
      p.content.1 = some (b! "application/http;msgtype=response") ∧ p.content.2.isSome = true ∧ Replays c e.answer e.response p) ∧
    Shows c es gs
  | _, _ => False

end Warc.Spec
