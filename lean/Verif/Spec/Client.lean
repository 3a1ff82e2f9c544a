import Verif.Spec.HttpText
import Verif.Spec.Extract
/-
  HTTP responses as the client of the standard library reads them.
-/
namespace Warc.Http

/-- A header field that the client reads as it stands: the name is made of visible ASCII characters other than the colon; the value is
on one line and does not begin with a space or a tab; the line is not longer than 65536 bytes. -/
structure ClientField (f : Header) : Prop where
  named : f.1 ≠ []
  name : ∀ c ∈ f.1, 33 ≤ c ∧ c ≤ 126 ∧ c ≠ 58
  oneLine : 13 ∉ f.2 ∧ 10 ∉ f.2
  valueStart : ∀ c, f.2.head? = some c → c ≠ 32 ∧ c ≠ 9
  short : (fieldText f).length ≤ 65536

/-- The head of a response that the client reads: a version HTTP/…, a code of three digits, at most 99 fields. -/
structure ClientHead (v : Bytes) (n : Nat) (p : Bytes) (hs : List Header) : Prop where
  http : b! "HTTP/" <+: v
  version : ∀ c ∈ v, 33 ≤ c ∧ c ≤ 126
  code : 100 ≤ n ∧ n ≤ 999
  phrase : 10 ∉ p
  short : (Start.response v n p).text.length ≤ 65536
  fields : ∀ f ∈ hs, ClientField f
  few : hs.length ≤ 99

/-- the versions that the client accepts for the response itself -/
def KnownVersion (version : Bytes) : Prop := version = b! "HTTP/0.9" ∨ b! "HTTP/1." <+: version

/-- the value of the first field of that (lower case) name -/
def fieldValue (name : Bytes) (hs : List Header) : Option Bytes := (hs.find? fun f => lower f.1 = name).map Prod.snd

/-- the first Transfer-Encoding is `chunked`, in any case -/
def FirstChunked (hs : List Header) : Prop := ∃ v, fieldValue (b! "transfer-encoding") hs = some v ∧ lower v = b! "chunked"

/-- the first Content-Length is this number, in decimal digits -/
def FirstLength (hs : List Header) (n : Nat) : Prop :=
  ∃ v, fieldValue (b! "content-length") hs = some v ∧ v ≠ [] ∧ (∀ d ∈ v, 48 ≤ d ∧ d ≤ 57) ∧ v.foldl (fun n d => 10 * n + (d.toNat - 48)) 0 = n

/-- there is no Content-Length -/
def NoLength (hs : List Header) : Prop := fieldValue (b! "content-length") hs = none

/-- the fields that delimit the body leave no room for interpretation: every Transfer-Encoding is `chunked`, every Content-Length a
sequence of decimal digits -/
def PlainFraming (hs : List Header) : Prop :=
  (∀ f ∈ hs, lower f.1 = b! "transfer-encoding" → lower f.2 = b! "chunked") ∧
  (∀ f ∈ hs, lower f.1 = b! "content-length" → f.2 ≠ [] ∧ ∀ d ∈ f.2, 48 ≤ d ∧ d ≤ 57)

/-- codes of responses without body (the client takes 100 for an interim response) -/
def Bodyless (code : Nat) : Prop := (100 < code ∧ code < 200) ∨ code = 204 ∨ code = 304

/-- codes of responses with a body -/
def HasBody (code : Nat) : Prop := 200 ≤ code ∧ code ≠ 204 ∧ code ≠ 304

/-- a chunk whose size line is not longer than 65536 bytes -/
def Chunk.Short (c : Chunk) : Prop := (sizeLine c.size c.ext).length ≤ 65536

/-- a chunked body with short lines -/
def ChunkedBody.Short (b : ChunkedBody) : Prop :=
  (∀ c ∈ b.chunks, c.Short) ∧ (sizeLine b.lastSize b.lastExt).length ≤ 65536 ∧ ∀ f ∈ b.trailers, (fieldText f).length ≤ 65536

/-- the size of the chunk in hexadecimal digits, the first of which is not 0 -/
def HexSize (c : Chunk) : Prop := (∀ d ∈ c.size, (hexDigit d).isSome = true) ∧ c.size.head? ≠ some 48

/-- interim responses that the client skips -/
def SkippedOk (is : List Interim) : Prop := ∀ i ∈ is, ClientHead i.version 100 i.phrase i.fields

end Warc.Http

namespace Warc.Spec
open Http

/-- The record at that offset is an HTTP response: its payload is `body`. -/
structure HttpAt (c : Codec) (fs : FS) (name : Bytes) (off : Nat) (body : Bytes) : Prop where
  record : ∃ r, (PlainAt fs name off r ∨ CompressedAt c fs name off r) ∧ r.body = body ∧
    firstValue (b! "WARC-Type") r.headers = some (b! "response") ∧
    ∃ t, firstValue (b! "Content-Type") r.headers = some t ∧ b! "application/http" <+: t

end Warc.Spec
