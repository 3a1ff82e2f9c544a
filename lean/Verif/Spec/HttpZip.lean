import Verif.Spec.HttpText
/-
  Messages whose head announces a gzip body of known length (property C98).
-/
namespace Warc.Http

/-- the head of a message, and the length it announces -/
structure ZipHead where
  start : Start
  fields : List Header
  length : Nat

/-- the text of the head, up to and including the empty line -/
def ZipHead.text (x : ZipHead) : Bytes := headText x.start x.fields

/-- Well-formed, of a message that has a body, with a Content-Length (and no chunked transfer encoding) and a Content-Encoding
that ends in `gzip`. -/
structure ZipHead.Ok (x : ZipHead) (k : Kind) (ignore : List PyStr) : Prop where
  fits : x.start.fits k
  start : x.start.Ok
  fields : FieldsOk x.fields
  framed : framing ignore x.fields = some (.length x.length)
  body : hasBody k x.start (.length x.length)
  gzip : gzipField ignore x.fields

/-- The parser holds a complete message with this head and this body. -/
structure ZipHead.Complete (x : ZipHead) (b : Bytes) (m : Msg) : Prop where
  complete : m.complete = true
  body : m.getBody = b
  text : m.getMessage = x.text ++ b
  headers : m.header.headers = x.fields

end Warc.Http
