import Verif.Spec.HttpText
/-
  Bodies that are announced as chunked and are not: what C99 talks about.
-/
set_option linter.all false
namespace Warc.Http

/-- The head of a message: start line and fields. -/
structure ChunkHead where
  start : Start
  fields : List Header

def ChunkHead.text (x : ChunkHead) : Bytes := headText x.start x.fields

/-- A message of kind `k` that announces a chunked body, and may have one. -/
structure ChunkHead.Ok (x : ChunkHead) (k : Kind) (ig : List PyStr) : Prop where
  fits : x.start.fits k
  start : x.start.Ok
  fields : FieldsOk x.fields
  framed : framing ig x.fields = some .chunked
  body : hasBody k x.start .chunked

/-- The line (without its line feed) is no chunk size line: what stands before the first semicolon is not a hexadecimal number. -/
def NoSize (line : Bytes) : Prop := 10 ∉ line ∧ pyInt 16 ((line ++ [10]).takeWhile (· ≠ 59)) = none

/-- The parser shows this message, and goes on taking its body until it is closed. -/
structure ChunkHead.Open (x : ChunkHead) (b : Bytes) (m : Msg) : Prop where
  complete : m.complete = false
  body : m.getBody = b
  message : m.buffer = x.text ++ b
  headers : m.header.headers = x.fields
  closed : m.close.complete = true
  closedBody : m.close.getBody = b
  closedMessage : m.close.buffer = x.text ++ b

end Warc.Http
