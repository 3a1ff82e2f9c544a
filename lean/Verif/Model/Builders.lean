import Verif.Model.Record
/-
  Model of the record builders at the end of /repo/hanzo/warctools/warc.py.

  Arguments are bytes; `None` is `none`.  `content` is a pair (content type or None, bytes).
-/
namespace Warc

/-- `WarcRecord.VERSION` (/repo/hanzo/warctools/warc.py:38), the default of the constructor -/
def defaultVersion : Bytes := b! "WARC/1.0"

/-- `if value: headers.append((name, value))`: neither None nor empty bytes are added -/
def addIf (name : Bytes) (value : Option Bytes) (hs : List Header) : List Header :=
  match value with
  | none => hs
  | some v => if v = [] then hs else hs ++ [(name, v)]

/-- `make_response` (/repo/hanzo/warctools/warc.py:289-304) -/
def makeResponse (id date url : Bytes) (content : Option Bytes × Bytes) (requestId : Option Bytes) : Rec :=
  Rec.mkWarc defaultVersion
    (addIf WH.CONCURRENT_TO requestId
      [(WH.TYPE, WT.RESPONSE), (WH.ID, id), (WH.DATE, date), (WH.URL, url)])
    content.1 (some content.2)

/-- `make_request` (/repo/hanzo/warctools/warc.py:307-322) -/
def makeRequest (requestId date url : Bytes) (content : Option Bytes × Bytes) (responseId : Option Bytes) : Rec :=
  Rec.mkWarc defaultVersion
    (addIf WH.CONCURRENT_TO responseId
      [(WH.TYPE, WT.REQUEST), (WH.ID, requestId), (WH.DATE, date), (WH.URL, url)])
    content.1 (some content.2)

/-- `make_metadata` (/repo/hanzo/warctools/warc.py:325-342) -/
def makeMetadata (metaId date : Bytes) (content : Option Bytes × Bytes) (concurrentTo url : Option Bytes) : Rec :=
  Rec.mkWarc defaultVersion
    (addIf WH.URL url (addIf WH.CONCURRENT_TO concurrentTo
      [(WH.TYPE, WT.METADATA), (WH.ID, metaId), (WH.DATE, date)]))
    content.1 (some content.2)

/-- `make_conversion` (/repo/hanzo/warctools/warc.py:345-362) -/
def makeConversion (convId date : Bytes) (content : Option Bytes × Bytes) (refersTo url : Option Bytes) : Rec :=
  Rec.mkWarc defaultVersion
    (addIf WH.URL url (addIf WH.REFERS_TO refersTo
      [(WH.TYPE, WT.CONVERSION), (WH.ID, convId), (WH.DATE, date)]))
    content.1 (some content.2)

end Warc
