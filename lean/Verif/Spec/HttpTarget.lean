import Verif.Spec.HttpText
/-
  What a request asks for: the target of the request line, host, port and scheme.  What a message says about the
  connection.
-/
namespace Warc.Http

/-- the value of decimal digits -/
def decimalValue (s : Bytes) : Nat := s.foldl (fun n d => 10 * n + (d.toNat - 48)) 0

/-- `t` is the URL `scheme://host:port path` or `scheme://host path` with scheme http or https (in any case), a host
without colon and slash, a port made of digits; if there is no port the path is empty, begins with a slash, or begins
with a colon that is not followed by a digit. -/
structure AbsoluteUrl (t scheme host : Bytes) (port : Option Bytes) (path : Bytes) : Prop where
  text : t = scheme ++ b! "://" ++ host ++ (match port with | some p => 58 :: p | none => []) ++ path
  http : lower scheme = b! "http" ∨ lower scheme = b! "https"
  hostNonempty : host ≠ []
  hostPlain : 58 ∉ host ∧ 47 ∉ host
  portDigits : ∀ p, port = some p → p ≠ [] ∧ (∀ d ∈ p, 48 ≤ d ∧ d ≤ 57) ∧ (∀ d ds, path = d :: ds → ¬ (48 ≤ d ∧ d ≤ 57))
  noPort : port = none → path = [] ∨ (∃ r, path = 47 :: r) ∨ (∃ r, path = 58 :: r ∧ ∀ d ds, r = d :: ds → ¬ (48 ≤ d ∧ d ≤ 57))

/-- the number of a port; 80 if there is none -/
def portNumber : Option Bytes → Nat
  | some p => decimalValue p
  | none => 80

/-- what the parser shows of a request: target_uri, host, port, scheme -/
structure Target where
  uri : PyStr
  host : PyStr
  port : Port
  scheme : PyStr
  deriving DecidableEq

def Hdr.target (h : Hdr) : Target := ⟨h.targetUri, h.host, h.port, h.scheme⟩

/-- What a request line says: CONNECT names a host and a port; an absolute URL is taken apart (an empty path becomes
the text '/'); any other target is kept as it is. -/
inductive LineSays (method target : Bytes) : Target → Prop
  | connect (host port : Bytes) : upper method = b! "CONNECT" → target = host ++ 58 :: port → 58 ∉ host → 58 ∉ port →
      LineSays method target ⟨.bytes target, .bytes host, .text port, .str "http"⟩
  | absolute (scheme host : Bytes) (port : Option Bytes) (path : Bytes) : upper method ≠ b! "CONNECT" →
      AbsoluteUrl target scheme host port path →
      LineSays method target ⟨if path = [] then .str "/" else .bytes path, .bytes host,
        .num (portNumber port), .bytes scheme⟩
  | other : upper method ≠ b! "CONNECT" → (∀ scheme host port path, ¬ AbsoluteUrl target scheme host port path) →
      LineSays method target ⟨.bytes target, .str "", .num 80, .str "http"⟩

/-- is it a Host field? -/
def isHost (f : Header) : Bool := lower f.1 == b! "host"

/-- What the Host fields say over what the request line says: the last one gives the host (up to its first colon), the last
one with a colon gives the port (the text after its first colon). -/
structure FieldsSay (hs : List Header) (line final : Target) : Prop where
  uri : final.uri = line.uri
  scheme : final.scheme = line.scheme
  host : match (hs.filter isHost).getLast? with
    | none => final.host = line.host
    | some f => final.host = .bytes (f.2.takeWhile (· ≠ 58))
  port : match (hs.filter fun f => isHost f && f.2.contains 58).getLast? with
    | none => final.port = line.port
    | some f => final.port = .text ((f.2.dropWhile (· ≠ 58)).drop 1)

/-- a Connection field that counts -/
def saysConnection (ignore : List PyStr) (f : Header) : Bool :=
  lower f.1 == b! "connection" && !ignored ignore f.1 && (contains (lower f.2) (b! "keep-alive") || contains (lower f.2) (b! "close"))

/-- Is the connection kept open?  The last Connection field with one of the words keep-alive and close decides; the
default is no, whatever the protocol version. -/
def keepsAlive (ignore : List PyStr) (hs : List Header) : Bool :=
  match (hs.filter (saysConnection ignore)).getLast? with
  | none => false
  | some f => contains (lower f.2) (b! "keep-alive")

/-- Is a 100 response expected? -/
def expects (ignore : List PyStr) (hs : List Header) : Bool :=
  hs.any fun f => lower f.1 == b! "expect" && !ignored ignore f.1 && contains (lower f.2) (b! "100-continue")

end Warc.Http
