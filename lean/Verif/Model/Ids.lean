import Verif.Py.Bytes
/-
  Record ids: /repo/hanzo/warctools/warc.py:146-152 and /repo/hanzo/arc2warc.py:60-62.
-/
namespace Warc

/-- a lower case hexadecimal digit -/
def hexByte (n : Nat) : Byte := if n < 10 then UInt8.ofNat (48 + n) else UInt8.ofNat (87 + n)

/-- `digest.hex()` -/
def hexText : Bytes → Bytes
  | [] => []
  | c :: cs => hexByte (c.toNat / 16) :: hexByte (c.toNat % 16) :: hexText cs

/-- `str(uuid.UUID(h))` for 32 lower case hexadecimal digits (CPython Lib/uuid.py `__init__`, `__str__`): the same
digits in groups of 8, 4, 4, 4 and 12 -/
def uuidText (h : Bytes) : Bytes :=
  h.take 8 ++ b! "-" ++ (h.drop 8).take 4 ++ b! "-" ++ (h.drop 12).take 4 ++ b! "-" ++ (h.drop 16).take 4 ++ b! "-" ++ h.drop 20

/-- `WarcRecord.warc_uuid(text)` (/repo/hanzo/warctools/warc.py:146-148) and `ArcTransformer.make_warc_uuid(text)`
(/repo/hanzo/arc2warc.py:60-62); `sha1` is `hashlib.sha1(text).digest()`, a parameter of the model. -/
def warcUuid (sha1 : Bytes → Bytes) (text : Bytes) : Bytes :=
  b! "<urn:uuid:" ++ uuidText ((hexText (sha1 text)).take 32) ++ b! ">"

/-- `WarcRecord.random_warc_uuid()` (/repo/hanzo/warctools/warc.py:150-152): `random` is what `os.urandom(16)` gives; `uuid4`
overwrites the bits of the variant and the version (CPython Lib/uuid.py, `UUID(bytes=…, version=4)`). -/
def randomUuid (random : Bytes) : Bytes :=
  b! "<urn:uuid:" ++ uuidText (hexText ((random.set 6 (UInt8.ofNat ((random.getD 6 0).toNat % 16 + 64))).set 8
    (UInt8.ofNat ((random.getD 8 0).toNat % 64 + 128)))) ++ b! ">"

end Warc
