import Verif.Model.Open
/-
  Model of `GzipRecordStream.seek` (/repo/hanzo/warctools/stream.py:231-235) at any moment, also after something
  has been read.  The rest of the model may treat the decompressed data as one file, because nothing
  but this function moves the raw file under a running `GzipFile`.
-/
namespace Warc

/-- how many bytes `GzipFile` takes from the raw file at a time when it needs compressed data
(`io.DEFAULT_BUFFER_SIZE` in CPython 3.5 to 3.11; later versions take more) -/
def gzipTakes : Nat := 8192

/-- A `GzipRecordStream` with the raw file below it (/repo/hanzo/warctools/stream.py:206-211).  `taken` are the compressed
bytes that the `GzipFile` has taken from the raw file so far, in this order; it decompresses these and then what the raw file gives from
`rawPos` on. -/
structure GzStream where
  raw : Bytes
  rawPos : Nat
  taken : Bytes
  strm : Stream

namespace GzStream

/-- the decompressed data, with the position of the reader kept -/
def refill (c : Codec) (taken more : Bytes) (s : Stream) : Stream :=
  { s with fh := { data := (c.dec (taken ++ more)).1, pos := s.fh.pos, strictNeg := true, fault := (c.dec (taken ++ more)).2 } }

/-- `WarcRecord.open_archive(..., gzip='record')` on a file with these contents (/repo/hanzo/warctools/stream.py:8-45, 209-211):
nothing is taken yet. -/
def openGz (c : Codec) (raw : Bytes) : GzStream :=
  ⟨raw, 0, [], ⟨gzipFileOf c (File.openFile raw), none, .gzipRecord, .warc⟩⟩

/-- The stream has been used and is in the state `s` now; on the way `k` compressed bytes (fewer at the end
of the file) were taken.  How many is up to the `GzipFile`, but it is at least `gzipTakes` when anything was read. -/
def used (g : GzStream) (k : Nat) (s : Stream) : GzStream :=
  { raw := g.raw, rawPos := g.rawPos + ((g.raw.drop g.rawPos).take k).length, taken := g.taken ++ (g.raw.drop g.rawPos).take k, strm := s }

/-- `GzipRecordStream.seek(offset)` (/repo/hanzo/warctools/stream.py:231-235): the raw file is moved.  The
assignment to `self.fh._new_member` has no effect: CPython >= 3.5 keeps that attribute in another object.  The bytes
already taken stay where they are, so do the decompressed ones, and `bytes_to_eoc` is not touched. -/
def seek (c : Codec) (off : Nat) (g : GzStream) : GzStream :=
  { g with rawPos := off, strm := refill c g.taken (g.raw.drop off) g.strm }

end GzStream
end Warc
