import Verif.Model.ArcParser
/-
  Model of `_read_record`, `read_records` and `__iter__`
  (/repo/hanzo/warctools/stream.py:64-102, 213-229, 242-257).
-/
namespace Warc

open Rx

/-- `^[\r\n]+$` (/repo/hanzo/warctools/stream.py:98, 221, 251). -/
def blankLineRx : Rx :=
  seqs [bos, cls (fun c => c == 13 || c == 10), starG (fun c => c == 13 || c == 10), dollar]

namespace Stream

/-- `self.record_parser.parse(self, offset, line)`: dispatch on the parser class. -/
def parseWith (offset : Option Nat) (line : Bytes) : M Stream WarcParser.ParseOut := do
  let s ← M.get
  match s.parser with
  | .warc => WarcParser.parse offset line
  | .arc st =>
    ArcParser.parse st (fun st' => M.modify fun s => { s with parser := .arc st' }) offset line
  | .mixed st =>
    MixedParser.parse st (fun st' => M.modify fun s => { s with parser := .mixed st' }) offset
      (s.fh.rest.length + 2) line

/-- The terminator loop (/repo/hanzo/warctools/stream.py:95-99, 219-222, 249-252): skip lines made
only of `\r`/`\n`; `tell` is taken before each line when `offsets` is set. -/
def blankLoop (offsets : Bool) : Nat → M Stream (Option Nat × Bytes)
  | 0 => M.diverge
  | fuel + 1 => do
    let s ← M.get
    let offset := if offsets then some s.fh.tell else none
    let line ← onFile (File.readline none)
    if rxTest blankLineRx line then blankLoop offsets fuel
    else pure (offset, line)

/-- One entry of `read_records`: (offset, record or None, errors). -/
structure Entry where
  offset : Option Nat
  rcd : Option Rec
  errors : List Err
  deriving Repr, DecidableEq

/-- `_read_record(offsets)` of the three stream classes (/repo/hanzo/warctools/stream.py:88-102,
213-229, 242-257).

* `RecordStream`: offset from `tell`.
* `GzipRecordStream`: returns `self.fh.member_offset`; that attribute is set to `None` in
  `GeeZipFile.__init__` (stream.py:191) and would only be updated by the overridden method `_read`,
  which `gzip.GzipFile` of CPython >= 3.5 (the versions pyproject.toml admits) never calls; so it is
  `None`.
* `GzipFileStream`: returns the undefined name `offset`, i.e. raises `NameError` after parsing. -/
def readRecord (offsets : Bool) : M Stream Entry := do
  let s ← M.get
  match s.eoc with
  | some _ => skipToEoc
  | none => pure ()
  M.modify fun s => { s with eoc := none }
  let s ← M.get
  match s.kind with
  | .plain =>
    let (offset, line) ← blankLoop offsets (s.fh.rest.length + 2)
    let (r, errors, offset) ← parseWith offset line
    pure ⟨offset, r, errors⟩
  | .gzipRecord =>
    let (_, line) ← blankLoop false (s.fh.rest.length + 2)
    let (r, errors, _) ← parseWith none line
    pure ⟨none, r, errors⟩
  | .gzipFile =>
    let (_, line) ← blankLoop false (s.fh.rest.length + 2)
    let _ ← parseWith none line
    M.throw .nameError

/-- `read_records(limit, offsets)` (/repo/hanzo/warctools/stream.py:64-75) driving a consumer: the
generator yields an entry, the consumer (the body of the caller's `for` loop) runs, and so on.
The state `σ` contains the stream. Fuel bounds the number of rounds. -/
def forRecords {σ : Type} (lift : {α : Type} → M Stream α → M σ α) (offsets : Bool)
    (body : Entry → M σ Unit) : Nat → Option Nat → M σ Unit
  | 0, _ => M.diverge
  | fuel + 1, limit =>
    if limit = some 0 then pure ()
    else do
      let e ← lift (readRecord offsets)
      body e
      if e.rcd.isNone then pure ()
      else forRecords lift offsets body fuel (limit.map (· - 1))

/-- How iterating a stream ends. -/
inductive End where
  /-- the generator is exhausted -/
  | done
  /-- an exception came out of it -/
  | raised (e : Exc)
  /-- it never returns -/
  | hangs
  deriving Repr, DecidableEq

/-- `list(stream.read_records(limit, offsets))`: the entries yielded to a caller that does not touch
the contents, and how the iteration ended. -/
def readRecords (offsets : Bool) : Nat → Option Nat → Stream → List Entry × End
  | 0, _, _ => ([], .hangs)
  | fuel + 1, limit, s =>
    if limit = some 0 then ([], .done)
    else match readRecord offsets s with
      | .hang => ([], .hangs)
      | .raise e _ => ([], .raised e)
      | .ok e s' =>
        if e.rcd.isNone then ([e], .done)
        else
          let (es, fin) := readRecords offsets fuel (limit.map (· - 1)) s'
          (e :: es, fin)

/-- `list(stream)`, i.e. `__iter__` (/repo/hanzo/warctools/stream.py:77-86), for a caller that does
not touch the contents. -/
def iterate : Nat → Stream → List Rec × End
  | 0, _ => ([], .hangs)
  | fuel + 1, s =>
    match readRecord false s with
    | .hang => ([], .hangs)
    | .raise e _ => ([], .raised e)
    | .ok e s' =>
      match e.rcd with
      | some r =>
        let (rs, fin) := iterate fuel s'
        (r :: rs, fin)
      | none => if e.errors = [] then ([], .done) else ([], .raised (.generic "Errors while decoding"))

/-- a freshly opened stream (/repo/hanzo/warctools/stream.py:52-58) -/
def mk' (kind : Kind) (fh : File) (parser : Parser) : Stream := ⟨fh, none, kind, parser⟩

end Stream
end Warc
