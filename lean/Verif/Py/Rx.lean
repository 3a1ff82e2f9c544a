import Verif.Py.Bytes
/-
  A backtracking matcher for the fragment of Python's `re` (bytes patterns) that
  warctools uses: byte classes, sequence, ordered alternation, greedy/lazy stars
  over a byte class, named groups, `^`, `$`, `\Z`, `\b`.

  The matcher is in continuation passing style: `Rx.m r st k` tries the ways in
  which `r` can match at `st`, in Python's priority order, and returns the first
  one for which the continuation `k` succeeds.  That is exactly the backtracking
  semantics of CPython's engine for this fragment (stars only range over one-byte
  items, so no empty-iteration subtleties arise).
-/
namespace Warc

/-- Names of the capture groups that occur in the repo's patterns. -/
inductive Grp where
  | prefix_ | version | number | nl | name | value | scheme | authority | host | port | path
  deriving DecidableEq, Repr

/-- Matcher state: the byte before the current position, the remaining bytes, captures. -/
structure MSt where
  prev : Option Byte
  rest : Bytes
  caps : List (Grp × Bytes)
  deriving Repr, DecidableEq

/-- Regular expressions. -/
inductive Rx where
  /-- empty pattern -/
  | eps
  /-- one byte of a class -/
  | cls (p : Byte → Bool)
  | seq (a b : Rx)
  /-- `a|b`, `a` preferred -/
  | alt (a b : Rx)
  /-- `p*` (greedy) -/
  | starG (p : Byte → Bool)
  /-- `p*?` (lazy) -/
  | starL (p : Byte → Bool)
  /-- `(?P<g>a)` -/
  | group (g : Grp) (a : Rx)
  /-- `^` without MULTILINE -/
  | bos
  /-- `\Z` -/
  | eos
  /-- `$` without MULTILINE: at the end, or before a final newline -/
  | dollar
  /-- `\b` -/
  | wordb

namespace Rx

/-- greedy star over a byte class -/
def starGM {α : Type} (p : Byte → Bool) (caps : List (Grp × Bytes)) (k : MSt → Option α) :
    Option Byte → Bytes → Option α
  | prev, [] => k ⟨prev, [], caps⟩
  | prev, c :: cs =>
    if p c then
      match starGM p caps k (some c) cs with
      | some r => some r
      | none => k ⟨prev, c :: cs, caps⟩
    else k ⟨prev, c :: cs, caps⟩

/-- lazy star over a byte class -/
def starLM {α : Type} (p : Byte → Bool) (caps : List (Grp × Bytes)) (k : MSt → Option α) :
    Option Byte → Bytes → Option α
  | prev, [] => k ⟨prev, [], caps⟩
  | prev, c :: cs =>
    match k ⟨prev, c :: cs, caps⟩ with
    | some r => some r
    | none => if p c then starLM p caps k (some c) cs else none

/-- is the optional byte a word byte? (`\b` treats the ends of the string as non-word) -/
def wordAt : Option Byte → Bool
  | some b => isWord b
  | none => false

/-- The matcher. -/
def m {α : Type} : Rx → MSt → (MSt → Option α) → Option α
  | eps, st, k => k st
  | cls p, st, k =>
    match st.rest with
    | [] => none
    | c :: cs => if p c then k ⟨some c, cs, st.caps⟩ else none
  | seq a b, st, k => m a st fun st' => m b st' k
  | alt a b, st, k =>
    match m a st k with
    | some r => some r
    | none => m b st k
  | starG p, st, k => starGM p st.caps k st.prev st.rest
  | starL p, st, k => starLM p st.caps k st.prev st.rest
  | group g a, st, k =>
    m a st fun st' =>
      k { st' with caps := (g, st.rest.take (st.rest.length - st'.rest.length)) :: st'.caps }
  | bos, st, k => if st.prev = none then k st else none
  | eos, st, k => if st.rest = [] then k st else none
  | dollar, st, k => if st.rest = [] ∨ st.rest = [10] then k st else none
  | wordb, st, k => if wordAt st.prev != wordAt st.rest.head? then k st else none

/-- Concatenation of several patterns. -/
def seqs : List Rx → Rx
  | [] => eps
  | [r] => r
  | r :: rs => seq r (seqs rs)

/-- One literal byte. -/
def lit (b : Byte) : Rx := cls (fun c => c == b)

/-- One literal byte under `re.IGNORECASE` (ASCII folding, as for bytes patterns). -/
def litI (b : Byte) : Rx := cls (fun c => lowerByte c == lowerByte b)

/-- A literal string under `re.IGNORECASE`. -/
def strI (s : Bytes) : Rx := seqs (s.map litI)

/-- A literal string. -/
def str (s : Bytes) : Rx := seqs (s.map lit)

/-- `.` : every byte except newline -/
def isDot (b : Byte) : Bool := b != 10

/-- `r?` (greedy) -/
def opt (r : Rx) : Rx := alt r eps

/-- The groups of a successful match. -/
structure Match where
  caps : List (Grp × Bytes)
  /-- the rest of the subject string after the match -/
  rest : Bytes
  deriving Repr, DecidableEq

/-- `match.group(g)`; a group that did not take part gives `None`. -/
def Match.group (mt : Match) (g : Grp) : Option Bytes := mt.caps.lookup g

/-- `match.group(g)` for a group which always takes part in the match. -/
def Match.grp (mt : Match) (g : Grp) : Bytes := (mt.group g).getD []

/-- `rx.match(s)`. -/
def pmatch (r : Rx) (s : Bytes) : Option Match :=
  m r ⟨none, s, []⟩ fun st => some ⟨st.caps, st.rest⟩

end Rx
end Warc
