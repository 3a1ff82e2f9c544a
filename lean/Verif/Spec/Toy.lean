import Verif.Spec.Collect
/-
  A concrete codec, to show that the assumptions made about the gzip library can be met, and some
  concrete records used in the examples beside the theorems.
-/
namespace Warc.Spec

/-- toy compression: the gzip signature, every byte preceded by 1, then 0 -/
def toyEnc (b : Bytes) : Bytes := 0x1f :: 0x8b :: (b.flatMap (fun x => [1, x]) ++ [0])

/-- decompression of any number of members; the flag says that we are inside a member -/
def toyDec : Bool → Bytes → Bytes × Option Exc
  | false, [] => ([], none)
  | false, 0x1f :: 0x8b :: rest => toyDec true rest
  | false, _ :: _ => ([], some .osError)
  | true, [] => ([], some .eofError)
  | true, 0 :: rest => toyDec false rest
  | true, [1] => ([], some .eofError)
  | true, 1 :: x :: rest => let q := toyDec true rest; (x :: q.1, q.2)
  | true, _ :: _ => ([], some .zlibError)

/-- the toy codec -/
def toy : Codec := ⟨toyEnc, toyDec false⟩

theorem toyDec_body (b rest : Bytes) :
    toyDec true (b.flatMap (fun x => [1, x]) ++ 0 :: rest) = (b ++ (toyDec false rest).1, (toyDec false rest).2) := by
  induction b with
  | nil => simp [toyDec]
  | cons x b ih =>
    simp only [List.flatMap_cons, List.cons_append, List.nil_append, toyDec]
    rw [ih]

theorem toy_laws : Codec.Laws toy where
  magic b := ⟨_, rfl⟩
  members bs := by
    show toyDec false _ = _
    induction bs with
    | nil => simp [toyDec]
    | cons b bs ih =>
      have : (b :: bs).flatMap toy.enc =
          0x1f :: 0x8b :: (b.flatMap (fun x => [1, x]) ++ 0 :: bs.flatMap toy.enc) := by
        simp [toy, toyEnc]
      rw [this]
      simp only [toyDec]
      rw [toyDec_body, ih]
      simp

/-- a response record with a payload that contains a fake record -/
def demo1 : Item :=
  ⟨b! "WARC/1.0", [(b! "WARC-Type", b! "response"), (b! "Content-Length", b! "99")],
    some (b! "application/http; msgtype=response"), b! "HTTP/1.1 200 OK\r\n\r\nWARC/1.0\r\n\r\n"⟩

/-- a record with an old version stamp in lower case, and an empty payload -/
def demo2 : Item :=
  ⟨b! " warc/0.18", [(b! "X-Note", b! "a: b"), (b! "WARC-Type", [])], none, []⟩

theorem demo1_ok : demo1.Ok where
  version := ⟨[], b! "WARC/", b! "1.0", by decide⟩
  headers := by decide
  ctype := by intro t ht; cases ht; decide

theorem demo2_ok : demo2.Ok where
  version := ⟨b! " ", b! "warc/", b! "0.18", by decide⟩
  headers := by decide
  ctype := by intro t ht; cases ht

end Warc.Spec
