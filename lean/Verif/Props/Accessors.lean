import Verif.Props.Records
import Verif.Spec.Accessors
/-
  C83: what the attributes of a record say.
-/
set_option linter.all false
namespace Warc
open Rx Stream Spec

/-- **C83** `record.type`, `record.date`, `record.url` and `record.id` are the values of the first header of that name, in
any letter case (`None` without one), except that the type of ARC records is fixed. -/
theorem C83_headers (r : Rec) :
    r.type = (match r.cls with
      | .warc => firstValue (b! "WARC-Type") r.headers
      | .arc => some (b! "response")
      | .arcHeader => some (b! "filedesc")) ∧
    r.date = firstValue (dateHeader r.cls) r.headers ∧
    r.url = firstValue (urlHeader r.cls) r.headers ∧
    r.id = firstValue (b! "WARC-Record-ID") r.headers := by
  refine ⟨?_, ?_, ?_, ?_⟩
  · unfold Rec.type; cases r.cls <;> simp only [Rec.getHeader, lookupHeader_eq] <;> rfl
  · unfold Rec.date; cases r.cls <;> simp only [Rec.getHeader, lookupHeader_eq] <;> rfl
  · unfold Rec.url; cases r.cls <;> simp only [Rec.getHeader, lookupHeader_eq] <;> rfl
  · simp only [Rec.id, Rec.getHeader, lookupHeader_eq]; rfl

theorem content_type_name (cls : Cls) (hs : List Header) :
    firstValue cls.contentTypeName hs = firstValue (b! "Content-Type") hs := by
  cases cls with
  | warc => rfl
  | arc => exact firstValue_case _ _ (by decide) _
  | arcHeader => exact firstValue_case _ _ (by decide) _

theorem content_length_name (cls : Cls) (hs : List Header) :
    firstValue cls.contentLengthName hs = firstValue (lengthHeader cls) hs := by
  cases cls <;> rfl

/-- **C83** `record.content_type`: when the content is known (supplied, or already read), its first component; otherwise the
Content-Type header, without touching the content; without such a header the content is read (and what that raises is
raised), and the answer is None. -/
theorem C83_content_type (w : World) :
    (∀ c, w.rcd.content = some c → World.contentType w = .ok c.1 w) ∧
    (w.rcd.content = none → ∀ t, firstValue (b! "Content-Type") w.rcd.headers = some t → World.contentType w = .ok (some t) w) ∧
    (w.rcd.content = none → firstValue (b! "Content-Type") w.rcd.headers = none →
      World.contentType w = match World.content w with
        | .ok _ w' => .ok none w'
        | .raise e w' => .raise e w'
        | .hang => .hang) := by
  refine ⟨?_, ?_, ?_⟩
  · intro c h; simp only [World.contentType, h]
  · intro h t ht
    simp only [World.contentType, h, Rec.getHeader, lookupHeader_eq, content_type_name, ht]
  · intro h ht
    simp only [World.contentType, h, Rec.getHeader, lookupHeader_eq, content_type_name, ht, World.content]
    cases World.cfileRead none w <;> rfl

/-- **C83** `record.content_length`: when the content is known, the number of its bytes (TypeError when it has none);
otherwise the first Content-Length (ARC: Archive-length) header as a number, ValueError when it is not one, without touching
the content; without such a header the content is read (and what that raises is raised), and the answer is the number of its
bytes. -/
theorem C83_content_length (w : World) :
    (∀ t b, w.rcd.content = some (t, some b) → World.contentLength w = .ok (b.length : Int) w) ∧
    (∀ t, w.rcd.content = some (t, none) → World.contentLength w = .raise .typeError w) ∧
    (w.rcd.content = none → ∀ v, firstValue (lengthHeader w.rcd.cls) w.rcd.headers = some v →
      World.contentLength w = match pyInt 10 v with
        | some n => .ok n w
        | none => .raise .valueError w) ∧
    (w.rcd.content = none → firstValue (lengthHeader w.rcd.cls) w.rcd.headers = none →
      World.contentLength w = match World.content w with
        | .ok c w' => .ok ((c.2.getD []).length : Int) w'
        | .raise e w' => .raise e w'
        | .hang => .hang) := by
  refine ⟨?_, ?_, ?_, ?_⟩
  · intro t b h; simp [World.contentLength, h, World.lenContent, M.bind_apply, World.content]
  · intro t h; simp [World.contentLength, h, World.lenContent, M.bind_apply, World.content]
  · intro h v hv
    simp only [World.contentLength, h, Rec.getHeader, lookupHeader_eq, content_length_name, hv]
    cases pyInt 10 v <;> rfl
  · intro h hv
    simp only [World.contentLength, h, Rec.getHeader, lookupHeader_eq, content_length_name, hv, World.lenContent, M.bind_apply,
      World.content]
    cases World.cfileRead none w <;> simp

theorem firstValue_only {name v : Bytes} {hs : List Header} (h : OnlyHeader name v hs) : firstValue name hs = some v := by
  obtain ⟨pre, k, post, rfl, hk, hp, _⟩ := h
  induction pre with
  | nil => simp [firstValue, hk]
  | cons x pre ih =>
    rw [List.cons_append, firstValue, if_neg (hp x (by simp))]
    exact ih (fun h hh => hp h (by simp [hh]))

theorem foldl_skip {α : Type} (f : α → Header → α) (p : Header → Prop) (hf : ∀ a h, ¬ p h → f a h = a) :
    ∀ (l : List Header) (a : α), (∀ h ∈ l, ¬ p h) → l.foldl f a = a
  | [], a, _ => rfl
  | x :: l, a, h => by
    rw [List.foldl_cons, hf a x (h x (by simp))]
    exact foldl_skip f p hf l a (fun y hy => h y (by simp [hy]))

theorem arcLength_only {hs pre post : List Header} {k v : Bytes} {m q : Int} (hh : hs = pre ++ (k, v) :: post)
    (hk : lower k = lower (b! "Archive-length")) (hp : ∀ h ∈ pre, lower h.1 ≠ lower (b! "Archive-length"))
    (hq : ∀ h ∈ post, lower h.1 ≠ lower (b! "Archive-length")) (hm : pyInt 10 v = some m) (ha : arcLength hs = some q) : m = q := by
  simp only [arcLength, hh, List.foldl_append, List.foldl_cons] at ha
  rw [if_pos (by rw [hk]; decide), hm] at ha
  have hq' : ∀ h ∈ post, ¬ lower h.1 = b! "archive-length" := hq
  rw [foldl_skip _ (fun h => lower h.1 = b! "archive-length") ?_ _ _ hq'] at ha
  rotate_left
  · intro a h hne; exact if_neg hne
  simpa using ha

/-- **C83** A record just read, with one length header that is a number: `content_length` and `content_type` before reading
the content are the same as afterwards, and the length is the number of bytes of the content -- except in the file header
(filedesc) of an ARC file, where it counts the lines behind the first that the header consists of, too. -/
theorem C83_before_and_after (c : Codec) (offs : Bool) (s s1 : Stream) (e : Entry) (r : Rec) (v : Bytes) (m : Int) (n : Nat)
    (out : Bytes) (hl : Live c s) (hread : readRecord offs s = .ok e s1) (hr : e.rcd = some r)
    (hv : OnlyHeader (lengthHeader r.cls) v r.headers) (hm : pyInt 10 v = some m)
    (hn : payloadLength r = some (n : Int)) (hd : n ≤ s1.fh.rest.length) :
    m = (if r.cls = .arcHeader then (n : Int) + ((r.rawHeaders.drop 1).flatten.length : Int) else (n : Int)) ∧
    World.contentLength ⟨s1, r, out⟩ = .ok m ⟨s1, r, out⟩ ∧
    ∃ body w, World.content ⟨s1, r, out⟩ = .ok (firstValue (b! "Content-Type") r.headers, some body) w ∧ body.length = n ∧
      World.contentLength w = .ok (n : Int) w ∧
      World.contentType w = .ok (firstValue (b! "Content-Type") r.headers) w ∧
      ∃ w', World.contentType ⟨s1, r, out⟩ = .ok (firstValue (b! "Content-Type") r.headers) w' := by
  obtain ⟨he, hcf, hcn, _⟩ := live_announces hl offs s1 e r hread hr
  obtain ⟨w, h1, h2, h3, h4⟩ := C16_first_access c offs s s1 e r n out hl hread hr hn hd
  have hlen : (s1.fh.rest.take n).length = n := by rw [List.length_take]; omega
  refine ⟨?_, ?_, s1.fh.rest.take n, w, h1, hlen, ?_, ?_, ?_⟩
  · obtain ⟨pre, k, post, hh, hk, hp, hq⟩ := hv
    cases hc : r.cls with
    | warc =>
      simp only [payloadLength, hc, Option.some.injEq, declaredLength, hh, List.foldl_append, List.foldl_cons] at hn
      rw [hc] at hk hp hq
      have hs := fun (l : List Header) (a : Int) => foldl_skip (fun (acc : Int) (h : Header) =>
        if lower h.1 = b! "content-length" then (pyInt 10 h.2).getD acc else acc) (fun h => lower h.1 = lower (lengthHeader .warc))
        (fun a h hne => if_neg hne) l a
      rw [hs pre _ hp, if_pos (by rw [hk]; decide), hs post _ hq, hm] at hn
      simpa [hc] using hn
    | arc =>
      simp only [payloadLength, hc] at hn
      rw [hc] at hk hp hq
      simpa [hc] using arcLength_only hh hk hp hq hm hn
    | arcHeader =>
      simp only [payloadLength, hc] at hn
      rw [hc] at hk hp hq
      cases ha : arcLength r.headers with
      | none => rw [ha] at hn; cases hn
      | some q =>
        have := arcLength_only hh hk hp hq hm ha
        rw [ha] at hn
        simp only [Option.map_some, Option.some.injEq] at hn
        simp only [if_true]
        omega
  · have := (C83_content_length ⟨s1, r, out⟩).2.2.1 hcn v (firstValue_only hv)
    rw [this, hm]
  · have := (C83_content_length w).1 _ _ h2
    rw [this, hlen]
  · exact (C83_content_type w).1 _ h2
  · cases ht : firstValue (b! "Content-Type") r.headers with
    | some t => exact ⟨_, (C83_content_type ⟨s1, r, out⟩).2.1 hcn t ht⟩
    | none =>
      have := (C83_content_type ⟨s1, r, out⟩).2.2 hcn ht
      rw [h1] at this
      exact ⟨_, this⟩

/-- the demo record -/
example : ∃ s1 w, World.contentLength ⟨s1, parsed demo1.R.version demo1.R.headers, []⟩ =
      .ok 31 ⟨s1, parsed demo1.R.version demo1.R.headers, []⟩ ∧ World.contentLength w = .ok 31 w ∧
    World.contentType w = .ok (some (b! "application/http; msgtype=response")) w := by
  obtain ⟨s1, h1, h2, h3, h4⟩ := demo_read 31
  obtain ⟨_, a, body, w, _, _, b, d, _⟩ := C83_before_and_after toy true (demoStream 31) s1 _ _ (b! "31") 31 31 [] (demo_live _) h1 rfl
    ⟨demo1.R.headers.take 2, b! "Content-Length", demo1.R.headers.drop 3, by decide, by decide, by decide, by decide⟩ (by decide)
    (congrArg some h4) (by rw [h2]; decide)
  exact ⟨s1, w, a, b, d⟩

/-- **C83 (defect)** A record just read with several Content-Length headers: the payload is as long as the last says, but
`content_length` is what the first says until the content is read. -/
theorem C83_several_lengths (c : Codec) (offs : Bool) (s s1 : Stream) (e : Entry) (r : Rec) (v1 v2 : Bytes) (m : Int) (n : Nat)
    (out : Bytes) (pre mid : List Header) (k1 k2 : Bytes)
    (hl : Live c s) (hread : readRecord offs s = .ok e s1) (hr : e.rcd = some r) (hcls : r.cls = .warc)
    (hh : r.headers = pre ++ (k1, v1) :: mid ++ [(k2, v2)]) (hp : ∀ h ∈ pre, lower h.1 ≠ b! "content-length")
    (hk1 : lower k1 = b! "content-length") (hk2 : lower k2 = b! "content-length")
    (hm : pyInt 10 v1 = some m) (hn : pyInt 10 v2 = some (n : Int)) (hd : n ≤ s1.fh.rest.length) :
    World.contentLength ⟨s1, r, out⟩ = .ok m ⟨s1, r, out⟩ ∧
    ∃ t body w, World.content ⟨s1, r, out⟩ = .ok (t, some body) w ∧ body = s1.fh.rest.take n ∧
      World.contentLength w = .ok (n : Int) w := by
  obtain ⟨he, hcf, hcn, _⟩ := live_announces hl offs s1 e r hread hr
  have hpl : payloadLength r = some (n : Int) := by
    simp only [payloadLength, hcls, declaredLength, hh, List.foldl_append, List.foldl_cons, List.foldl_nil, hk2, if_true, hn,
      Option.getD_some]
  obtain ⟨w, h1, h2, h3, h4⟩ := C16_first_access c offs s s1 e r n out hl hread hr hpl hd
  refine ⟨?_, _, _, w, h1, rfl, ?_⟩
  · have hf : firstValue (lengthHeader r.cls) r.headers = some v1 := by
      rw [hh, hcls, List.append_assoc, firstValue_append]
      have : ∀ (l : List Header), (∀ h ∈ l, lower h.1 ≠ b! "content-length") → firstValue (lengthHeader .warc) l = none := by
        intro l
        induction l with
        | nil => intro _; rfl
        | cons x l ih =>
          intro h
          rw [firstValue, if_neg (by exact h x (by simp)), ih (fun y hy => h y (by simp [hy]))]
      rw [this pre hp]
      have h2 : lower k1 = lower (lengthHeader .warc) := by rw [hk1]; decide
      simp [firstValue, h2]
    have := (C83_content_length ⟨s1, r, out⟩).2.2.1 hcn v1 hf
    rw [this, hm]
  · have := (C83_content_length w).1 _ _ h2
    rw [this, List.length_take]
    congr 2
    omega

/-- a record with two Content-Length headers -/
def Spec.twoLengths : Bytes := b! "WARC/1.0\r\nContent-Length: 7\r\nContent-Length: 3\r\n\r\nabc\r\n\r\n"

theorem twoLengths_read : (match readRecord true (Stream.mk' .plain (File.openFile twoLengths) .warc) with
    | .ok ⟨_, some r, _⟩ s1 => decide (r.cls = .warc) && decide (r.headers = [(b! "Content-Length", b! "7"), (b! "Content-Length", b! "3")]) &&
        decide (s1.fh.rest = b! "abc\r\n\r\n")
    | _ => false) = true := by decide +kernel

example : ∃ s1 r w, World.contentLength ⟨s1, r, []⟩ = .ok 7 ⟨s1, r, []⟩ ∧ World.content ⟨s1, r, []⟩ = .ok (none, some (b! "abc")) w := by
  have h := twoLengths_read
  cases hx : readRecord true (Stream.mk' .plain (File.openFile twoLengths) .warc) with
  | hang => rw [hx] at h; cases h
  | raise e t => rw [hx] at h; cases h
  | ok e s1 =>
    rw [hx] at h
    obtain ⟨off, rc, es⟩ := e
    cases rc with
    | none => cases h
    | some r =>
      simp only [Bool.and_eq_true, decide_eq_true_eq] at h
      obtain ⟨⟨h1, h2⟩, h3⟩ := h
      have hl : Live toy (Stream.mk' .plain (File.openFile twoLengths) .warc) :=
        .opened (cls := some .warc) (name := false) (gz := .off) (off := none) (contents := twoLengths) rfl
      obtain ⟨a, t, body, w, b, d, _⟩ := C83_several_lengths toy true _ s1 _ r (b! "7") (b! "3") 7 3 [] [] []
        (b! "Content-Length") (b! "Content-Length") hl hx rfl h1 h2 (by simp) (by decide) (by decide) (by decide) (by decide)
        (by rw [h3]; decide)
      obtain ⟨w', g, _⟩ := C16_first_access toy true _ s1 _ r 3 [] hl hx rfl (by rw [payloadLength, h1, h2]; rfl) (by rw [h3]; decide)
      refine ⟨s1, r, w', a, ?_⟩
      rw [g, h2, h3]
      rfl

/-- a record without a content type whose content was not read yet: asking for the type reads it -/
example : ∃ w', World.contentType ⟨⟨File.openFile (b! "abcdef"), some 3, .plain, .warc⟩, parsed (b! "WARC/1.0") [], []⟩ = .ok none w' ∧
    w'.strm.fh.pos = 3 := ⟨_, rfl, rfl⟩

end Warc
