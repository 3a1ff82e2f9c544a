import Verif.Props.Reading
/-
  C14 - C17, C19 - C21, C54, C57.
-/
set_option linter.all false
namespace Warc
open Rx Stream Spec

/-! ### C14, C15: headers -/

/-- **C14** `get_header(name)` returns `v` exactly when some header has that name up to ASCII case,
no earlier header has, and its value is `v`; it returns `None` exactly when no header has it. -/
theorem C14_get_header (r : Rec) (name : Bytes) :
    (∀ v, r.getHeader name = some v ↔
      ∃ pre k post, r.headers = pre ++ (k, v) :: post ∧ lower k = lower name ∧
        ∀ h ∈ pre, lower h.1 ≠ lower name) ∧
    (r.getHeader name = none ↔ ∀ h ∈ r.headers, lower h.1 ≠ lower name) := by
  unfold Rec.getHeader
  generalize r.headers = hs
  induction hs with
  | nil => simp [lookupHeader]
  | cons h hs ih =>
    obtain ⟨k, v0⟩ := h
    by_cases hk : lower name = lower k
    · constructor
      · intro v
        simp only [lookupHeader, hk, if_true, Option.some.injEq]
        constructor
        · rintro rfl
          exact ⟨[], k, hs, rfl, rfl, by simp⟩
        · rintro ⟨pre, k', post, h1, h2, h3⟩
          cases pre with
          | nil => simp at h1; exact h1.1.2
          | cons p pre =>
            simp only [List.cons_append, List.cons.injEq] at h1
            exact absurd (by rw [← h1.1]) (h3 p (by simp))
      · simp only [lookupHeader, hk, if_true]
        constructor
        · intro h; cases h
        · intro h; exact absurd rfl (h (k, v0) (by simp))
    · constructor
      · intro v
        simp only [lookupHeader, hk, if_false]
        rw [ih.1 v]
        constructor
        · rintro ⟨pre, k', post, h1, h2, h3⟩
          refine ⟨(k, v0) :: pre, k', post, by simp [h1], h2, ?_⟩
          intro h hh
          rcases List.mem_cons.1 hh with rfl | hh
          · exact fun e => hk e.symm
          · exact h3 h hh
        · rintro ⟨pre, k', post, h1, h2, h3⟩
          cases pre with
          | nil =>
            simp only [List.nil_append, List.cons.injEq, Prod.mk.injEq] at h1
            exact absurd (by rw [h1.1.1, h2]) hk
          | cons p pre =>
            simp only [List.cons_append, List.cons.injEq] at h1
            exact ⟨pre, k', post, h1.2, h2, fun h hh => h3 h (by simp [hh])⟩
      · simp only [lookupHeader, hk, if_false]
        rw [ih.2]
        constructor
        · intro h x hx
          rcases List.mem_cons.1 hx with rfl | hx
          · exact fun e => hk e.symm
          · exact h x hx
        · intro h x hx
          exact h x (by simp [hx])

example : (Rec.mkWarc (b! "WARC/1.0") [(b! "A", b! "1"), (b! "X-y", b! "2"), (b! "x-Y", b! "3")] none none).getHeader
    (b! "X-Y") = some (b! "2") := by decide

theorem firstValue_append (name : Bytes) (a b : List Header) :
    firstValue name (a ++ b) = (firstValue name a).or (firstValue name b) := by
  induction a with
  | nil => simp [firstValue]
  | cons x a ih =>
    simp only [List.cons_append, firstValue]
    split <;> simp [ih]

theorem firstValue_filter_other (name other : Bytes) (hs : List Header) (h : lower other ≠ lower name) :
    firstValue other (hs.filter fun x => x.1 != name) = firstValue other hs := by
  induction hs with
  | nil => rfl
  | cons x hs ih =>
    rw [List.filter_cons]
    by_cases hx : x.1 = name
    · have : lower x.1 ≠ lower other := by rw [hx]; exact fun e => h e.symm
      simp [hx, firstValue, ih]
      intro e; exact absurd e.symm h
    · simp [hx, firstValue, ih]

/-- **C15** `set_header(name, value)` never changes what `get_header` returns for a different name,
and makes `get_header(name)` return `value` unless the record has a header whose name differs from
`name` in letter case only. -/
theorem C15_set_header (r : Rec) (name value : Bytes) :
    (∀ other, lower other ≠ lower name → (r.setHeader name value).getHeader other = r.getHeader other) ∧
    ((∀ h ∈ r.headers, lower h.1 = lower name → h.1 = name) →
      (r.setHeader name value).getHeader name = some value) := by
  simp only [Rec.getHeader, Rec.setHeader, lookupHeader_eq, firstValue_append]
  constructor
  · intro other ho
    rw [firstValue_filter_other name other _ ho]
    simp only [firstValue]
    rw [if_neg (fun e => ho e.symm)]
    simp
  · intro h
    have : firstValue name (r.headers.filter fun x => x.1 != name) = none := by
      generalize hs : r.headers = hs at h
      clear hs
      induction hs with
      | nil => rfl
      | cons x hs ih =>
        rw [List.filter_cons]
        split
        · rename_i hx
          rw [firstValue, if_neg, ih (fun y hy => h y (by simp [hy]))]
          intro e
          have := h x (by simp) e
          simp [this] at hx
        · exact ih (fun y hy => h y (by simp [hy]))
    rw [this]
    simp [firstValue]

/-- **C15 (defect)** in the excluded case the old value stays visible: when the first header that
matches up to case is not spelled like `name`, `get_header(name)` still returns the old value. -/
theorem C15_case_variant_survives (r : Rec) (name value k v : Bytes) (pre post : List Header)
    (h1 : r.headers = pre ++ (k, v) :: post) (h2 : lower k = lower name) (h3 : k ≠ name)
    (h4 : ∀ h ∈ pre, lower h.1 ≠ lower name) :
    (r.setHeader name value).getHeader name = some v := by
  simp only [Rec.getHeader, Rec.setHeader, lookupHeader_eq, h1]
  rw [List.filter_append, List.filter_cons, if_pos (by simpa using h3), List.append_assoc]
  have hpre : pre.filter (fun x => x.1 != name) = pre := by
    rw [List.filter_eq_self]
    intro x hx
    have := h4 x hx
    simp only [bne_iff_ne, ne_eq]
    intro e; exact this (by rw [e])
  rw [hpre, firstValue_append]
  have : firstValue name pre = none := by
    clear h1 hpre
    induction pre with
    | nil => rfl
    | cons x pre ih =>
      rw [firstValue, if_neg (h4 x (by simp)), ih (fun y hy => h4 y (by simp [hy]))]
  simp [this, firstValue, h2]

example : ((Rec.mkWarc (b! "WARC/1.0") [(b! "content-length", b! "1")] none none).setHeader
    (b! "Content-Length") (b! "2")).getHeader (b! "Content-Length") = some (b! "1") := by decide

/-! ### C16: content -/

theorem firstValue_case (a b : Bytes) (h : lower a = lower b) (hs : List Header) : firstValue a hs = firstValue b hs := by
  induction hs with
  | nil => rfl
  | cons x xs ih => simp only [firstValue, h, ih]

/-- **C16** The first access to the content of a record just read from an archive, WARC or ARC, returns its
Content-Type header and exactly the payload bytes. -/
theorem C16_first_access (c : Codec) (offs : Bool) (s s1 : Stream) (e : Entry) (r : Rec) (n : Nat) (out : Bytes)
    (hl : Live c s) (hread : readRecord offs s = .ok e s1) (hr : e.rcd = some r)
    (hn : payloadLength r = some (n : Int)) (hd : n ≤ s1.fh.rest.length) :
    ∃ w, World.content ⟨s1, r, out⟩ = .ok (firstValue (b! "Content-Type") r.headers, some (s1.fh.rest.take n)) w ∧
      w.rcd.content = some (firstValue (b! "Content-Type") r.headers, some (s1.fh.rest.take n)) ∧
      w.rcd.headers = r.headers ∧ w.out = out := by
  obtain ⟨he, hcf, hcn, _⟩ := live_announces hl offs s1 e r hread hr
  rw [hn] at he
  have hop := op_run (.read none) s1 n he (Or.inl hd)
  simp only [ReadOp.run, ReadOp.result, Option.map_none] at hop
  have hct : firstValue r.cls.contentTypeName r.headers = firstValue (b! "Content-Type") r.headers := by
    cases r.cls with
    | warc => rfl
    | arc => exact firstValue_case _ _ (by decide) _
    | arcHeader => exact firstValue_case _ _ (by decide) _
  simp only [World.content, hcf, hcn, World.cfileRead, World.onStream, hop, Rec.getHeader, lookupHeader_eq, hct]
  exact ⟨_, rfl, rfl, rfl, rfl⟩

/-- the hypotheses hold for the demo record, and its content is its payload -/
example : ∃ s1 w, readRecord true (demoStream 31) =
      .ok ⟨some 0, some (parsed demo1.R.version demo1.R.headers), []⟩ s1 ∧
    World.content ⟨s1, parsed demo1.R.version demo1.R.headers, []⟩ =
      .ok (some (b! "application/http; msgtype=response"), some demo1.R.body) w := by
  obtain ⟨s1, h1, h2, h3, h4⟩ := demo_read 31
  obtain ⟨w, h5, _⟩ := C16_first_access toy true (demoStream 31) s1 _ _ 31 [] (demo_live _) h1 rfl (congrArg some h4) (by rw [h2]; decide)
  refine ⟨s1, w, h1, ?_⟩
  rw [h5, h2]
  congr 1

/-- **C16** If reading the content raises, the content file is given up: every later access raises AttributeError,
whatever becomes of the stream. -/
theorem C16_failed_read (w w1 : World) (e : Exc) (h : World.content w = .raise e w1) (strm : Stream) (out : Bytes) :
    World.content { w1 with strm := strm, out := out } = .raise .attributeError { w1 with strm := strm, out := out } ∧
    w1.rcd.cfileValid = false := by
  have hc : w.rcd.content = none := by
    cases hc : w.rcd.content with
    | none => rfl
    | some c => rw [World.content, hc] at h; cases h
  have hkeep : ∀ n w', World.cfileRead n w = .raise e w' → w'.rcd.content = none := by
    intro n w' hr
    unfold World.cfileRead at hr
    cases hf : w.rcd.cfile with
    | unset => rw [hf] at hr; cases hr; exact hc
    | none => rw [hf] at hr; cases hr; exact hc
    | stream =>
      rw [hf] at hr
      simp only [World.onStream] at hr
      cases hs : Stream.read n w.strm with
      | ok a s => simp [hs] at hr
      | raise e' s => simp only [hs, Res.raise.injEq] at hr; rw [← hr.2]; exact hc
      | hang => simp [hs] at hr
    | file f =>
      rw [hf] at hr
      simp only at hr
      cases hs : File.read n f with
      | ok a s => simp [hs] at hr
      | raise e' s => simp only [hs, Res.raise.injEq] at hr; rw [← hr.2]; exact hc
      | hang => simp [hs] at hr
  rw [World.content, hc] at h
  simp only at h
  cases hr : World.cfileRead none w with
  | ok a w' => simp [hr] at h
  | hang => simp [hr] at h
  | raise e' w' =>
    simp only [hr, Res.raise.injEq] at h
    obtain ⟨rfl, rfl⟩ := h
    have hc' := hkeep _ _ hr
    refine ⟨?_, rfl⟩
    simp only [World.content, World.clearCfile, hc', World.cfileRead]

/-- a compressed record cut in the middle of its payload -/
example : ∃ w1, World.content ⟨⟨⟨b! "abc", 0, true, some .eofError⟩, some 10, .gzipRecord, .warc⟩, parsed (b! "WARC/1.0") [], []⟩ =
    .raise .eofError w1 := ⟨_, rfl⟩

/-- any further accesses: the content, type and length stay the same whatever is done to the
stream or the output meanwhile, and the length is the number of bytes -/
theorem C16_stable (w w1 : World) (c : Option Bytes × Option Bytes) (h : World.content w = .ok c w1)
    (strm : Stream) (out : Bytes) :
    let w2 := { w1 with strm := strm, out := out }
    World.content w2 = .ok c w2 ∧ World.contentType w2 = .ok c.1 w2 ∧
    (∀ b, c.2 = some b → World.contentLength w2 = .ok (b.length : Int) w2) := by
  have hc : w1.rcd.content = some c := by
    unfold World.content at h
    split at h
    · rename_i c' hc
      simp only [Res.ok.injEq] at h
      obtain ⟨rfl, rfl⟩ := h
      exact hc
    · simp only at h
      split at h
      · simp only [Res.ok.injEq] at h
        obtain ⟨rfl, rfl⟩ := h
        rfl
      · simp at h
      · simp at h
  simp only
  refine ⟨World.content_some _ c hc, ?_, ?_⟩
  · simp [World.contentType, hc]
  · intro b hb
    simp only [World.contentLength, hc, World.lenContent, M.bind_apply]
    rw [World.content_some _ c (by exact hc)]
    simp [hb]

/-! ### C17: writing more than once -/

/-- call `write_to(out)` `k` times, ignoring exceptions: the flags say which calls succeeded -/
def writeTimes : Nat → World → List Bool × World
  | 0, w => ([], w)
  | k + 1, w =>
    match World.writeTo CRLF w with
    | .ok () w' => let q := writeTimes k w'; (true :: q.1, q.2)
    | .raise _ w' => let q := writeTimes k w'; (false :: q.1, q.2)
    | .hang => ([], w)

/-- **C17** A record with a content tuple can be written any number of times and always produces the
same bytes. -/
theorem C17_tuple_any_number (k : Nat) (w : World) (ctype : Option Bytes) (buf : Option Bytes)
    (hcls : w.rcd.cls = .warc) (hcf : w.rcd.cfile = .none) (hc : w.rcd.content = some (ctype, buf)) :
    writeTimes k w = (List.replicate k true, { w with out := w.out ++ (List.replicate k
      (recordBytes w.rcd.version (writtenHeaders w.rcd.headers ctype (buf.getD [])) (buf.getD []))).flatten }) := by
  induction k generalizing w with
  | zero => simp [writeTimes]
  | succ k ih =>
    simp only [writeTimes, World.writeTo_tuple w ctype buf hcls hcf hc]
    rw [ih]
    · simp [List.replicate_succ]
    · exact hcls
    · exact hcf
    · exact hc

theorem writeTimes_used (k : Nat) (w : World) (hv : w.rcd.cfileValid = false)
    (hcf : World.hasCfile w.rcd = true) : writeTimes k w = (List.replicate k false, w) := by
  induction k with
  | zero => rfl
  | succ k ih =>
    have : World.writeTo CRLF w =
        .raise (.generic "cannot write record because content_file has already been used") w := by
      unfold World.writeTo
      cases h : w.rcd.cfile with
      | unset => simp [World.hasCfile, h] at hcf
      | none => simp [World.hasCfile, h] at hcf
      | stream => simp [hcf, hv]
      | file f => simp [hcf, hv]
    simp only [writeTimes, this, ih, List.replicate_succ]

/-- A record with a content file is written by the first call; every later call raises and writes
nothing. -/
theorem C17_content_file_once (k : Nat) (w : World) (f : File) (hf : f.fault = none)
    (hcls : w.rcd.cls = .warc) (hcf : w.rcd.cfile = .file f) (hv : w.rcd.cfileValid = true) :
    ∃ w', writeTimes (k + 1) w = (true :: List.replicate k false, w') ∧
      w'.out = w.out ++ recordBytes w.rcd.version w.rcd.headers f.rest := by
  simp only [writeTimes, World.writeTo_file w f hf hcls hcf hv]
  rw [writeTimes_used k _ rfl (by simp [World.hasCfile])]
  exact ⟨_, rfl, rfl⟩

/-- the same for a record that was read from an archive and is written before its content is
touched -/
theorem C17_stream_once (k : Nat) (w : World) (n : Nat) (hcls : w.rcd.cls = .warc)
    (hcf : w.rcd.cfile = .stream) (hv : w.rcd.cfileValid = true) (he : w.strm.eoc = some (n : Int))
    (hok : n ≤ w.strm.fh.rest.length ∨ w.strm.fh.fault = none) :
    ∃ w', writeTimes (k + 1) w = (true :: List.replicate k false, w') ∧
      w'.out = w.out ++ recordBytes w.rcd.version w.rcd.headers (w.strm.fh.rest.take n) := by
  simp only [writeTimes, World.writeTo_stream w n hcls hcf hv he hok]
  rw [writeTimes_used k _ rfl (by simp [World.hasCfile, hcf])]
  exact ⟨_, rfl, rfl⟩

example : ∃ w', writeTimes 3 ⟨Stream.mk' .plain (File.ofBytes []) .warc,
      Rec.mkWarcFile (b! "WARC/1.0") [(b! "Content-Length", b! "3")] (File.ofBytes (b! "abc")), []⟩ =
      ([true, false, false], w') ∧
    w'.out = recordBytes (b! "WARC/1.0") [(b! "Content-Length", b! "3")] (b! "abc") := by
  obtain ⟨w', h1, h2⟩ := C17_content_file_once 2 ⟨Stream.mk' .plain (File.ofBytes []) .warc,
      Rec.mkWarcFile (b! "WARC/1.0") [(b! "Content-Length", b! "3")] (File.ofBytes (b! "abc")), []⟩
      (File.ofBytes (b! "abc")) rfl rfl rfl rfl
  exact ⟨w', h1, h2⟩

/-! ### C19: streaming a content file -/

/-- **C19** A record with a content file (of any size) is written as its version line, exactly the
supplied headers, a blank line, all remaining bytes of the content file, and two CRLFs; the file is
left at its end. -/
theorem C19_content_file_bytes (w : World) (f : File) (hf : f.fault = none) (hcls : w.rcd.cls = .warc)
    (hcf : w.rcd.cfile = .file f) (hv : w.rcd.cfileValid = true) :
    ∃ w', World.writeTo CRLF w = .ok () w' ∧
      w'.out = w.out ++ (w.rcd.version ++ CRLF ++
        w.rcd.headers.flatMap (fun h => h.1 ++ b! ": " ++ h.2 ++ CRLF) ++ CRLF ++ f.rest ++ CRLF ++ CRLF) ∧
      ∃ f', w'.rcd.cfile = .file f' ∧ f'.rest = [] := by
  refine ⟨_, World.writeTo_file w f hf hcls hcf hv, ?_, _, rfl, by simp⟩
  have hl : headerLine = fun h => h.1 ++ b! ": " ++ h.2 ++ CRLF := rfl
  simp [recordBytes, headBytes, hl, List.flatMap_def]

/-- `for r in records: WarcRecord(version, headers, content_file=BytesIO(body)).write_to(out)` -/
def writeAllFiles : List R → Bytes → Option Bytes
  | [], out => some out
  | r :: rs, out =>
    match World.writeTo CRLF ⟨Stream.mk' .plain (File.ofBytes []) .warc,
        Rec.mkWarcFile r.version r.headers (File.ofBytes r.body), out⟩ with
    | .ok () w => writeAllFiles rs w.out
    | _ => none

/-- with correct Content-Length headers the records are read back unchanged -/
theorem C19_round_trip (c : Codec) (rs : List R) (h : ∀ r ∈ rs, r.Ok)
    (cls : Option RecClass) (hcls : cls = none ∨ cls = some .warc)
    (gz : GzMode) (hgz : gz = .auto ∨ gz = .off) (fuel : Nat) (hfuel : rs.length < fuel) :
    ∃ file s, writeAllFiles rs [] = some file ∧ openArchive c cls false gz none file = .ok s ∧
      collect true fuel s = ⟨expectGot some 0 rs, some ⟨some file.length, none, []⟩, .done⟩ := by
  have hw : ∀ (rs : List R) out, writeAllFiles rs out = some (out ++ archive rs) := by
    intro rs
    induction rs with
    | nil => intro out; simp [writeAllFiles, archive]
    | cons r rs ih =>
      intro out
      simp only [writeAllFiles]
      rw [World.writeTo_file _ (File.ofBytes r.body) rfl rfl rfl rfl]
      simp only
      rw [ih]
      simp [archive, R.bytes, Rec.mkWarcFile, File.ofBytes, File.rest]
  refine ⟨archive rs, ⟨File.openFile (archive rs), none, .plain, .warc⟩, by simpa using hw rs [], ?_, ?_⟩
  · apply openArchive_plain c cls .warc gz _ hgz _ (archive_not_gzip _ h)
    rcases hcls with rfl | rfl
    · exact Or.inr ⟨rfl, archive_classify _ h⟩
    · exact Or.inl rfl
  · rw [collect_archive true fuel _ rs (by simp) rfl rfl h
      (fun _ _ => Or.inl rfl) (by simp [File.openFile, File.rest]) hfuel]
    have hrep : reported .plain true = some := by funext p; rfl
    simp [hrep, File.openFile]

example : writeAllFiles [demo1.R, demo2.R] [] = some (archive [demo1.R, demo2.R]) ∧
    (∀ r ∈ [demo1.R, demo2.R], r.Ok) := by
  refine ⟨by decide +kernel, ?_⟩
  intro r hr
  simp at hr
  rcases hr with rfl | rfl
  · exact item_R_ok _ demo1_ok
  · exact item_R_ok _ demo2_ok

/-! ### C20, C21 -/

/-- **C20** `read_records(limit=k)` yields exactly the first `k` entries of the unlimited scan (all
of them if there are fewer). -/
theorem C20_limit_is_prefix (offs : Bool) (fuel k : Nat) (s : Stream) :
    (readRecords offs fuel (some k) s).1 = (readRecords offs fuel none s).1.take k ∧
    (readRecords offs fuel (some k) s).1.length ≤ k := by
  have h : (readRecords offs fuel (some k) s).1 = (readRecords offs fuel none s).1.take k := by
    induction fuel generalizing k s with
    | zero => simp [readRecords]
    | succ fuel ih =>
      cases k with
      | zero => simp [readRecords]
      | succ k =>
        simp only [readRecords]
        rw [if_neg (by simp), if_neg (by simp)]
        cases readRecord offs s with
        | hang => simp
        | raise e s' => simp
        | ok e s' =>
          simp only
          split
          · simp
          · simp only [Option.map_some, Option.map_none, Nat.add_sub_cancel, List.take_succ_cons, ih]
  exact ⟨h, by rw [h]; simp; omega⟩

/-- a limit that is reached ends the generator normally; otherwise it ends like the full scan -/
theorem C20_limit_end (offs : Bool) (fuel k : Nat) (s : Stream) (hk : k < fuel) :
    (readRecords offs fuel (some k) s).2 =
      (if k ≤ (readRecords offs fuel none s).1.length then .done
       else (readRecords offs fuel none s).2) := by
  induction fuel generalizing k s with
  | zero => omega
  | succ fuel ih =>
    cases k with
    | zero => simp [readRecords]
    | succ k =>
      have h1 : ((some (k + 1) : Option Nat) = some 0) = False := by simp
      have h2 : ((none : Option Nat) = some 0) = False := by simp
      simp only [readRecords, h1, h2, if_false]
      cases hr : readRecord offs s with
      | hang => simp
      | raise e s' => simp
      | ok e s' =>
        simp only
        split
        · simp
        · simp only [Option.map_some, Option.map_none, Nat.add_sub_cancel, List.length_cons,
            ih k s' (by omega), Nat.add_le_add_iff_right]

/-- nothing is yielded after an entry without a record -/
theorem C20_stops_at_end (offs : Bool) (fuel : Nat) (limit : Option Nat) (s : Stream) (i : Nat) (e : Entry)
    (h : (readRecords offs fuel limit s).1[i]? = some e) (hn : e.rcd = none) :
    i + 1 = (readRecords offs fuel limit s).1.length ∧ (readRecords offs fuel limit s).2 = .done := by
  induction fuel generalizing limit s i with
  | zero => simp [readRecords] at h
  | succ fuel ih =>
    simp only [readRecords] at h ⊢
    split
    · rename_i hl; simp [hl] at h
    · rename_i hl
      rw [if_neg hl] at h
      cases hr : readRecord offs s with
      | hang => simp [hr] at h
      | raise x y => simp [hr] at h
      | ok e0 s' =>
        simp only [hr] at h ⊢
        by_cases h0 : e0.rcd.isNone = true
        · rw [if_pos h0] at h ⊢
          cases i with
          | zero => simp
          | succ i => simp at h
        · rw [if_neg h0] at h ⊢
          cases i with
          | zero =>
            simp only [List.getElem?_cons_zero, Option.some.injEq] at h
            subst h
            simp [hn] at h0
          | succ i =>
            simp only [List.getElem?_cons_succ] at h
            obtain ⟨h1, h2⟩ := ih _ _ _ h
            exact ⟨by simp [h1], h2⟩

/-- **C21** Iterating a stream gives the records of `read_records(limit=None, offsets=False)` in
order; where that scan ends with an entry without record, iteration ends silently if the entry has
no errors and raises if it has; otherwise both end the same way. -/
theorem C21_iteration (fuel : Nat) (s : Stream) :
    (iterate fuel s).1 = (readRecords false fuel none s).1.filterMap (·.rcd) ∧
    (iterate fuel s).2 =
      (match (readRecords false fuel none s).2, (readRecords false fuel none s).1.getLast? with
       | .done, some e => if e.errors = [] then .done else .raised (.generic "Errors while decoding")
       | fin, _ => fin) := by
  induction fuel generalizing s with
  | zero => simp [iterate, readRecords]
  | succ fuel ih =>
    simp only [iterate, readRecords]
    rw [if_neg (by simp)]
    cases hr : readRecord false s with
    | hang => simp
    | raise x y => simp
    | ok e s' =>
      simp only
      cases hrec : e.rcd with
      | none =>
        simp only [Option.isNone_none, if_true, List.filterMap_cons, hrec, List.filterMap_nil,
          List.getLast?_singleton]
        split <;> simp
      | some r =>
        obtain ⟨h1, h2⟩ := ih s'
        simp only [Option.isNone_some, Bool.false_eq_true, if_false, Option.map_none, List.filterMap_cons, hrec, h1]
        refine ⟨trivial, ?_⟩
        rw [h2]
        cases hl : (readRecords false fuel none s').1 with
        | nil =>
          have hd : (readRecords false fuel none s').2 ≠ .done := by
            cases fuel with
            | zero => simp [readRecords]
            | succ fuel =>
              simp only [readRecords] at hl ⊢
              rw [if_neg (by simp)] at hl ⊢
              cases hq : readRecord false s' with
              | hang => simp
              | raise x y => simp
              | ok e2 s2 =>
                simp only [hq] at hl
                split at hl <;> simp at hl
          cases hfin : (readRecords false fuel none s').2 with
          | done => exact absurd hfin hd
          | raised x => simp
          | hangs => simp
        | cons a as => simp

/-- a stream with two records: a limit of one gives the first only, and iteration gives both -/
example :
    let s := Stream.mk' .plain (File.openFile (archive [demo1.R, demo2.R])) .warc
    (readRecords true 5 none s).1.length = 3 ∧ (readRecords true 5 none s).2 = .done ∧
    (readRecords true 5 (some 1) s).1.length = 1 ∧
    (iterate 5 s).1.length = 2 ∧ (iterate 5 s).2 = .done := by decide +kernel

/-! ### C54: seeking -/

/-- **C54** (exact behaviour of `seek`) After `seek(o)` on a stream whose last record has `n`
payload bytes that were not read yet, the next record is looked for at position `o + n`: `seek` does
not forget the unread payload. -/
theorem C54_seek_exact (offs : Bool) (s : Stream) (o n : Nat) (he : s.eoc = some (n : Int))
    (hn : o + n ≤ s.fh.data.length) :
    ∃ s1, Stream.seek (o : Int) 0 s = .ok () s1 ∧
      readRecord offs s1 = readRecord offs { s with fh := { s.fh with pos := o + n }, eoc := none } := by
  refine ⟨{ s with fh := { s.fh with pos := o } }, by simp [Stream.seek, onFile, File.seek], ?_⟩
  have hg : n ≤ ({ s.fh with pos := o } : File).rest.length := by simp [File.rest]; omega
  have := readRecord_skip offs n { s with fh := { s.fh with pos := o } } (by exact he) (by exact hg)
  exact this

/-- consequently seeking works when the last record was read to its end (or the stream is fresh):
the next record is the one at `o`, independently of everything read before -/
theorem C54_seek_after_complete_read (offs : Bool) (s t : Stream) (o : Nat)
    (hs : s.eoc = none ∨ s.eoc = some 0) (ht : t.eoc = none) (hfile : t.fh.data = s.fh.data)
    (hst : t.fh.strictNeg = s.fh.strictNeg) (hfa : t.fh.fault = s.fh.fault) (hk : t.kind = s.kind)
    (hp : t.parser = s.parser) :
    ∃ s1 t1, Stream.seek (o : Int) 0 s = .ok () s1 ∧ Stream.seek (o : Int) 0 t = .ok () t1 ∧
      readRecord offs s1 = readRecord offs t1 := by
  refine ⟨{ s with fh := { s.fh with pos := o } }, { t with fh := { t.fh with pos := o } },
    by simp [Stream.seek, onFile, File.seek], by simp [Stream.seek, onFile, File.seek], ?_⟩
  obtain ⟨⟨d, p, sn, fa⟩, e, k, pa⟩ := s
  obtain ⟨⟨d', p', sn', fa'⟩, e', k', pa'⟩ := t
  simp only at *
  subst hfile hst hfa hk hp ht
  rcases hs with rfl | rfl
  · rfl
  · rw [readRecord_neg offs 0 _ rfl (by omega)]

/-- **C54 (defect)** otherwise it does not: in a well formed archive, after reading the head of the
first record only, `seek(0)` and reading a record does not give the first record. -/
theorem C54_seek_defect : ∃ file s e1 s1 s2 e2 s3,
    openArchive toy (some .warc) false .auto none file = .ok s ∧
    writeAll [demo1, demo2] [] = some file ∧
    readRecord true s = .ok e1 s1 ∧ Stream.seek 0 0 s1 = .ok () s2 ∧
    readRecord true s2 = .ok e2 s3 ∧ e1.offset = some 0 ∧ e2 ≠ e1 := by
  refine ⟨archive [demo1.R, demo2.R], ⟨File.openFile (archive [demo1.R, demo2.R]), none, .plain, .warc⟩, ?_⟩
  have hok1 := item_R_ok demo1 demo1_ok
  have hok2 := item_R_ok demo2 demo2_ok
  have hoks : ∀ r ∈ [demo1.R, demo2.R], r.Ok := by
    intro r hr; simp at hr; rcases hr with rfl | rfl <;> assumption
  have hA : archive [demo1.R, demo2.R] = headBytes demo1.R.version demo1.R.headers ++
      (demo1.R.body ++ ((CRLF ++ CRLF) ++ demo2.R.bytes)) := by
    simp [archive, R.bytes, recordBytes]
  have h1 := readRecord_head true [] demo1.R.version demo1.R.headers
    (demo1.R.body ++ ((CRLF ++ CRLF) ++ demo2.R.bytes))
    ⟨File.openFile (archive [demo1.R, demo2.R]), none, .plain, .warc⟩ (by simp) rfl
    ⟨by simp, Or.inl rfl⟩ hok1.version hok1.headers (Or.inl rfl) (by simp [File.openFile, File.rest, hA])
  rw [hok1.length] at h1
  -- after the seek, 31 bytes are skipped: the search starts inside the header block of record 1
  have hnext : ∃ e2 s3, readRecord true ⟨{ File.openFile (archive [demo1.R, demo2.R]) with pos := 31 }, none,
      .plain, .warc⟩ = .ok e2 s3 ∧ e2.offset ≠ some 0 := by
    have : (match readRecord true ⟨{ File.openFile (archive [demo1.R, demo2.R]) with pos := 31 }, none,
      .plain, .warc⟩ with | .ok e2 _ => e2.offset != some 0 | _ => false) = true := by decide +kernel
    split at this
    · rename_i e2 s3 hh
      exact ⟨e2, s3, hh, by simpa using this⟩
    · cases this
  obtain ⟨e2, s3, h3, h4⟩ := hnext
  refine ⟨_, _, _, e2, s3, ?_, by simpa using writeAll_ok [demo1, demo2] [], h1, rfl, ?_, rfl, ?_⟩
  · exact openArchive_plain toy (some .warc) .warc .auto _ (Or.inl rfl) (Or.inl rfl) (archive_not_gzip _ hoks)
  · rw [readRecord_skip true 31 _ rfl (by
      show 31 ≤ (File.openFile (archive [demo1.R, demo2.R])).rest.length
      rw [show (File.openFile (archive [demo1.R, demo2.R])).rest = archive [demo1.R, demo2.R] by
        simp [File.openFile, File.rest]]
      simp [archive, R.bytes, recordBytes, show demo1.R.body.length = 31 from rfl]; omega)]
    exact h3
  · intro e
    rw [e] at h4
    exact h4 rfl

/-! ### C57: negative sizes -/

/-- **C57 (defect)** `read(-1)` on a content file does not stop at the end of the payload: it returns
everything up to the end of the file; the next attempt to read a record then reports a clean end of
the archive, so all following records are silently lost. -/
theorem C57_negative_read_runs_past_payload (offs : Bool) (s : Stream) (n : Nat) (he : s.eoc = some (n : Int))
    (hf : s.fh.fault = none) (hk : s.kind ≠ .gzipFile) (hn : n ≤ s.fh.rest.length) :
    ∃ s1, Stream.read (some (-1)) s = .ok s.fh.rest s1 ∧
      readRecord offs s1 = .ok ⟨reported s.kind offs (s.fh.pos + s.fh.rest.length), none, []⟩
        { s1 with eoc := none } := by
  have hmin : min (-1) (n : Int) = -1 := by omega
  have hread : Stream.read (some (-1)) s = .ok s.fh.rest
      { s.adv s.fh.rest.length with eoc := some ((n : Int) - (s.fh.rest.length : Int)) } := by
    simp only [Stream.read, M.bind_apply, M.get_apply, he, limitOf, hmin, rawRead, onFile, File.read]
    simp [File.deliver_nofault _ _ _ hf, consume, adv, he]
  refine ⟨_, hread, ?_⟩
  rw [readRecord_neg offs ((n : Int) - (s.fh.rest.length : Int)) _ rfl (by omega)]
  have := readRecord_eof offs ({ s.adv s.fh.rest.length with eoc := none } : Stream) hk rfl hf (by simp [adv])
  exact this

/-- the hypotheses hold after reading the head of the first of two records; the second is lost -/
example :
    (match readRecord true (Stream.mk' .plain (File.openFile (archive [demo1.R, demo2.R])) .warc) with
     | .ok _ s1 => decide (s1.eoc = some (31 : Nat) ∧ s1.fh.fault = none ∧ s1.kind = .plain ∧
         31 < s1.fh.rest.length)
     | _ => false) = true := by decide +kernel

/-- `readline(-1)` returns the whole next line of the file, even when the payload ends inside it -/
theorem C57_negative_readline (s : Stream) (n : Nat) (he : s.eoc = some (n : Int)) (hf : s.fh.fault = none) :
    ∃ s1, Stream.readline (some (-1)) s = .ok (lineOf s.fh.rest) s1 := by
  have hmin : min (-1) (n : Int) = -1 := by omega
  simp only [Stream.readline, M.bind_apply, M.get_apply, he, limitOf, hmin, onFile, File.readline, lineOf_eq]
  simp [File.deliver_nofault _ _ _ hf, consume]

/-- **C57** A record that announces a negative length is returned like any other.  Its content is not empty: with −1 it is
everything up to the end of the file, with a smaller number asking for it raises ValueError (in a file from disk or a
`GzipFile`).  If it is not asked for, the next record is looked for right behind the head. -/
theorem C57_negative_length (c : Codec) (offs : Bool) (s s1 : Stream) (e : Entry) (r : Rec) (n : Nat) (out : Bytes)
    (hl : Live c s) (hread : readRecord offs s = .ok e s1) (hr : e.rcd = some r)
    (hn : payloadLength r = some (-((n : Int) + 1))) (hst : s1.fh.strictNeg = true) (hf : s1.fh.fault = none) :
    (n = 0 → ∃ w, World.content ⟨s1, r, out⟩ = .ok (firstValue (b! "Content-Type") r.headers, some s1.fh.rest) w) ∧
    (n ≠ 0 → ∃ w, World.content ⟨s1, r, out⟩ = .raise .valueError w) ∧
    (∀ offs', readRecord offs' s1 = readRecord offs' { s1 with eoc := none }) := by
  obtain ⟨he, hcf, hcn, _⟩ := live_announces hl offs s1 e r hread hr
  rw [hn] at he
  have hct : firstValue r.cls.contentTypeName r.headers = firstValue (b! "Content-Type") r.headers := by
    cases r.cls with
    | warc => rfl
    | arc => exact firstValue_case _ _ (by decide) _
    | arcHeader => exact firstValue_case _ _ (by decide) _
  have h0 : ¬ (0 : Int) ≤ -((n : Int) + 1) := by omega
  refine ⟨?_, ?_, fun offs' => readRecord_neg offs' _ s1 he (by omega)⟩
  · rintro rfl
    have hop : Stream.read none s1 = .ok s1.fh.rest
        { s1.adv s1.fh.rest.length with eoc := some (-(((0 : Nat) : Int) + 1) - (s1.fh.rest.length : Int)) } := by
      simp only [Stream.read, M.bind_apply, M.get_apply, he, limitOf, rawRead, onFile, File.read, if_neg h0]
      simp [File.deliver_nofault _ _ _ hf, consume, adv, he]
    simp only [World.content, hcf, hcn, World.cfileRead, World.onStream, hop, Rec.getHeader, lookupHeader_eq, hct]
    exact ⟨_, rfl⟩
  · intro h1
    have hop : Stream.read none s1 = .raise .valueError s1 := by
      simp only [Stream.read, M.bind_apply, M.get_apply, he, limitOf, rawRead, onFile, File.read, if_neg h0]
      rw [if_neg (by rw [hst]; simp; omega)]
      simp only [← he]
    simp only [World.content, hcf, hcn, World.cfileRead, World.onStream, hop]
    exact ⟨_, rfl⟩

/-- an archive whose first record announces −1 bytes -/
def Spec.negText : Bytes := b! "WARC/1.0\r\nContent-Length: -1\r\n\r\nWARC/1.0\r\nContent-Length: 0\r\n\r\n"

example : ∃ s s1 e r, Live toy s ∧ readRecord true s = .ok e s1 ∧ e.rcd = some r ∧ payloadLength r = some (-(((0 : Nat) : Int) + 1)) ∧
    s1.fh.strictNeg = true ∧ s1.fh.fault = none ∧ s1.fh.rest = b! "WARC/1.0\r\nContent-Length: 0\r\n\r\n" := by
  have h : (match readRecord true (Stream.mk' .plain (File.openFile negText) .warc) with
      | .ok e s1 => (match e.rcd with
        | some r => decide (payloadLength r = some (-1)) && s1.fh.strictNeg && s1.fh.fault.isNone &&
            decide (s1.fh.rest = b! "WARC/1.0\r\nContent-Length: 0\r\n\r\n")
        | none => false)
      | _ => false) = true := by decide +kernel
  cases hx : readRecord true (Stream.mk' .plain (File.openFile negText) .warc) with
  | hang => simp [hx] at h
  | raise e t => simp [hx] at h
  | ok e s1 =>
    simp only [hx] at h
    cases hr : e.rcd with
    | none => simp [hr] at h
    | some r =>
      simp only [hr, Bool.and_eq_true, decide_eq_true_eq, Option.isNone_iff_eq_none] at h
      exact ⟨_, s1, e, r, .opened (cls := some .warc) (name := false) (gz := .off) (off := none) (contents := negText) rfl, hx, hr,
        h.1.1.1, h.1.1.2, h.1.2, h.2⟩

end Warc
