import Verif.Spec.Stale
import Verif.Props.Records
import Verif.Proofs.ToolDemo
import Verif.Spec.Toy
/-
  C73: records that are used after the next one was read.
-/
set_option linter.all false
namespace Warc
open Rx Stream Spec

/-- The content of a record that was read before and not touched, when the stream stands in front of a payload of `n` bytes. -/
theorem stale_read (r0 : Rec) (s1 : Stream) (n : Nat) (out : Bytes) (h1 : r0.cfile = .stream) (h2 : r0.content = none)
    (he : s1.eoc = some (n : Int)) (hd : n ≤ s1.fh.rest.length) :
    ∃ w, World.content ⟨s1, r0, out⟩ = .ok (firstValue (b! "Content-Type") r0.headers, some (s1.fh.rest.take n)) w ∧
      w.strm = { s1.adv n with eoc := some 0 } := by
  have hop := op_run (.read none) s1 n he (Or.inl hd)
  simp only [ReadOp.run, ReadOp.result, Option.map_none] at hop
  have hl : (s1.fh.rest.take n).length = n := by rw [List.length_take]; omega
  rw [hl, Nat.sub_self] at hop
  have hct : firstValue r0.cls.contentTypeName r0.headers = firstValue (b! "Content-Type") r0.headers := by
    cases r0.cls with
    | warc => rfl
    | arc => exact firstValue_case _ _ (by decide) _
    | arcHeader => exact firstValue_case _ _ (by decide) _
  simp only [World.content, h1, h2, World.cfileRead, World.onStream, hop, Rec.getHeader, lookupHeader_eq, hct]
  exact ⟨_, rfl, rfl⟩

/-- **C73** A record `r0` was returned and its content not touched.  Later another record `r` with a complete payload has been returned by the
stream.  Then the content of `r0` is the payload of `r` (with the content type of `r0`), the content of `r` is empty afterwards, and the next record is
read as if nothing had happened. -/
theorem C73_stale_content (c : Codec) (offs0 offs offs' : Bool) (s0 s0' s s1 : Stream) (e0 e : Entry) (r0 r : Rec) (n : Nat) (out : Bytes)
    (hl0 : Live c s0) (hread0 : readRecord offs0 s0 = .ok e0 s0') (hr0 : e0.rcd = some r0)
    (hl : Live c s) (hread : readRecord offs s = .ok e s1) (hr : e.rcd = some r)
    (hn : payloadLength r = some (n : Int)) (hd : n ≤ s1.fh.rest.length) :
    ∃ w w', World.content ⟨s1, r0, out⟩ = .ok (firstValue (b! "Content-Type") r0.headers, some (s1.fh.rest.take n)) w ∧
      World.content ⟨w.strm, r, out⟩ = .ok (firstValue (b! "Content-Type") r.headers, some []) w' ∧
      readRecord offs' w'.strm = readRecord offs' s1 := by
  obtain ⟨_, hcf0, hcn0, _⟩ := live_announces hl0 offs0 s0' e0 r0 hread0 hr0
  obtain ⟨he, hcf, hcn, _⟩ := live_announces hl offs s1 e r hread hr
  rw [hn] at he
  obtain ⟨w, h1, h2⟩ := stale_read r0 s1 n out hcf0 hcn0 he hd
  obtain ⟨w', h3, h4⟩ := stale_read r { s1.adv n with eoc := some 0 } 0 out hcf hcn rfl (Nat.zero_le _)
  refine ⟨w, w', h1, ?_, ?_⟩
  · rw [h2, h3]; rfl
  · rw [h4, readRecord_skip offs' n s1 he hd, readRecord_skip offs' 0 _ rfl (Nat.zero_le _)]
    congr 1

/-- **C73** Written out at that moment, `r0` gets its own headers and the payload of `r`. -/
theorem C73_stale_write (c : Codec) (offs0 offs : Bool) (s0 s0' s s1 : Stream) (e0 e : Entry) (r0 r : Rec) (n : Nat) (out : Bytes)
    (hl0 : Live c s0) (hread0 : readRecord offs0 s0 = .ok e0 s0') (hr0 : e0.rcd = some r0) (hw : r0.cls = .warc)
    (hl : Live c s) (hread : readRecord offs s = .ok e s1) (hr : e.rcd = some r)
    (hn : payloadLength r = some (n : Int)) (hd : n ≤ s1.fh.rest.length) :
    ∃ w, World.writeTo CRLF ⟨s1, r0, out⟩ = .ok () w ∧ w.out = out ++ recordBytes r0.version r0.headers (s1.fh.rest.take n) := by
  obtain ⟨_, hcf0, hcn0, hv0⟩ := live_announces hl0 offs0 s0' e0 r0 hread0 hr0
  obtain ⟨he, hcf, hcn, _⟩ := live_announces hl offs s1 e r hread hr
  rw [hn] at he
  exact ⟨_, World.writeTo_stream ⟨s1, r0, out⟩ n hw hcf0 hv0 he (.inl hd), rfl⟩

/-- **C73** Reading all records of an archive first and their contents afterwards gives the right records with empty contents, however many there are. -/
theorem C73_contents_after_the_end (offs : Bool) (fuel : Nat) (s : Stream) (T : Bytes) (rs : List RT) (hk : s.kind ≠ .gzipFile) (he : s.eoc = none)
    (hf : s.fh.fault = none) (hT : Terminator T) (hok : OkT rs) (hp : s.parser = .warc) (hr : s.fh.rest = T ++ archiveT rs) (hfuel : rs.length < fuel) :
    ∃ t, readAll offs fuel s = some (rs.map fun r => parsed r.1.version r.1.headers, t) ∧
      contentsOf (rs.map fun r => parsed r.1.version r.1.headers) t = some (rs.map fun r => (firstValue (b! "Content-Type") r.1.headers, some [])) := by
  -- where reading ends
  have key : ∀ (rs : List RT) (fuel : Nat) (s : Stream) (T : Bytes), s.kind ≠ .gzipFile → s.eoc = none → s.fh.fault = none → Terminator T → OkT rs →
      s.parser = .warc → s.fh.rest = T ++ archiveT rs → rs.length < fuel →
      ∃ t, readAll offs fuel s = some (rs.map fun r => parsed r.1.version r.1.headers, t) ∧ t.eoc = none ∧ t.fh.rest = [] ∧ t.fh.fault = none := by
    intro rs
    induction rs with
    | nil =>
      intro fuel s T hk he hf hT _ hp hr hfuel
      cases fuel with
      | zero => exact absurd hfuel (Nat.not_lt_zero _)
      | succ fuel =>
        have h0 := readRecord_terminator offs T [] s he hT (by rw [hr]; simp [archiveT])
        have h1 := readRecord_eof offs (s.adv T.length) hk he hf (by rw [adv_fh, File.advance_rest, hr]; simp [archiveT])
        refine ⟨s.adv T.length, ?_, he, ?_, hf⟩
        · simp only [readAll, h0, h1, List.map_nil]
        · rw [adv_fh, File.advance_rest, hr]; simp [archiveT]
    | cons r rs ih =>
      intro fuel s T hk he hf hT hok hp hr hfuel
      cases fuel with
      | zero => exact absurd hfuel (Nat.not_lt_zero _)
      | succ fuel =>
        obtain ⟨hr1, hr2⟩ := hok r (by simp)
        have hhead := readRecord_head offs T r.1.version r.1.headers (r.1.body ++ (r.2 ++ archiveT rs)) s hk he hT hr1.version hr1.headers (.inl hp)
          (by rw [hr]; simp [R.core, archiveT])
        rw [hr1.length] at hhead
        -- skipping the payload
        have hstep : ∀ fuel, readAll offs fuel { s.adv (T.length + (headBytes r.1.version r.1.headers).length) with eoc := some (r.1.body.length : Int) } =
            readAll offs fuel ((s.adv (T.length + (headBytes r.1.version r.1.headers).length)).adv r.1.body.length) := by
          intro fuel
          cases fuel with
          | zero => rfl
          | succ fuel =>
            have hrest : (s.adv (T.length + (headBytes r.1.version r.1.headers).length)).fh.rest = r.1.body ++ (r.2 ++ archiveT rs) := by
              rw [adv_fh, File.advance_rest, hr]
              have : T ++ archiveT (r :: rs) = (T ++ headBytes r.1.version r.1.headers) ++ (r.1.body ++ (r.2 ++ archiveT rs)) := by simp [archiveT, R.core]
              rw [this, ← List.length_append, List.drop_left]
            have hs := readRecord_skip offs r.1.body.length { s.adv (T.length + (headBytes r.1.version r.1.headers).length) with eoc := some (r.1.body.length : Int) } rfl
              (by show r.1.body.length ≤ (s.adv _).fh.rest.length; rw [hrest]; simp)
            simp only [readAll, hs]
            have : ({ ({ s.adv (T.length + (headBytes r.1.version r.1.headers).length) with eoc := some (r.1.body.length : Int) } : Stream).adv r.1.body.length with eoc := none } : Stream) =
                (s.adv (T.length + (headBytes r.1.version r.1.headers).length)).adv r.1.body.length := by
              obtain ⟨fh, eoc, kind, parser⟩ := s
              simp at he; subst he; rfl
            rw [this]
        obtain ⟨t, h1, h2⟩ := ih fuel ((s.adv (T.length + (headBytes r.1.version r.1.headers).length)).adv r.1.body.length) r.2 hk he hf hr2
          (fun x hx => hok x (by simp [hx])) hp (by
            rw [adv_adv, adv_fh, File.advance_rest, hr]
            have : T ++ archiveT (r :: rs) = (T ++ headBytes r.1.version r.1.headers ++ r.1.body) ++ (r.2 ++ archiveT rs) := by simp [archiveT, R.core]
            rw [this, ← List.length_append, ← List.length_append, List.drop_left]) (by simp at hfuel; omega)
        refine ⟨t, ?_, h2⟩
        simp only [readAll, hhead, hstep, h1, Option.map_some, List.map_cons]
  obtain ⟨t, h1, h2, h3, h4⟩ := key rs fuel s T hk he hf hT hok hp hr hfuel
  refine ⟨t, h1, ?_⟩
  clear h1 hfuel hr hok
  induction rs generalizing t with
  | nil => rfl
  | cons r rs ih =>
    have hop : Stream.read none t = .ok [] t := by
      have h5 := op_run_unlimited (.read none) t h2 h4
      simp only [ReadOp.run, ReadOp.result, Option.map_none, h3, List.length_nil] at h5
      rw [h5]
      congr 1
    have : World.content ⟨t, parsed r.1.version r.1.headers, []⟩ = .ok (firstValue (b! "Content-Type") r.1.headers, some []) ⟨t, { parsed r.1.version r.1.headers with content := some (firstValue (b! "Content-Type") r.1.headers, some []), cfile := .none, cfileValid := false }, []⟩ := by
      simp only [World.content, parsed, World.cfileRead, World.onStream, hop, Rec.getHeader, lookupHeader_eq]
      rfl
    simp only [List.map_cons, contentsOf, this, ih t h2 h3 h4, Option.map_some]

/-! ### The hypotheses are met -/

/-- a file with the two records of `demoRT`: read twice, then ask for both contents -/
def twoRecords : Stream := Stream.mk' .plain (File.openFile (archiveT demoRT)) .warc

/-- both records are read from an open file, the first is an untouched WARC record, the second has a complete payload that differs from that of the first -/
example : ∃ s0 s0' e0 r0 s1 e r, ∃ n : Nat, Live toy s0 ∧ readRecord false s0 = .ok e0 s0' ∧ e0.rcd = some r0 ∧ r0.cls = .warc ∧ Live toy s0' ∧
    readRecord false s0' = .ok e s1 ∧ e.rcd = some r ∧ payloadLength r = some (n : Int) ∧ n ≤ s1.fh.rest.length ∧
    s1.fh.rest.take n = demo2.R.body ∧ demo2.R.body ≠ demo1.R.body := by
  have h : (match readRecord false twoRecords with
      | .ok e0 s => (match readRecord false s with
        | .ok e s1 => (match e0.rcd, e.rcd with
          | some r0, some r => decide (r0.cls = .warc) && decide (payloadLength r = some (demo2.R.body.length : Int)) && decide (demo2.R.body.length ≤ s1.fh.rest.length) &&
              decide (s1.fh.rest.take demo2.R.body.length = demo2.R.body)
          | _, _ => false)
        | _ => false)
      | _ => false) = true := by decide +kernel
  have hl : Live toy twoRecords := by
    refine .opened (cls := some .warc) (name := false) (gz := .off) (off := none) (contents := archiveT demoRT) ?_
    rfl
  cases h0 : readRecord false twoRecords with
  | hang => simp [h0] at h
  | raise e t => simp [h0] at h
  | ok e0 s =>
    simp only [h0] at h
    cases hx : readRecord false s with
    | hang => simp [hx] at h
    | raise e t => simp [hx] at h
    | ok e s1 =>
      simp only [hx] at h
      cases hr0 : e0.rcd with
      | none => simp [hr0] at h
      | some r0 =>
        cases hr : e.rcd with
        | none => simp [hr0, hr] at h
        | some r =>
          simp only [hr0, hr, Bool.and_eq_true, decide_eq_true_eq] at h
          exact ⟨twoRecords, s, e0, r0, s1, e, r, demo2.R.body.length, hl, h0, hr0, h.1.1.1, .record hl h0, hx, hr, h.1.1.2, h.1.2, h.2, by decide⟩

/-- and the whole program on that file -/
example : ∃ t, readAll false 3 twoRecords = some (demoRT.map fun r => parsed r.1.version r.1.headers, t) ∧
    contentsOf (demoRT.map fun r => parsed r.1.version r.1.headers) t = some (demoRT.map fun r => (firstValue (b! "Content-Type") r.1.headers, some [])) :=
  C73_contents_after_the_end false 3 twoRecords [] demoRT (by decide) rfl rfl ⟨by simp, .inl rfl⟩ demoRT_ok rfl rfl (by decide)

end Warc
