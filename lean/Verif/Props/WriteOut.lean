import Verif.Proofs.WriteOut
import Verif.Props.Copy
import Verif.Props.RoundTrip
import Verif.Props.Reading
/-
  C77: writing to a device that becomes full.  C78: `RecordStream.write`.
-/
set_option linter.all false
namespace Warc
open Rx Stream Spec

/-- **C77** Whatever `write_to` writes to an ordinary file: on a device with room for `room` bytes it does the same if that fits, and otherwise raises OSError, and
the device then contains the first `room` bytes of it. -/
theorem C77_device (room : Nat) (nl : Bytes) (w w' : World) (hw : w.out.length ≤ room) (h : World.writeTo nl w = .ok () w') :
    (w'.out.length ≤ room → World.writeToVia (World.limited room) nl w = .ok () w') ∧
    (room < w'.out.length → ∃ w'', World.writeToVia (World.limited room) nl w = .raise .osError w'' ∧ w''.out = w'.out.take room) := by
  rw [← World.writeToVia_write] at h
  by_cases hu : w.rcd.cfile = .unset
  · simp [World.writeToVia, hu] at h
  rw [World.writeToVia_eq _ nl w hu] at h
  rw [World.writeToVia_eq _ nl w hu]
  by_cases hx : (World.hasCfile w.rcd && !w.rcd.cfileValid) = true
  · simp [hx] at h
  rw [if_neg hx] at h
  rw [if_neg hx]
  cases hb : World.writeBodyVia World.write nl w with
  | hang => rw [hb] at h; cases h
  | raise e t => rw [hb] at h; cases h
  | ok a t =>
    rw [hb] at h
    obtain ⟨g1, g2, g3, g4⟩ := World.Lim.body room nl w a t hb
    have hout : w'.out = t.out := by
      cases h
      cases World.hasCfile t.rcd <;> rfl
    refine ⟨fun hf => ?_, fun hf => ?_⟩
    · rw [g3 (by rw [← hout]; exact hf)]; exact h
    · obtain ⟨w'', j1, j2, j3⟩ := g4 hw (by rw [← hout]; exact hf)
      rw [j1]
      exact ⟨w'', rfl, by rw [j2, hout]⟩

/-- **C77** A record with a content tuple: after the failure the record is as before, so writing it again gives the complete record. -/
theorem C77_tuple (room : Nat) (w : World) (ct buf : Option Bytes) (hw : w.out.length ≤ room)
    (hcls : w.rcd.cls = .warc) (hcf : w.rcd.cfile = .none) (hc : w.rcd.content = some (ct, buf)) (again : Bytes)
    (hfull : room < w.out.length + (recordBytes w.rcd.version (writtenHeaders w.rcd.headers ct (buf.getD [])) (buf.getD [])).length) :
    ∃ w1 w2, World.writeToVia (World.limited room) CRLF w = .raise .osError w1 ∧
      World.writeTo CRLF { w1 with out := again } = .ok () w2 ∧
      w2.out = again ++ recordBytes w.rcd.version (writtenHeaders w.rcd.headers ct (buf.getD [])) (buf.getD []) := by
  rw [World.writeToVia_tuple room w ct buf hw hcls hcf hc, World.limited_full hfull]
  exact ⟨_, _, rfl, World.writeTo_tuple { w with out := again } ct buf hcls hcf hc, rfl⟩

/-- **C77** A record that was read from an archive: the failure does not mark it as used.  Writing it again does not raise, but gives its headers with only
the part of the payload that had not yet been taken. -/
theorem C77_retry (room n : Nat) (w : World) (hw : w.out.length ≤ room) (hcls : w.rcd.cls = .warc) (hcf : w.rcd.cfile = .stream)
    (hv : w.rcd.cfileValid = true) (he : w.strm.eoc = some (n : Int)) (hok : n ≤ w.strm.fh.rest.length) (again : Bytes)
    (hfull : room < w.out.length + (recordBytes w.rcd.version w.rcd.headers (w.strm.fh.rest.take n)).length) :
    ∃ w1 w2, World.writeToVia (World.limited room) CRLF w = .raise .osError w1 ∧
      w1.out = (w.out ++ recordBytes w.rcd.version w.rcd.headers (w.strm.fh.rest.take n)).take room ∧
      World.writeTo CRLF { w1 with out := again } = .ok () w2 ∧
      w2.out = again ++ recordBytes w.rcd.version w.rcd.headers
        ((w.strm.fh.rest.take n).drop (lost (room - w.out.length) (headBytes w.rcd.version w.rcd.headers).length n)) := by
  obtain ⟨got, hg, hr⟩ := World.writeToVia_stream room n w hw hcls hcf hv he hok hfull
  have hgn : got ≤ n := by
    rw [hg]; simp only [lost]
    split
    · omega
    · exact Nat.min_le_left _ _
  refine ⟨_, _, hr, rfl, World.writeTo_stream { w with out := again, strm := { w.strm.adv got with eoc := some ((n - got : Nat) : Int) } } (n - got) hcls hcf hv rfl
    (Or.inl (by simp only [adv_fh, File.advance_rest, List.length_drop]; omega)), ?_⟩
  simp only [adv_fh, File.advance_rest]
  rw [← hg, List.drop_take]

/-- **C77** The same for a record with a content file of its own. -/
theorem C77_retry_file (room : Nat) (w : World) (f : File) (hf : f.fault = none) (hw : w.out.length ≤ room) (hcls : w.rcd.cls = .warc) (hcf : w.rcd.cfile = .file f)
    (hv : w.rcd.cfileValid = true) (again : Bytes)
    (hfull : room < w.out.length + (recordBytes w.rcd.version w.rcd.headers f.rest).length) :
    ∃ w1 w2, World.writeToVia (World.limited room) CRLF w = .raise .osError w1 ∧
      w1.out = (w.out ++ recordBytes w.rcd.version w.rcd.headers f.rest).take room ∧
      World.writeTo CRLF { w1 with out := again } = .ok () w2 ∧
      w2.out = again ++ recordBytes w.rcd.version w.rcd.headers
        (f.rest.drop (lost (room - w.out.length) (headBytes w.rcd.version w.rcd.headers).length f.rest.length)) := by
  obtain ⟨got, hg, hr⟩ := World.writeToVia_file room w f hf hw hcls hcf hv hfull
  refine ⟨_, _, hr, rfl, World.writeTo_file { w with out := again, rcd := { w.rcd with cfile := .file (f.advance got) } } (f.advance got) (by simpa using hf) hcls rfl hv, ?_⟩
  simp only [File.advance_rest]
  rw [← hg]

theorem writeUntil_take (room : Nat) (its : List Item) (out : Bytes) (h : out.length ≤ room) :
    writeUntil room its out = (out ++ archive (its.map Item.R)).take room := by
  induction its generalizing out with
  | nil => simp [writeUntil, archive, List.take_of_length_le h]
  | cons it its ih =>
    simp only [writeUntil]
    rw [World.writeToVia_tuple room _ it.ctype (some it.body) h rfl rfl rfl]
    have e : (out ++ archive ((it :: its).map Item.R)) = (out ++ it.R.bytes) ++ archive (its.map Item.R) := by simp [archive]
    rw [e]
    show (match World.limited room it.R.bytes _ with | .ok () w => writeUntil room its w.out | .raise _ w => w.out | .hang => out) = _
    by_cases hf : out.length + it.R.bytes.length ≤ room
    · rw [World.limited_ok hf]
      exact ih _ (by simpa using hf)
    · rw [World.limited_full (by exact Nat.lt_of_not_le hf)]
      exact (World.take_of_prefix ⟨_, rfl⟩ (by rw [List.length_append]; exact Nat.le_of_lt (Nat.lt_of_not_le hf))).symm

/-- **C77** Write any number of records to a device that becomes full at any point.  Every record that fits is read back from it, unaltered, at its place. -/
theorem C77_crash (room : Nat) (its : List Item) (hok : ∀ it ∈ its, it.Ok) (i : Nat) (hi : i < its.length)
    (hfit : (archive ((its.take (i + 1)).map Item.R)).length ≤ room) (plan : Nat → List ReadOp) (fuel : Nat) (hfuel : i < fuel) :
    (scan true plan fuel 0 (Stream.mk' .plain (File.openFile (writeUntil room its [])) .warc)).1[i]? =
      some ⟨⟨some (archive ((its.take i).map Item.R)).length, some (parsed its[i].version its[i].R.headers), []⟩, results (plan i) its[i].body⟩ := by
  have hl : i < ((its.map Item.R).map fun r => ((r, CRLF ++ CRLF) : RT)).length := by simpa using hi
  have hT : OkT ((its.map Item.R).map fun r => ((r, CRLF ++ CRLF) : RT)) := by
    intro r hr
    simp only [List.map_map, List.mem_map] at hr
    obtain ⟨it, hit, rfl⟩ := hr
    exact ⟨item_R_ok it (hok it hit), (show Terminator (CRLF ++ CRLF) from ⟨by decide, by decide⟩)⟩
  have key := C07_truncation_keeps_complete_records plan fuel ((its.map Item.R).map fun r => (r, CRLF ++ CRLF)) hT room i hl ?_ hfuel
  · rw [writeUntil_take room its [] (by simp), List.nil_append, archive_eq_T]
    rw [key]
    simp only [List.getElem_map, ← List.map_take, ← archive_eq_T]
    rfl
  · simp only [List.getElem_map, ← List.map_take, ← archive_eq_T]
    rw [show its.take (i + 1) = its.take i ++ [its[i]] from (List.take_append_getElem hi).symm, List.map_append] at hfit
    simp only [archive, List.flatMap_append, List.length_append, List.map_cons, List.map_nil, List.flatMap_cons, List.flatMap_nil, List.append_nil, R.bytes,
      recordBytes, R.core] at hfit ⊢
    omega

/-- the text of a record of 20000 bytes payload does not fit into 9000 bytes: 16384 bytes of the payload are lost for the second attempt -/
example (x : Bytes) (hx : x.length = 20000) :
    ∃ w1 w2, World.writeToVia (World.limited 9000) CRLF ⟨⟨⟨x, 0, false, none⟩, some 20000, .plain, .warc⟩, parsed (b! "WARC/1.0") [(b! "Content-Length", b! "20000")], []⟩ =
        .raise .osError w1 ∧
      World.writeTo CRLF { w1 with out := [] } = .ok () w2 ∧ w2.out = recordBytes (b! "WARC/1.0") [(b! "Content-Length", b! "20000")] (x.drop 16384) := by
  have hr : (⟨x, 0, false, none⟩ : File).rest = x := by simp [File.rest]
  obtain ⟨w1, w2, h1, h2, h3, h4⟩ := C77_retry 9000 20000
    ⟨⟨⟨x, 0, false, none⟩, some 20000, .plain, .warc⟩, parsed (b! "WARC/1.0") [(b! "Content-Length", b! "20000")], []⟩
    (by simp) rfl rfl rfl rfl (by rw [hr]; omega) [] (by
      simp only [hr, recordBytes, List.length_append, List.length_take, hx, List.length_nil]; omega)
  refine ⟨w1, w2, h1, h3, ?_⟩
  rw [h4]
  have hl : lost (9000 - 0) (headBytes (b! "WARC/1.0") [(b! "Content-Length", b! "20000")]).length 20000 = 16384 := by decide +kernel
  show [] ++ recordBytes _ _ _ = _
  simp only [hr, List.nil_append, List.length_nil]
  have e : (x.take 20000) = x := List.take_of_length_le (by omega)
  rw [e]
  show recordBytes _ _ (x.drop (lost (9000 - 0) (headBytes (b! "WARC/1.0") [(b! "Content-Length", b! "20000")]).length 20000)) = _
  rw [hl]
  rfl

/-- three records on a device that has room for the first and a few bytes of the second: the first can be read, and the device is full -/
example : let file := writeUntil (demo1.R.bytes.length + 10) [demo1, demo2, demo1] []
    file.length = demo1.R.bytes.length + 10 ∧
    (scan true (fun _ => [.read none]) 5 0 (Stream.mk' .plain (File.openFile file) .warc)).1[0]? =
      some ⟨⟨some 0, some (parsed demo1.version demo1.R.headers), []⟩, [demo1.body]⟩ := by
  refine ⟨?_, ?_⟩
  · rw [writeUntil_take _ _ _ (by simp)]
    decide +kernel
  · exact C77_crash (demo1.R.bytes.length + 10) [demo1, demo2, demo1] (by simp [demo1_ok, demo2_ok]) 0 (by decide) (by simp [archive]) (fun _ => [.read none]) 5 (by decide)

/-- the complaint of `write_to` about a content file that was used before -/
def Spec.usedFile : Exc := .generic "cannot write record because content_file has already been used"

/-- **C78** `RecordStream.write(record)` writes nothing and leaves the stream as it is.  For every WARC record it raises: AttributeError, or the complaint about a
used content file; the record is as before and can still be written elsewhere.  For an ARC record it raises in two cases (the record has no
content file attribute; its content file was used); otherwise it returns, and a content file counts as used from then on although nothing was written. -/
theorem C78_stream_write (w : World) :
    (w.rcd.cls = .warc → World.streamWrite w = .raise .attributeError w ∨
      (World.streamWrite w = .raise usedFile w ∧ World.hasCfile w.rcd = true ∧ w.rcd.cfileValid = false)) ∧
    (w.rcd.cls ≠ .warc →
      (w.rcd.cfile = .unset → World.streamWrite w = .raise .attributeError w) ∧
      (w.rcd.cfile = .none → World.streamWrite w = .ok () w) ∧
      (World.hasCfile w.rcd = true → w.rcd.cfileValid = false → World.streamWrite w = .raise usedFile w) ∧
      (World.hasCfile w.rcd = true → w.rcd.cfileValid = true → World.streamWrite w = .ok () { w with rcd := { w.rcd with cfileValid := false } })) := by
  by_cases hu : w.rcd.cfile = .unset
  · have : World.streamWrite w = .raise .attributeError w := by
      unfold World.streamWrite World.writeToVia
      rw [hu]
    have hn : World.hasCfile w.rcd = false := by simp [World.hasCfile, hu]
    exact ⟨fun _ => .inl this, fun _ => ⟨fun _ => this, fun h => (by rw [hu] at h; cases h), fun h => (by rw [hn] at h; cases h),
      fun h => (by rw [hn] at h; cases h)⟩⟩
  · have he : World.streamWrite w = World.writeToVia (fun _ => M.throw .attributeError) [13, 10] w := rfl
    rw [World.writeToVia_eq _ _ w hu] at he
    rw [he]
    by_cases hx : (World.hasCfile w.rcd && !w.rcd.cfileValid) = true
    · rw [if_pos hx]
      simp only [Bool.and_eq_true, Bool.not_eq_true'] at hx
      refine ⟨fun _ => .inr ⟨rfl, hx⟩, fun _ => ⟨fun h => absurd h hu, fun h => ?_, fun _ _ => rfl, fun _ h => ?_⟩⟩
      · have h1 := hx.1
        simp [World.hasCfile, h] at h1
      · rw [hx.2] at h
        cases h
    · rw [if_neg hx]
      refine ⟨fun hc => .inl ?_, fun hc => ?_⟩
      · simp only [World.writeBodyVia, hc]; rfl
      · have hb : World.writeBodyVia (fun _ => M.throw .attributeError) [13, 10] w = .ok () w := by
          unfold World.writeBodyVia
          cases hcl : w.rcd.cls <;> first | rfl | exact absurd hcl hc
        rw [hb]
        refine ⟨fun h => absurd h hu, fun h => ?_, fun h1 h2 => ?_, fun h1 h2 => ?_⟩
        · simp [World.finish, World.hasCfile, h]
        · exact absurd (by simp [h1, h2]) hx
        · simp [World.finish, h1]

example : World.streamWrite ⟨Stream.mk' .plain (File.ofBytes []) .warc, demo1.record, b! "x"⟩ =
    .raise .attributeError ⟨Stream.mk' .plain (File.ofBytes []) .warc, demo1.record, b! "x"⟩ := by
  rcases (C78_stream_write ⟨Stream.mk' .plain (File.ofBytes []) .warc, demo1.record, b! "x"⟩).1 rfl with h | ⟨_, h, _⟩
  · exact h
  · cases h

end Warc
