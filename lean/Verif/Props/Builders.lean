import Verif.Spec.Builders
import Verif.Props.RoundTrip
/-
  C55: make_response, make_request, make_metadata, make_conversion.
-/
set_option linter.all false
namespace Warc
open Rx Stream Spec

/-- **C55** Every builder call returns a record whose accessors return the arguments: type, id, date, url, and the
optional links are there exactly when they were given (not None and not empty); its content is the tuple that
was given and its version is WARC/1.0. -/
theorem C55_accessors (b : Build) :
    b.record.type = b.facts.type ∧ b.record.id = b.facts.id ∧ b.record.date = b.facts.date ∧
    b.record.url = b.facts.url ∧ b.record.getHeader (b! "WARC-Concurrent-To") = b.facts.concurrentTo ∧
    b.record.getHeader (b! "WARC-Refers-To") = b.facts.refersTo ∧
    b.record.content = some (b.facts.content.1, some b.facts.content.2) ∧
    b.record.version = b! "WARC/1.0" ∧ b.record.errors = [] := by
  rcases b with ⟨i, d, u, c, _ | _ | ⟨q0, q⟩⟩ | ⟨i, d, u, c, _ | _ | ⟨q0, q⟩⟩ |
    ⟨i, d, c, _ | _ | ⟨q0, q⟩, _ | _ | ⟨u0, u⟩⟩ | ⟨i, d, c, _ | _ | ⟨q0, q⟩, _ | _ | ⟨u0, u⟩⟩ <;>
  exact ⟨rfl, rfl, rfl, rfl, rfl, rfl, rfl, rfl, rfl⟩

/-- the same record as an item of an archive -/
def builtItem (b : Build) : Item := ⟨b.record.version, b.record.headers, b.facts.content.1, b.facts.content.2⟩

theorem builtItem_record (b : Build) : (builtItem b).record = b.record := by cases b <;> rfl

theorem writeRecords_items (its : List Item) (out : Bytes) :
    writeRecords (its.map Item.record) out = writeAll its out := by
  induction its generalizing out with
  | nil => rfl
  | cons it its ih =>
    simp only [List.map_cons, writeRecords, writeAll]
    cases World.writeTo CRLF ⟨⟨File.ofBytes [], none, .plain, .warc⟩, it.record, out⟩ with
    | ok _ w => exact ih _
    | raise _ _ => rfl
    | hang => rfl

theorem okHeader (k v : Bytes) (h : HeaderOk (k, b! "1")) (hv : Build.Plain v) (hn : lower k ≠ b! "content-type")
    (hl : lower k ≠ b! "content-length") : HeaderOk (k, v) :=
  ⟨h.noColon, h.nameNoLF, h.nameStrip, hv.1, hv.2, fun e => absurd e hn, fun e => absurd e hl⟩

theorem builtItem_ok (b : Build) (h : b.facts.Ok) : (builtItem b).Ok := by
  refine ⟨⟨[], b! "WARC/", b! "1.0", by cases b <;> rfl, by decide⟩, ?_, fun t ht => (h.ctype t ht).1⟩
  have k1 := h.id; have k2 := h.date; have k3 := h.url; have k4 := h.concurrentTo; have k5 := h.refersTo
  have o1 := fun v hv => okHeader (b! "WARC-Record-ID") v (by decide) hv (by decide) (by decide)
  have o2 := fun v hv => okHeader (b! "WARC-Date") v (by decide) hv (by decide) (by decide)
  have o3 := fun v hv => okHeader (b! "WARC-Target-URI") v (by decide) hv (by decide) (by decide)
  have o4 := fun v hv => okHeader (b! "WARC-Concurrent-To") v (by decide) hv (by decide) (by decide)
  have o5 := fun v hv => okHeader (b! "WARC-Refers-To") v (by decide) hv (by decide) (by decide)
  intro x hx
  rcases b with ⟨i, d, u, c, _ | _ | ⟨q0, q⟩⟩ | ⟨i, d, u, c, _ | _ | ⟨q0, q⟩⟩ |
    ⟨i, d, c, _ | _ | ⟨q0, q⟩, _ | _ | ⟨u0, u⟩⟩ | ⟨i, d, c, _ | _ | ⟨q0, q⟩, _ | _ | ⟨u0, u⟩⟩ <;>
  simp [builtItem, Build.record, makeResponse, makeRequest, makeMetadata, makeConversion, Rec.mkWarc, addIf,
    Build.facts, Build.given, WH.TYPE, WH.ID, WH.DATE, WH.URL, WH.CONCURRENT_TO, WH.REFERS_TO] at hx k1 k2 k3 k4 k5 <;>
  (rcases hx with rfl | rfl | rfl | rfl | rfl | rfl <;>
    first
      | exact o1 _ k1 | exact o2 _ k2 | exact o3 _ k3 | exact o4 _ k4 | exact o5 _ k5
      | decide)

/-- **C55** Records made by the builders from representable arguments survive writing and reading: reading the
file gives, in order, records with exactly the requested type, id, date, url, links and content. -/
theorem C55_round_trip (c : Codec) (bs : List Build) (h : ∀ b ∈ bs, b.facts.Ok) (fuel : Nat) (hfuel : bs.length < fuel) :
    ∃ file s, writeRecords (bs.map Build.record) [] = some file ∧
      openArchive c none false .auto none file = .ok s ∧
      (collect true fuel s).records.map Build.factsOf = bs.map Build.facts ∧
      (collect true fuel s).last = some ⟨some file.length, none, []⟩ ∧ (collect true fuel s).fin = .done := by
  have hits : ∀ it ∈ bs.map builtItem, it.Ok := by
    intro it hit
    obtain ⟨b, hb, rfl⟩ := List.mem_map.1 hit
    exact builtItem_ok b (h b hb)
  obtain ⟨file, s, h1, h2, h3⟩ := C01_round_trip c (bs.map builtItem) hits none (Or.inl rfl) .auto (Or.inl rfl) fuel
    (by simpa using hfuel)
  have hrec : bs.map Build.record = (bs.map builtItem).map Item.record := by
    rw [List.map_map]
    exact List.map_congr_left (fun b _ => (builtItem_record b).symm)
  refine ⟨file, s, by rw [hrec, writeRecords_items]; exact h1, h2, ?_, by rw [h3], by rw [h3]⟩
  rw [h3]
  show (expectGot some 0 ((bs.map builtItem).map Item.R)).map Build.factsOf = _
  clear h1 h2 h3 hits hfuel hrec
  generalize 0 = pos
  induction bs generalizing pos with
  | nil => rfl
  | cons b bs ih =>
    simp only [List.map_cons, expectGot]
    rw [ih (fun x hx => h x (by simp [hx]))]
    congr 1
    have hct : ∀ t, b.facts.content.1 = some t → t ≠ [] := fun t ht => ((h b (by simp)).ctype t ht).2
    rcases b with ⟨i, d, u, ⟨_ | _ | ⟨t0, t⟩, body⟩, _ | _ | ⟨q0, q⟩⟩ | ⟨i, d, u, ⟨_ | _ | ⟨t0, t⟩, body⟩, _ | _ | ⟨q0, q⟩⟩ |
      ⟨i, d, ⟨_ | _ | ⟨t0, t⟩, body⟩, _ | _ | ⟨q0, q⟩, _ | _ | ⟨u0, u⟩⟩ |
      ⟨i, d, ⟨_ | _ | ⟨t0, t⟩, body⟩, _ | _ | ⟨q0, q⟩, _ | _ | ⟨u0, u⟩⟩ <;>
    first
      | exact rfl
      | exact absurd rfl (hct [] rfl)

/-- a request, a response to it and a metadata record without url -/
def demoBuilds : List Build :=
  [.request (b! "<urn:a>") (b! "2020-01-01T00:00:00Z") (b! "http://a/") (some (b! "application/http"), b! "GET / HTTP/1.1\r\n\r\n") none,
   .response (b! "<urn:b>") (b! "2020-01-01T00:00:00Z") (b! "http://a/") (none, []) (some (b! "<urn:a>")),
   .metadata (b! "<urn:c>") (b! "2020-01-01T00:00:00Z") (some (b! "text/plain"), b! "WARC/1.0\r\n") (some []) none]

theorem demoBuilds_ok : ∀ b ∈ demoBuilds, b.facts.Ok := by
  intro b hb
  simp [demoBuilds] at hb
  rcases hb with rfl | rfl | rfl <;>
  exact ⟨by simp [Build.facts, Build.given, Build.Plain]; try decide, by simp [Build.facts, Build.given, Build.Plain]; try decide,
    by simp [Build.facts, Build.given, Build.Plain]; try decide, by simp [Build.facts, Build.given, Build.Plain]; try decide,
    by simp [Build.facts, Build.given, Build.Plain]; try decide, by simp [Build.facts, Build.given, Build.Plain]; try decide⟩

example : ∃ file s, writeRecords (demoBuilds.map Build.record) [] = some file ∧
    openArchive toy none false .auto none file = .ok s ∧
    (collect true 4 s).records.map Build.factsOf = demoBuilds.map Build.facts := by
  obtain ⟨f, s, h1, h2, h3, _⟩ := C55_round_trip toy demoBuilds demoBuilds_ok 4 (by decide)
  exact ⟨f, s, h1, h2, h3⟩

end Warc
