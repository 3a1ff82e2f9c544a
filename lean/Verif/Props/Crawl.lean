import Verif.Spec.Crawl
import Verif.Props.Builders
import Verif.Props.Pipeline
import Verif.Props.HttpBody
/-
  C88: from HTTP messages to an archive and back.
-/
set_option linter.all false
namespace Warc
open Rx Stream Spec Http

/-- the content of a record with the text of a message replays the message -/
theorem replays_text (c : Codec) (k : Http.Kind) (x : Message) (hx : x.Ok k []) (g : Got) (hg : g.content.2 = some x.text) :
    Replays c k x g := by
  intro ts hts
  rw [hg] at hts
  obtain ⟨m, h1, h2⟩ := kind_parse_pieces c k [] x hx [] (fun _ => rfl) ts (by simpa using hts)
  refine ⟨m, h1, ?_, ?_⟩
  · rw [h2.close]; rfl
  · rw [h2.close]
    have := h2.parsed
    exact ⟨this.1, this.2, this.3, this.4, this.5, this.6⟩

theorem exchange_facts {e : Exchange} (he : e.Ok) : ∀ b ∈ e.builds, b.facts.Ok := by
  intro b hb
  simp only [Exchange.builds, List.mem_cons, List.not_mem_nil, or_false] at hb
  rcases hb with rfl | rfl
  · refine ⟨?_, ?_, ?_, ?_, ?_, ?_⟩ <;> intro v hv <;> simp [Exchange.requestCall, Build.facts, Build.given] at hv
    · subst hv; exact he.requestId
    · subst hv; exact he.date
    · subst hv; exact he.url
    · subst hv; exact ⟨⟨by decide, by decide⟩, by decide⟩
  · refine ⟨?_, ?_, ?_, ?_, ?_, ?_⟩ <;> intro v hv <;> simp [Exchange.responseCall, Build.facts] at hv
    · subst hv; exact he.responseId
    · subst hv; exact he.date
    · subst hv; exact he.url
    · rcases hr : e.requestId with _ | ⟨a, l⟩
      · rw [hr] at hv; simp [Build.given] at hv
      · rw [hr] at hv; simp [Build.given] at hv; subst hv; rw [← hr]; exact he.requestId
    · subst hv; exact ⟨⟨by decide, by decide⟩, by decide⟩

/-- a record as it was built, wherever it stands -/
def builtGot (o : Option Nat) (b : Build) : Got :=
  ⟨o, (builtItem b).R.version, (builtItem b).R.headers, [], (firstValue (b! "Content-Type") (builtItem b).R.headers, some (builtItem b).R.body)⟩

theorem shows_built (c : Codec) (e : Exchange) (he : e.Ok) (es : List Exchange) (o o' : Option Nat) (gs : List Got) (h : Shows c es gs) :
    Shows c (e :: es) (builtGot o e.requestCall :: builtGot o' e.responseCall :: gs) := by
  have hq : ∀ o : Option Nat, (builtGot o e.requestCall).content.2 = some e.request.text := fun _ => rfl
  have hp : ∀ o : Option Nat, (builtGot o e.responseCall).content.2 = some e.response.text := fun _ => rfl
  have hlink : e.requestId ≠ [] → firstValue (b! "WARC-Concurrent-To") (builtGot o' e.responseCall).headers = some e.requestId := by
    intro h0
    obtain ⟨q, r, i, j, d, u⟩ := e
    cases i with
    | nil => exact absurd rfl h0
    | cons a l => rfl
  have hhead : ∀ name, name ∈ [b! "WARC-Type", b! "WARC-Record-ID", b! "WARC-Target-URI", b! "WARC-Date", b! "Content-Type"] →
      firstValue name (builtGot o' e.responseCall).headers =
      firstValue name [(b! "WARC-Type", b! "response"), (b! "WARC-Record-ID", e.responseId), (b! "WARC-Target-URI", e.url), (b! "WARC-Date", e.date), (b! "Content-Type", b! "application/http;msgtype=response")] := by
    intro name hn
    obtain ⟨q, r, i, j, d, u⟩ := e
    simp only [List.mem_cons, List.not_mem_nil, or_false] at hn
    cases i <;> rcases hn with rfl | rfl | rfl | rfl | rfl <;> rfl
  refine ⟨⟨rfl, rfl, rfl, rfl, rfl, rfl, ?_⟩, ⟨?_, ?_, ?_, ?_, fun h0 => ?_, ?_, rfl, ?_⟩, h⟩
  · exact replays_text c .request e.request he.request _ (hq o)
  · exact hhead _ (by simp)
  · exact hhead _ (by simp)
  · exact hhead _ (by simp)
  · exact hhead _ (by simp)
  · exact hlink h0
  · exact hhead (b! "Content-Type") (by simp)
  · exact replays_text c e.answer e.response he.response _ (hp o')

theorem shows_expect (c : Codec) (f : Nat → Option Nat) (es : List Exchange) (h : ∀ e ∈ es, e.Ok) (pos : Nat) :
    Shows c es (expectGot f pos (((es.flatMap Exchange.builds).map builtItem).map Item.R)) := by
  induction es generalizing pos with
  | nil => trivial
  | cons e es ih =>
    exact shows_built c e (h e (by simp)) es _ _ _ (ih (fun x hx => h x (by simp [hx])) _)

/-- **C88** A crawl: HTTP requests and their responses, each stored in a record made by `make_request` or `make_response`, written one
after the other and read again: the records are those of the exchanges, and the content of each, fed in any pieces to a new parser, is
the message that was stored. -/
theorem C88_crawl (c : Codec) (es : List Exchange) (h : ∀ e ∈ es, e.Ok) (fuel : Nat) (hfuel : 2 * es.length < fuel) :
    ∃ file s, writeRecords ((es.flatMap Exchange.builds).map Build.record) [] = some file ∧
      openArchive c none false .auto none file = .ok s ∧
      Shows c es (collect true fuel s).records ∧
      (collect true fuel s).last = some ⟨some file.length, none, []⟩ ∧ (collect true fuel s).fin = .done := by
  have hlen : (es.flatMap Exchange.builds).length = 2 * es.length := by
    clear h hfuel
    induction es with
    | nil => rfl
    | cons e es ih => simp only [List.flatMap_cons, List.length_append, ih, List.length_cons]; simp [Exchange.builds]; omega
  have hits : ∀ it ∈ (es.flatMap Exchange.builds).map builtItem, it.Ok := by
    intro it hit
    obtain ⟨b, hb, rfl⟩ := List.mem_map.1 hit
    obtain ⟨e, he, hb⟩ := List.mem_flatMap.1 hb
    exact builtItem_ok b (exchange_facts (h e he) b hb)
  obtain ⟨file, s, h1, h2, h3⟩ := C01_round_trip c _ hits none (Or.inl rfl) .auto (Or.inl rfl) fuel
    (by simpa [hlen] using hfuel)
  have hrec : (es.flatMap Exchange.builds).map Build.record = ((es.flatMap Exchange.builds).map builtItem).map Item.record := by
    rw [List.map_map]
    exact List.map_congr_left (fun b _ => (builtItem_record b).symm)
  refine ⟨file, s, by rw [hrec, writeRecords_items]; exact h1, h2, ?_, by rw [h3], by rw [h3]⟩
  rw [h3]
  exact shows_expect c some es h 0

/-- **C88** The same with the tools: the file is accepted by `warcvalid` and reading it shows the exchanges; `warc2warc` reproduces it byte by
byte; with `-Z` it gives a compressed file that is accepted by `warcvalid` and shows the same exchanges. -/
theorem C88_tools (c : Codec) (hc : Codec.Laws c) (z : Http.Zlib) (es : List Exchange) (h : ∀ e ∈ es, e.Ok) :
    ∃ file packed gs, writeRecords ((es.flatMap Exchange.builds).map Build.record) [] = some file ∧ Shows c es gs ∧
      (∀ fs name, fs name = some file → ¬ b! ".gz" <:+ name →
        WarcValid.main c fs [name] = some 0 ∧ Readable c fs name gs ∧
        Warc2Warc.main c z fs {} [name] [] = .ok () file ∧
        Warc2Warc.main c z fs { gzip := true } [name] [] = .ok () packed) ∧
      (∀ fs name, fs name = some packed → b! ".gz" <:+ name →
        WarcValid.main c fs [name] = some 0 ∧ Readable c fs name gs ∧
        Warc2Warc.main c z fs {} [name] [] = .ok () file) := by
  have hits : ∀ it ∈ (es.flatMap Exchange.builds).map builtItem, it.Ok := by
    intro it hit
    obtain ⟨b, hb, rfl⟩ := List.mem_map.1 hit
    obtain ⟨e, he, hb⟩ := List.mem_flatMap.1 hb
    exact builtItem_ok b (exchange_facts (h e he) b hb)
  have hrec : (es.flatMap Exchange.builds).map Build.record = ((es.flatMap Exchange.builds).map builtItem).map Item.record := by
    rw [List.map_map]
    exact List.map_congr_left (fun b _ => (builtItem_record b).symm)
  have hshow := shows_expect c (fun _ => none) es h 0
  generalize hrs : ((es.flatMap Exchange.builds).map builtItem).map Item.R = rs at hshow
  have hok : ∀ r ∈ rs, r.Ok := by rw [← hrs]; exact items_ok hits
  have hgs : ∀ pos, expectGot (fun _ => none) pos rs = rs.map R.asRead := by
    clear hrs hshow hok
    induction rs with
    | nil => intro _; rfl
    | cons r rs ih => intro pos; simp only [expectGot, ih, List.map_cons]; rfl
  rw [hgs] at hshow
  have hall : ∀ name b, allRecords [⟨name, b, rs.map fun r => (r, CRLF ++ CRLF)⟩] = rs := by
    intro name b
    simp [allRecords, List.map_map, Function.comp_def]
  have hmap : (rs.map fun r => (r, CRLF ++ CRLF)).map (fun r : RT => r.1.asRead) = rs.map R.asRead := by
    simp [List.map_map, Function.comp_def]
  refine ⟨archive rs, rs.flatMap fun r => c.enc r.bytes, rs.map R.asRead, ?_, hshow, ?_, ?_⟩
  · rw [hrec, writeRecords_items, ← hrs, writeAll_ok, List.nil_append]
  · intro fs name hf hn
    have hst := stored_archive c fs name rs hok hf hn
    have hcopy := C46_copies c hc z fs [⟨name, false, _⟩] (by intro f hf; simp at hf; subst hf; exact hst)
    have hgz := C46_compresses c hc z fs [⟨name, false, _⟩] (by intro f hf; simp at hf; subst hf; exact hst)
    rw [hall] at hcopy hgz
    refine ⟨C43_accepts_archives c hc fs [name] (by intro n hn'; simp at hn'; subst hn'; exact ⟨_, _, hst⟩), ?_, hcopy, hgz⟩
    have := stored_readable c hc fs name _ _ hst
    rw [hmap] at this; exact this
  · intro fs name hf hn
    have hst := stored_gz c fs name rs hok hf (Or.inr hn)
    have hcopy := C46_copies c hc z fs [⟨name, true, _⟩] (by intro f hf; simp at hf; subst hf; exact hst)
    rw [hall] at hcopy
    refine ⟨C43_accepts_archives c hc fs [name] (by intro n hn'; simp at hn'; subst hn'; exact ⟨_, _, hst⟩), ?_, hcopy⟩
    have := stored_readable c hc fs name _ _ hst
    rw [hmap] at this; exact this

/-! concrete cases: a POST with a chunked answer, and a HEAD with an answer that only announces a body -/

def demoCrawl : List Exchange :=
  [⟨demoPost, demoChunked, b! "<urn:a>", b! "<urn:b>", b! "2020-01-01T00:00:00Z", b! "http://h:1/a?b"⟩,
   ⟨{ start := .request (b! "HEAD") (b! "/") (b! "HTTP/1.0"), fields := [(b! "Host", b! "x")], payload := .none }, demoHead,
     b! "<urn:c>", b! "<urn:d>", b! "2020-01-01T00:00:01Z", b! "http://x/"⟩]

theorem demoCrawl_ok : ∀ e ∈ demoCrawl, e.Ok := by
  intro e he
  simp only [demoCrawl, List.mem_cons, List.not_mem_nil, or_false] at he
  rcases he with rfl | rfl
  · exact ⟨demoPost_ok, demoChunked_ok _ (by decide), ⟨by decide, by decide⟩, ⟨by decide, by decide⟩, ⟨by decide, by decide⟩, ⟨by decide, by decide⟩⟩
  · refine ⟨⟨trivial, ⟨by decide, by decide, by decide, fun h => absurd h (by decide)⟩, ?_, ⟨.close, by decide, by simp [Message.Framed, Http.hasBody]⟩, ?_, ?_⟩, demoHead_ok,
      ⟨by decide, by decide⟩, ⟨by decide, by decide⟩, ⟨by decide, by decide⟩, ⟨by decide, by decide⟩⟩
    · intro f hf
      simp only [List.mem_cons, List.not_mem_nil, or_false] at hf
      subst hf
      exact ⟨by decide, by decide, by decide, by decide, by decide⟩
    · rintro ⟨b, hb⟩; cases hb
    · intro v p h; cases h

example : ∃ file s, writeRecords ((demoCrawl.flatMap Exchange.builds).map Build.record) [] = some file ∧
    openArchive toy none false .auto none file = .ok s ∧ Shows toy demoCrawl (collect true 5 s).records := by
  obtain ⟨f, s, h1, h2, h3, _⟩ := C88_crawl toy demoCrawl demoCrawl_ok 5 (by decide)
  exact ⟨f, s, h1, h2, h3⟩

end Warc
