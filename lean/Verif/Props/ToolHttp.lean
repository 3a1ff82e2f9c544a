import Verif.Proofs.ToolHttp
import Verif.Props.ToolRun
set_option linter.all false
/-
  C110: what warcfilter -H and warc2warc -D write, as a function of the bytes of their input files.
-/
namespace Warc
open Rx Stream Spec

/-- **C110** `warcfilter -H` (with and without `-i`): for every list of files, whatever their bytes, what it writes and how it ends. -/
theorem C110_http_filter (c : Codec) (fs : FS) (search : Bytes → Bool) (invert : Bool) (names : List Bytes) (hi : Intact c fs names) :
    WarcFilter.main c fs search { httpContentType := true, invert := invert } names [] =
      (onFilesOutput c fs false (fun _ => httpFiltering c search invert) (fun _ => strictTail) names).result [] := by
  unfold WarcFilter.main
  exact forFiles_exact c fs false _ _ _ names (fun name hn out => onArchive_exact c fs false (fun _ => httpFiltering c search invert) (fun _ => strictTail) name _ _ _
    (each_loop _) (Tool.performs_http c search invert) ends_strict (hi.one hn) out) []

/-- **C110** `warc2warc -D`, with and without `-Z` and `-W`: for every list of files, whatever their bytes, what it writes and how it ends. -/
theorem C110_decode (c : Codec) (z : Http.Zlib) (fs : FS) (gzip wget : Bool) (names : List Bytes) (hi : Intact c fs names) :
    Warc2Warc.main c z fs { decode := true, gzip := gzip, wgetFix := wget } names [] =
      (onFilesOutput c fs false (fun _ => decoding c gzip) (fun _ => strictTail) names).result [] := by
  unfold Warc2Warc.main
  exact forFiles_exact c fs false _ _ _ names (fun name hn out => onArchive_exact c fs false (fun _ => decoding c gzip) (fun _ => strictTail) name _ _ _
    (each_loop _) (Tool.performs_decode c z { decode := true, gzip := gzip, wgetFix := wget } rfl) ends_strict (hi.one hn) out) []

/-- **C110 (defect)** `--wget-chunk-fix` has no effect, whatever is in the files. -/
theorem C110_wget_no_effect (c : Codec) (z : Http.Zlib) (fs : FS) (gzip : Bool) (names : List Bytes) (hi : Intact c fs names) :
    Warc2Warc.main c z fs { decode := true, gzip := gzip, wgetFix := true } names [] =
      Warc2Warc.main c z fs { decode := true, gzip := gzip } names [] := by
  rw [C110_decode c z fs gzip true names hi, C110_decode c z fs gzip false names hi]

/-- **C110** Which request targets cannot be decoded: URLs of http or https with a host, perhaps a port, and nothing behind it. -/
theorem C110_bare_url (t : Bytes) : bareUrl t = true ↔ ∃ scheme host port, Http.AbsoluteUrl t scheme host port [] :=
  ⟨Tool.bareUrl_some, fun ⟨_, _, _, h⟩ => (Tool.bareUrl_absolute h).2 rfl⟩

/-- what is done with every record that `-D` gets past is the same as without `-D`, but for the headers of response records -/
def Spec.Done.text : Done → Bytes
  | .stops text _ => text
  | .goes text _ => text
  | .never => []

/-- **C110 (defect)** No record is ever decoded: what `-D` writes for a record is nothing, or the record itself (if it is not a response record what `warc2warc` without
`-D` writes; else the same content under new Content-Type and Content-Length headers). -/
theorem C110_never_decoded (c : Codec) (h : Head) :
    (decoding c false h).text = [] ∨ (decoding c false h).text = (copying h).text ∨
      ∃ content, h.payload = some content ∧ (decoding c false h).text = (h.record content).rewritten.bytes := by
  unfold decoding
  by_cases hr : firstValue (b! "WARC-Type") h.headers = some (b! "response")
  · rw [if_pos hr]
    unfold Head.reading
    cases hp : h.payload with
    | none => exact Or.inl rfl
    | some p =>
      simp only
      cases decodedKind (firstValue (b! "Content-Type") h.headers) with
      | none => exact Or.inr (Or.inr ⟨p, rfl, rfl⟩)
      | some k =>
        simp only
        cases hm : Http.Grammar.meaning c k [] p with
        | refused e => exact Or.inl rfl
        | forever => exact Or.inl rfl
        | seen s =>
          simp only
          by_cases hok : s.left = [] ∧ s.closes = true
          · rw [if_pos hok]; exact Or.inl rfl
          · rw [if_neg hok]; exact Or.inr (Or.inr ⟨p, rfl, rfl⟩)
  · rw [if_neg hr]
    exact Or.inr (Or.inl rfl)

/-! ### concrete cases -/

/-- a response record with a complete HTTP response, one with an incomplete one, and one that is no response record -/
def httpMix : Bytes :=
  b! "WARC/1.0\r\nWARC-Type: response\r\nContent-Type: application/http; x\r\nContent-Length: 56\r\n\r\nHTTP/1.1 200 OK\r\ncontent-type:  text/html;a=b;c\r\n\r\nhello\r\n\r\nWARC/1.0\r\nWARC-Type: request\r\nContent-Type: application/http\r\nContent-Length: 2\r\n\r\nxy\r\n\r\nWARC/1.0\r\nWARC-Type: response\r\nContent-Type: application/http;msgtype=response\r\nContent-Length: 15\r\n\r\nHTTP/1.1 200 OK\r\n\r\n"

/-- `warcfilter -H` finds the first record; the third one, which is cut off, ends the run with NameError -/
theorem httpMix_filter : runOn (fun _ => none) (httpFiltering toy (fun x => x == b! "text/html") false) strictTail 500 0 httpMix =
    ⟨b! "WARC/1.0\r\nWARC-Type: response\r\nContent-Type: application/http; x\r\nContent-Length: 56\r\n\r\nHTTP/1.1 200 OK\r\ncontent-type:  text/html;a=b;c\r\n\r\nhello\r\n\r\n",
      .raised .nameError⟩ := by decide +kernel

/-- with `-i` it is not written -/
theorem httpMix_invert : runOn (fun _ => none) (httpFiltering toy (fun x => x == b! "text/html") true) strictTail 500 0 httpMix = ⟨[], .raised .nameError⟩ := by decide +kernel

/-- `warc2warc -D` copies all of them (none is a complete message under the content type looked for) -/
theorem httpMix_decode : runOn (fun _ => none) (decoding toy false) strictTail 500 0 httpMix = ⟨httpMix, .done⟩ := by decide +kernel

/-- a request in a response record -/
def httpRequests (target : Bytes) : Bytes :=
  b! "WARC/1.0\r\nContent-Length: 2\r\n\r\nxy\r\n\r\nWARC/1.0\r\nWARC-Type: response\r\nContent-Type: application/http;msgtype=request\r\nContent-Length: " ++
    decimal (target.length + 17) ++ b! "\r\n\r\nGET " ++ target ++ b! " HTTP/1.1\r\n\r\n" ++ b! "\r\n\r\n"

/-- the record before it is copied; then decoding ends the run -/
theorem httpRequests_decode :
    runOn (fun _ => none) (decoding toy false) strictTail 500 0 (httpRequests (b! "/a")) = ⟨b! "WARC/1.0\r\nContent-Length: 2\r\n\r\nxy\r\n\r\n", .raised .attributeError⟩ ∧
    runOn (fun _ => none) (decoding toy false) strictTail 500 0 (httpRequests (b! "HTTPS://a:80")) = ⟨b! "WARC/1.0\r\nContent-Length: 2\r\n\r\nxy\r\n\r\n", .raised .typeError⟩ ∧
    runOn (fun _ => none) (decoding toy false) strictTail 500 0 (httpRequests (b! "http://a/")) = ⟨b! "WARC/1.0\r\nContent-Length: 2\r\n\r\nxy\r\n\r\n", .raised .attributeError⟩ ∧
    runOn (fun _ => none) (decoding toy false) strictTail 500 0 (httpRequests (b! "a b")) = ⟨b! "WARC/1.0\r\nContent-Length: 2\r\n\r\nxy\r\n\r\n", .raised .attributeError⟩ := by
  decide +kernel

/-- a chunk of negative size in a record: `warcfilter -H` never ends -/
def httpForever : Bytes :=
  b! "WARC/1.0\r\nWARC-Type: response\r\nContent-Type: application/http\r\nContent-Length: 54\r\n\r\nHTTP/1.1 200 OK\r\nTransfer-Encoding: chunked\r\n\r\n-1\r\nabc\r\n\r\n"

theorem httpForever_filter : runOn (fun _ => none) (httpFiltering toy (fun _ => true) false) strictTail 500 0 httpForever = ⟨[], .hangs⟩ := by decide +kernel

example : Intact toy (fun n => if n = b! "a" then some httpMix else none) [b! "a"] := by
  intro name hn stored hs hc
  simp only [List.mem_singleton] at hn
  subst hn
  simp only [if_true, Option.some.injEq] at hs
  subst hs
  revert hc; decide

example : bareUrl (b! "hTtp://example.com:8080") = true ∧ bareUrl (b! "http://example.com:") = false ∧ bareUrl (b! "http://example.com/") = false ∧ bareUrl (b! "ftp://a") = false := by decide

end Warc
