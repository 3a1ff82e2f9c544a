import Verif.Spec.HttpZip
import Verif.Proofs.HttpInterim
/-
  Bodies with Content-Encoding gzip and a Content-Length.
-/
set_option linter.all false
namespace Warc.Http
open Rx

variable {k : Kind} {ig : List PyStr} {x : ZipHead}

theorem ZipHead.Ok.code (hx : x.Ok k ig) {h : Hdr} (hd : Head k ig x.start x.fields (.length x.length) h) (hk : ∃ rm, k = .response rm) :
    h.code ≠ 100 := by
  obtain ⟨rm, rfl⟩ := hk
  have hb := hx.body
  have hf := hx.fits
  cases hs : x.start with
  | request me t v => rw [hs] at hf; exact absurd hf (by simp [Start.fits])
  | response v cd p =>
    rw [hs] at hb hd
    rw [(hd.code v cd p rfl).1]
    simp only [hasBody] at hb
    omega

/-- `feed` of the class and of the base class do the same as long as the code is not 100 -/
theorem feed_kind {c : Codec} {t : Bytes} {m : Msg} (h : ∀ l m', feed c t m = .ok l m' → (∃ rm, k = .response rm) → m'.header.code ≠ 100) :
    k.feed c t m = feed c t m := by
  cases k with
  | request => rfl
  | response rm =>
    show feedResponse c t m = _
    rw [feedResponse_eq]
    cases hf : feed c t m with
    | hang => rfl
    | raise e m' => rfl
    | ok l m' =>
      have := h l m' hf ⟨rm, rfl⟩
      have : is100 m' = false := by simp [is100, this]
      simp [this]

/-- what there is behind the head -/
structure ZipDone (k : Kind) (ig : List PyStr) (x : ZipHead) (b : Bytes) (m : Msg) : Prop extends x.Complete b m where
  mode : m.mode = .end_
  head : Head k ig x.start x.fields (.length x.length) m.header
  chunks : m.bodyChunks = [(x.text.length, (b.length : Int))]

theorem zip_feed (c : Codec) (hx : x.Ok k ig) (t : Bytes) :
    (∀ d, c.dec (t.take x.length) = (d, none) → d ≠ [] → t ≠ [] →
      ∃ m, k.feed c (x.text ++ t) (k.message ig) = .ok [] m ∧ ZipDone k ig x d m) ∧
    (c.dec (t.take x.length) = ([], none) → ∃ m, k.feed c (x.text ++ t) (k.message ig) = .ok t m ∧ ZipDone k ig x [] m) ∧
    (∀ d, c.dec (t.take x.length) = (d, some .osError) → ∃ m, k.feed c (x.text ++ t) (k.message ig) = .ok [] m ∧ ZipDone k ig x t m) ∧
    (∀ d e, c.dec (t.take x.length) = (d, some e) → e ≠ .osError → ∃ m, k.feed c (x.text ++ t) (k.message ig) = .raise e m) := by
  have hm := Fresh.message k ig
  have hf := head_feed c k ig x.start x.fields t _ hm hx.fits hx.start hx.fields
  rw [hx.framed] at hf
  obtain ⟨h, hh, hd⟩ := hf
  have hb := (hd.hasBody hx.fits).2 hx.body
  have hg : gzipBody h = true := by
    rw [gzipBody_length hd.bodyLength hb, hd.encoding, gzipEncoded_iff]; exact hx.gzip
  have hbuf : (k.message ig).buffer = [] := by cases k <;> rfl
  have hset := setupBody_gzip c t (m := atBody (k.message ig) (headText x.start x.fields) h) rfl hd.bodyLength hg
  have hsl : sliceTo t (x.length : Int) = t.take x.length := by simp [sliceTo]
  rw [hsl] at hset
  have key : ∀ r, afterHeaders c t (atBody (k.message ig) (headText x.start x.fields) h) = r →
      (∀ l m', r = .ok l m' → Head k ig x.start x.fields (.length x.length) m'.header) → k.feed c (x.text ++ t) (k.message ig) = r := by
    intro r hr hl
    rw [feed_kind (k := k)]
    · exact hh.trans hr
    · intro l m' e hk
      rw [show x.text ++ t = headText x.start x.fields ++ t from rfl, hh, hr] at e
      exact hx.code (hl l m' e) hk
  have done : ∀ (m : Msg) (body : Bytes), m.mode = .end_ → m.header = h → m.buffer = x.text ++ body →
      m.bodyChunks = [(x.text.length, (body.length : Int))] → ZipDone k ig x body m := by
    intro m body h1 h2 h3 h4
    refine ⟨⟨by simp [Msg.complete, h1], by rw [getBody_pick, h3, h4, pick_last], h3, by rw [h2]; exact hd.headers⟩, h1, by rw [h2]; exact hd, h4⟩
  have hrun : ∀ (z : Option Bytes) (body : Bytes), (z = some body ∨ (z = none ∧ body = t)) → body ≠ [] → t ≠ [] →
      setupBody c t (atBody (k.message ig) (headText x.start x.fields) h) =
        .ok () { atBody (k.message ig) (headText x.start x.fields) h with
          reader := some (.zip z body.length), bodyChunks := [((atBody (k.message ig) (headText x.start x.fields) h).offset, (body.length : Int))],
          mode := if (body.length : Int) = 0 then .end_ else (atBody (k.message ig) (headText x.start x.fields) h).mode } →
      ∃ m, k.feed c (x.text ++ t) (k.message ig) = .ok [] m ∧ ZipDone k ig x body m := by
    intro z body hz hbne ht he
    have hpos : 0 < body.length := List.length_pos_iff.2 hbne
    refine ⟨{ atBody (k.message ig) (headText x.start x.fields) h with
        buffer := x.text ++ body, offset := (x.text ++ body).length,
        reader := some (.zip z 0), bodyChunks := [(x.text.length, (body.length : Int))], mode := .end_ }, ?_, ?_⟩
    · apply key
      · rw [afterHeaders, he]
        simp only
        have hne : ¬ (body.length : Int) = 0 := by omega
        have hzt : z.getD t = body := by rcases hz with rfl | ⟨rfl, rfl⟩ <;> rfl
        simp only [stageBody, if_neg hne]
        rw [if_pos ⟨ht, rfl⟩]
        simp only [readerFeed, M.bind_apply, M.get_apply, zipFeed]
        rw [if_pos (by omega), hzt]
        have hfl := feedLength_full (m := { atBody (k.message ig) (headText x.start x.fields) h with
          reader := some (.zip z body.length), bodyChunks := [((atBody (k.message ig) (headText x.start x.fields) h).offset, (body.length : Int))],
          mode := (atBody (k.message ig) (headText x.start x.fields) h).mode }) body []
        rw [List.append_nil] at hfl
        rw [hfl]
        simp [took, atBody, hbuf, ZipHead.text]
      · intro l m' e
        cases e
        exact hd
    · exact done _ body rfl rfl rfl rfl
  have hzero : ∀ (z : Option Bytes), 
      setupBody c t (atBody (k.message ig) (headText x.start x.fields) h) =
        .ok () { atBody (k.message ig) (headText x.start x.fields) h with
          reader := some (.zip z 0), bodyChunks := [((atBody (k.message ig) (headText x.start x.fields) h).offset, 0)],
          mode := .end_ } →
      ∃ m, k.feed c (x.text ++ t) (k.message ig) = .ok t m ∧ ZipDone k ig x [] m := by
    intro z he
    refine ⟨_, key _ (by rw [afterHeaders, he]; simp only; rw [stageBody_skip _ (by simp)]) (by intro l m' e; cases e; exact hd), ?_⟩
    apply done
    · rfl
    · rfl
    · simp [atBody, took, hbuf, ZipHead.text]
    · simp [atBody, took, hbuf, ZipHead.text]
  refine ⟨?_, ?_, ?_, ?_⟩
  · intro d e hne ht
    rw [e] at hset
    exact hrun (some d) d (.inl rfl) hne ht hset
  · intro e
    rw [e] at hset
    exact hzero (some []) (by rw [hset]; simp)
  · intro d e
    rw [e] at hset
    by_cases ht : t = []
    · subst ht
      exact hzero none (by rw [hset]; simp)
    · exact hrun none t (.inr ⟨rfl, rfl⟩) ht ht hset
  · intro d e he hne
    rw [he] at hset
    refine ⟨_, key (.raise e _) (by rw [afterHeaders, hset]; cases e <;> first | rfl | exact absurd rfl hne) (by intro l m' e; cases e)⟩

end Warc.Http
