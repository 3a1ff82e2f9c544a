import Verif.Proofs.Crash
import Verif.Proofs.Shift
import Verif.Props.Valid
/-
  C102: an archive is continued after the writing of a record was interrupted.
-/
set_option linter.all false
namespace Warc
open Rx Stream Spec

/-! ### places -/

theorem prefix_append {p a b : Bytes} (h : p <+: a ++ b) : (p <+: a ∧ p ≠ a) ∨ ∃ q, p = a ++ q ∧ q <+: b := by
  induction a generalizing p with
  | nil => exact Or.inr ⟨p, rfl, h⟩
  | cons x a ih =>
    cases p with
    | nil => exact Or.inl ⟨by simp, by simp⟩
    | cons y p =>
      rw [List.cons_append, List.cons_prefix_cons] at h
      obtain ⟨rfl, h⟩ := h
      rcases ih h with ⟨h1, h2⟩ | ⟨q, rfl, h2⟩
      · exact Or.inl ⟨by simpa using h1, by simpa using h2⟩
      · exact Or.inr ⟨q, rfl, h2⟩

theorem prefix_one {p : Bytes} {x : Byte} (h : p <+: [x]) : p = [] ∨ p = [x] := by
  cases p with
  | nil => exact Or.inl rfl
  | cons y p =>
    obtain ⟨rfl, h⟩ := List.cons_prefix_cons.1 h
    have h : p = [] := by simpa using h
    exact Or.inr (by rw [h])

theorem prefix_mem {p l : Bytes} (h : p <+: l) : p ∈ (List.range (l.length + 1)).map fun n => l.take n := by
  rw [List.mem_map]
  exact ⟨p.length, by have := h.length_le; simp; omega, (List.prefix_iff_eq_take.1 h).symm⟩

theorem prefix_headers {p : Bytes} (hs : List Header) (h : p <+: hs.flatMap headerLine) (hne : p ≠ hs.flatMap headerLine) :
    ∃ a k b q, hs = a ++ k :: b ∧ p = a.flatMap headerLine ++ q ∧ q <+: headerLine k ∧ q ≠ headerLine k := by
  induction hs generalizing p with
  | nil => simp at h hne; exact absurd h hne
  | cons x hs ih =>
    rw [List.flatMap_cons] at h hne
    rcases prefix_append h with ⟨h1, h2⟩ | ⟨q, rfl, h2⟩
    · exact ⟨[], x, hs, p, rfl, by simp, h1, h2⟩
    · obtain ⟨a, k, b, q', rfl, h3, h4, h5⟩ := ih h2 (by intro e; exact hne (by rw [e]))
      exact ⟨x :: a, k, b, q', rfl, by rw [h3]; simp, h4, h5⟩

theorem prefix_short {p a : Bytes} {x : Byte} (h : p <+: a ++ [x]) (hne : p ≠ a ++ [x]) : p <+: a := by
  rcases prefix_append h with ⟨h1, _⟩ | ⟨q, rfl, h2⟩
  · exact h1
  · rcases prefix_one h2 with rfl | rfl
    · simp
    · exact absurd rfl hne

/-- **C102** Every proper beginning of a record ends at one of the places, and what is written until one of the places is a proper beginning of the record. -/
theorem C102_places (r : R) (hv : r.version = v1) (p : Bytes) :
    (p <+: r.bytes ∧ p ≠ r.bytes) ↔ ∃ pl : Place, pl.In r ∧ pl.piece r = p := by
  have hb : r.bytes = (v1 ++ CRLF) ++ (r.headers.flatMap headerLine ++ (CRLF ++ (r.body ++ b! "\r\n\r\n"))) := by
    simp [R.bytes, recordBytes, headBytes, hv]
  constructor
  · rintro ⟨h1, h2⟩
    rw [hb] at h1 h2
    rcases prefix_append h1 with ⟨h3, h4⟩ | ⟨q, rfl, h3⟩
    · have : v1 ++ CRLF = b! "WARC" ++ b! "/1.0\r\n" := by decide
      rw [this] at h3 h4
      rcases prefix_append h3 with ⟨h5, h6⟩ | ⟨q, rfl, h5⟩
      · exact ⟨.tag p, h5, rfl⟩
      · have e : (b! "/1.0\r\n" : Bytes) = b! "/" ++ (b! "1.0\r" ++ [10]) := by decide
        rw [e] at h5 h4
        rcases prefix_append h5 with ⟨h6, h7⟩ | ⟨u, rfl, h6⟩
        · have : q = [] := by
            rcases prefix_one h6 with h | h
            · exact h
            · exact absurd h h7
          subst this
          exact ⟨.tag (b! "WARC"), List.prefix_refl _, by simp [Place.piece]⟩
        · exact ⟨.number u, prefix_short h6 (by intro e; apply h4; rw [e]), rfl⟩
    · rcases prefix_append h3 with ⟨h4, h5⟩ | ⟨q, rfl, h4⟩
      · obtain ⟨a, k, b, u, h6, rfl, h7, h8⟩ := prefix_headers _ h4 h5
        have e : headerLine k = k.1 ++ (b! ":" ++ ((32 :: k.2 ++ [13]) ++ [10])) := by simp [headerLine]
        rw [e] at h7 h8
        rcases prefix_append h7 with ⟨h9, h10⟩ | ⟨u, rfl, h9⟩
        · exact ⟨.name a u, Or.inl ⟨k, b, h6, h9⟩, by simp [Place.piece, begun]⟩
        · rcases prefix_append h9 with ⟨h10, h11⟩ | ⟨u, rfl, h10⟩
          · have : u = [] := by
              rcases prefix_one h10 with h | h
              · exact h
              · exact absurd h h11
            subst this
            exact ⟨.name a k.1, Or.inl ⟨k, b, h6, List.prefix_refl _⟩, by simp [Place.piece, begun]⟩
          · exact ⟨.value a k u, ⟨⟨b, h6⟩, prefix_short h10 (by intro e; apply h8; rw [e])⟩, by simp [Place.piece, begun]⟩
      · rcases prefix_append h4 with ⟨h5, h6⟩ | ⟨q, rfl, h5⟩
        · rcases prefix_one (prefix_short (a := [13]) (x := 10) h5 h6) with rfl | rfl
          · exact ⟨.name r.headers [], Or.inr ⟨rfl, rfl⟩, by simp [Place.piece, begun]⟩
          · exact ⟨.blank, trivial, by simp [Place.piece, begun]⟩
        · rcases prefix_append h5 with ⟨h6, h7⟩ | ⟨q, rfl, h6⟩
          · refine ⟨.payload q.length, ?_, ?_⟩
            · show q.length < r.body.length
              obtain ⟨t, ht⟩ := h6
              rw [← ht]
              have : t ≠ [] := by intro e; apply h7; rw [← ht, e]; simp
              have := List.length_pos_iff.2 this
              simp; omega
            · obtain ⟨t, ht⟩ := h6
              simp [Place.piece, begun, ← ht]
          · refine ⟨.trailer q, prefix_short (a := b! "\r\n\r") (x := 10) h6 (by intro e; apply h2; rw [e]; rfl), ?_⟩
            simp [Place.piece, begun]
  · rintro ⟨pl, h1, rfl⟩
    -- it is enough to give the part that is missing
    have key : ∀ t, t ≠ [] → pl.piece r ++ t = r.bytes → pl.piece r <+: r.bytes ∧ pl.piece r ≠ r.bytes := by
      intro t ht e
      refine ⟨⟨t, e⟩, ?_⟩
      intro e2
      rw [← e] at e2
      have := congrArg List.length e2
      simp at this
      exact ht (by simpa using this)
    rw [hb] at key
    rw [hb]
    cases pl with
    | tag p =>
      obtain ⟨t, ht⟩ := h1
      refine key (t ++ (b! "/1.0\r\n" ++ (r.headers.flatMap headerLine ++ (CRLF ++ (r.body ++ b! "\r\n\r\n"))))) (by simp) ?_
      show p ++ _ = _
      rw [← List.append_assoc, ht]
      rfl
    | number p =>
      obtain ⟨t, ht⟩ := h1
      refine key (t ++ ([10] ++ (r.headers.flatMap headerLine ++ (CRLF ++ (r.body ++ b! "\r\n\r\n"))))) (by simp) ?_
      show b! "WARC/" ++ p ++ _ = _
      rw [List.append_assoc, ← List.append_assoc p, ht]
      rfl
    | name hs p =>
      rcases h1 with ⟨k, b, h1, ⟨t, ht⟩⟩ | ⟨h1, rfl⟩
      · refine key (t ++ (b! ": " ++ k.2 ++ CRLF ++ b.flatMap headerLine ++ (CRLF ++ (r.body ++ b! "\r\n\r\n")))) (by simp) ?_
        rw [h1]
        simp only [Place.piece, begun, List.flatMap_append, List.flatMap_cons, headerLine, List.append_assoc]
        rw [← ht]
        simp
      · exact key (CRLF ++ (r.body ++ b! "\r\n\r\n")) (by simp) (by simp [Place.piece, begun, h1])
    | value hs k q =>
      obtain ⟨⟨b, h1⟩, ⟨t, ht⟩⟩ := h1
      refine key (t ++ ([10] ++ (b.flatMap headerLine ++ (CRLF ++ (r.body ++ b! "\r\n\r\n"))))) (by simp) ?_
      rw [h1]
      have e : headerLine k = k.1 ++ 58 :: (q ++ t ++ [10]) := by rw [ht]; simp [headerLine]
      simp only [Place.piece, begun, List.flatMap_append, List.flatMap_cons, e, List.append_assoc]
      simp
    | blank =>
      exact key ([10] ++ (r.body ++ b! "\r\n\r\n")) (by simp) (by simp [Place.piece, begun])
    | payload j =>
      have h1 : j < r.body.length := h1
      refine key (r.body.drop j ++ b! "\r\n\r\n") (by simp) ?_
      simp only [Place.piece, begun, List.append_assoc]
      rw [← List.append_assoc (r.body.take j), List.take_append_drop]
    | trailer T =>
      obtain ⟨t, ht⟩ := h1
      refine key (t ++ [10]) (by simp) ?_
      simp only [Place.piece, begun, List.append_assoc]
      rw [← List.append_assoc T, ht]
      rfl

/-! ### opening the file -/

theorem piece_begins (r : R) (pl : Place) (h : pl.In r) (r' : R) (T' : Bytes) (ss : List RT) (hv : r'.version = v1) :
    ∃ t, pl.piece r ++ archiveT ((r', T') :: ss) = 87 :: t := by
  have hl : ∃ t, archiveT ((r', T') :: ss) = 87 :: t := by
    refine ⟨b! "ARC/1.0" ++ (CRLF ++ (r'.headers.flatMap headerLine ++ (CRLF ++ (r'.body ++ (T' ++ archiveT ss))))), ?_⟩
    simp [archiveT, R.core, headBytes, hv, v1]
  have hbeg : ∀ hs x, ∃ t, begun hs ++ x = 87 :: t := fun hs x => ⟨_, rfl⟩
  cases pl with
  | tag p =>
    cases p with
    | nil => exact hl
    | cons c p =>
      have : c = 87 := by
        have h : c :: p <+: b! "WARC" := h
        exact (List.cons_prefix_cons.1 h).1
      subst this
      exact ⟨_, rfl⟩
  | number p => exact ⟨_, rfl⟩
  | name hs p => simp only [Place.piece, List.append_assoc]; exact hbeg _ _
  | value hs k q => simp only [Place.piece, List.append_assoc]; exact hbeg _ _
  | blank => simp only [Place.piece, List.append_assoc]; exact hbeg _ _
  | payload j => simp only [Place.piece, List.append_assoc]; exact hbeg _ _
  | trailer T => simp only [Place.piece, List.append_assoc]; exact hbeg _ _

theorem resumed_open {fs : FS} {name : Bytes} {rs : List RT} {r : R} {pl : Place} {r' : R} {T' : Bytes} {ss : List RT}
    (h : Resumed fs name rs r pl r' T' ss) (c : Codec) :
    openName c fs .warc none name = .ok (readerOn (archiveT rs ++ (pl.piece r ++ archiveT ((r', T') :: ss)))) := by
  refine openName_plain c fs name _ h.file h.notGz ?_
  cases rs with
  | nil =>
    obtain ⟨t, ht⟩ := piece_begins r pl h.place r' T' ss h.version'
    simp only [archiveT, List.flatMap_nil, List.nil_append] at ht ⊢
    rw [ht]
    cases t <;> simp
  | cons x rs =>
    have := core_not_gzip x.1 (h.before x (by simp)).1 (x.2 ++ archiveT rs ++ (pl.piece r ++ archiveT ((r', T') :: ss)))
    simpa [archiveT, List.append_assoc] using this

/-- the reader behind the first records -/
def readerAt (a b : Bytes) : Stream := (readerOn (a ++ b)).adv a.length

theorem readerAt_rest (a b : Bytes) : (readerAt a b).fh.rest = b := by
  simp [readerAt, readerOn, adv_fh, File.advance_rest, File.openFile, File.rest]

theorem reported_plain (offs : Bool) (p : Nat) : reported .plain offs p = reportedAt (!offs) p := by cases offs <;> rfl

theorem resumed_before (rs : List RT) (b : Bytes) (hok : OkT rs) (offs : Bool) (rounds : Nat) (hr : (archiveT rs ++ b).length < rounds) :
    ∃ n, b.length < n ∧ collect offs rounds (readerOn (archiveT rs ++ b)) = (collect offs n (readerAt (archiveT rs) b)).behind (noting offs 0 rs) := by
  have hlen := Tool.archiveT_length rs
  refine ⟨rounds - rs.length, by simp at hr; omega, ?_⟩
  obtain ⟨n, rfl⟩ : ∃ n, rounds = rs.length + n := ⟨rounds - rs.length, by simp at hr; omega⟩
  rw [collect_before offs n (readerOn (archiveT rs ++ b)) rs b (by simp [readerOn]) rfl rfl hok (by simp [readerOn, File.openFile, File.rest])]
  simp only [Nat.add_sub_cancel_left]
  have : (readerOn (archiveT rs ++ b)).kind = .plain := rfl
  simp only [this, reported_plain]
  rfl

theorem resumed_start {fs : FS} {name : Bytes} {rs : List RT} {r : R} {pl : Place} {r' : R} {T' : Bytes} {ss : List RT}
    (h : Resumed fs name rs r pl r' T' ss) (offs : Bool) (rounds : Nat)
    (hr : (readerOn (archiveT rs ++ (pl.piece r ++ archiveT ((r', T') :: ss)))).fh.rest.length < rounds) :
    ∃ n, (pl.piece r ++ archiveT ((r', T') :: ss)).length < n ∧
      collect offs rounds (readerOn (archiveT rs ++ (pl.piece r ++ archiveT ((r', T') :: ss)))) =
        (collect offs n (readerAt (archiveT rs) (pl.piece r ++ archiveT ((r', T') :: ss)))).behind (noting offs 0 rs) :=
  resumed_before rs _ h.before offs rounds (by simpa [readerOn, File.openFile, File.rest] using hr)

/-! ### the records behind -/

theorem collect_merged (offs : Bool) (n : Nat) (a X : Bytes) (o : Option Nat) (rec : Rec) (body T' : Bytes) (ss : List RT) (hok : OkT ss) (hT : Terminator T') (hX : X ≠ [])
    (hr1 : rec.content = none) (hr2 : rec.cfile = .stream) (hcls : rec.cls = .warc)
    (hread : readRecord offs (readerAt a (X ++ (body ++ (T' ++ archiveT ss)))) =
      .ok ⟨o, some rec, []⟩ { (readerAt a (X ++ (body ++ (T' ++ archiveT ss)))).adv X.length with eoc := some (body.length : Int) })
    (hn : (X ++ (body ++ (T' ++ archiveT ss))).length < n) :
    collect offs n (readerAt a (X ++ (body ++ (T' ++ archiveT ss)))) =
      ⟨⟨o, rec.version, rec.headers, rec.errors, (firstValue (b! "Content-Type") rec.headers, some body)⟩ ::
          noting offs (a.length + (X ++ (body ++ T')).length) ss,
        ended offs (a.length + (X ++ (body ++ (T' ++ archiveT ss))).length), .done⟩ := by
  obtain ⟨m, rfl⟩ : ∃ m, n = m + 1 := ⟨n - 1, by omega⟩
  have hrest : ({ (readerAt a (X ++ (body ++ (T' ++ archiveT ss)))).adv X.length with eoc := some (body.length : Int) } : Stream).fh.rest =
      body ++ (T' ++ archiveT ss) := by
    show ((readerAt a (X ++ (body ++ (T' ++ archiveT ss)))).adv X.length).fh.rest = _
    rw [adv_fh, File.advance_rest, readerAt_rest, List.drop_left]
  have hX := List.length_pos_iff.2 hX
  rw [collect_step offs m _ _ o rec body T' (archiveT ss) hread hr1 hr2 rfl hT hrest]
  have hlen := Tool.archiveT_length ss
  generalize hu : ({ ({ (readerAt a (X ++ (body ++ (T' ++ archiveT ss)))).adv X.length with eoc := some (body.length : Int) } : Stream).adv
      (body.length + T'.length) with eoc := none } : Stream) = u
  have hpos : u.fh.pos = a.length + (X.length + (body.length + T'.length)) := by
    subst hu
    simp [readerAt, readerOn, adv, File.advance, File.openFile, Nat.add_assoc]
  have hkind : u.kind = .plain := by subst hu; rfl
  have hur : u.fh.rest = archiveT ss := by
    subst hu
    show (({ (readerAt a (X ++ (body ++ (T' ++ archiveT ss)))).adv X.length with eoc := some (body.length : Int) } : Stream).adv
      (body.length + T'.length)).fh.rest = _
    rw [adv_fh, File.advance_rest, hrest, ← List.append_assoc, show body.length + T'.length = (body ++ T').length by simp, List.drop_left]
  rw [collect_archiveT offs m u ss (by rw [hkind]; simp) (by subst hu; rfl) (by subst hu; rfl) hok (fun x _ => Or.inl (by subst hu; rfl)) hur
    (by simp at hn; omega)]
  simp only [hpos, hkind, reported_plain, noting, ended, hcls, Cls.contentTypeName, WH.CONTENT_TYPE, List.length_append, Nat.add_assoc]
  rfl

/-! ### the theorems -/

theorem later_split (r' : R) (T' : Bytes) (ss : List RT) (hv : r'.version = v1) :
    archiveT ((r', T') :: ss) = v1 ++ CRLF ++ r'.headers.flatMap headerLine ++ CRLF ++ (r'.body ++ (T' ++ archiveT ss)) := by
  simp [archiveT, R.core, headBytes, hv]

/-- **C102** Interrupted before or inside `WARC/`: all records that were appended are read; the first one has the error that something stands in front of
its version, and is reported behind that. -/
theorem C102_tag {fs : FS} {name : Bytes} {rs : List RT} {r : R} {p : Bytes} {r' : R} {T' : Bytes} {ss : List RT}
    (h : Resumed fs name rs r (.tag p) r' T' ss) (c : Codec) :
    ∃ s, openName c fs .warc none name = .ok s ∧ ∀ offs rounds, s.fh.rest.length < rounds → collect offs rounds s =
      ⟨noting offs 0 rs ++ { gotAt (!offs) ((archiveT rs ++ p).length, r') with errors := if p = [] then [] else [Err.badPrefix p] } ::
          noting offs (archiveT rs ++ p ++ (r'.core ++ T')).length ss,
        ended offs (archiveT rs ++ p ++ archiveT ((r', T') :: ss)).length, .done⟩ := by
  refine ⟨_, resumed_open h c, fun offs rounds hr => ?_⟩
  obtain ⟨n, hn, hc⟩ := resumed_start h offs rounds hr
  rw [hc]
  have hp : p ∈ [[], b! "W", b! "WA", b! "WAR", b! "WARC"] := by
    have h1 : p <+: b! "WARC" := h.place
    exact prefix_mem h1
  have hvs : vspec (p ++ v1 ++ CRLF) = some (p, v1, b! "1.0", CRLF) ∧ isTerm (p ++ v1 ++ CRLF) = false ∧ 10 ∉ p ++ v1 ++ [13] := by
    have : ∀ p ∈ [[], b! "W", b! "WA", b! "WAR", b! "WARC"],
        vspec (p ++ v1 ++ CRLF) = some (p, v1, b! "1.0", CRLF) ∧ isTerm (p ++ v1 ++ CRLF) = false ∧ 10 ∉ p ++ v1 ++ [13] := by decide
    exact this p hp
  have hok' := h.after (r', T') (by simp)
  have hheads := hok'.1.headers
  have e : (Place.tag p).piece r ++ archiveT ((r', T') :: ss) =
      (p ++ v1 ++ CRLF ++ (blockHead (r'.headers.map itemOf) CRLF :: blockTail (r'.headers.map itemOf) CRLF).flatten) ++ (r'.body ++ (T' ++ archiveT ss)) := by
    rw [later_split r' T' ss h.version', blockLines_of_headers]
    simp [Place.piece, List.flatMap]
  have hread := readRecord_items offs (p ++ v1 ++ CRLF) (p, v1, b! "1.0", CRLF) (r'.headers.map itemOf) (r'.body ++ (T' ++ archiveT ss))
    (readerAt (archiveT rs) ((Place.tag p).piece r ++ archiveT ((r', T') :: ss))) (by simp [readerAt, readerOn, adv]) rfl rfl hvs.1 (show (b! "1.0" : Bytes) ∈ knownVersions by decide)
    (block_of_headers _ hheads) ⟨p ++ v1 ++ [13], by simp, hvs.2.2⟩ hvs.2.1 (by
      rw [blockLines_of_headers]
      intro l hl
      simp only [List.mem_append, List.mem_map, List.mem_singleton] at hl
      rcases hl with ⟨k, hk, rfl⟩ | rfl
      · exact headerLine_line k (hheads k hk)
      · exact ⟨[13], rfl, by decide⟩) (by rw [readerAt_rest, e]; simp)
  simp only [foldl_itemOf _ _ hheads, hinit] at hread
  have hdl : r'.headers.foldl stepLength 0 = (r'.body.length : Int) := by
    have := hok'.1.length
    rw [declaredLength_eq] at this
    exact this
  rw [hdl] at hread
  have hk2 : ∀ d, (readerAt (archiveT rs) d).kind = .plain := fun _ => rfl
  have hp2 : ∀ d, (readerAt (archiveT rs) d).fh.pos = (archiveT rs).length := by
    intro d; simp [readerAt, readerOn, adv, File.advance, File.openFile]
  rw [hk2, hp2, reported_plain, ← List.length_append (as := p ++ v1 ++ CRLF)] at hread
  rw [e] at hread hn ⊢
  rw [collect_merged offs n (archiveT rs) _ _ _ r'.body T' ss (fun x hx => h.after x (by simp [hx])) hok'.2 (by simp) rfl rfl rfl hread hn]
  rw [← e]
  simp only [Collected.behind, warcRec, versionErrs, ne_eq, not_true_eq_false, if_false, List.nil_append, gotAt, h.version']
  have e3 : (p ++ v1 ++ CRLF ++ (blockHead (r'.headers.map itemOf) CRLF :: blockTail (r'.headers.map itemOf) CRLF).flatten ++ (r'.body ++ T')).length =
      (p ++ (r'.core ++ T')).length := by
    rw [blockLines_of_headers]
    simp [R.core, headBytes, h.version', List.flatMap]
  simp only [e3]
  simp only [Place.piece, List.length_append, Nat.add_assoc]
  by_cases hp0 : p = [] <;> simp [hp0]

/-- a Content-Length makes what came before irrelevant -/
theorem step_indep (hs : List Header) (h : ∃ k ∈ hs, lower k.1 = b! "content-length") (hok : ∀ k ∈ hs, HeaderOk k) (a b : Int) :
    hs.foldl stepLength a = hs.foldl stepLength b := by
  induction hs generalizing a b with
  | nil => obtain ⟨k, hk, _⟩ := h; simp at hk
  | cons x hs ih =>
    simp only [List.foldl_cons]
    by_cases hx : lower x.1 = b! "content-length"
    · obtain ⟨n, hn⟩ := Option.isSome_iff_exists.1 ((hok x (by simp)).lengthOk hx)
      simp only [stepLength, if_pos hx, hn, Option.getD_some]
    · simp only [stepLength, if_neg hx]
      obtain ⟨k, hk, hl⟩ := h
      rcases List.mem_cons.1 hk with rfl | hk
      · exact absurd hl hx
      · exact ih ⟨k, hk, hl⟩ (fun k hk => hok k (by simp [hk])) a b

/-- reading a record whose headers end in those of the next one -/
theorem collect_around (offs : Bool) (n : Nat) (a : Bytes) (hs : List Header) (it : HItem) (v : Bytes) (r' : R) (T' : Bytes) (ss : List RT)
    (hhs : ∀ k ∈ hs, HeaderOk k) (hok : OkT ((r', T') :: ss)) (hl : ∃ k ∈ r'.headers, lower k.1 = b! "content-length")
    (hit : it.Ok) (hf : fspec it.line = none) (hlines : ∀ l ∈ it.line :: it.contLines, ∃ u, l = u ++ [10] ∧ 10 ∉ u)
    (happ : ∀ st, HItem.apply st it = ⟨st.headers ++ [(it.name, v)], st.errors ++ lengthError it.name v, st.contentLength⟩)
    (hn : (begun hs ++ (it.line ++ it.contLines.flatten) ++ r'.headers.flatMap headerLine ++ CRLF ++ (r'.body ++ (T' ++ archiveT ss))).length < n) :
    collect offs n (readerAt a (begun hs ++ (it.line ++ it.contLines.flatten) ++ r'.headers.flatMap headerLine ++ CRLF ++ (r'.body ++ (T' ++ archiveT ss)))) =
      ⟨⟨reportedAt (!offs) a.length, v1, hs ++ (it.name, v) :: r'.headers, lengthError it.name v,
          (firstValue (b! "Content-Type") (hs ++ (it.name, v) :: r'.headers), some r'.body)⟩ ::
          noting offs (a.length + (begun hs ++ (it.line ++ it.contLines.flatten) ++ r'.headers.flatMap headerLine ++ CRLF ++ (r'.body ++ T')).length) ss,
        ended offs (a.length + (begun hs ++ (it.line ++ it.contLines.flatten) ++ r'.headers.flatMap headerLine ++ CRLF ++ (r'.body ++ (T' ++ archiveT ss))).length),
        .done⟩ := by
  have hok' := hok (r', T') (by simp)
  have hheads := hok'.1.headers
  have hbl := blockLines_around hs it r'.headers
  have hflat : v1 ++ CRLF ++ (blockHead (hs.map itemOf ++ it :: r'.headers.map itemOf) CRLF ::
      blockTail (hs.map itemOf ++ it :: r'.headers.map itemOf) CRLF).flatten =
      begun hs ++ (it.line ++ it.contLines.flatten) ++ r'.headers.flatMap headerLine ++ CRLF := by
    rw [hbl]; simp [begun, List.flatMap]
  have hread := readRecord_items offs (v1 ++ CRLF) ([], v1, b! "1.0", CRLF) (hs.map itemOf ++ it :: r'.headers.map itemOf) (r'.body ++ (T' ++ archiveT ss))
    (readerAt a (begun hs ++ (it.line ++ it.contLines.flatten) ++ r'.headers.flatMap headerLine ++ CRLF ++ (r'.body ++ (T' ++ archiveT ss))))
    (by simp [readerAt, readerOn, adv]) rfl rfl (by decide) (by decide)
    (block_around hs it r'.headers hhs hit hf hheads) ⟨v1 ++ [13], by simp, by decide⟩ (by decide) (by
      rw [hbl]
      intro l hl
      simp only [List.mem_append, List.mem_map, List.mem_singleton] at hl
      rcases hl with (⟨k, hk, rfl⟩ | hl) | ⟨k, hk, rfl⟩ | rfl
      · exact headerLine_line k (hhs k hk)
      · exact hlines l hl
      · exact headerLine_line k (hheads k hk)
      · exact ⟨[13], rfl, by decide⟩) (by rw [readerAt_rest, ← hflat]; simp)
  have hdl : r'.headers.foldl stepLength (hs.foldl stepLength 0) = (r'.body.length : Int) := by
    rw [step_indep _ hl hheads _ 0, ← declaredLength_eq]
    exact hok'.1.length
  simp only [List.foldl_append, List.foldl_cons, foldl_itemOf _ _ hhs, foldl_itemOf _ _ hheads, happ, hinit, hdl] at hread
  have hk2 : ∀ d, (readerAt a d).kind = .plain := fun _ => rfl
  have hp2 : ∀ d, (readerAt a d).fh.pos = a.length := by
    intro d; simp [readerAt, readerOn, adv, File.advance, File.openFile]
  rw [hk2, hp2, reported_plain, ← List.length_append (as := v1 ++ CRLF), hflat] at hread
  rw [collect_merged offs n a _ _ _ r'.body T' ss (fun x hx => hok x (by simp [hx])) hok'.2 (by simp) rfl rfl rfl hread hn]
  simp [warcRec, versionErrs]

/-- **C102** Interrupted in the middle of a header line, behind the colon: reader and appended record are welded together.  The one record that comes out has the headers
that were complete, the interrupted header with the version of the next record as part of its value, and then all headers and the content of the next record.
The only thing that may be noticed is that a Content-Length is no number any more.  The records behind are read. -/
theorem C102_value {fs : FS} {name : Bytes} {rs : List RT} {r : R} {hs : List Header} {k : Header} {q : Bytes} {r' : R} {T' : Bytes} {ss : List RT}
    (h : Resumed fs name rs r (.value hs k q) r' T' ss) (hl : ∃ x ∈ r'.headers, lower x.1 = b! "content-length") (c : Codec) :
    ∃ s, openName c fs .warc none name = .ok s ∧ ∀ offs rounds, s.fh.rest.length < rounds → collect offs rounds s =
      ⟨noting offs 0 rs ++ ⟨reportedAt (!offs) (archiveT rs).length, v1, hs ++ (k.1, strip (q ++ v1)) :: r'.headers,
            lengthError k.1 (strip (q ++ v1)),
            (firstValue (b! "Content-Type") (hs ++ (k.1, strip (q ++ v1)) :: r'.headers), some r'.body)⟩ ::
          noting offs (archiveT rs ++ (Place.value hs k q).piece r ++ (r'.core ++ T')).length ss,
        ended offs (archiveT rs ++ (Place.value hs k q).piece r ++ archiveT ((r', T') :: ss)).length, .done⟩ := by
  refine ⟨_, resumed_open h c, fun offs rounds hr => ?_⟩
  obtain ⟨n, hn, hc⟩ := resumed_start h offs rounds hr
  rw [hc]
  obtain ⟨⟨t, ht⟩, hq⟩ := h.place
  have hall := h.broken.headers
  rw [ht] at hall
  have hk : HeaderOk k := hall k (by simp)
  have hq10 : 10 ∉ q := by
    intro hm
    have := hq.subset hm
    simp [hk.valueNoLF] at this
  have e : (Place.value hs k q).piece r ++ archiveT ((r', T') :: ss) =
      begun hs ++ ((itemMixed k q).line ++ (itemMixed k q).contLines.flatten) ++ r'.headers.flatMap headerLine ++ CRLF ++ (r'.body ++ (T' ++ archiveT ss)) := by
    rw [later_split r' T' ss h.version']
    simp [Place.piece, itemMixed, HItem.contLines]
  have e2 : (Place.value hs k q).piece r ++ (r'.core ++ T') =
      begun hs ++ ((itemMixed k q).line ++ (itemMixed k q).contLines.flatten) ++ r'.headers.flatMap headerLine ++ CRLF ++ (r'.body ++ T') := by
    simp [Place.piece, itemMixed, HItem.contLines, R.core, headBytes, h.version']
  have hline : ∃ u, (itemMixed k q).line = u ++ [10] ∧ 10 ∉ u :=
    ⟨k.1 ++ 58 :: (q ++ v1 ++ [13]), by simp [itemMixed], by
      have : 10 ∉ v1 := by decide
      simp [hk.nameNoLF, hq10, this]⟩
  rw [e] at hn ⊢
  rw [collect_around offs n (archiveT rs) hs (itemMixed k q) (strip (q ++ v1)) r' T' ss (fun x hx => hall x (by simp [hx])) h.after hl
    (itemMixed_ok k hk q hq10) (by
      obtain ⟨k1, v⟩ := k
      cases k1 with
      | nil => exact fspec_head (by decide)
      | cons x xs => exact fspec_head (strip_self_head (s := x :: xs) hk.nameStrip rfl)) (by
      intro l hl
      simp only [itemMixed, HItem.contLines, List.map_nil, List.mem_singleton] at hl
      subst hl
      exact hline) (fun st => apply_mixed st k hk q hq10) hn, ← e, ← e2]
  simp only [Collected.behind, itemMixed, List.length_append, Nat.add_assoc]

/-- **C102** Interrupted between CR and LF of the blank line behind the headers: the version line of the next record becomes a continuation of the last header, and
the same happens. -/
theorem C102_blank {fs : FS} {name : Bytes} {rs : List RT} {r : R} {hs : List Header} {k : Header} {r' : R} {T' : Bytes} {ss : List RT}
    (h : Resumed fs name rs r .blank r' T' ss) (hk : r.headers = hs ++ [k]) (hl : ∃ x ∈ r'.headers, lower x.1 = b! "content-length") (c : Codec) :
    ∃ s, openName c fs .warc none name = .ok s ∧ ∀ offs rounds, s.fh.rest.length < rounds → collect offs rounds s =
      ⟨noting offs 0 rs ++ ⟨reportedAt (!offs) (archiveT rs).length, v1, hs ++ (k.1, k.2 ++ 32 :: v1) :: r'.headers,
            lengthError k.1 (k.2 ++ 32 :: v1),
            (firstValue (b! "Content-Type") (hs ++ (k.1, k.2 ++ 32 :: v1) :: r'.headers), some r'.body)⟩ ::
          noting offs (archiveT rs ++ Place.blank.piece r ++ (r'.core ++ T')).length ss,
        ended offs (archiveT rs ++ Place.blank.piece r ++ archiveT ((r', T') :: ss)).length, .done⟩ := by
  refine ⟨_, resumed_open h c, fun offs rounds hr => ?_⟩
  obtain ⟨n, hn, hc⟩ := resumed_start h offs rounds hr
  rw [hc]
  have hall := h.broken.headers
  rw [hk] at hall
  have hkok : HeaderOk k := hall k (by simp)
  have e : Place.blank.piece r ++ archiveT ((r', T') :: ss) =
      begun hs ++ ((itemBlank k).line ++ (itemBlank k).contLines.flatten) ++ r'.headers.flatMap headerLine ++ CRLF ++ (r'.body ++ (T' ++ archiveT ss)) := by
    rw [later_split r' T' ss h.version']
    simp [Place.piece, itemBlank, HItem.contLines, begun, hk]
  have e2 : Place.blank.piece r ++ (r'.core ++ T') =
      begun hs ++ ((itemBlank k).line ++ (itemBlank k).contLines.flatten) ++ r'.headers.flatMap headerLine ++ CRLF ++ (r'.body ++ T') := by
    simp [Place.piece, itemBlank, HItem.contLines, begun, hk, R.core, headBytes, h.version']
  rw [e] at hn ⊢
  rw [collect_around offs n (archiveT rs) hs (itemBlank k) (k.2 ++ 32 :: v1) r' T' ss (fun x hx => hall x (by simp [hx])) h.after hl
    (itemBlank_ok k hkok) (by
      obtain ⟨d, ds, h1, h2⟩ := headerLine_head k hkok
      show fspec (headerLine k) = none
      rw [h1]; exact fspec_head h2) (by
      intro l hl
      simp only [itemBlank, HItem.contLines, List.map_cons, List.map_nil, List.mem_cons, List.not_mem_nil, or_false] at hl
      rcases hl with rfl | rfl
      · exact headerLine_line k hkok
      · exact ⟨13 :: v1 ++ [13], by simp, by decide⟩) (fun st => apply_blank st k hkok) hn, ← e, ← e2]
  simp only [Collected.behind, itemBlank, List.length_append, Nat.add_assoc]

/-- **C102 (defect)** Interrupted inside the version number: the reader gets the records before, then TypeError. -/
theorem C102_number {fs : FS} {name : Bytes} {rs : List RT} {r : R} {p : Bytes} {r' : R} {T' : Bytes} {ss : List RT}
    (h : Resumed fs name rs r (.number p) r' T' ss) (c : Codec) :
    ∃ s, openName c fs .warc none name = .ok s ∧ ∀ offs rounds, s.fh.rest.length < rounds →
      collect offs rounds s = ⟨noting offs 0 rs, none, .raised .typeError⟩ := by
  refine ⟨_, resumed_open h c, fun offs rounds hr => ?_⟩
  obtain ⟨n, hn, hc⟩ := resumed_start h offs rounds hr
  rw [hc]
  obtain ⟨m, rfl⟩ : ∃ m, n = m + 1 := ⟨n - 1, by omega⟩
  have hp : p ∈ [[], b! "1", b! "1.", b! "1.0", b! "1.0\r"] := prefix_mem (l := b! "1.0\r") h.place
  have hvs : versionNumber (b! "WARC/" ++ p ++ v1 ++ [13] ++ [10]) = some (p ++ v1) ∧ p ++ v1 ∉ knownVersions ∧ 10 ∉ b! "WARC/" ++ p ++ v1 ++ [13] := by
    have : ∀ p ∈ [[], b! "1", b! "1.", b! "1.0", b! "1.0\r"],
        versionNumber (b! "WARC/" ++ p ++ v1 ++ [13] ++ [10]) = some (p ++ v1) ∧ p ++ v1 ∉ knownVersions ∧ 10 ∉ b! "WARC/" ++ p ++ v1 ++ [13] := by decide
    exact this p hp
  obtain ⟨s', hs'⟩ := readRecord_badNumber offs (readerAt (archiveT rs) ((Place.number p).piece r ++ archiveT ((r', T') :: ss))) rfl
    (by simp [readerAt, readerOn, adv]) rfl rfl (b! "WARC/" ++ p ++ v1 ++ [13]) (p ++ v1)
    (r'.headers.flatMap headerLine ++ CRLF ++ (r'.body ++ (T' ++ archiveT ss))) hvs.2.2 (by simp) hvs.1 hvs.2.1 (by
      rw [readerAt_rest, later_split r' T' ss h.version']; simp [Place.piece])
  simp only [collect, hs', Collected.behind, List.append_nil]

/-- **C102 (defect)** Interrupted between two header lines or inside the name of a header: the reader gets the records before and then never comes back. -/
theorem C102_name {fs : FS} {name : Bytes} {rs : List RT} {r : R} {hs : List Header} {p : Bytes} {r' : R} {T' : Bytes} {ss : List RT}
    (h : Resumed fs name rs r (.name hs p) r' T' ss) (c : Codec) :
    ∃ s, openName c fs .warc none name = .ok s ∧ ∀ offs rounds, s.fh.rest.length < rounds →
      collect offs rounds s = ⟨noting offs 0 rs, none, .hangs⟩ := by
  refine ⟨_, resumed_open h c, fun offs rounds hr => ?_⟩
  obtain ⟨n, hn, hc⟩ := resumed_start h offs rounds hr
  rw [hc]
  obtain ⟨m, rfl⟩ : ∃ m, n = m + 1 := ⟨n - 1, by omega⟩
  have hhs : ∀ k ∈ hs, HeaderOk k := by
    rcases h.place with ⟨k, t, h1, _⟩ | ⟨h1, _⟩
    · intro x hx; exact h.broken.headers x (by rw [h1]; simp [hx])
    · intro x hx; exact h.broken.headers x (by rw [← h1]; exact hx)
  have hpp : 58 ∉ p ∧ 10 ∉ p ∧ ∀ x xs, p = x :: xs → isWs x = false := by
    rcases h.place with ⟨k, t, h1, h2⟩ | ⟨_, rfl⟩
    · have hk := h.broken.headers k (by rw [h1]; simp)
      refine ⟨fun hm => hk.noColon (h2.subset hm), fun hm => hk.nameNoLF (h2.subset hm), ?_⟩
      rintro x xs rfl
      obtain ⟨t, ht⟩ := h2
      exact strip_self_head (cs := xs ++ t) hk.nameStrip (by rw [← ht]; rfl)
    · simp
  obtain ⟨x, xs, hx, h58, h10, hw⟩ : ∃ x xs, p ++ v1 ++ [13] = x :: xs ∧ 58 ∉ x :: xs ∧ 10 ∉ x :: xs ∧ isWs x = false := by
    have h1 : 58 ∉ p ++ v1 ++ [13] := by
      have : 58 ∉ v1 := by decide
      simp [hpp.1, this]
    have h2 : 10 ∉ p ++ v1 ++ [13] := by
      have : 10 ∉ v1 := by decide
      simp [hpp.2.1, this]
    cases p with
    | nil => exact ⟨87, b! "ARC/1.0\r", rfl, h1, h2, by decide⟩
    | cons x xs => exact ⟨x, xs ++ v1 ++ [13], by simp, by simpa using h1, by simpa using h2, hpp.2.2 x xs rfl⟩
  have hs' := readRecord_stuck offs (readerAt (archiveT rs) ((Place.name hs p).piece r ++ archiveT ((r', T') :: ss))) rfl
    (by simp [readerAt, readerOn, adv]) rfl rfl hs x xs (r'.headers.flatMap headerLine ++ CRLF ++ (r'.body ++ (T' ++ archiveT ss))) hhs hw h58 h10 (by
      rw [readerAt_rest, later_split r' T' ss h.version', ← hx]; simp [Place.piece])
  simp only [collect, hs', Collected.behind, List.append_nil]

/-- the same reading, `X` further on -/
theorem collect_later (X : Bytes) (offs : Bool) (n : Nat) (s : Stream) (hp : s.parser = .warc) :
    collect offs n (behind X s) = (collect offs n s).later X.length := by
  induction n generalizing s with
  | zero => rfl
  | succ n ih =>
    have hlate : readRecord offs (behind X s) = (readRecord offs s).behind X (Entry.later X.length) := late_readRecord offs
    simp only [collect, hlate]
    cases hq : readRecord offs s with
    | hang => rfl
    | raise e s1 => rfl
    | ok e s1 =>
      simp only [Res.behind]
      have hr : (e.later X.length).rcd = e.rcd := rfl
      have ho : (e.later X.length).offset = e.offset.map (X.length + ·) := rfl
      rw [hr]
      cases hc : e.rcd with
      | none => rfl
      | some r =>
        simp only
        obtain ⟨hsane, _, _, hp1, _⟩ := readRecord_sane offs s s1 e r hp hq hc
        have hrd : Stream.read none (behind X s1) = (Stream.read none s1).behind X id := late_read none
        simp only [World.content, hsane.content, World.cfileRead, hsane.cfile, World.onStream, hrd]
        cases hz : Stream.read none s1 with
        | hang => rfl
        | raise ex s2 => rfl
        | ok b s2 =>
          simp only [Res.behind, World.clearCfile, id]
          have hp2 : s2.parser = .warc := by
            have := Keeps.read (p := true) none s1
            rw [hz] at this
            rw [this.2.2.2.2 rfl, hp1]
          rw [ih s2 hp2]
          simp [Collected.later, ho]

theorem readerAt_behind (a b : Bytes) : readerAt a b = behind a (readerOn b) := by
  simp [readerAt, readerOn, behind, adv, File.advance, File.openFile]

/-- the state behind the head of the interrupted record -/
theorem read_broken {fs : FS} {name : Bytes} {rs : List RT} {r : R} {j : Nat} {r' : R} {T' : Bytes} {ss : List RT}
    (h : Resumed fs name rs r (.payload j) r' T' ss) (offs : Bool) :
    readRecord offs (readerAt (archiveT rs) ((Place.payload j).piece r ++ archiveT ((r', T') :: ss))) =
      .ok ⟨reportedAt (!offs) (archiveT rs).length, some (parsed v1 r.headers), []⟩
        { readerAt (archiveT rs ++ headBytes v1 r.headers) (r.body.take j ++ archiveT ((r', T') :: ss)) with eoc := some (r.body.length : Int) } := by
  have := readRecord_head offs [] v1 r.headers (r.body.take j ++ archiveT ((r', T') :: ss))
    (readerAt (archiveT rs) ((Place.payload j).piece r ++ archiveT ((r', T') :: ss))) (by simp [readerAt, readerOn, adv]) rfl ⟨by simp, Or.inl rfl⟩ v1_ok
    h.broken.headers (Or.inl rfl) (by rw [readerAt_rest]; simp [Place.piece, begun, headBytes])
  rw [this, h.broken.length]
  have hpos : ∀ d, (readerAt (archiveT rs) d).fh.pos = (archiveT rs).length := by
    intro d; simp [readerAt, readerOn, adv, File.advance, File.openFile]
  have hkind : ∀ d, (readerAt (archiveT rs) d).kind = .plain := fun _ => rfl
  rw [hpos, hkind, reported_plain]
  have e : (readerAt (archiveT rs) ((Place.payload j).piece r ++ archiveT ((r', T') :: ss))).adv (([] : Bytes).length + (headBytes v1 r.headers).length) =
      readerAt (archiveT rs ++ headBytes v1 r.headers) (r.body.take j ++ archiveT ((r', T') :: ss)) := by
    simp [readerAt, readerOn, adv, File.advance, File.openFile, Place.piece, begun, headBytes, Nat.add_assoc]
  rw [e]
  rfl

/-- **C102** Interrupted inside the payload, and as many bytes were appended as are missing: the record is read with its headers and without any error, but its content is filled up
with the first bytes of the records that were appended.  Reading goes on behind these bytes, as if a file began there. -/
theorem C102_payload {fs : FS} {name : Bytes} {rs : List RT} {r : R} {j : Nat} {r' : R} {T' : Bytes} {ss : List RT}
    (h : Resumed fs name rs r (.payload j) r' T' ss) (hm : r.body.length - j ≤ (archiveT ((r', T') :: ss)).length) (c : Codec) :
    ∃ s, openName c fs .warc none name = .ok s ∧ ∀ offs rounds, s.fh.rest.length < rounds → collect offs rounds s =
      Collected.behind (noting offs 0 rs ++ [⟨reportedAt (!offs) (archiveT rs).length, v1, r.headers, [], (firstValue (b! "Content-Type") r.headers,
          some (r.body.take j ++ (archiveT ((r', T') :: ss)).take (r.body.length - j)))⟩])
        (Collected.later (archiveT rs ++ r.core).length (collect offs rounds (readerOn ((archiveT ((r', T') :: ss)).drop (r.body.length - j))))) := by
  refine ⟨_, resumed_open h c, fun offs rounds hr => ?_⟩
  obtain ⟨n, hn, hc⟩ := resumed_start h offs rounds hr
  rw [hc]
  obtain ⟨m, rfl⟩ : ∃ m, n = m + 1 := ⟨n - 1, by omega⟩
  have hj : j < r.body.length := h.place
  generalize hL : archiveT ((r', T') :: ss) = L at hm hr hn hc ⊢
  have hread := read_broken h offs
  rw [hL] at hread
  generalize ht : ({ readerAt (archiveT rs ++ headBytes v1 r.headers) (r.body.take j ++ L) with eoc := some (r.body.length : Int) } : Stream) = t at hread
  have htr : t.fh.rest = r.body.take j ++ L := by
    subst ht
    show (readerAt (archiveT rs ++ headBytes v1 r.headers) (r.body.take j ++ L)).fh.rest = _
    rw [readerAt_rest]
  have hlen : r.body.length ≤ t.fh.rest.length := by
    rw [htr]; simp; omega
  obtain ⟨r1, hcont⟩ := content_fresh t (parsed v1 r.headers) r.body.length rfl rfl (by subst ht; rfl) hlen
  have htake : t.fh.rest.take r.body.length = r.body.take j ++ L.take (r.body.length - j) := by
    rw [htr, List.take_append]
    congr 1
    · rw [List.take_take]; congr 1; omega
    · congr 1; simp; omega
  have hnext : ∀ k, collect offs k { t.adv r.body.length with eoc := some 0 } =
      (collect offs k (readerOn (L.drop (r.body.length - j)))).later (archiveT rs ++ r.core).length := by
    intro k
    rw [collect_congr offs k ({ t.adv r.body.length with eoc := some 0 } : Stream) ({ t.adv r.body.length with eoc := none } : Stream)
      (readRecord_neg offs 0 ({ t.adv r.body.length with eoc := some 0 } : Stream) rfl (by omega))]
    have hY : ∃ Y : Bytes, Y.length = (archiveT rs ++ r.core).length ∧
        ({ t.adv r.body.length with eoc := none } : Stream) = behind Y (readerOn (L.drop (r.body.length - j))) := by
      refine ⟨archiveT rs ++ headBytes v1 r.headers ++ (r.body.take j ++ L.take (r.body.length - j)), ?_, ?_⟩
      · simp [R.core, h.version]; omega
      · subst ht
        have hd : archiveT rs ++ headBytes v1 r.headers ++ (r.body.take j ++ L.take (r.body.length - j)) ++ L.drop (r.body.length - j) =
            archiveT rs ++ headBytes v1 r.headers ++ (r.body.take j ++ L) := by
          simp [List.take_append_drop]
        simp only [readerAt, readerOn, behind, adv, File.advance, File.openFile, hd, Nat.zero_add, Nat.add_zero]
        congr 2
        simp; omega
    obtain ⟨Y, hY1, hY2⟩ := hY
    rw [hY2, collect_later Y offs k _ rfl, hY1]
  have hk : ∀ k, (L.drop (r.body.length - j)).length < k → collect offs k (readerOn (L.drop (r.body.length - j))) =
      collect offs rounds (readerOn (L.drop (r.body.length - j))) := by
    intro k hk
    have e : (readerOn (L.drop (r.body.length - j))).fh.rest = L.drop (r.body.length - j) := by simp [readerOn, File.openFile, File.rest]
    refine collect_fuel offs k rounds _ (by rw [e]; exact hk) ?_
    rw [e]
    have : (readerOn (archiveT rs ++ ((Place.payload j).piece r ++ L))).fh.rest.length = (archiveT rs ++ ((Place.payload j).piece r ++ L)).length := by
      simp [readerOn, File.openFile, File.rest]
    rw [this] at hr
    simp at hr ⊢
    omega
  simp only [collect, hread, hcont, hnext]
  rw [hk m (by
    have : 0 < ((Place.payload j).piece r).length := by simp [Place.piece, begun, v1]
    simp at hn ⊢; omega)]
  simp [Collected.behind, Collected.later, parsed, htake, Cls.contentTypeName, WH.CONTENT_TYPE]

/-- **C102** If fewer bytes were appended than are missing, all of them become the end of the content, and the reader then raises. -/
theorem C102_payload_short {fs : FS} {name : Bytes} {rs : List RT} {r : R} {j : Nat} {r' : R} {T' : Bytes} {ss : List RT}
    (h : Resumed fs name rs r (.payload j) r' T' ss) (hm : (archiveT ((r', T') :: ss)).length < r.body.length - j) (c : Codec) :
    ∃ s, openName c fs .warc none name = .ok s ∧ ∀ offs rounds, s.fh.rest.length < rounds → collect offs rounds s =
      ⟨noting offs 0 rs ++ [⟨reportedAt (!offs) (archiveT rs).length, v1, r.headers, [], (firstValue (b! "Content-Type") r.headers,
          some (r.body.take j ++ archiveT ((r', T') :: ss)))⟩], none, .raised (.generic "expected more bytes")⟩ := by
  refine ⟨_, resumed_open h c, fun offs rounds hr => ?_⟩
  obtain ⟨n, hn, hc⟩ := resumed_start h offs rounds hr
  rw [hc]
  have hpl : 0 < ((Place.payload j).piece r).length := by simp [Place.piece, begun, v1]
  obtain ⟨m, rfl⟩ : ∃ m, n = m + 2 := ⟨n - 2, by simp at hn; omega⟩
  have hj : j < r.body.length := h.place
  generalize hL : archiveT ((r', T') :: ss) = L at hm hr hn hc ⊢
  have hread := read_broken h offs
  rw [hL] at hread
  generalize ht : ({ readerAt (archiveT rs ++ headBytes v1 r.headers) (r.body.take j ++ L) with eoc := some (r.body.length : Int) } : Stream) = t at hread
  have htr : t.fh.rest = r.body.take j ++ L := by
    subst ht
    show (readerAt (archiveT rs ++ headBytes v1 r.headers) (r.body.take j ++ L)).fh.rest = _
    rw [readerAt_rest]
  have hlt : t.fh.rest.length < r.body.length := by rw [htr]; simp; omega
  have hsane : Sane (parsed v1 r.headers) :=
    (readRecord_sane offs _ t _ (parsed v1 r.headers) rfl hread rfl).1
  have hcont := (content_cases t (parsed v1 r.headers) [] r.body.length hsane (by subst ht; rfl)).2.1 hlt (by subst ht; rfl)
  obtain ⟨t', ht'⟩ := short_next t r.body.length hlt (by subst ht; rfl) offs
  simp only [collect, hread, hcont, ht']
  simp [Collected.behind, parsed, htr]

/-- **C102 (defect)** If there is no version line among the next six lines that are not blank behind the bytes that were swallowed, everything that was appended is lost. -/
theorem C102_payload_lost {fs : FS} {name : Bytes} {rs : List RT} {r : R} {j : Nat} {r' : R} {T' : Bytes} {ss : List RT}
    (h : Resumed fs name rs r (.payload j) r' T' ss) (hm : r.body.length - j ≤ (archiveT ((r', T') :: ss)).length) (a : List Bytes)
    (ha : Foreign ((archiveT ((r', T') :: ss)).drop (r.body.length - j)) a) (c : Codec) :
    ∃ s, openName c fs .warc none name = .ok s ∧ ∀ offs, ∃ o, ∀ rounds, s.fh.rest.length < rounds → collect offs rounds s =
      ⟨noting offs 0 rs ++ [⟨reportedAt (!offs) (archiveT rs).length, v1, r.headers, [], (firstValue (b! "Content-Type") r.headers,
          some (r.body.take j ++ (archiveT ((r', T') :: ss)).take (r.body.length - j)))⟩], some ⟨o, none, complaints a⟩, .done⟩ := by
  obtain ⟨s, ho, hc⟩ := C102_payload h hm c
  refine ⟨s, ho, fun offs => ?_⟩
  obtain ⟨o, s', hread, _⟩ := readRecord_foreign offs (readerOn ((archiveT ((r', T') :: ss)).drop (r.body.length - j))) rfl (by simp [readerOn]) rfl rfl a (by
    simpa [readerOn, File.openFile, File.rest] using ha)
  refine ⟨o.map ((archiveT rs ++ r.core).length + ·), fun rounds hr => ?_⟩
  rw [hc offs rounds hr]
  obtain ⟨m, rfl⟩ : ∃ m, rounds = m + 1 := ⟨rounds - 1, by omega⟩
  simp only [collect, hread, Collected.behind, Collected.later, Entry.later, List.map_nil, List.append_nil, Option.map_some]

/-- the file is the archive of other records -/
theorem read_as_archive (c : Codec) (fs : FS) (name : Bytes) (xs : List RT) (hok : OkT xs) (hf : fs name = some (archiveT xs)) (hn : ¬ b! ".gz" <:+ name) :
    ∃ s, openName c fs .warc none name = .ok s ∧ ∀ offs rounds, s.fh.rest.length < rounds → collect offs rounds s =
      ⟨noting offs 0 xs, ended offs (archiveT xs).length, .done⟩ := by
  have hg : (archiveT xs).take 2 ≠ [0x1f, 0x8b] := by
    cases xs with
    | nil => simp [archiveT]
    | cons x xs =>
      have := core_not_gzip x.1 (hok x (by simp)).1 (x.2 ++ archiveT xs)
      simpa [archiveT, List.append_assoc] using this
  refine ⟨_, openName_plain c fs name _ hf hn hg, fun offs rounds hr => ?_⟩
  have hr' : (archiveT xs).length < rounds := by simpa [File.openFile, File.rest] using hr
  have hlen := Tool.archiveT_length xs
  rw [collect_archiveT offs rounds _ xs (by simp) rfl rfl hok (fun x _ => Or.inl rfl) (by simp [File.openFile, File.rest]) (by omega)]
  have : (File.openFile (archiveT xs)).pos = 0 := rfl
  simp only [this, reported_plain, noting, ended, Nat.zero_add]
  rfl

/-- **C102** Interrupted behind the payload: all records are read, the interrupted one too; but if the last byte is a CR whose LF is missing, this CR becomes part of the version of the next
record. -/
theorem C102_trailer {fs : FS} {name : Bytes} {rs : List RT} {r : R} {T : Bytes} {r' : R} {T' : Bytes} {ss : List RT}
    (h : Resumed fs name rs r (.trailer T) r' T' ss) (c : Codec) :
    ∃ T0 cr, T = T0 ++ cr ∧ (T0 = [] ∨ T0 = CRLF) ∧ (cr = [] ∨ cr = [13]) ∧
    ∃ s, openName c fs .warc none name = .ok s ∧ ∀ offs rounds, s.fh.rest.length < rounds → collect offs rounds s =
      ⟨noting offs 0 (rs ++ (r, T0) :: ({ r' with version := cr ++ v1 }, T') :: ss),
        ended offs (archiveT rs ++ (Place.trailer T).piece r ++ archiveT ((r', T') :: ss)).length, .done⟩ := by
  have hT : T ∈ [[], b! "\r", b! "\r\n", b! "\r\n\r"] := prefix_mem (l := b! "\r\n\r") h.place
  obtain ⟨T0, cr, e, h1, h2⟩ : ∃ T0 cr, T = T0 ++ cr ∧ (T0 = [] ∨ T0 = CRLF) ∧ (cr = [] ∨ cr = [13]) := by
    simp only [List.mem_cons, List.not_mem_nil, or_false] at hT
    rcases hT with rfl | rfl | rfl | rfl
    · exact ⟨[], [], rfl, Or.inl rfl, Or.inl rfl⟩
    · exact ⟨[], [13], rfl, Or.inl rfl, Or.inr rfl⟩
    · exact ⟨CRLF, [], rfl, Or.inr rfl, Or.inl rfl⟩
    · exact ⟨CRLF, [13], rfl, Or.inr rfl, Or.inr rfl⟩
  refine ⟨T0, cr, e, h1, h2, ?_⟩
  have hT0 : Terminator T0 := by
    rcases h1 with rfl | rfl
    · exact ⟨by simp, Or.inl rfl⟩
    · exact ⟨by decide, Or.inr (by decide)⟩
  have hr' := h.after (r', T') (by simp)
  have hv' : VersionOk (cr ++ v1) := by
    rcases h2 with rfl | rfl
    · exact v1_ok
    · exact ⟨[13], b! "WARC/", b! "1.0", rfl, by decide, by decide, by decide, by decide⟩
  have e2 : archiveT rs ++ ((Place.trailer T).piece r ++ archiveT ((r', T') :: ss)) = archiveT (rs ++ (r, T0) :: ({ r' with version := cr ++ v1 }, T') :: ss) := by
    simp [archiveT, Place.piece, begun, R.core, headBytes, h.version, h.version', e]
  have hok : OkT (rs ++ (r, T0) :: ({ r' with version := cr ++ v1 }, T') :: ss) := by
    intro x hx
    simp only [List.mem_append, List.mem_cons] at hx
    rcases hx with hx | rfl | rfl | hx
    · exact h.before x hx
    · exact ⟨h.broken, hT0⟩
    · exact ⟨⟨hv', hr'.1.headers, hr'.1.length⟩, hr'.2⟩
    · exact h.after x (by simp [hx])
  obtain ⟨s, h3, h4⟩ := read_as_archive c fs name _ hok (by rw [h.file, e2]) h.notGz
  refine ⟨s, h3, fun offs rounds hr => ?_⟩
  rw [h4 offs rounds hr, ← e2]
  simp [Nat.add_assoc]


/-- **C102 (defect)** Interrupted in the value of a header that is not Content-Length (behind the space): the file *is* a well-formed archive of other records, one fewer than were begun;
`warcvalid` accepts it. -/
theorem C102_unnoticed {fs : FS} {name : Bytes} {rs : List RT} {r : R} {hs : List Header} {k : Header} {q : Bytes} {r' : R} {T' : Bytes} {ss : List RT}
    (h : Resumed fs name rs r (.value hs k (32 :: q)) r' T' ss) (hq : q <+: k.2) (hl : ∃ x ∈ r'.headers, lower x.1 = b! "content-length")
    (hk : lower k.1 ≠ b! "content-length") (c : Codec) (hc : Codec.Laws c) :
    Stored c fs name false (rs ++ (⟨v1, hs ++ (k.1, q ++ v1) :: r'.headers, r'.body⟩, T') :: ss) ∧ WarcValid.main c fs [name] = some 0 := by
  have hst : Stored c fs name false (rs ++ (⟨v1, hs ++ (k.1, q ++ v1) :: r'.headers, r'.body⟩, T') :: ss) := by
    obtain ⟨⟨t, ht⟩, _⟩ := h.place
    have hall := h.broken.headers
    rw [ht] at hall
    have hko : HeaderOk k := hall k (by simp)
    have hr' := h.after (r', T') (by simp)
    have hnew : HeaderOk (k.1, q ++ v1) := by
      refine ⟨hko.noColon, hko.nameNoLF, hko.nameStrip, ?_, ?_, fun _ => by simp [v1], fun hx => absurd hx hk⟩
      · have h1 : 10 ∉ q := fun hm => hko.valueNoLF (hq.subset hm)
        have h2 : 10 ∉ v1 := by decide
        simp [h1, h2]
      · refine strip_eq_self ?_ ?_
        · intro x xs e
          cases q with
          | nil => simp [v1] at e; obtain ⟨rfl, _⟩ := e; decide
          | cons y q =>
            simp only [List.cons_append, List.cons.injEq] at e
            obtain ⟨u, hu⟩ := hq
            rw [← e.1]
            exact strip_self_head (s := k.2) hko.valueStrip (by rw [← hu]; rfl)
        · intro x e
          have h3 : (q ++ v1).getLast? = some 48 := by rw [List.getLast?_append]; rfl
          have e' : (q ++ v1).getLast? = some x := e
          rw [h3] at e'
          cases e'
          decide
    refine ⟨?_, ?_, h.notGz⟩
    · intro x hx
      simp only [List.mem_append, List.mem_cons] at hx
      rcases hx with hx | rfl | hx
      · exact h.before x hx
      · refine ⟨⟨v1_ok, ?_, ?_⟩, hr'.2⟩
        · intro y hy
          simp only [List.mem_append, List.mem_cons] at hy
          rcases hy with hy | rfl | hy
          · exact hall y (by simp [hy])
          · exact hnew
          · exact hr'.1.headers y hy
        · show declaredLength (hs ++ (k.1, q ++ v1) :: r'.headers) = r'.body.length
          rw [declaredLength_eq, List.foldl_append, List.foldl_cons, step_indep _ hl hr'.1.headers _ 0, ← declaredLength_eq]
          exact hr'.1.length
      · exact h.after x (by simp [hx])
    · rw [h.file]
      simp [archiveT, Place.piece, begun, R.core, headBytes, h.version', headerLine]
  exact ⟨hst, C43_accepts_archives c hc fs [name] (by
    intro n hn
    simp only [List.mem_singleton] at hn
    subst hn
    exact ⟨false, _, hst⟩)⟩

/-! ### a file for each place -/

/-- the record whose writing was interrupted -/
def crashR : R := ⟨v1, [(b! "WARC-Type", b! "resource"), (b! "Content-Type", b! "text/plain"), (b! "Content-Length", b! "12")], b! "hello\nworld\n"⟩

/-- the record that was written next -/
def crashNext : R := ⟨v1, [(b! "WARC-Type", b! "metadata"), (b! "Content-Length", b! "3")], b! "abc"⟩

theorem crash_ok : crashR.Ok := ⟨v1_ok, by decide, by decide⟩
theorem crash_next_ok : crashNext.Ok := ⟨v1_ok, by decide, by decide⟩

def crashFS (pl : Place) : FS := fun n =>
  if n = b! "c.warc" then some (archiveT [(crashNext, CRLF ++ CRLF)] ++ (pl.piece crashR ++ archiveT [(crashNext, CRLF ++ CRLF), (crashNext, CRLF)])) else none

theorem crash_demo (pl : Place) (h : pl.In crashR) :
    Resumed (crashFS pl) (b! "c.warc") [(crashNext, CRLF ++ CRLF)] crashR pl crashNext (CRLF ++ CRLF) [(crashNext, CRLF)] := by
  have hT : Terminator CRLF := ⟨by decide, by decide⟩
  refine ⟨?_, crash_ok, rfl, h, ?_, rfl, by simp [crashFS], by decide⟩
  · intro x hx
    simp only [List.mem_singleton] at hx
    subst hx
    exact ⟨crash_next_ok, terminator_crlf2⟩
  · intro x hx
    simp only [List.mem_cons, List.not_mem_nil, or_false] at hx
    rcases hx with rfl | rfl
    · exact ⟨crash_next_ok, terminator_crlf2⟩
    · exact ⟨crash_next_ok, hT⟩

/-- inside `WARC/` -/
example := C102_tag (crash_demo (.tag (b! "WA")) ⟨b! "RC", rfl⟩) toy
/-- inside the number of the version -/
example := C102_number (crash_demo (.number (b! "1.")) ⟨b! "0\r", rfl⟩) toy
/-- in the name of a header -/
example := C102_name (crash_demo (.name [(b! "WARC-Type", b! "resource")] (b! "Content-")) (Or.inl ⟨_, _, rfl, b! "Type", rfl⟩)) toy
/-- in front of the blank line -/
example := C102_name (crash_demo (.name crashR.headers []) (Or.inr ⟨rfl, rfl⟩)) toy
/-- in the value of a header -/
example := C102_value (crash_demo (.value [(b! "WARC-Type", b! "resource")] (b! "Content-Type", b! "text/plain") (b! " text/p")) ⟨⟨_, rfl⟩, b! "lain\r", rfl⟩)
  ⟨_, List.mem_cons_of_mem _ (List.mem_cons_self ..), by decide⟩ toy
example := C102_unnoticed (crash_demo (.value [(b! "WARC-Type", b! "resource")] (b! "Content-Type", b! "text/plain") (b! " text/p")) ⟨⟨_, rfl⟩, b! "lain\r", rfl⟩)
  ⟨b! "lain", rfl⟩ ⟨_, List.mem_cons_of_mem _ (List.mem_cons_self ..), by decide⟩ (by decide) toy toy_laws
/-- in the blank line -/
example := C102_blank (hs := crashR.headers.take 2) (k := (b! "Content-Length", b! "12")) (crash_demo .blank trivial) rfl
  ⟨_, List.mem_cons_of_mem _ (List.mem_cons_self ..), by decide⟩ toy
/-- in the payload: there are enough bytes, or not -/
example := C102_payload (crash_demo (.payload 6) (by decide : 6 < crashR.body.length)) (by decide) toy

def bigR : R := ⟨v1, [(b! "Content-Length", b! "500")], List.replicate 500 97⟩

theorem bigR_ok : bigR.Ok := ⟨v1_ok, by decide, by simp only [bigR, List.length_replicate]; decide⟩

example : ∃ fs, Resumed fs (b! "c.warc") [] bigR (.payload 6) crashNext CRLF [] ∧ (archiveT [(crashNext, CRLF)]).length < bigR.body.length - 6 := by
  refine ⟨fun _ => some ((Place.payload 6).piece bigR ++ archiveT [(crashNext, CRLF)]), ⟨?_, bigR_ok, rfl, ?_, ?_, rfl, rfl, by decide⟩, ?_⟩
  · intro x hx; simp at hx
  · show 6 < bigR.body.length
    rw [show bigR.body = List.replicate 500 97 from rfl, List.length_replicate]; omega
  · intro x hx
    simp only [List.mem_singleton] at hx
    subst hx
    exact ⟨crash_next_ok, ⟨by decide, by decide⟩⟩
  · simp only [bigR, List.length_replicate]; decide

/-- in the payload, nine bytes before its end, and one record was appended: it is lost, because the version line `WARC/1.0` has eight bytes -/
def lostFS : FS := fun _ => some ((Place.payload 3).piece crashR ++ archiveT [(crashNext, CRLF)])

theorem lost_demo : Resumed lostFS (b! "c.warc") [] crashR (.payload 3) crashNext CRLF [] := by
  refine ⟨?_, crash_ok, rfl, (by decide : 3 < crashR.body.length), ?_, rfl, rfl, by decide⟩
  · intro x hx; simp at hx
  · intro x hx
    simp only [List.mem_singleton] at hx
    subst hx
    exact ⟨crash_next_ok, ⟨by decide, by decide⟩⟩

example := C102_payload_lost lost_demo (by decide) [b! "\n", b! "WARC-Type: metadata\r\n", b! "Content-Length: 3\r\n", b! "\r\n", b! "abc\r\n"]
  ⟨[], by decide, by decide, Or.inl rfl⟩ toy

/-- behind the payload -/
example := C102_trailer (crash_demo (.trailer (b! "\r\n\r")) ⟨[], rfl⟩) toy

end Warc
