import Verif.Props.ToolDamaged
import Verif.Spec.OnceAny
set_option linter.all false
/-
  C116: warcextract and warcpayload at any position of any file.
-/
namespace Warc
open Rx Stream Spec
namespace Tool

theorem performsD_extract (e : Exc) : PerformsD e (extractingDamaged e) (fun _ r => withRecord r (do let b ← WarcFilter.contentBytes; World.write b)) := by
  intro s v hs es o out hb
  have hf := content_fullD e s { parsed v hs with errors := es } out hs o v es hb (bare_parsed v hs es) rfl
  unfold extractingDamaged Head.readingDamaged
  cases hp : (⟨o, v, hs, es, s.fh.rest⟩ : Head).payloadDamaged e with
  | error x =>
    rw [hp] at hf
    obtain ⟨s', hf⟩ := hf
    refine did_stops s hs out [] _ _ s' ?_
    simp only [withRecord, WarcFilter.contentBytes, M.bind_apply, hf]
    simp
  | ok p =>
    rw [hp] at hf
    refine did_readD e s hs out _ o v es p _ hp ?_
    simp only [withRecord, WarcFilter.contentBytes, M.bind_apply, hf, M.pure_apply, World.write, M.modify_apply]

theorem performsD_pour (http : M World Unit) (e : Exc) :
    ∀ (s : Stream) (v : Bytes) (hs : List Header) (es : List Err) (o : Option Nat) (out : Bytes), BehindD e s hs → isHttp ⟨v, hs, []⟩ = false →
      (firstValue (b! "WARC-Type") hs = some (b! "response") → firstValue (b! "Content-Type") hs ≠ none) →
    Did s hs out (withRecord { parsed v hs with errors := es } (WarcPayload.dumpPayload http) ⟨s, out⟩) (pouringDamaged e ⟨o, v, hs, es, s.fh.rest⟩) := by
  intro s v hs es o out hb hh hty
  have htype : ({ parsed v hs with errors := es } : Rec).type = firstValue (b! "WARC-Type") hs := by
    simp [Rec.type, parsed, Rec.getHeader, lookupHeader_eq, WH.TYPE]
  have hc := copyLoop_fullD e (s.fh.rest.length + 2) s { parsed v hs with errors := es } out hs o v es hb rfl (by omega)
  have hrem : World.cfileRemaining ⟨s, { parsed v hs with errors := es }, out⟩ = s.fh.rest.length := rfl
  have hkey : WarcPayload.dumpPayload http ⟨s, { parsed v hs with errors := es }, out⟩ =
      World.copyLoop (s.fh.rest.length + 2) ⟨s, { parsed v hs with errors := es }, out⟩ := by
    by_cases hr : firstValue (b! "WARC-Type") hs = some (b! "response")
    · obtain ⟨t, hct⟩ := Option.ne_none_iff_exists'.1 (hty hr)
      have hctf := contentType_fullD e s { parsed v hs with errors := es } out hs o v es hb (bare_parsed v hs es) rfl
      rw [hct] at hctf
      have hnp : ¬ (startsWith t (b! "application/http") = true) := by
        simp only [isHttp, hr, hct, beq_self_eq_true, Bool.true_and] at hh
        simp only [startsWith]
        intro hx
        rw [← Bool.not_eq_true] at hh
        exact hh hx
      have hr' : ({ parsed v hs with errors := es } : Rec).type = some WT.RESPONSE := by rw [htype, hr]; rfl
      simp only [WarcPayload.dumpPayload, M.bind_apply, M.get_apply, if_pos hr', hctf, if_neg hnp]
      rfl
    · have hr' : ¬ ({ parsed v hs with errors := es } : Rec).type = some WT.RESPONSE := by rw [htype]; exact hr
      simp only [WarcPayload.dumpPayload, M.bind_apply, M.get_apply, if_neg hr']
      rfl
  simp only [withRecord, hkey]
  unfold pouringDamaged
  by_cases hwh : (⟨o, v, hs, es, s.fh.rest⟩ : Head).Whole
  · rw [if_pos hwh] at hc ⊢
    obtain ⟨h1, h2, h3⟩ := whole_used _ _ _ _ _ hwh
    exact ⟨(s.fh.rest.take (declaredLength hs).toNat).length, by rw [hc]; rfl, h1, h2, h3⟩
  · rw [if_neg hwh] at hc ⊢
    obtain ⟨s', hc⟩ := hc
    exact ⟨s', by rw [hc]; rfl⟩

theorem performsD_payload (http : M World Unit) (e : Exc) (s : Stream) (v : Bytes) (hs : List Header) (es : List Err) (o : Option Nat) (out : Bytes) (hb : BehindD e s hs)
    (hh : isHttp ⟨v, hs, []⟩ = false) :
    Did s hs out (withRecord { parsed v hs with errors := es } (WarcPayload.dumpPayload http) ⟨s, out⟩) (payloadingDamaged e ⟨o, v, hs, es, s.fh.rest⟩) := by
  unfold payloadingDamaged
  by_cases hc : firstValue (b! "WARC-Type") hs = some (b! "response") ∧ firstValue (b! "Content-Type") hs = none
  · rw [if_pos hc]
    have htype : ({ parsed v hs with errors := es } : Rec).type = some WT.RESPONSE := by
      have : ({ parsed v hs with errors := es } : Rec).type = firstValue (b! "WARC-Type") hs := by
        simp [Rec.type, parsed, Rec.getHeader, lookupHeader_eq, WH.TYPE]
      rw [this, hc.1]; rfl
    have hctf := contentType_fullD e s { parsed v hs with errors := es } out hs o v es hb (bare_parsed v hs es) rfl
    rw [hc.2] at hctf
    unfold Head.readingDamaged
    cases hp : (⟨o, v, hs, es, s.fh.rest⟩ : Head).payloadDamaged e with
    | error x =>
      rw [hp] at hctf
      obtain ⟨s', hctf⟩ := hctf
      refine did_stops s hs out [] _ _ s' ?_
      simp only [withRecord, WarcPayload.dumpPayload, M.bind_apply, M.get_apply, if_pos htype, hctf]
      simp
    | ok p =>
      rw [hp] at hctf
      refine did_stops s hs out [] _ _ (used s hs p.length) ?_
      simp only [withRecord, WarcPayload.dumpPayload, M.bind_apply, M.get_apply, if_pos htype, hctf, M.throw_apply]
      simp
  · rw [if_neg hc]
    exact performsD_pour http e s v hs es o out hb hh (fun h1 h2 => hc ⟨h1, h2⟩)

/-- the first record of a stream, with something done to it -/
def once (body : M World Unit) : M Tool Unit := do
  let e ← Tool.onStream (readRecord false)
  match e.rcd with
  | some r => Tool.withRecord r body
  | none => if e.errors ≠ [] then M.throw .nameError else pure ()

/-- what `onArchive` makes of the result of the loop over a file -/
def closed (r : Res Tool Unit) : Res Bytes Unit :=
  match r with
  | .ok () t => .ok () t.out
  | .raise e t => .raise e t.out
  | .hang => .hang

theorem did_closed (s : Stream) (hs : List Header) (r : Res Tool Unit) (d : Done) (h : Did s hs [] r d) :
    closed r = (match d with
      | .stops text exc => (⟨text, .raised exc⟩ : Output)
      | .goes text _ => ⟨text, .done⟩
      | .never => ⟨[], .hangs⟩).result [] := by
  cases d with
  | never => rw [show r = _ from h]; rfl
  | stops text exc => obtain ⟨s', h⟩ := h; rw [h]; rfl
  | goes text took => obtain ⟨k, h, -⟩ := h; rw [h]; rfl

theorem once_exact (body : M World Unit) (act : Head → Done) (s : Stream) (hp : s.parser = .warc) (hk : s.kind ≠ .gzipFile) (he : s.eoc = none) (hf : s.fh.fault = none)
    (hneg : s.fh.strictNeg = true)
    (hact : ∀ start v hs es size, next s.fh.rest = .record start v hs es size → ∀ (t : Stream), Behind t hs →
      Did t hs [] (withRecord { parsed v hs with errors := es } body ⟨t, []⟩) (act ⟨none, v, hs, es, t.fh.rest⟩)) :
    closed (once body ⟨s, []⟩) = (onceOn act s.fh.rest).result [] := by
  have hx := readRecord_exact false s hp hk he hf
  unfold onceOn once
  simp only [M.bind_apply, Tool.onStream]
  cases hq : next s.fh.rest with
  | stuck => rw [hq] at hx; simp only at hx ⊢; rw [hx]; rfl
  | unknown => rw [hq] at hx; simp only at hx ⊢; obtain ⟨s', hx⟩ := hx; rw [hx]; rfl
  | none es size =>
    rw [hq] at hx; simp only at hx ⊢; rw [hx]
    by_cases hes : es = []
    · subst hes; rfl
    · simp [hes, Output.result, closed]
  | record start v hs es size =>
    rw [hq] at hx; simp only at hx ⊢; rw [hx]
    have hd := hact _ _ _ _ _ hq ({ s.adv size with eoc := some (declaredLength hs) } : Stream) ⟨hf, hneg, rfl⟩
    have hr2 : ({ s.adv size with eoc := some (declaredLength hs) } : Stream).fh.rest = s.fh.rest.drop size := by simp
    rw [hr2] at hd
    exact did_closed _ _ _ _ hd

theorem once_damaged (e : Exc) (body : M World Unit) (act : Head → Done) (s : Stream) (hp : s.parser = .warc) (hk : s.kind ≠ .gzipFile) (he : s.eoc = none) (hb : Bad e s)
    (hneg : s.fh.strictNeg = true)
    (hact : ∀ start v hs es size, next s.fh.rest = .record start v hs es size → ∀ (t : Stream), BehindD e t hs →
      Did t hs [] (withRecord { parsed v hs with errors := es } body ⟨t, []⟩) (act ⟨none, v, hs, es, t.fh.rest⟩)) :
    closed (once body ⟨s, []⟩) = (onceDamaged e act s.fh.rest).result [] := by
  have hx := readRecord_damaged false s hb hp hk he
  unfold onceDamaged once
  simp only [M.bind_apply, Tool.onStream]
  cases hq : nextDamaged s.fh.rest with
  | none => rw [hq] at hx; simp only at hx ⊢; obtain ⟨s', hx⟩ := hx; rw [hx]; rfl
  | some n =>
  cases n with
  | stuck => rw [hq] at hx; simp only at hx ⊢; rw [hx]; rfl
  | unknown => rw [hq] at hx; simp only at hx ⊢; obtain ⟨s', hx⟩ := hx; rw [hx]; rfl
  | none es size =>
    rw [hq] at hx; simp only at hx ⊢; rw [hx.1]
    by_cases hes : es = []
    · subst hes; rfl
    · simp [hes, Output.result, closed]
  | record start v hs es size =>
    rw [hq] at hx; simp only at hx ⊢
    obtain ⟨hx, hb1, hn⟩ := hx
    rw [hx]
    have hd := hact _ _ _ _ _ hn ({ s.adv size with eoc := some (declaredLength hs) } : Stream) ⟨⟨hb1.fault, hb1.pos⟩, hneg, rfl⟩
    have hr2 : ({ s.adv size with eoc := some (declaredLength hs) } : Stream).fh.rest = s.fh.rest.drop size := by simp
    rw [hr2] at hd
    exact did_closed _ _ _ _ hd

end Tool

/-- a stream on stored bytes, from some position on -/
def storedReader (c : Codec) (compressed : Bool) (stored : Bytes) (offset : Nat) : Stream :=
  if compressed then ⟨{ data := (c.dec (stored.drop offset)).1, pos := 0, strictNeg := true, fault := (c.dec (stored.drop offset)).2 }, none, .gzipRecord, .warc⟩
  else readerFrom stored offset

theorem once_stored (c : Codec) (compressed : Bool) (stored : Bytes) (offset : Nat) (body : M World Unit) (act : Head → Done) (actD : Exc → Head → Done)
    (hact : ∀ start v hs es size, next (storedReader c compressed stored offset).fh.rest = .record start v hs es size → ∀ (t : Stream), Tool.Behind t hs →
      Tool.Did t hs [] (Tool.withRecord { parsed v hs with errors := es } body ⟨t, []⟩) (act ⟨none, v, hs, es, t.fh.rest⟩))
    (hactD : ∀ e, (c.dec (stored.drop offset)).2 = some e → ∀ start v hs es size, next (storedReader c compressed stored offset).fh.rest = .record start v hs es size →
      ∀ (t : Stream), Tool.BehindD e t hs → Tool.Did t hs [] (Tool.withRecord { parsed v hs with errors := es } body ⟨t, []⟩) (actD e ⟨none, v, hs, es, t.fh.rest⟩)) :
    Tool.closed (Tool.once body ⟨storedReader c compressed stored offset, []⟩) = (onceStored c compressed act actD (stored.drop offset)).result [] := by
  cases compressed with
  | false =>
    have hr : (storedReader c false stored offset).fh.rest = stored.drop offset := by simp [storedReader, readerFrom, File.openFile, File.rest]
    have := Tool.once_exact body act (storedReader c false stored offset) rfl (by simp [storedReader, readerFrom]) rfl rfl rfl hact
    rw [this, hr]; rfl
  | true =>
    have hr : (storedReader c true stored offset).fh.rest = (c.dec (stored.drop offset)).1 := by simp [storedReader, File.rest]
    unfold onceStored
    simp only [if_true]
    cases hd : (c.dec (stored.drop offset)).2 with
    | none =>
      have := Tool.once_exact body act (storedReader c true stored offset) rfl (by simp [storedReader]) rfl (by simp [storedReader, hd]) rfl hact
      rw [this, hr]
    | some e =>
      have := Tool.once_damaged e body (actD e) (storedReader c true stored offset) rfl (by simp [storedReader]) rfl ⟨by simp [storedReader, hd], by simp [storedReader, File.rest]⟩
        rfl (hactD e hd)
      rw [this, hr]

/-- **C116** `warcextract name offset`, for every file and every offset: a compressed file (by its name or by its first two bytes) is decompressed from that position on. -/
theorem C116_extract (c : Codec) (fs : FS) (name : Bytes) (offset : Nat) :
    WarcExtract.main c fs name offset [] =
      match fs name with
      | none => .raise .osError []
      | some stored => (onceStored c (decide (Compressed name stored)) extracting extractingDamaged (stored.drop offset)).result [] := by
  cases hfs : fs name with
  | none => simp [WarcExtract.main, onArchive, openName, hfs]
  | some stored =>
    have ho := open_any_file c fs name stored hfs
    simp only
    have hkey : WarcExtract.main c fs name offset [] = Tool.closed (Tool.once (do let b ← WarcFilter.contentBytes; World.write b)
        ⟨storedReader c (decide (Compressed name stored)) stored offset, []⟩) := by
      have hsk : ∀ s, openName c fs .warc none name = .ok s →
          WarcExtract.seekFresh c stored offset s = .ok () (storedReader c (decide (Compressed name stored)) stored offset) := by
        intro s hs
        rw [ho] at hs
        simp only [Except.ok.injEq] at hs
        subst hs
        by_cases hc : Compressed name stored
        · rw [if_pos hc]
          simp [WarcExtract.seekFresh, storedReader, hc, gzipFileOf, File.openFile, File.rest]
        · rw [if_neg hc]
          simp [WarcExtract.seekFresh, storedReader, hc, Stream.seek, onFile, File.seek, readerFrom]
      rw [ho] at hsk
      have hsk := hsk _ rfl
      simp only [WarcExtract.main, onArchive, ho, M.bind_apply, Tool.onStream, hfs, Option.getD_some, hsk]
      rfl
    rw [hkey]
    exact once_stored c _ stored offset _ extracting extractingDamaged (fun start v hs es size _ t hb => Tool.performs_extract t v hs es none [] hb)
      (fun e _ start v hs es size _ t hb => Tool.performsD_extract e t v hs es none [] hb)

theorem open_any_at (c : Codec) (fs : FS) (name stored : Bytes) (offset : Nat) (hfs : fs name = some stored) :
    openName c fs .warc (some offset) name = .ok (storedReader c (decide (Compressed name (stored.drop offset))) stored offset) := by
  have hsk : File.seek (offset : Int) 0 (File.openFile stored) = .ok () { File.openFile stored with pos := offset } := by simp [File.seek]
  have hf : ({ File.openFile stored with pos := offset } : File).fault = none := rfl
  have hrest : ({ File.openFile stored with pos := offset } : File).rest = stored.drop offset := by simp [File.openFile, File.rest]
  by_cases hc : Compressed name (stored.drop offset)
  · have hg : gzipFileOf c { File.openFile stored with pos := offset } =
        { data := (c.dec (stored.drop offset)).1, pos := 0, strictNeg := true, fault := (c.dec (stored.drop offset)).2 } := by simp [gzipFileOf, hrest]
    simp only [openName, hfs, storedReader, hc, decide_true, if_true]
    by_cases hn : b! ".gz" <:+ name
    · have hng : nameGz name = true := by rw [nameGz]; exact (endsWith_iff _ _).2 hn
      rw [hng]
      simp [openArchive, openRecordStream, hsk, hg, RecClass.makeParser, M.bind_apply]
    · have hb : ((stored.drop offset).take 2 == [0x1f, 0x8b]) = true := by simpa using hc.resolve_left hn
      have his := Detect.isGzipFile_apply { File.openFile stored with pos := offset } hf
      rw [hrest, hb] at his
      cases nameGz name <;> simp [openArchive, openRecordStream, hsk, his, hg, RecClass.makeParser, M.bind_apply]
  · have h1 : ¬ b! ".gz" <:+ name := fun h => hc (Or.inl h)
    have h2 : ¬ [0x1f, 0x8b] <+: stored.drop offset := by
      rintro ⟨t, ht⟩
      exact hc (Or.inr (by rw [← ht]; rfl))
    have hng : nameGz name = false := by
      rw [nameGz, Bool.eq_false_iff]; exact fun hh => h1 ((endsWith_iff _ _).1 hh)
    simp only [openName, hfs, hng, storedReader, hc, decide_false, Bool.false_eq_true, if_false]
    rw [openArchive_at_any c (some .warc) .auto stored offset (Or.inl rfl) h2]; rfl

/-- the record found there is an HTTP response -/
def HttpThere (data : Bytes) : Prop := ∃ start v hs es size, next data = .record start v hs es size ∧ isHttp ⟨v, hs, []⟩ = true

/-- **C116** `warcpayload name:offset`, for every file and every offset, unless the record found there is an HTTP response: whether the file is compressed is decided by its name or
by the two bytes at the offset. -/
theorem C116_payload (c : Codec) (fs : FS) (http : M World Unit) (name : Bytes) (offset : Nat)
    (hh : ∀ stored, fs name = some stored →
      ¬ HttpThere (if Compressed name (stored.drop offset) then (c.dec (stored.drop offset)).1 else stored.drop offset)) :
    WarcPayload.main c fs http name offset [] =
      match fs name with
      | none => .raise .osError []
      | some stored => (onceStored c (decide (Compressed name (stored.drop offset))) payloading payloadingDamaged (stored.drop offset)).result [] := by
  cases hfs : fs name with
  | none => simp [WarcPayload.main, onArchive, openName, hfs]
  | some stored =>
    have ho := open_any_at c fs name stored offset hfs
    have hh := hh stored hfs
    simp only
    have hkey : WarcPayload.main c fs http name offset [] = Tool.closed (Tool.once (WarcPayload.dumpPayload http)
        ⟨storedReader c (decide (Compressed name (stored.drop offset))) stored offset, []⟩) := by
      simp only [WarcPayload.main, onArchive, ho]
      rfl
    have hrest : (storedReader c (decide (Compressed name (stored.drop offset))) stored offset).fh.rest =
        if Compressed name (stored.drop offset) then (c.dec (stored.drop offset)).1 else stored.drop offset := by
      by_cases hc : Compressed name (stored.drop offset)
      · simp [storedReader, hc, File.rest]
      · simp [storedReader, hc, readerFrom, File.openFile, File.rest]
    rw [← hrest] at hh
    have hno : ∀ start v hs es size, next (storedReader c (decide (Compressed name (stored.drop offset))) stored offset).fh.rest = .record start v hs es size →
        isHttp ⟨v, hs, []⟩ = false := by
      intro start v hs es size hn
      rw [Bool.eq_false_iff]
      exact fun ht => hh ⟨start, v, hs, es, size, hn, ht⟩
    rw [hkey]
    exact once_stored c _ stored offset _ payloading payloadingDamaged
      (fun start v hs es size hn t hb => Tool.performs_payload http t v hs es none [] hb (hno _ _ _ _ _ hn))
      (fun e _ start v hs es size hn t hb => Tool.performsD_payload http e t v hs es none [] hb (hno _ _ _ _ _ hn))

/-! ### concrete cases -/

/-- in the damaged file of C113 (two records, the second one cut): the first record is there, and the second is not -/
theorem halfRead_once : onceDamaged .eofError (extractingDamaged .eofError) (halfRead ++ b! "a") = ⟨b! "hi", .done⟩ ∧
    onceDamaged .eofError (payloadingDamaged .eofError) (halfRead ++ b! "a") = ⟨b! "hi", .done⟩ ∧
    onceDamaged .eofError (extractingDamaged .eofError) (b! "WARC/1.0\r\nContent-Length: 9\r\n\r\nab") = ⟨[], .raised .eofError⟩ ∧
    onceDamaged .eofError (payloadingDamaged .eofError) (b! "WARC/1.0\r\nContent-Length: 9\r\n\r\nab") = ⟨[], .raised .eofError⟩ ∧
    onceDamaged .eofError (extractingDamaged .eofError) (b! "WARC/1.0\r\nContent-Length: -1\r\n\r\nab") = ⟨[], .raised .eofError⟩ ∧
    onceDamaged .eofError (extractingDamaged .eofError) (b! "WARC/1.0\r\nContent-Leng") = ⟨[], .raised .eofError⟩ := by decide +kernel

theorem halfRead_first : next (halfRead ++ b! "a") = .record 0 (b! "WARC/1.0") [(b! "Content-Length", b! "2")] [] 31 := by decide +kernel

example (fs : FS) (h : fs (b! "a.gz") = some cutTwice) : WarcExtract.main toy fs (b! "a.gz") 0 [] = .ok () (b! "hi") := by
  have hc : Compressed (b! "a.gz") cutTwice := Or.inl ⟨b! "a", rfl⟩
  rw [C116_extract]
  simp only [h, hc, decide_true, List.drop_zero, onceStored, if_true, cutTwice_dec, halfRead_once.1]
  rfl

example (fs : FS) (http : M World Unit) (h : fs (b! "a.gz") = some cutTwice) : WarcPayload.main toy fs http (b! "a.gz") 0 [] = .ok () (b! "hi") := by
  have hc : Compressed (b! "a.gz") cutTwice := Or.inl ⟨b! "a", rfl⟩
  rw [C116_payload toy fs http (b! "a.gz") 0 (by
    intro stored hs
    rw [h] at hs
    cases hs
    simp only [List.drop_zero, if_pos hc, cutTwice_dec]
    rintro ⟨start, v, hs, es, size, hn, ht⟩
    rw [halfRead_first] at hn
    cases hn
    revert ht; decide)]
  simp only [h, hc, decide_true, List.drop_zero, onceStored, if_true, cutTwice_dec, halfRead_once.2.1]
  rfl

end Warc
