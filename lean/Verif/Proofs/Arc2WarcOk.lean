import Verif.Proofs.Arc2Warc
import Verif.Proofs.Write
/-
  The records that arc2warc writes are well formed.
-/
set_option linter.all false
namespace Warc
open Rx Stream Spec

namespace Arc2Warc

/-- no white space -/
def NoWs (v : Bytes) : Prop := ∀ c ∈ v, isWs c = false

theorem NoWs.append {a b : Bytes} (ha : NoWs a) (hb : NoWs b) : NoWs (a ++ b) := by
  intro c hc
  rcases List.mem_append.1 hc with h | h
  · exact ha c h
  · exact hb c h

theorem NoWs.take {a : Bytes} (ha : NoWs a) (n : Nat) : NoWs (a.take n) := fun c hc => ha c (List.mem_of_mem_take hc)
theorem NoWs.drop {a : Bytes} (ha : NoWs a) (n : Nat) : NoWs (a.drop n) := fun c hc => ha c (List.mem_of_mem_drop hc)

theorem NoWs.oneLine {v : Bytes} (h : NoWs v) : OneLine v := by
  refine ⟨fun h10 => by have := h 10 h10; simp [isWs] at this, ?_⟩
  apply strip_eq_self
  · intro c cs e; exact h c (by rw [e]; simp)
  · intro c e; exact h c (List.mem_of_getLast? e)

theorem digitOf_noWs : ∀ n, n < 10 → isWs (digitOf n) = false := by decide

theorem hexByte_noWs : ∀ n, n < 16 → isWs (hexByte n) = false := by decide

theorem twoDigits_noWs {n : Nat} (h : n < 100) : NoWs (twoDigits n) := by
  intro c hc
  simp only [twoDigits, List.mem_cons, List.not_mem_nil, or_false] at hc
  rcases hc with rfl | rfl
  · exact digitOf_noWs _ (by omega)
  · exact digitOf_noWs _ (by omega)

theorem fourDigits_noWs {n : Nat} (h : n < 10000) : NoWs (fourDigits n) :=
  (twoDigits_noWs (by omega)).append (twoDigits_noWs (by omega))

theorem warcStamp_noWs {y mo d h mi s : Nat} (h1 : y < 10000) (h2 : mo < 100) (h3 : d < 100) (h4 : h < 100) (h5 : mi < 100) (h6 : s < 100) :
    NoWs (warcStamp y mo d h mi s) := by
  have hd : NoWs (b! "-") := by unfold NoWs; decide
  have hc : NoWs (b! ":") := by unfold NoWs; decide
  have hT : NoWs (b! "T") := by unfold NoWs; decide
  have hZ : NoWs (b! "Z") := by unfold NoWs; decide
  exact ((((((((((fourDigits_noWs h1).append hd).append (twoDigits_noWs h2)).append hd).append (twoDigits_noWs h3)).append hT).append
    (twoDigits_noWs h4)).append hc).append (twoDigits_noWs h5)).append hc).append (twoDigits_noWs h6) |>.append hZ

theorem stamp_noWs (d : DateTime) (hv : d.Valid) : NoWs (warcStamp d.year d.month d.day d.hour d.minute d.second) := by
  have h1 := hv.year; have h2 := hv.month; have h3 := hv.day; have h4 := hv.hour; have h5 := hv.minute; have h6 := hv.second
  have := daysInMonth_le d.year d.month
  exact warcStamp_noWs (by omega) (by omega) (by omega) (by omega) (by omega) (by omega)

theorem arcDate_noWs {text warc : Bytes} (h : ArcDate text warc) : NoWs warc := by
  obtain ⟨d, hv, ⟨_, rfl⟩ | ⟨_, rfl⟩⟩ := h
  · exact stamp_noWs d hv
  · have h1 := hv.year; have h2 := hv.month; have h3 := hv.day
    have := daysInMonth_le d.year d.month
    exact warcStamp_noWs (by omega) (by omega) (by omega) (by omega) (by omega) (by omega)

theorem hexText_noWs (b : Bytes) : NoWs (hexText b) := by
  induction b with
  | nil => intro c hc; cases hc
  | cons x xs ih =>
    intro c hc
    have hx : x.toNat < 256 := x.toNat_lt
    simp only [hexText, List.mem_cons] at hc
    rcases hc with rfl | rfl | hc
    · exact hexByte_noWs _ (by omega)
    · exact hexByte_noWs _ (by omega)
    · exact ih c hc

theorem uuid_noWs (sha1 : Bytes → Bytes) (text : Bytes) : NoWs (warcUuid sha1 text) := by
  have h1 : NoWs (b! "<urn:uuid:") := by unfold NoWs; decide
  have h2 : NoWs (b! "-") := by unfold NoWs; decide
  have h3 : NoWs (b! ">") := by unfold NoWs; decide
  have h := (hexText_noWs (sha1 text)).take 32
  exact (h1.append (((((((((h.take 8).append h2).append ((h.drop 8).take 4)).append h2).append ((h.drop 12).take 4)).append h2).append
    ((h.drop 16).take 4)).append h2).append (h.drop 20))).append h3

/-! ### values of a well formed header line -/

theorem values_noLF {names values : List Bytes} (h : FieldsOk names values) : ∀ v ∈ values, 10 ∉ v := by
  intro v hv
  cases values with
  | nil => cases hv
  | cons v0 vs =>
    rcases List.mem_cons.1 hv with rfl | hv
    · rcases h.first v rfl with h1 | h1
      · intro h10; have := h1 10 h10; simp [isWs] at this
      · exact h1.1
    · intro h10; have := h.rest v (by simpa using hv) 10 h10; simp [isWs] at this

theorem firstValue_zip {name v : Bytes} {names values : List Bytes} (h : firstValue name (names.zip values) = some v) : v ∈ values := by
  obtain ⟨k, hk, -⟩ := Tool.firstValue_mem _ _ _ h
  exact (List.of_mem_zip hk).2

/-! ### headers -/

theorem header_ok {k v : Bytes} (hk : HeaderOk (k, [])) (hv : OneLine v) : HeaderOk (k, v) :=
  ⟨hk.noColon, hk.nameNoLF, hk.nameStrip, hv.1, hv.2, fun h => absurd rfl (hk.typeOk h), fun h => by
    have := hk.lengthOk h
    have e : (pyInt 10 []).isSome = false := by decide
    simp only at this
    rw [e] at this
    cases this⟩

theorem type_ok {v : Bytes} (hv : OneLine v) (hne : v ≠ []) : HeaderOk (b! "Content-Type", v) :=
  headerOk_contentType v hv.1 hv.2 hne

theorem length_ok (n : Nat) : HeaderOk (b! "Content-Length", decimal n) := headerOk_contentLength n

theorem version_ok : VersionOk (b! "WARC/1.0") := ⟨[], b! "WARC/", b! "1.0", rfl, by simp, by simp, by decide, by decide⟩

theorem declared_last (hs : List Header) (n : Nat) : declaredLength (hs ++ [(b! "Content-Length", decimal n)]) = n := by
  rw [declaredLength_snoc, if_pos (by simp only; decide), pyInt_decimal]
  rfl

theorem dataRecord_ok {id url infoId date type ctype body : Bytes} {ip : List Header} (h1 : OneLine id) (h2 : OneLine url)
    (h3 : OneLine infoId) (hip : ∀ x ∈ ip, x.1 = b! "WARC-IP-Address" ∧ OneLine x.2) (h4 : OneLine date) (h5 : OneLine type)
    (h6 : OneLine ctype) (h7 : ctype ≠ []) : (dataRecord id url infoId ip date type ctype body).Ok := by
  refine ⟨version_ok, ?_, ?_⟩
  · intro x hx
    simp only [dataRecord, List.mem_append, List.mem_cons, List.not_mem_nil, or_false] at hx
    rcases hx with (((rfl | rfl | rfl) | hx) | (rfl | rfl | rfl | rfl))
    · exact header_ok (by decide) h1
    · exact header_ok (by decide) h2
    · exact header_ok (by decide) h3
    · obtain ⟨k, v⟩ := x
      obtain ⟨rfl, hv⟩ := hip _ hx
      exact header_ok (by decide) hv
    · exact header_ok (by decide) h4
    · exact header_ok (by decide) h5
    · exact type_ok h6 h7
    · exact length_ok _
  · show declaredLength ([(b! "WARC-Record-ID", id), (b! "WARC-Target-URI", url), (b! "WARC-Warcinfo-ID", infoId)] ++ ip ++
      [(b! "WARC-Date", date), (b! "WARC-Type", type), (b! "Content-Type", ctype), (b! "Content-Length", decimal body.length)]) = body.length
    have := declared_last ([(b! "WARC-Record-ID", id), (b! "WARC-Target-URI", url), (b! "WARC-Warcinfo-ID", infoId)] ++ ip ++
      [(b! "WARC-Date", date), (b! "WARC-Type", type), (b! "Content-Type", ctype)]) body.length
    rw [List.append_assoc] at this
    exact this

theorem infoRecord_ok {id date fields : Bytes} {filename : Option Bytes} (h1 : OneLine id) (h2 : OneLine date)
    (h3 : ∀ f, filename = some f → OneLine f) : (infoRecord id date filename fields).Ok := by
  refine ⟨version_ok, ?_, ?_⟩
  · intro x hx
    simp only [infoRecord, List.mem_append, List.mem_cons, List.not_mem_nil, or_false] at hx
    rcases hx with (((rfl | rfl | rfl) | hx) | (rfl | rfl))
    · decide
    · exact header_ok (by decide) h1
    · exact header_ok (by decide) h2
    · cases filename with
      | none => simp at hx
      | some f =>
        simp at hx
        subst hx
        exact header_ok (by decide) (h3 f rfl)
    · decide
    · exact length_ok _
  · have := declared_last ([(b! "WARC-Type", b! "warcinfo"), (b! "WARC-Record-ID", id), (b! "WARC-Date", date)] ++
      (filename.map fun f => (b! "WARC-Filename", f)).toList ++ [(b! "Content-Type", b! "application/warc-fields")]) fields.length
    rw [List.append_assoc] at this
    exact this

theorem filedescRecord_ok {infoId id url date text : Bytes} (h1 : OneLine infoId) (h2 : OneLine id) (h3 : OneLine url) (h4 : OneLine date) :
    (filedescRecord infoId id url date text).Ok := by
  refine ⟨version_ok, ?_, ?_⟩
  · intro x hx
    simp only [filedescRecord, List.mem_cons, List.not_mem_nil, or_false] at hx
    rcases hx with rfl | rfl | rfl | rfl | rfl | rfl | rfl | rfl
    · decide
    · exact header_ok (by decide) h1
    · exact header_ok (by decide) h2
    · exact header_ok (by decide) h3
    · exact header_ok (by decide) h4
    · exact header_ok (by decide) h1
    · decide
    · exact length_ok _
  · exact declared_last [(b! "WARC-Type", b! "metadata"), (b! "WARC-Concurrent-To", infoId), (b! "WARC-Record-ID", id), (b! "WARC-Target-URI", url),
      (b! "WARC-Date", date), (b! "WARC-Warcinfo-ID", infoId), (b! "Content-Type", b! "application/arc")] text.length

theorem keptIp_ok {hs : List Header} (h : ∀ ip, firstValue (b! "IP-address") hs = some ip → 10 ∉ ip) :
    ∀ x ∈ keptIp hs, x.1 = b! "WARC-IP-Address" ∧ OneLine x.2 := by
  intro x hx
  unfold keptIp at hx
  cases hv : firstValue (b! "IP-address") hs with
  | none => rw [hv] at hx; cases hx
  | some ip =>
    rw [hv] at hx
    simp only at hx
    by_cases hc : ip = [] ∨ strip ip = b! "0.0.0.0"
    · rw [if_pos hc] at hx; cases hx
    · rw [if_neg hc] at hx
      simp only [List.mem_singleton] at hx
      subst hx
      exact ⟨rfl, fun h10 => h ip hv (mem_strip h10), strip_strip ip⟩

theorem converts_ok {c : Codec} {g : Cfg} {st st' : St} {names : List Bytes} {it : ArcItem} {rs : List R} {mixed : Bool}
    (h : Converts c g st names it rs st') (hok : it.Ok mixed names) (ht : Tidy it) (hg : CfgOk g)
    (hst : ∀ i, st.warcinfoId = some i → OneLine i) :
    (∀ r ∈ rs, r.Ok) ∧ ∀ i, st'.warcinfoId = some i → OneLine i := by
  cases h with
  | warc r =>
    refine ⟨?_, hst⟩
    intro r' hr'
    simp only [List.mem_singleton] at hr'
    subst hr'
    exact hok.2.1
  | data values body T url date wdate ctype type ctype' infoId hurl hdate hwdate hctype htype hinfo =>
    refine ⟨?_, hst⟩
    intro r' hr'
    simp only [List.mem_singleton] at hr'
    subst hr'
    have hlf := values_noLF hok.2.1
    have hu := firstValue_zip hurl
    have hct := firstValue_zip hctype
    have hat : OneLine (arcType ctype) := by
      unfold arcType
      by_cases h : strip ctype = []
      · rw [if_pos h]; exact ⟨by decide, by decide⟩
      · rw [if_neg h]; exact ⟨hlf _ hct, ht _ hct⟩
    have hct' : OneLine ctype' := by
      cases htype with
      | http => exact ⟨by decide, by decide⟩
      | resource => exact hat
      | response => exact hat
      | notHttp => exact hat
      | other => exact hat
    have hty : OneLine type := by
      cases htype <;> exact ⟨by decide, by decide⟩
    exact dataRecord_ok (uuid_noWs _ _).oneLine ⟨hlf _ hu, ht _ hu⟩ (hst _ hinfo)
      (keptIp_ok fun ip hip => hlf _ (firstValue_zip hip)) (arcDate_noWs hwdate).oneLine hty hct' (typed_ne htype (arcType_ne ctype))
  | filedesc values version ns body T url date wdate filename hurl hdate hwdate hname =>
    have hnow := hg.now st.ticks
    have hd : OneLine (warcDatetimeStr (g.now st.ticks)) := by
      rw [C52_format _ hnow.1 hnow.2]; exact (stamp_noWs _ hnow.1).oneLine
    have hlf := values_noLF hok.2.1
    have hu := firstValue_zip hurl
    have hws : 10 ∉ withoutScheme url := by
      unfold withoutScheme
      by_cases h : b! "filedesc://" <+: url
      · rw [if_pos h]; exact fun h10 => hlf _ hu (List.mem_of_mem_drop h10)
      · rw [if_neg h]; exact hlf _ hu
    refine ⟨?_, ?_⟩
    · intro r' hr'
      simp only [List.mem_cons, List.not_mem_nil, or_false] at hr'
      rcases hr' with rfl | rfl
      · refine infoRecord_ok (uuid_noWs _ _).oneLine hd ?_
        rintro f rfl
        exact hg.filename f hname.1
      · exact filedescRecord_ok (uuid_noWs _ _).oneLine (uuid_noWs _ _).oneLine ⟨hws, (ht _ hu).2⟩ (arcDate_noWs hwdate).oneLine
    · intro i hi
      simp only [Option.some.injEq] at hi
      subst hi
      exact (uuid_noWs _ _).oneLine

theorem convertsAll_ok {c : Codec} {g : Cfg} {st st' : St} {names : List Bytes} {its : List ArcItem} {rs : List R} {mixed : Bool}
    (h : ConvertsAll c g st names its rs st') (hok : ArcItem.AllOk mixed names its) (ht : ∀ it ∈ its, Tidy it) (hg : CfgOk g)
    (hst : ∀ i, st.warcinfoId = some i → OneLine i) :
    (∀ r ∈ rs, r.Ok) ∧ ∀ i, st'.warcinfoId = some i → OneLine i := by
  induction h with
  | nil => exact ⟨by simp, hst⟩
  | @cons st st1 st2 names it its rs rs' h1 h2 ih =>
    obtain ⟨a1, a2⟩ := converts_ok h1 hok.1 (ht it (by simp)) hg hst
    obtain ⟨b1, b2⟩ := ih hok.2 (fun x hx => ht x (by simp [hx])) a2
    refine ⟨?_, b2⟩
    intro r hr
    rcases List.mem_append.1 hr with hr | hr
    · exact a1 r hr
    · exact b1 r hr

theorem convertsFiles_ok {c : Codec} {g : Cfg} {st st' : St} {fl : List MixedFile} {rs : List R}
    (h : ConvertsFiles c g st fl rs st') (hok : ∀ f ∈ fl, ArcItem.AllOk true [] f.items) (ht : ∀ f ∈ fl, ∀ it ∈ f.items, Tidy it) (hg : CfgOk g)
    (hst : ∀ i, st.warcinfoId = some i → OneLine i) : ∀ r ∈ rs, r.Ok := by
  induction h with
  | nil => simp
  | @cons st st1 st2 f fl rs rs' h1 h2 ih =>
    obtain ⟨a1, a2⟩ := convertsAll_ok h1 (hok f (by simp)) (ht f (by simp)) hg hst
    intro r hr
    rcases List.mem_append.1 hr with hr | hr
    · exact a1 r hr
    · exact ih (fun x hx => hok x (by simp [hx])) (fun x hx => ht x (by simp [hx])) a2 r hr

end Arc2Warc
end Warc
