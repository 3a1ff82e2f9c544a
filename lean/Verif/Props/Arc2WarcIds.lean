import Verif.Props.Arc2Warc
import Verif.Spec.Ids
/-
  C49, C50: the ids in the records of arc2warc.
-/
set_option linter.all false
namespace Warc
open Rx Stream Spec

namespace Spec

/-- the value of a header that occurs exactly once -/
def OnlyValue (n : Arc2Warc.New) (name : Bytes) (v : Option Bytes) : Prop :=
  n.headers.filter (fun h => lower h.1 == lower name) = [(name, v)]

/-- Any history of calls of `convert` on one transformer: for each ARC record, what the call returned (`none`: it raised). -/
def history (c : Codec) (g : Arc2Warc.Cfg) : List World → Arc2Warc.St → Option (List (Option (List Arc2Warc.New)))
  | [], _ => some []
  | w :: ws, st =>
    match Arc2Warc.convert c g (w, st) with
    | .ok ns y => (history c g ws y.2).map (some ns :: ·)
    | .raise _ y => (history c g ws y.2).map (none :: ·)
    | .hang => none

/-- Each returned record is linked: `cur` is the id of the latest warcinfo record so far, if there is one.  A call that
returns two records returns a warcinfo record and a metadata record linked to it; a call that returns one record returns one
that is linked to the latest warcinfo record. -/
def Linked : Option Bytes → List (Option (List Arc2Warc.New)) → Prop
  | _, [] => True
  | cur, none :: rest => Linked cur rest
  | cur, some [n] :: rest => OnlyValue n (b! "WARC-Warcinfo-ID") cur ∧ (∃ t, OnlyValue n (b! "WARC-Type") (some t) ∧ t ≠ b! "warcinfo") ∧
      Linked cur rest
  | _, some [i, m] :: rest => ∃ id, OnlyValue i (b! "WARC-Type") (some (b! "warcinfo")) ∧ OnlyValue i (b! "WARC-Record-ID") (some id) ∧
      OnlyValue m (b! "WARC-Type") (some (b! "metadata")) ∧ OnlyValue m (b! "WARC-Warcinfo-ID") (some id) ∧
      OnlyValue m (b! "WARC-Concurrent-To") (some id) ∧ Linked (some id) rest
  | _, some _ :: _ => False

end Spec

namespace Arc2Warc

theorem onWorld_st {α : Type} (x : M World α) (s : XW) :
    (∀ a y, onWorld x s = .ok a y → y.2 = s.2) ∧ (∀ e y, onWorld x s = .raise e y → y.2 = s.2) := by
  unfold onWorld
  cases x s.1 with
  | ok a w => exact ⟨fun a' y h => by (cases h; rfl), fun e y h => by (cases h)⟩
  | raise e w => exact ⟨fun a' y h => by (cases h), fun e y h => by (cases h; rfl)⟩
  | hang => exact ⟨fun a' y h => by (cases h), fun e y h => by (cases h)⟩

/-- code that leaves the id of the transformer alone -/
def KeepsId {α : Type} (x : M XW α) : Prop :=
  ∀ s, (∀ a y, x s = .ok a y → y.2.warcinfoId = s.2.warcinfoId) ∧ (∀ e y, x s = .raise e y → y.2.warcinfoId = s.2.warcinfoId)

theorem KeepsId.pure {α : Type} (a : α) : KeepsId (pure a : M XW α) := by
  intro s; exact ⟨fun a y h => by (cases h; rfl), fun e y h => by (cases h)⟩

theorem KeepsId.throw {α : Type} (e : Exc) : KeepsId (M.throw e : M XW α) := by
  intro s; exact ⟨fun a y h => by (cases h), fun e y h => by (cases h; rfl)⟩

theorem KeepsId.get : KeepsId (M.get : M XW XW) := by
  intro s; exact ⟨fun a y h => by (cases h; rfl), fun e y h => by (cases h)⟩

theorem KeepsId.onWorld {α : Type} (x : M World α) : KeepsId (onWorld x) := by
  intro s
  obtain ⟨h1, h2⟩ := onWorld_st x s
  exact ⟨fun a y h => by rw [h1 a y h], fun e y h => by rw [h2 e y h]⟩

theorem KeepsId.bind {α β : Type} {x : M XW α} {f : α → M XW β} (hx : KeepsId x) (hf : ∀ a, KeepsId (f a)) : KeepsId (x >>= f) := by
  intro s
  rw [M.bind_apply]
  cases h : x s with
  | hang => exact ⟨fun a y h => by (cases h), fun e y h => by (cases h)⟩
  | raise e y =>
    refine ⟨fun a y h => by (cases h), fun e' y' h' => ?_⟩
    cases h'
    exact (hx s).2 _ _ h
  | ok a y =>
    refine ⟨fun b z hz => ?_, fun e z hz => ?_⟩
    · rw [(hf a y).1 b z hz, (hx s).1 a y h]
    · rw [(hf a y).2 e z hz, (hx s).1 a y h]

theorem KeepsId.now (g : Cfg) : KeepsId (now g) := by
  intro s; exact ⟨fun a y h => by (cases h; rfl), fun e y h => by (cases h)⟩

theorem KeepsId.operand (o : Option Bytes) : KeepsId (operand o) := by
  cases o with
  | none => exact KeepsId.throw _
  | some b => exact KeepsId.pure _

theorem KeepsId.lift {α : Type} (x : Except Exc α) : KeepsId (lift x) := by
  cases x with
  | error e => exact KeepsId.throw _
  | ok a => exact KeepsId.pure _

theorem KeepsId.ite {α : Type} {p : Prop} [Decidable p] {x y : M XW α} (hx : KeepsId x) (hy : KeepsId y) : KeepsId (if p then x else y) := by
  by_cases h : p
  · rw [if_pos h]; exact hx
  · rw [if_neg h]; exact hy

theorem KeepsId.recordDate (g : Cfg) (d : Option Bytes) : KeepsId (recordDate g d) := by
  cases d with
  | none => exact KeepsId.now g
  | some d =>
    refine KeepsId.ite (KeepsId.now g) ?_
    cases h : Strptime.full d with
    | ok t => exact KeepsId.pure _
    | error e => cases e <;> first | exact KeepsId.lift _ | exact KeepsId.throw _

theorem KeepsId.isHttpResponse (c : Codec) (b : Bytes) : KeepsId (isHttpResponse c b) :=
  (KeepsId.onWorld _).bind fun _ => KeepsId.pure _

theorem KeepsId.chooseType (c : Codec) (g : Cfg) (url ctype b : Bytes) : KeepsId (chooseType c g url ctype b) :=
  (KeepsId.lift _).bind fun _ => KeepsId.ite (KeepsId.pure _) ((KeepsId.lift _).bind fun _ => KeepsId.ite (KeepsId.pure _)
    (KeepsId.ite ((KeepsId.isHttpResponse c b).bind fun _ => KeepsId.ite (KeepsId.pure _) (KeepsId.pure _)) (KeepsId.pure _)))

theorem KeepsId.metaDate (i : Bytes) (d : Option Bytes) : KeepsId (metaDate i d) := by
  cases d with
  | none => exact KeepsId.pure _
  | some d =>
    exact KeepsId.ite (KeepsId.pure _) (KeepsId.ite ((KeepsId.lift _).bind fun _ => KeepsId.pure _) ((KeepsId.lift _).bind fun _ => KeepsId.pure _))

theorem KeepsId.raw : KeepsId raw := KeepsId.get.bind fun _ => (KeepsId.onWorld _).bind fun _ => KeepsId.pure _

theorem KeepsId.convertRecord (c : Codec) (g : Cfg) : KeepsId (convertRecord c g) := by
  refine KeepsId.get.bind fun s => (KeepsId.operand _).bind fun url => (KeepsId.operand _).bind fun date =>
    (KeepsId.recordDate g _).bind fun d => (KeepsId.onWorld _).bind fun x => ?_
  obtain ⟨ctype, content⟩ := x
  cases ctype with
  | none => exact KeepsId.throw _
  | some ctype =>
    cases content with
    | none => exact KeepsId.throw _
    | some content => exact (KeepsId.chooseType _ _ _ _ _).bind fun x => KeepsId.pure _

/-- a successful bind -/
theorem bind_ok {α β : Type} {x : M XW α} {f : α → M XW β} {s : XW} {b : β} {z : XW} (h : (x >>= f) s = .ok b z) :
    ∃ a y, x s = .ok a y ∧ f a y = .ok b z := by
  rw [M.bind_apply] at h
  cases hx : x s with
  | hang => rw [hx] at h; cases h
  | raise e y => rw [hx] at h; cases h
  | ok a y => rw [hx] at h; exact ⟨a, y, rfl, h⟩

theorem operand_ok {o : Option Bytes} {s z : XW} {b : Bytes} (h : operand o s = .ok b z) : o = some b ∧ z = s := by
  cases o with
  | none => cases h
  | some x => cases h; exact ⟨rfl, rfl⟩

/-- the types that can be chosen -/
theorem chooseType_ok {c : Codec} {g : Cfg} {url ctype body : Bytes} {s z : XW} {t t' : Bytes}
    (h : chooseType c g url ctype body s = .ok (t, t') z) : t = WT.RESOURCE ∨ t = WT.RESPONSE := by
  obtain ⟨a, y, -, h⟩ := bind_ok h
  cases a with
  | true => cases h; exact Or.inl rfl
  | false =>
    obtain ⟨a, y, -, h⟩ := bind_ok (by exact h)
    cases a with
    | true => cases h; exact Or.inr rfl
    | false =>
      simp only [Bool.false_eq_true, if_false] at h
      by_cases hs : startsWith url (b! "http") = true
      · rw [if_pos hs] at h
        obtain ⟨a, y, -, h⟩ := bind_ok h
        cases a with
        | true => cases h; exact Or.inr rfl
        | false => cases h; exact Or.inl rfl
      · rw [if_neg hs] at h
        cases h; exact Or.inr rfl

/-- what a successful conversion of a data record returns -/
theorem convertRecord_ok {c : Codec} {g : Cfg} {w : World} {st : St} {ns : List New} {z : XW}
    (h : convertRecord c g (w, st) = .ok ns z) :
    ∃ url date d type ctype body, w.rcd.url = some url ∧ w.rcd.date = some date ∧ (type = WT.RESOURCE ∨ type = WT.RESPONSE) ∧
      ns = [⟨[(WH.ID, some (warcUuid g.sha1 (url ++ date))), (WH.URL, some url), (WH.WARCINFO_ID, st.warcinfoId)] ++
        ipHeader (w.rcd.getHeader AH.IP) ++ [(WH.DATE, some d), (WH.TYPE, some type)], ctype, body⟩] := by
  obtain ⟨s0, y0, h0, h⟩ := bind_ok h
  cases h0
  obtain ⟨url, y1, h1, h⟩ := bind_ok h
  obtain ⟨g1, rfl⟩ := operand_ok h1
  obtain ⟨date, y2, h2, h⟩ := bind_ok h
  obtain ⟨g2, rfl⟩ := operand_ok h2
  obtain ⟨d, y3, h3, h⟩ := bind_ok h
  obtain ⟨⟨ctype, content⟩, y4, h4, h⟩ := bind_ok h
  cases ctype with
  | none => cases h
  | some ctype =>
    cases content with
    | none => cases h
    | some content =>
      obtain ⟨⟨t, t'⟩, y5, h5, h⟩ := bind_ok (by exact h)
      cases h
      exact ⟨url, date, _, t, t', content, g1, g2, chooseType_ok h5, rfl⟩

/-- what a successful conversion of a filedesc record returns -/
theorem convertFiledesc_ok {g : Cfg} {w : World} {st : St} {ns : List New} {z : XW}
    (h : convertFiledesc g (w, st) = .ok ns z) :
    ∃ url date d text, w.rcd.url = some url ∧ w.rcd.date = some date ∧
      z.2.warcinfoId = some (warcUuid g.sha1 (url ++ warcDatetimeStr (g.now st.ticks))) ∧
      ns = [⟨[(WH.TYPE, some WT.WARCINFO), (WH.ID, some (warcUuid g.sha1 (url ++ warcDatetimeStr (g.now st.ticks)))),
          (WH.DATE, some (warcDatetimeStr (g.now st.ticks)))] ++ filenameHeader g.outputFilename, b! "application/warc-fields", g.warcinfoFields⟩,
        ⟨[(WH.TYPE, some WT.METADATA), (WH.CONCURRENT_TO, some (warcUuid g.sha1 (url ++ warcDatetimeStr (g.now st.ticks)))),
          (WH.ID, some (warcUuid g.sha1 (url ++ date ++ b! "-meta"))),
          (WH.URL, some (if startsWith url (b! "filedesc://") then url.drop 11 else url)),
          (WH.DATE, some d), (WH.WARCINFO_ID, some (warcUuid g.sha1 (url ++ warcDatetimeStr (g.now st.ticks))))], b! "application/arc", text⟩] := by
  obtain ⟨s0, y0, h0, h⟩ := bind_ok (x := M.get) h
  cases h0
  obtain ⟨t, y1, h1, h⟩ := bind_ok (x := now g) h
  cases h1
  obtain ⟨url, y1, h1, h⟩ := bind_ok (x := operand w.rcd.url) h
  obtain ⟨g1, rfl⟩ := operand_ok h1
  obtain ⟨d, y2, h2, h⟩ := bind_ok (x := metaDate _ w.rcd.date) h
  obtain ⟨date, y3, h3, k⟩ := bind_ok (x := operand w.rcd.date) h
  obtain ⟨g3, hy⟩ := operand_ok h3
  obtain ⟨text, y4, h4, h⟩ := bind_ok (x := raw) k
  obtain ⟨u, y5, h5, h⟩ := bind_ok (x := M.modify _) h
  cases h5
  cases h
  exact ⟨url, date, d, text, g1, g3, rfl, rfl⟩

theorem convertFiledesc_raise {g : Cfg} {w : World} {st : St} {e : Exc} {z : XW}
    (h : convertFiledesc g (w, st) = .raise e z) : z.2.warcinfoId = st.warcinfoId := by
  have step : ∀ {α β : Type} {x : M XW α} {f : α → M XW β} {s : XW} {e : Exc} {z : XW}, (x >>= f) s = .raise e z → KeepsId x →
      z.2.warcinfoId = s.2.warcinfoId ∨ ∃ a y, f a y = .raise e z ∧ y.2.warcinfoId = s.2.warcinfoId := by
    intro α β x f s e z h hx
    rw [M.bind_apply] at h
    cases hh : x s with
    | hang => rw [hh] at h; cases h
    | raise e y => rw [hh] at h; cases h; exact Or.inl ((hx s).2 _ _ hh)
    | ok a y => rw [hh] at h; exact Or.inr ⟨a, y, h, (hx s).1 _ _ hh⟩
  rcases step h KeepsId.get with h | ⟨a, y0, h, e0⟩
  · exact h
  rw [show st.warcinfoId = ((w, st) : XW).2.warcinfoId from rfl, ← e0]
  rcases step h (KeepsId.now g) with h | ⟨a, y1, h, e1⟩
  · exact h
  rw [← e1]
  rcases step h (KeepsId.operand _) with h | ⟨a, y2, h, e2⟩
  · exact h
  rw [← e2]
  rcases step h (KeepsId.metaDate _ _) with h | ⟨a, y3, h, e3⟩
  · exact h
  rw [← e3]
  rcases step h (KeepsId.operand _) with h | ⟨a, y4, h, e4⟩
  · exact h
  rw [← e4]
  rcases step h KeepsId.raw with h | ⟨a, y5, h, e5⟩
  · exact h
  rw [M.bind_apply] at h
  cases h

theorem ipHeader_only (v : Option Bytes) (name : Bytes) (h : lower WH.IP_ADDRESS ≠ lower name) :
    (ipHeader v).filter (fun h => lower h.1 == lower name) = [] := by
  have hb : (lower WH.IP_ADDRESS == lower name) = false := by simpa using h
  cases v with
  | none => rfl
  | some ip =>
    simp only [ipHeader]
    by_cases h1 : ip = []
    · rw [if_pos h1]; rfl
    · rw [if_neg h1]
      by_cases h2 : strip ip = b! "0.0.0.0"
      · rw [if_pos h2]; rfl
      · rw [if_neg h2]; simp only [List.filter_cons, hb, Bool.false_eq_true, if_false, List.filter_nil]

end Arc2Warc

/-- **C49** In every history of calls of one transformer on ARC records (read in any way, from any files, some calls possibly
raising), each record that is returned is linked to the warcinfo record made for the latest filedesc record before it that
was converted; before the first one, `WARC-Warcinfo-ID` is None. -/
theorem C49_linked (c : Codec) (g : Arc2Warc.Cfg) (ws : List World) (hws : ∀ w ∈ ws, w.rcd.cls ≠ .warc) (st : Arc2Warc.St)
    (res : List (Option (List Arc2Warc.New))) (h : history c g ws st = some res) : Linked st.warcinfoId res := by
  induction ws generalizing st res with
  | nil => simp [history] at h; subst h; trivial
  | cons w ws ih =>
    simp only [history] at h
    have hty : w.rcd.type = some (b! "filedesc") ∧ w.rcd.cls = .arcHeader ∨ w.rcd.type ≠ some (b! "filedesc") := by
      cases hc : w.rcd.cls with
      | warc => exact absurd hc (hws w (by simp))
      | arc => right; rw [Rec.type, hc]; simp only; decide
      | arcHeader => left; rw [Rec.type, hc]; exact ⟨rfl, rfl⟩
    cases hcv : Arc2Warc.convert c g (w, st) with
    | hang => rw [hcv] at h; cases h
    | raise e y =>
      rw [hcv] at h
      simp only [Option.map_eq_some_iff] at h
      obtain ⟨res', h1, rfl⟩ := h
      have hst : y.2.warcinfoId = st.warcinfoId := by
        simp only [Arc2Warc.convert, M.bind_apply, M.get_apply] at hcv
        by_cases ht : w.rcd.type = some (b! "filedesc")
        · rw [if_pos ht] at hcv; exact Arc2Warc.convertFiledesc_raise hcv
        · rw [if_neg ht] at hcv; exact (Arc2Warc.KeepsId.convertRecord c g _).2 _ _ hcv
      have := ih (fun x hx => hws x (by simp [hx])) y.2 res' h1
      rw [hst] at this
      exact this
    | ok ns y =>
      rw [hcv] at h
      simp only [Option.map_eq_some_iff] at h
      obtain ⟨res', h1, rfl⟩ := h
      have hih := ih (fun x hx => hws x (by simp [hx])) y.2 res' h1
      simp only [Arc2Warc.convert, M.bind_apply, M.get_apply] at hcv
      by_cases ht : w.rcd.type = some (b! "filedesc")
      · rw [if_pos ht] at hcv
        obtain ⟨url, date, d, text, -, -, hst, rfl⟩ := Arc2Warc.convertFiledesc_ok hcv
        rw [hst] at hih
        refine ⟨_, ?_, ?_, ?_, ?_, ?_, hih⟩
        · have : (Arc2Warc.filenameHeader g.outputFilename).filter (fun h => lower h.1 == lower (b! "WARC-Type")) = [] := by
            cases g.outputFilename with
            | none => rfl
            | some f => simp only [Arc2Warc.filenameHeader]; cases Arc2Warc.given f <;> rfl
          show List.filter _ (_ ++ _) = _
          rw [List.filter_append, this]; rfl
        · have : (Arc2Warc.filenameHeader g.outputFilename).filter (fun h => lower h.1 == lower (b! "WARC-Record-ID")) = [] := by
            cases g.outputFilename with
            | none => rfl
            | some f => simp only [Arc2Warc.filenameHeader]; cases Arc2Warc.given f <;> rfl
          show List.filter _ (_ ++ _) = _
          rw [List.filter_append, this]; rfl
        · rfl
        · rfl
        · rfl
      · rw [if_neg ht] at hcv
        have hst := (Arc2Warc.KeepsId.convertRecord c g _).1 _ _ hcv
        obtain ⟨url, date, d, type, ctype, body, -, -, htype, rfl⟩ := Arc2Warc.convertRecord_ok hcv
        simp only at hst
        rw [hst] at hih
        refine ⟨?_, ⟨type, ?_, ?_⟩, hih⟩
        · have := Arc2Warc.ipHeader_only (w.rcd.getHeader AH.IP) (b! "WARC-Warcinfo-ID") (by decide)
          show List.filter _ (_ ++ _ ++ _) = _
          rw [List.filter_append, List.filter_append, this]; rfl
        · have := Arc2Warc.ipHeader_only (w.rcd.getHeader AH.IP) (b! "WARC-Type") (by decide)
          show List.filter _ (_ ++ _ ++ _) = _
          rw [List.filter_append, List.filter_append, this]; rfl
        · rcases htype with rfl | rfl <;> decide

/-! a concrete history: a data record before any filedesc record, a filedesc record, a data record without date (the call
raises), a data record, a second filedesc record, a data record -/

/-- a record of an ARC file whose content has been read -/
def demoWorld (cls : Cls) (headers : List Header) (body : Bytes) : World :=
  ⟨⟨{ data := [], pos := 0 }, none, .plain, .arc ArcSt.init⟩,
   { cls := cls, version := [], headers := headers, errors := [], content := some (some (b! "text/plain"), some body),
     cfile := .none, cfileValid := false, rawHeaders := [b! "line\n"] }, []⟩

def demoHistory : List World :=
  [demoWorld .arc [(b! "URL", b! "dns:h"), (b! "Archive-date", b! "20120229")] (b! "a"),
   demoWorld .arcHeader [(b! "URL", b! "filedesc://a.arc"), (b! "Archive-date", b! "20120229")] (b! "b"),
   demoWorld .arc [(b! "URL", b! "dns:h")] (b! "c"),
   demoWorld .arc [(b! "URL", b! "ftp://h/"), (b! "Archive-date", b! "20120229")] (b! "d"),
   demoWorld .arcHeader [(b! "URL", b! "filedesc://b.arc"), (b! "Archive-date", b! "20120229000000")] (b! "e"),
   demoWorld .arc [(b! "URL", b! "http://h/"), (b! "Archive-date", b! "20120229000000")] (b! "f")]

theorem demoHistory_runs : (history toy demoCfg demoHistory {}).map (·.map (Option.map List.length)) =
    some [some 1, some 2, none, some 1, some 2, some 1] := by decide +kernel

example : ∃ res, history toy demoCfg demoHistory {} = some res ∧ Linked none res ∧ res.length = 6 := by
  have h := demoHistory_runs
  rw [Option.map_eq_some_iff] at h
  obtain ⟨res, h, hl⟩ := h
  refine ⟨res, h, C49_linked toy demoCfg demoHistory ?_ {} res h, ?_⟩
  · intro w hw
    simp only [demoHistory, List.mem_cons, List.not_mem_nil, or_false] at hw
    rcases hw with rfl | rfl | rfl | rfl | rfl | rfl <;> simp [demoWorld]
  · have := congrArg List.length hl
    simpa using this

/-! ## C50 -/

namespace Arc2Warc

theorem hexByte_inj : ∀ n, n < 16 → ∀ m, m < 16 → hexByte n = hexByte m → n = m := by decide

theorem hexText_inj (a b : Bytes) (h : hexText a = hexText b) : a = b := by
  induction a generalizing b with
  | nil => cases b with
    | nil => rfl
    | cons y b => cases h
  | cons x a ih =>
    cases b with
    | nil => cases h
    | cons y b =>
      simp only [hexText, List.cons.injEq] at h
      obtain ⟨h1, h2, h3⟩ := h
      have hx := x.toNat_lt
      have hy := y.toNat_lt
      have e1 := hexByte_inj _ (by omega) _ (by omega) h1
      have e2 := hexByte_inj _ (by omega) _ (by omega) h2
      have : x = y := UInt8.toNat_inj.mp (by omega)
      rw [this, ih b h3]

theorem hexText_length (a : Bytes) : (hexText a).length = 2 * a.length := by
  induction a with
  | nil => rfl
  | cons x a ih => simp only [hexText, List.length_cons, ih]; omega

theorem hexText_take (a : Bytes) (n : Nat) : (hexText a).take (2 * n) = hexText (a.take n) := by
  induction a generalizing n with
  | nil => simp [hexText]
  | cons x a ih =>
    cases n with
    | zero => rfl
    | succ n =>
      show (hexText (x :: a)).take (2 * n + 1 + 1) = _
      simp only [hexText, List.take_succ_cons, ih]

theorem uuidText_inj (a b : Bytes) (ha : a.length = 32) (hb : b.length = 32) (h : uuidText a = uuidText b) : a = b := by
  simp only [uuidText] at h
  obtain ⟨h, e5⟩ := List.append_inj h (by simp [ha, hb])
  obtain ⟨h, -⟩ := List.append_inj' h rfl
  obtain ⟨h, e4⟩ := List.append_inj' h (by simp [ha, hb])
  obtain ⟨h, -⟩ := List.append_inj' h rfl
  obtain ⟨h, e3⟩ := List.append_inj' h (by simp [ha, hb])
  obtain ⟨h, -⟩ := List.append_inj' h rfl
  obtain ⟨h, e2⟩ := List.append_inj' h (by simp [ha, hb])
  obtain ⟨e1, -⟩ := List.append_inj' h rfl
  have split : ∀ x : Bytes, x = x.take 8 ++ ((x.drop 8).take 4 ++ ((x.drop 12).take 4 ++ ((x.drop 16).take 4 ++ x.drop 20))) := by
    intro x
    conv => lhs; rw [← List.take_append_drop 8 x]
    congr 1
    conv => lhs; rw [← List.take_append_drop 4 (x.drop 8)]
    rw [List.drop_drop]
    congr 1
    conv => lhs; rw [← List.take_append_drop 4 (x.drop (8 + 4))]
    rw [List.drop_drop]
    congr 1
    conv => lhs; rw [← List.take_append_drop 4 (x.drop (8 + 4 + 4))]
    rw [List.drop_drop]
  rw [split a, split b, e1, e2, e3, e4, e5]

theorem onlyValue_data (id url date type : Bytes) (info : Option Bytes) (ip : Option Bytes) (ctype body : Bytes) :
    OnlyValue ⟨[(WH.ID, some id), (WH.URL, some url), (WH.WARCINFO_ID, info)] ++ ipHeader ip ++
      [(WH.DATE, some date), (WH.TYPE, some type)], ctype, body⟩ (b! "WARC-Record-ID") (some id) := by
  have := ipHeader_only ip (b! "WARC-Record-ID") (by decide)
  show List.filter _ (_ ++ _ ++ _) = _
  rw [List.filter_append, List.filter_append, this]; rfl

end Arc2Warc

/-- **C50** The id of a converted data record is the same function of URL and date in every conversion, whatever the content,
the other headers, the state of the transformer, its settings and the clock. -/
theorem C50_determined (sha1 : Bytes → Bytes) : ∃ id : Bytes → Bytes → Bytes,
    ∀ (c : Codec) (g : Arc2Warc.Cfg), g.sha1 = sha1 → ∀ (w : World) (st : Arc2Warc.St) (ns : List Arc2Warc.New) (z : Arc2Warc.XW),
      w.rcd.cls = .arc → Arc2Warc.convert c g (w, st) = .ok ns z →
      ∃ url date n, w.rcd.getHeader (b! "URL") = some url ∧ w.rcd.getHeader (b! "Archive-date") = some date ∧ ns = [n] ∧
        OnlyValue n (b! "WARC-Record-ID") (some (id url date)) := by
  refine ⟨fun url date => warcUuid sha1 (url ++ date), ?_⟩
  intro c g hg w st ns z hcls h
  simp only [Arc2Warc.convert, M.bind_apply, M.get_apply] at h
  have ht : w.rcd.type ≠ some (b! "filedesc") := by rw [Rec.type, hcls]; simp only; decide
  rw [if_neg ht] at h
  obtain ⟨url, date, d, type, ctype, body, h1, h2, -, rfl⟩ := Arc2Warc.convertRecord_ok h
  rw [hg]
  refine ⟨url, date, _, ?_, ?_, rfl, Arc2Warc.onlyValue_data _ _ _ _ _ _ _ _⟩
  · rw [← h1, Rec.url, hcls]; rfl
  · rw [← h2, Rec.date, hcls]; rfl

/-- **C50** Two texts get the same id iff their SHA-1 digests agree in the first 16 bytes. -/
theorem C50_collision (sha1 : Bytes → Bytes) (hlen : ∀ t, (sha1 t).length = 20) (a b : Bytes) :
    warcUuid sha1 a = warcUuid sha1 b ↔ (sha1 a).take 16 = (sha1 b).take 16 := by
  have e : ∀ t, (hexText (sha1 t)).take 32 = hexText ((sha1 t).take 16) := fun t => Arc2Warc.hexText_take _ 16
  constructor
  · intro h
    simp only [warcUuid] at h
    obtain ⟨h, -⟩ := List.append_inj' h rfl
    obtain ⟨-, h⟩ := List.append_inj h rfl
    rw [e, e] at h
    have hl : ∀ t, (hexText ((sha1 t).take 16)).length = 32 := by
      intro t; rw [Arc2Warc.hexText_length, List.length_take, hlen]; rfl
    exact Arc2Warc.hexText_inj _ _ (Arc2Warc.uuidText_inj _ _ (hl a) (hl b) h)
  · intro h
    simp only [warcUuid, e, h]

/-! ### the text of ids -/

namespace Arc2Warc

theorem hexByte_digit : ∀ n, n < 16 → some (hexByte n) = idDigits[n]? := by decide

theorem hexText_at (d : Bytes) : ∀ i, i < d.length → ∃ hi lo : Nat, hi < 16 ∧ lo < 16 ∧ (d.getD i 0).toNat = 16 * hi + lo ∧
    (hexText d)[2 * i]? = idDigits[hi]? ∧ (hexText d)[2 * i + 1]? = idDigits[lo]? := by
  induction d with
  | nil => intro i hi; simp at hi
  | cons c d ih =>
    intro i hi
    cases i with
    | zero =>
      have hc := c.toNat_lt
      refine ⟨c.toNat / 16, c.toNat % 16, by omega, by omega, by show c.toNat = _; omega, ?_, ?_⟩
      · rw [← hexByte_digit _ (by omega)]; rfl
      · rw [← hexByte_digit _ (by omega)]; rfl
    | succ i =>
      obtain ⟨h, l, h1, h2, h3, h4, h5⟩ := ih i (by simpa using hi)
      refine ⟨h, l, h1, h2, by simpa using h3, ?_, ?_⟩
      · rw [← h4]; rfl
      · rw [← h5]; rfl

theorem take_split (x : Bytes) : x.take 8 ++ (x.drop 8).take 4 ++ (x.drop 12).take 4 ++ (x.drop 16).take 4 ++ x.drop 20 = x := by
  have e : ∀ n, (x.drop n).take 4 ++ x.drop (n + 4) = x.drop n := by
    intro n; conv => rhs; rw [← List.take_append_drop 4 (x.drop n)]
    rw [List.drop_drop]
  simp only [List.append_assoc, e 16, e 12, e 8, List.take_append_drop]

theorem uuid_text (d : Bytes) (h : d.length = 16) : UuidText d (b! "<urn:uuid:" ++ uuidText (hexText d) ++ b! ">") := by
  have hl : (hexText d).length = 32 := by rw [hexText_length, h]
  refine ⟨(hexText d).take 8, ((hexText d).drop 8).take 4, ((hexText d).drop 12).take 4, ((hexText d).drop 16).take 4,
    (hexText d).drop 20, ?_, ?_, ?_, ?_, ?_, by simp only [uuidText, List.append_assoc], h, ?_⟩
  · simp [hl]
  · simp [hl]
  · simp [hl]
  · simp [hl]
  · simp [hl]
  · intro i hi
    rw [take_split]
    exact hexText_at d i (by omega)

theorem warcUuid_text (sha1 : Bytes → Bytes) (hlen : ∀ t, (sha1 t).length = 20) (t : Bytes) :
    UuidText ((sha1 t).take 16) (warcUuid sha1 t) := by
  have := uuid_text ((sha1 t).take 16) (by simp [hlen])
  rwa [← hexText_take] at this

end Arc2Warc

/-- **C50** The id of a converted data record is the UUID whose bytes are the first 16 bytes of the SHA-1 digest of the URL followed
by the date. -/
theorem C50_text (c : Codec) (g : Arc2Warc.Cfg) (hlen : ∀ t, (g.sha1 t).length = 20) (w : World) (st : Arc2Warc.St)
    (ns : List Arc2Warc.New) (z : Arc2Warc.XW) (hcls : w.rcd.cls = .arc) (h : Arc2Warc.convert c g (w, st) = .ok ns z) :
    ∃ url date n id, w.rcd.getHeader (b! "URL") = some url ∧ w.rcd.getHeader (b! "Archive-date") = some date ∧ ns = [n] ∧
      OnlyValue n (b! "WARC-Record-ID") (some id) ∧ UuidText ((g.sha1 (url ++ date)).take 16) id := by
  simp only [Arc2Warc.convert, M.bind_apply, M.get_apply] at h
  have ht : w.rcd.type ≠ some (b! "filedesc") := by rw [Rec.type, hcls]; simp only; decide
  rw [if_neg ht] at h
  obtain ⟨url, date, d, type, ctype, body, h1, h2, -, rfl⟩ := Arc2Warc.convertRecord_ok h
  refine ⟨url, date, _, _, ?_, ?_, rfl, Arc2Warc.onlyValue_data _ _ _ _ _ _ _ _, Arc2Warc.warcUuid_text _ hlen _⟩
  · rw [← h1, Rec.url, hcls]; rfl
  · rw [← h2, Rec.date, hcls]; rfl

/-- **C50** The ids of the two records made of a filedesc record: the warcinfo record's is made of the URL and the time of the
conversion, the metadata record's of the URL, the date of the filedesc record and `-meta`. -/
theorem C50_text_filedesc (c : Codec) (g : Arc2Warc.Cfg) (hlen : ∀ t, (g.sha1 t).length = 20) (w : World) (st : Arc2Warc.St)
    (ns : List Arc2Warc.New) (z : Arc2Warc.XW) (hcls : w.rcd.cls = .arcHeader) (h : Arc2Warc.convert c g (w, st) = .ok ns z) :
    ∃ url date n m id id' now, w.rcd.getHeader (b! "URL") = some url ∧ w.rcd.getHeader (b! "Archive-date") = some date ∧ ns = [n, m] ∧
      OnlyValue n (b! "WARC-Record-ID") (some id) ∧ OnlyValue m (b! "WARC-Record-ID") (some id') ∧
      OnlyValue n (b! "WARC-Date") (some now) ∧
      UuidText ((g.sha1 (url ++ now)).take 16) id ∧ UuidText ((g.sha1 (url ++ date ++ b! "-meta")).take 16) id' := by
  simp only [Arc2Warc.convert, M.bind_apply, M.get_apply] at h
  have ht : w.rcd.type = some (b! "filedesc") := by rw [Rec.type, hcls]
  rw [if_pos ht] at h
  obtain ⟨url, date, d, text, h1, h2, -, rfl⟩ := Arc2Warc.convertFiledesc_ok h
  refine ⟨url, date, _, _, warcUuid g.sha1 (url ++ warcDatetimeStr (g.now st.ticks)), warcUuid g.sha1 (url ++ date ++ b! "-meta"),
    warcDatetimeStr (g.now st.ticks), ?_, ?_, rfl, ?_, ?_, ?_, Arc2Warc.warcUuid_text _ hlen _, Arc2Warc.warcUuid_text _ hlen _⟩
  · rw [← h1, Rec.url, hcls]; rfl
  · rw [← h2, Rec.date, hcls]; rfl
  · have : (Arc2Warc.filenameHeader g.outputFilename).filter (fun h => lower h.1 == lower (b! "WARC-Record-ID")) = [] := by
      cases g.outputFilename with
      | none => rfl
      | some f => simp only [Arc2Warc.filenameHeader]; cases Arc2Warc.given f <;> rfl
    show List.filter _ (_ ++ _) = _
    rw [List.filter_append, this]; rfl
  · rfl
  · have : (Arc2Warc.filenameHeader g.outputFilename).filter (fun h => lower h.1 == lower (b! "WARC-Date")) = [] := by
      cases g.outputFilename with
      | none => rfl
      | some f => simp only [Arc2Warc.filenameHeader]; cases Arc2Warc.given f <;> rfl
    show List.filter _ (_ ++ _) = _
    rw [List.filter_append, this]; rfl

/-- **C50** `random_warc_uuid` gives an id of version 4 (RFC 4122): of the 16 random bytes all bits are used as they are, except the
four of the version, which are 4, and the two of the variant, which are binary 10. -/
theorem C50_random (random : Bytes) (h : random.length = 16) :
    ∃ d, UuidText d (randomUuid random) ∧
      (∀ i, i ≠ 6 → i ≠ 8 → d.getD i 0 = random.getD i 0) ∧
      (d.getD 6 0).toNat / 16 = 4 ∧ (d.getD 6 0).toNat % 16 = (random.getD 6 0).toNat % 16 ∧
      (d.getD 8 0).toNat / 64 = 2 ∧ (d.getD 8 0).toNat % 64 = (random.getD 8 0).toNat % 64 := by
  refine ⟨_, Arc2Warc.uuid_text _ (by simp [h]), ?_, ?_, ?_, ?_, ?_⟩
  · intro i h6 h8
    simp only [List.getD_eq_getElem?_getD]
    rw [List.getElem?_set_ne (by omega), List.getElem?_set_ne (by omega)]
  all_goals
    simp only [List.getD_eq_getElem?_getD, List.getElem?_set, List.length_set, h]
    simp
    omega

/-- the digits of an actual id: the SHA-1 digest of the empty text -/
example : UuidText ([0xda, 0x39, 0xa3, 0xee, 0x5e, 0x6b, 0x4b, 0x0d, 0x32, 0x55, 0xbf, 0xef, 0x95, 0x60, 0x18, 0x90])
    (b! "<urn:uuid:da39a3ee-5e6b-4b0d-3255-bfef95601890>") :=
  Arc2Warc.uuid_text [0xda, 0x39, 0xa3, 0xee, 0x5e, 0x6b, 0x4b, 0x0d, 0x32, 0x55, 0xbf, 0xef, 0x95, 0x60, 0x18, 0x90] rfl

example : randomUuid (List.replicate 16 0xff) = b! "<urn:uuid:ffffffff-ffff-4fff-bfff-ffffffffffff>" := by decide +kernel

/-- **C50** Data records whose dates have the same length (14 digits, as in the ARC format) and which differ in URL or date get
different ids, unless the truncated SHA-1 digests of URL and date collide. -/
theorem C50_distinct (sha1 : Bytes → Bytes) (hlen : ∀ t, (sha1 t).length = 20) (c : Codec) (g g' : Arc2Warc.Cfg)
    (hg : g.sha1 = sha1) (hg' : g'.sha1 = sha1)
    (w w' : World) (st st' : Arc2Warc.St) (ns ns' : List Arc2Warc.New) (z z' : Arc2Warc.XW)
    (hcls : w.rcd.cls = .arc) (hcls' : w'.rcd.cls = .arc)
    (h : Arc2Warc.convert c g (w, st) = .ok ns z) (h' : Arc2Warc.convert c g' (w', st') = .ok ns' z')
    (url url' date date' : Bytes)
    (hurl : w.rcd.getHeader (b! "URL") = some url) (hurl' : w'.rcd.getHeader (b! "URL") = some url')
    (hdate : w.rcd.getHeader (b! "Archive-date") = some date) (hdate' : w'.rcd.getHeader (b! "Archive-date") = some date')
    (hl : date.length = date'.length) (hne : (url, date) ≠ (url', date'))
    (hcol : (sha1 (url ++ date)).take 16 = (sha1 (url' ++ date')).take 16 → url ++ date = url' ++ date') :
    ∃ n n' id id', ns = [n] ∧ ns' = [n'] ∧ OnlyValue n (b! "WARC-Record-ID") (some id) ∧
      OnlyValue n' (b! "WARC-Record-ID") (some id') ∧ id ≠ id' := by
  have key : ∀ (g : Arc2Warc.Cfg) (w : World) (st : Arc2Warc.St) (ns : List Arc2Warc.New) (z : Arc2Warc.XW) (url date : Bytes),
      g.sha1 = sha1 → w.rcd.cls = .arc → Arc2Warc.convert c g (w, st) = .ok ns z → w.rcd.getHeader (b! "URL") = some url →
      w.rcd.getHeader (b! "Archive-date") = some date →
      ∃ n, ns = [n] ∧ OnlyValue n (b! "WARC-Record-ID") (some (warcUuid sha1 (url ++ date))) := by
    intro g w st ns z url date hg hcls h hu hd
    simp only [Arc2Warc.convert, M.bind_apply, M.get_apply] at h
    have ht : w.rcd.type ≠ some (b! "filedesc") := by rw [Rec.type, hcls]; simp only; decide
    rw [if_neg ht] at h
    obtain ⟨u, d, d', type, ctype, body, h1, h2, -, rfl⟩ := Arc2Warc.convertRecord_ok h
    have e1 : w.rcd.url = some url := by rw [← hu, Rec.url, hcls]; rfl
    have e2 : w.rcd.date = some date := by rw [← hd, Rec.date, hcls]; rfl
    rw [h1] at e1
    rw [h2] at e2
    cases e1
    cases e2
    rw [hg]
    exact ⟨_, rfl, Arc2Warc.onlyValue_data _ _ _ _ _ _ _ _⟩
  obtain ⟨n, hn, hid⟩ := key g w st ns z url date hg hcls h hurl hdate
  obtain ⟨n', hn', hid'⟩ := key g' w' st' ns' z' url' date' hg' hcls' h' hurl' hdate'
  refine ⟨n, n', _, _, hn, hn', hid, hid', ?_⟩
  intro he
  have e := hcol ((C50_collision sha1 hlen _ _).mp he)
  obtain ⟨e1, e2⟩ := List.append_inj' e hl
  exact hne (by rw [e1, e2])

/-- **C50** (defect) "Different records get different ids" is false, for every hash function: the records below have different
URLs and different dates, both dates are accepted, and both records are converted; they get the same id, because URL and
date are joined without a separator.  (Two captures of one URL with the same date also get the same id, whatever their
contents: `C50_determined`.) -/
theorem C50_not_distinct (c : Codec) (g : Arc2Warc.Cfg) (hr : g.resources = []) (hp : g.responses = []) (st : Arc2Warc.St) :
    ∃ n n' id,
      Arc2Warc.convert c g (demoWorld .arc [(b! "URL", b! "ftp://h/"), (b! "Archive-date", b! "20120120111111")] (b! "one"), st) =
        .ok [n] (demoWorld .arc [(b! "URL", b! "ftp://h/"), (b! "Archive-date", b! "20120120111111")] (b! "one"), st) ∧
      Arc2Warc.convert c g (demoWorld .arc [(b! "URL", b! "ftp://h/201201"), (b! "Archive-date", b! "20111111")] (b! "two"), st) =
        .ok [n'] (demoWorld .arc [(b! "URL", b! "ftp://h/201201"), (b! "Archive-date", b! "20111111")] (b! "two"), st) ∧
      OnlyValue n (b! "WARC-Record-ID") (some id) ∧ OnlyValue n' (b! "WARC-Record-ID") (some id) := by
  obtain ⟨sha1, now, fname, fields, resources, responses⟩ := g
  cases hr
  cases hp
  refine ⟨⟨[(WH.ID, some (warcUuid sha1 (b! "ftp://h/20120120111111"))), (WH.URL, some (b! "ftp://h/")),
      (WH.WARCINFO_ID, st.warcinfoId)] ++ [] ++ [(WH.DATE, some (b! "2012-01-20T11:11:11Z")), (WH.TYPE, some (b! "response"))],
      b! "text/plain", b! "one"⟩,
    ⟨[(WH.ID, some (warcUuid sha1 (b! "ftp://h/20120120111111"))), (WH.URL, some (b! "ftp://h/201201")),
      (WH.WARCINFO_ID, st.warcinfoId)] ++ [] ++ [(WH.DATE, some (b! "2011-11-11T00:00:00Z")), (WH.TYPE, some (b! "response"))],
      b! "text/plain", b! "two"⟩, _, ?_, ?_, Arc2Warc.onlyValue_data _ _ _ _ _ none _ _, Arc2Warc.onlyValue_data _ _ _ _ _ none _ _⟩
  · rfl
  · rfl

example : ∃ n n' id id', Arc2Warc.convert toy demoCfg (demoHistory[0], {}) = .ok [n] (demoHistory[0], {}) ∧
    Arc2Warc.convert toy demoCfg (demoHistory[3], {}) = .ok [n'] (demoHistory[3], {}) ∧
    OnlyValue n (b! "WARC-Record-ID") (some id) ∧ OnlyValue n' (b! "WARC-Record-ID") (some id') ∧ id ≠ id' := by
  have h1 : ∃ n, Arc2Warc.convert toy demoCfg (demoHistory[0], {}) = .ok [n] (demoHistory[0], {}) := ⟨_, rfl⟩
  have h2 : ∃ n, Arc2Warc.convert toy demoCfg (demoHistory[3], {}) = .ok [n] (demoHistory[3], {}) := ⟨_, rfl⟩
  obtain ⟨n, h1⟩ := h1
  obtain ⟨n', h2⟩ := h2
  have hlen : ∀ t, (demoCfg.sha1 t).length = 20 := by
    intro t
    simp only [demoCfg, List.length_take, List.length_append, List.length_replicate]
    omega
  obtain ⟨m, m', id, id', e1, e2, h3, h4, h5⟩ := C50_distinct demoCfg.sha1 hlen toy demoCfg demoCfg rfl rfl _ _ _ _ _ _ _ _ rfl rfl h1 h2
    (b! "dns:h") (b! "ftp://h/") (b! "20120229") (b! "20120229") rfl rfl rfl rfl rfl (by decide) (by decide)
  cases e1
  cases e2
  exact ⟨n, n', id, id', h1, h2, h3, h4, h5⟩

end Warc
