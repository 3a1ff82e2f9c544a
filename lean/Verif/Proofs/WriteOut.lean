import Verif.Spec.WriteOut
import Verif.Proofs.Write
/-
  The writer on devices that become full.
-/
set_option linter.all false
namespace Warc
open Rx Stream Spec
namespace World

theorem writeHeadersVia_write (nl : Bytes) (b : Bool) (hs : List Header) : writeHeadersVia write nl b hs = writeHeaders nl b hs := by
  induction hs with
  | nil => rfl
  | cons h hs ih => simp only [writeHeadersVia, writeHeaders, ih]; rfl

theorem copyLoopVia_write (fuel : Nat) : copyLoopVia write fuel = copyLoop fuel := by
  induction fuel with
  | zero => rfl
  | succ fuel ih => simp only [copyLoopVia, copyLoop, ih]

theorem bind_congr' {σ α β : Type} (x : M σ α) {f g : α → M σ β} (h : ∀ a, f a = g a) : (x >>= f) = (x >>= g) := by
  rw [funext h]

theorem bind_assoc' {σ α β γ : Type} (x : M σ α) (f : α → M σ β) (g : β → M σ γ) : ((x >>= f) >>= g) = (x >>= fun a => f a >>= g) := by
  funext s
  simp only [M.bind_apply]
  cases x s <;> rfl

/-- on an ordinary file it is the writer of the other properties -/
theorem writeToVia_write (nl : Bytes) : writeToVia write nl = writeTo nl := by
  have : writeBodyVia write nl = writeBody nl := by
    funext w
    simp only [writeBodyVia, writeBody, writeHeadersVia_write, writeFileVia, copyLoopVia_write]
    cases w.rcd.cls <;> try rfl
    refine congrFun (bind_congr' (σ := World) (write w.rcd.version) fun _ => ?_) w
    apply bind_congr'; intro _
    apply bind_congr'; intro _
    cases hasCfile w.rcd
    · simp only [Bool.false_eq_true, if_false, writeTupleVia, bind_assoc']
      apply bind_congr'; intro c
      obtain ⟨ct, buf⟩ := c
      cases ct with
      | none => 
        by_cases hb : buf.getD [] = []
        · simp only [hb, if_true]; rfl
        · simp only [hb, if_false]; rfl
      | some t =>
        by_cases ht : t = []
        · by_cases hb : buf.getD [] = []
          · simp only [hb, ht, if_true]; rfl
          · simp only [hb, ht, if_true, if_false]; rfl
        · by_cases hb : buf.getD [] = []
          · simp only [hb, ht, if_true, if_false, writeTypeVia]; rfl
          · simp only [hb, ht, if_true, if_false, writeTypeVia]; rfl
    · simp only [if_true, bind_assoc']
  funext w
  simp only [writeToVia, writeTo, this]
  cases w.rcd.cfile <;> cases writeBody nl w <;> rfl

/-- what writing does not change -/
def Kept (w w' : World) : Prop := w'.rcd.cfileValid = w.rcd.cfileValid ∧ hasCfile w'.rcd = hasCfile w.rcd

theorem Kept.trans {a b c : World} (h : Kept a b) (g : Kept b c) : Kept a c := ⟨g.1.trans h.1, g.2.trans h.2⟩

/-- the end of `write_to` -/
def finish : Res World Unit → Res World Unit
  | .ok () w' => .ok () (if hasCfile w'.rcd then { w' with rcd := { w'.rcd with cfileValid := false } } else w')
  | .raise e w' => .raise e w'
  | .hang => .hang

theorem writeToVia_eq (put : Put) (nl : Bytes) (w : World) (hu : w.rcd.cfile ≠ .unset) :
    writeToVia put nl w = if (hasCfile w.rcd && !w.rcd.cfileValid) = true then
      .raise (.generic "cannot write record because content_file has already been used") w else finish (writeBodyVia put nl w) := by
  unfold writeToVia
  cases hc : w.rcd.cfile <;> first | rfl | exact absurd hc hu

/-- `q` is `p` on a device with room for `K` bytes -/
def Lim {α : Type} (K : Nat) (p q : M World α) (w : World) : Prop :=
  ∀ a w', p w = .ok a w' → w.out <+: w'.out ∧ Kept w w' ∧
    (w'.out.length ≤ K → q w = .ok a w') ∧
    (w.out.length ≤ K → K < w'.out.length →
      ∃ w'', q w = .raise .osError w'' ∧ w''.out = w'.out.take K ∧ Kept w w'')

theorem take_of_prefix {K : Nat} {a b : Bytes} (h : a <+: b) (hk : K ≤ a.length) : b.take K = a.take K := by
  obtain ⟨t, rfl⟩ := h
  rw [List.take_append_of_le_length hk]

theorem Lim.bind {α β : Type} {K : Nat} {p q : M World α} {f g : α → M World β} {w : World} (h : Lim K p q w)
    (hf : ∀ a w', p w = .ok a w' → Lim K (f a) (g a) w') : Lim K (p >>= f) (q >>= g) w := by
  intro a w' hr
  simp only [M.bind_apply] at hr ⊢
  cases hp : p w with
  | hang => rw [hp] at hr; cases hr
  | raise e t => rw [hp] at hr; cases hr
  | ok b t =>
    rw [hp] at hr
    simp only at hr
    obtain ⟨g1, g2, g3, g4⟩ := h b t hp
    obtain ⟨i1, i2, i3, i4⟩ := hf b t hp a w' hr
    refine ⟨g1.trans i1, g2.trans i2, fun hk => ?_, fun hw hk => ?_⟩
    · rw [g3 (Nat.le_trans i1.length_le hk)]; exact i3 hk
    · by_cases ht : t.out.length ≤ K
      · rw [g3 ht]
        obtain ⟨w'', j1, j2, j3⟩ := i4 ht hk
        exact ⟨w'', j1, j2, g2.trans j3⟩
      · obtain ⟨w'', j1, j2, j3⟩ := g4 hw (by omega)
        rw [j1]
        exact ⟨w'', rfl, by rw [j2, take_of_prefix i1 (by omega)], j3⟩

theorem Lim.pure {α : Type} (K : Nat) (a : α) (w : World) : Lim K (Pure.pure a) (Pure.pure a) w := by
  intro b w' h
  cases h
  exact ⟨List.prefix_rfl, ⟨rfl, rfl⟩, fun _ => rfl, fun h h' => by omega⟩

theorem Lim.put (K : Nat) (b : Bytes) (w : World) : Lim K (write b) (limited K b) w := by
  intro a w' h
  cases h
  refine ⟨⟨b, rfl⟩, ⟨rfl, rfl⟩, fun hk => ?_, fun hw hk => ?_⟩
  · simp only [List.length_append] at hk
    simp only [limited, hk, if_true]
  · simp only [List.length_append] at hk
    simp only [limited, if_neg (Nat.not_le.2 hk)]
    exact ⟨_, rfl, rfl, rfl, rfl⟩

/-- code that writes nothing -/
theorem Lim.same {α : Type} (K : Nat) (p : M World α) (w : World) (h : ∀ a w', p w = .ok a w' → w'.out = w.out ∧ Kept w w') :
    Lim K p p w := by
  intro a w' hp
  obtain ⟨h1, h2⟩ := h a w' hp
  exact ⟨by rw [h1]; exact List.prefix_rfl, h2, fun _ => hp, fun g1 g2 => by rw [h1] at g2; omega⟩

theorem cfileRead_quiet (n : Option Int) (w : World) : ∀ a w', cfileRead n w = .ok a w' → w'.out = w.out ∧ Kept w w' := by
  intro a w' h
  simp only [cfileRead] at h
  cases hc : w.rcd.cfile with
  | stream =>
    simp only [hc, onStream] at h
    cases hr : Stream.read n w.strm <;> rw [hr] at h <;> cases h
    exact ⟨rfl, rfl, rfl⟩
  | file f =>
    simp only [hc] at h
    cases hr : File.read n f <;> rw [hr] at h <;> cases h
    exact ⟨rfl, rfl, by simp [hasCfile, hc]⟩
  | none => simp [hc] at h
  | unset => simp [hc] at h

theorem Lim.copyLoop (K fuel : Nat) (w : World) : Lim K (copyLoopVia write fuel) (copyLoopVia (limited K) fuel) w := by
  induction fuel generalizing w with
  | zero => intro a w' h; cases h
  | succ fuel ih =>
    simp only [copyLoopVia]
    refine Lim.bind (Lim.same K _ w (cfileRead_quiet _ w)) fun buf w' _ => ?_
    by_cases hb : buf = []
    · simp only [hb, if_true]; exact Lim.pure K _ _
    · simp only [hb, if_false]
      exact Lim.bind (Lim.put K _ _) fun _ _ _ => ih _

theorem Lim.header (K : Nat) (nl : Bytes) (h : Header) (w : World) : Lim K (writeHeaderVia write nl h) (writeHeaderVia (limited K) nl h) w :=
  Lim.bind (Lim.put K _ _) fun _ _ _ => Lim.bind (Lim.put K _ _) fun _ _ _ => Lim.bind (Lim.put K _ _) fun _ _ _ => Lim.put K _ _

theorem Lim.headers (K : Nat) (nl : Bytes) (b : Bool) (hs : List Header) (w : World) :
    Lim K (writeHeadersVia write nl b hs) (writeHeadersVia (limited K) nl b hs) w := by
  induction hs generalizing w with
  | nil => exact Lim.pure K _ _
  | cons h hs ih =>
    simp only [writeHeadersVia]
    by_cases hb : (b || !(h.1 == WH.CONTENT_TYPE || h.1 == WH.CONTENT_LENGTH)) = true
    · simp only [hb, if_true]; exact Lim.bind (Lim.header K nl h w) fun _ _ _ => ih _
    · simp only [hb, if_false]; exact ih w

theorem content_quiet (w : World) (h : hasCfile w.rcd = false) : ∀ a w', content w = .ok a w' → w' = w := by
  intro a w' hc
  simp only [content] at hc
  cases hx : w.rcd.content with
  | some c => rw [hx] at hc; cases hc; rfl
  | none =>
    rw [hx] at hc
    simp only [cfileRead] at hc
    cases hf : w.rcd.cfile <;> simp [hasCfile, hf] at h <;> simp [hf] at hc

theorem Lim.type (K : Nat) (nl : Bytes) (t : Option Bytes) (w : World) : Lim K (writeTypeVia write nl t) (writeTypeVia (limited K) nl t) w := by
  cases t with
  | none => exact Lim.pure K _ _
  | some t =>
    simp only [writeTypeVia]
    by_cases h : t = []
    · simp only [h, if_true]; exact Lim.pure K _ _
    · simp only [h, if_false]; exact Lim.header K _ _ _

theorem Lim.tuple (K : Nat) (nl : Bytes) (w : World) (h : hasCfile w.rcd = false) : Lim K (writeTupleVia write nl) (writeTupleVia (limited K) nl) w := by
  refine Lim.bind (Lim.same K _ w fun a w' hc => ?_) fun c _ _ => ?_
  · rw [content_quiet w h a w' hc]; exact ⟨rfl, rfl, rfl⟩
  · refine Lim.bind (Lim.type K nl _ _) fun _ _ _ => Lim.bind (Lim.header K nl _ _) fun _ _ _ => Lim.bind (Lim.put K _ _) fun _ _ _ => ?_
    by_cases hb : c.2.getD [] = []
    · simp only [hb, if_true]; exact Lim.pure K _ _
    · simp only [hb, if_false]; exact Lim.put K _ _

theorem Lim.file (K : Nat) (nl : Bytes) (fuel : Nat) (w : World) : Lim K (writeFileVia write nl fuel) (writeFileVia (limited K) nl fuel) w :=
  Lim.bind (Lim.put K _ _) fun _ _ _ => Lim.copyLoop K _ _

theorem Lim.body (K : Nat) (nl : Bytes) (w : World) : Lim K (writeBodyVia write nl) (writeBodyVia (limited K) nl) w := by
  by_cases hcls : w.rcd.cls = .warc
  · have main : Lim K (do
        write w.rcd.version
        write nl
        writeHeadersVia write nl (hasCfile w.rcd) w.rcd.headers
        if hasCfile w.rcd then writeFileVia write nl (cfileRemaining w + 2) else writeTupleVia write nl
        write nl
        write nl) (do
        limited K w.rcd.version
        limited K nl
        writeHeadersVia (limited K) nl (hasCfile w.rcd) w.rcd.headers
        if hasCfile w.rcd then writeFileVia (limited K) nl (cfileRemaining w + 2) else writeTupleVia (limited K) nl
        limited K nl
        limited K nl) w := by
      refine Lim.bind (Lim.put K _ _) fun _ w1 h1 => Lim.bind (Lim.put K _ _) fun _ w2 h2 => Lim.bind (Lim.headers K _ _ _ _) fun _ w3 h3 => ?_
      have e1 := (Lim.put K _ _ _ _ h1).2.1.2
      have e2 := (Lim.put K _ _ _ _ h2).2.1.2
      have e3 := (Lim.headers K _ _ _ _ _ _ h3).2.1.2
      cases hb : hasCfile w.rcd with
      | true =>
        simp only [if_true]
        exact Lim.bind (Lim.file K nl _ _) fun _ _ _ => Lim.bind (Lim.put K _ _) fun _ _ _ => Lim.put K _ _
      | false =>
        simp only [Bool.false_eq_true, if_false]
        exact Lim.bind (Lim.tuple K nl _ (by rw [e3, e2, e1, hb])) fun _ _ _ => Lim.bind (Lim.put K _ _) fun _ _ _ => Lim.put K _ _
    intro a w' h
    simp only [writeBodyVia, hcls] at h ⊢
    exact main a w' h
  · have key : ∀ put : Put, writeBodyVia put nl w = .ok () w := by
      intro put
      unfold writeBodyVia
      cases hc : w.rcd.cls
      · exact absurd hc hcls
      · rfl
      · rfl
    intro a w' h
    rw [key] at h
    cases h
    exact ⟨List.prefix_rfl, ⟨rfl, rfl⟩, fun _ => key _, fun h h' => by omega⟩

/-! ### what exactly reaches the device -/

theorem limited_ok {K : Nat} {b : Bytes} {w : World} (h : w.out.length + b.length ≤ K) : limited K b w = .ok () { w with out := w.out ++ b } := by
  simp only [limited, h, if_true]

theorem limited_full {K : Nat} {b : Bytes} {w : World} (h : K < w.out.length + b.length) :
    limited K b w = .raise .osError { w with out := (w.out ++ b).take K } := by
  simp only [limited, if_neg (Nat.not_le.2 h)]

/-- two writes and one write of both texts -/
theorem limited_append (K : Nat) (a b : Bytes) (w : World) (f : M World Unit) (hf : ∀ w' : World, w'.rcd = w.rcd → w'.out.length ≤ K → f w' = limited K b w') (hw : w.out.length ≤ K) :
    (limited K a >>= fun _ => f) w = limited K (a ++ b) w := by
  simp only [M.bind_apply]
  by_cases ha : w.out.length + a.length ≤ K
  · rw [limited_ok ha]
    simp only
    rw [hf { w with out := w.out ++ a } rfl (by simpa using ha)]
    by_cases hb : w.out.length + (a ++ b).length ≤ K
    · rw [limited_ok hb, limited_ok (by simp at hb ⊢; omega)]; simp
    · rw [List.length_append] at hb
      rw [limited_full (by simp only [List.length_append]; omega), limited_full (by simp only [List.length_append]; omega)]; simp
  · rw [limited_full (by omega), limited_full (by simp; omega)]
    rw [← List.append_assoc, List.take_append_of_le_length (l₁ := w.out ++ a) (by simp; omega)]

/-- for the record `r`, `f` writes just the text `t` -/
def Puts (K : Nat) (r : Rec) (f : M World Unit) (t : Bytes) : Prop := ∀ w : World, w.rcd = r → w.out.length ≤ K → f w = limited K t w

theorem Puts.put {r : Rec} (K : Nat) (t : Bytes) : Puts K r (limited K t) t := fun _ _ _ => rfl

theorem Puts.seq {r : Rec} {K : Nat} {f g : M World Unit} {a b : Bytes} (hf : Puts K r f a) (hg : Puts K r g b) : Puts K r (f >>= fun _ => g) (a ++ b) := by
  intro w hr hw
  rw [← limited_append K a b w g (fun w' h' => hg w' (h'.trans hr)) hw]
  simp only [M.bind_apply, hf w hr hw]

theorem Puts.none {r : Rec} (K : Nat) : Puts K r (Pure.pure ()) [] := by
  intro w hr hw
  rw [limited_ok (by simpa using hw)]; simp

theorem Puts.header {r : Rec} (K : Nat) (h : Header) : Puts K r (writeHeaderVia (limited K) CRLF h) (headerLine h) := by
  have := ((Puts.put (r := r) K h.1).seq ((Puts.put K (b! ": ")).seq ((Puts.put K h.2).seq (Puts.put K CRLF))))
  have e : headerLine h = h.1 ++ (b! ": " ++ (h.2 ++ CRLF)) := by simp [headerLine]
  rw [e]
  exact this

theorem Puts.headers_file {r : Rec} (K : Nat) (hs : List Header) : Puts K r (writeHeadersVia (limited K) CRLF true hs) (hs.flatMap headerLine) := by
  induction hs with
  | nil => exact Puts.none K
  | cons h hs ih =>
    simp only [writeHeadersVia, Bool.true_or, if_true, List.flatMap_cons]
    exact (Puts.header K h).seq ih

theorem Puts.headers_tuple {r : Rec} (K : Nat) (hs : List Header) : Puts K r (writeHeadersVia (limited K) CRLF false hs)
    ((hs.filter (fun h => h.1 != b! "Content-Type" && h.1 != b! "Content-Length")).flatMap headerLine) := by
  induction hs with
  | nil => exact Puts.none K
  | cons h hs ih =>
    have hneg : (!(h.1 == WH.CONTENT_TYPE || h.1 == WH.CONTENT_LENGTH)) =
        (h.1 != b! "Content-Type" && h.1 != b! "Content-Length") := by
      simp only [WH.CONTENT_TYPE, WH.CONTENT_LENGTH, Bool.not_or, bne]
    simp only [writeHeadersVia, Bool.false_or, hneg, List.filter_cons]
    by_cases hb : (h.1 != b! "Content-Type" && h.1 != b! "Content-Length") = true
    · simp only [hb, if_true, List.flatMap_cons]
      exact (Puts.header K h).seq ih
    · simp only [hb, if_false]
      exact ih

def typeFields : Option Bytes → List Header
  | some t => if t = [] then [] else [(b! "Content-Type", t)]
  | none => []

/-- a record with a content tuple: just its text -/
theorem writeToVia_tuple (K : Nat) (w : World) (ct : Option Bytes) (buf : Option Bytes) (hw : w.out.length ≤ K)
    (hcls : w.rcd.cls = .warc) (hcf : w.rcd.cfile = .none) (hc : w.rcd.content = some (ct, buf)) :
    writeToVia (limited K) CRLF w =
      limited K (recordBytes w.rcd.version (writtenHeaders w.rcd.headers ct (buf.getD [])) (buf.getD [])) w := by
  have hhas : hasCfile w.rcd = false := by simp [hasCfile, hcf]
  have htype : Puts K w.rcd (writeTypeVia (limited K) CRLF ct) ((typeFields ct).flatMap headerLine) := by
    clear hc
    cases ct with
    | none => exact Puts.none K
    | some t =>
      simp only [writeTypeVia, typeFields]
      by_cases ht : t = []
      · simp only [ht, if_true]; exact Puts.none K
      · simp only [ht, if_false, List.flatMap_cons, List.flatMap_nil, List.append_nil]; exact Puts.header K _
  have hbuf : Puts K w.rcd (if buf.getD [] = [] then Pure.pure () else limited K (buf.getD [])) (buf.getD []) := by
    by_cases hb : buf.getD [] = []
    · simp only [hb, if_true]; exact Puts.none K
    · simp only [hb, if_false]; exact Puts.put K _
  have htup : ∀ w' : World, w'.rcd = w.rcd → writeTupleVia (limited K) CRLF w' = (writeTypeVia (limited K) CRLF ct >>= fun _ =>
      writeHeaderVia (limited K) CRLF (WH.CONTENT_LENGTH, decimal (buf.getD []).length) >>= fun _ => limited K CRLF >>= fun _ =>
      (if buf.getD [] = [] then Pure.pure () else limited K (buf.getD []))) w' := by
    intro w' hw'
    simp only [writeTupleVia, M.bind_apply, content_some w' (ct, buf) (by rw [hw']; exact hc)]
  have hrest := htype.seq ((Puts.header K (WH.CONTENT_LENGTH, decimal (buf.getD []).length)).seq ((Puts.put K CRLF).seq hbuf))
  have htup' : Puts K w.rcd (writeTupleVia (limited K) CRLF) _ := fun w' h1 h2 => (htup w' h1).trans (hrest w' h1 h2)
  have hall := (Puts.put K w.rcd.version).seq ((Puts.put K CRLF).seq ((Puts.headers_tuple K w.rcd.headers).seq (htup'.seq ((Puts.put K CRLF).seq (Puts.put K CRLF)))))
  have hbody : writeBodyVia (limited K) CRLF w = limited K (recordBytes w.rcd.version (writtenHeaders w.rcd.headers ct (buf.getD [])) (buf.getD [])) w := by
    have := hall w rfl hw
    simp only [writeBodyVia, hcls, hhas, Bool.false_eq_true, if_false]
    refine this.trans ?_
    congr 1
    have ew : ∀ hs b, writtenHeaders hs ct b = hs.filter (fun h => h.1 != b! "Content-Type" && h.1 != b! "Content-Length") ++ typeFields ct ++ [(b! "Content-Length", decimal b.length)] := by
      intro hs b; cases ct <;> rfl
    simp [recordBytes, headBytes, ew, WH.CONTENT_LENGTH]
  have hraw : writeToVia (limited K) CRLF w = (match writeBodyVia (limited K) CRLF w with
      | .ok () w' => .ok () (if hasCfile w'.rcd then { w' with rcd := { w'.rcd with cfileValid := false } } else w')
      | .raise e w' => .raise e w'
      | .hang => .hang) := by
    simp only [writeToVia, hcf, hhas, Bool.false_and, Bool.false_eq_true, if_false]
    rfl
  rw [hraw, hbody]
  simp only [limited]
  by_cases hfit : w.out.length + (recordBytes w.rcd.version (writtenHeaders w.rcd.headers ct (buf.getD [])) (buf.getD [])).length ≤ K
  · simp only [hfit, if_true, hhas, Bool.false_eq_true, if_false]
  · simp only [hfit, if_false]

theorem got_step (C n K o : Nat) (hC : 0 < C) (h : o + C ≤ K) (hn : C < n) :
    C + min (n - C) (C * ((K - (o + C)) / C + 1)) = min n (C * ((K - o) / C + 1)) := by
  have e : K - o = (K - (o + C)) + C := by omega
  rw [e, Nat.add_div_right _ hC, Nat.mul_succ C ((K - (o + C)) / C + 1)]
  omega

theorem got_last (C n K o : Nat) (hC : 0 < C) (h : ¬ o + min C n ≤ K) : min C n = min n (C * ((K - o) / C + 1)) := by
  have : (K - o) / C = 0 := Nat.div_eq_of_lt (by omega)
  rw [this, Nat.zero_add, Nat.mul_one, Nat.min_comm]

/-- the copy loop on a device that becomes full on the way -/
theorem copyLoopVia_full (fuel : Nat) : ∀ (n K : Nat) (w : World), w.rcd.cfile = .stream → w.strm.eoc = some (n : Int) → n ≤ w.strm.fh.rest.length →
    w.out.length ≤ K → K < w.out.length + n → n + 1 < fuel →
    ∃ got, got = min n (8192 * ((K - w.out.length) / 8192 + 1)) ∧
    copyLoopVia (limited K) fuel w = .raise .osError { w with
      out := (w.out ++ w.strm.fh.rest.take n).take K
      strm := { w.strm.adv got with eoc := some ((n - got : Nat) : Int) } } := by
  induction fuel with
  | zero => intro n K w _ _ _ _ _ h; omega
  | succ fuel ih =>
    intro n K w hcf he hok hw hK hfuel
    simp only [copyLoopVia, M.bind_apply, cfileRead, hcf, onStream]
    have hop := op_run (.read (some 8192)) w.strm n he (Or.inl hok)
    simp only [ReadOp.run, ReadOp.result, Option.map_some] at hop
    have h8 : (8192 : Int) = ((8192 : Nat) : Int) := rfl
    rw [h8, hop]
    simp only
    have hlen : ((w.strm.fh.rest.take n).take 8192).length = min 8192 n := by
      rw [List.length_take, List.length_take]; omega
    have hne : (w.strm.fh.rest.take n).take 8192 ≠ [] := by
      intro e; rw [e] at hlen; simp at hlen; omega
    simp only [if_neg hne, M.bind_apply]
    by_cases hfit : w.out.length + min 8192 n ≤ K
    · have hn8 : 8192 < n := by omega
      have hm : min 8192 n = 8192 := by omega
      rw [limited_ok (by simp only [hlen]; exact hfit)]
      simp only
      obtain ⟨got, hg, hr⟩ := ih (n - 8192) K
        { w with out := w.out ++ (w.strm.fh.rest.take n).take 8192, strm := { w.strm.adv 8192 with eoc := some ((n - 8192 : Nat) : Int) } }
        hcf rfl (by simp only [adv_fh, File.advance_rest, List.length_drop]; omega) (by simp only [List.length_append, hlen]; omega)
        (by simp only [List.length_append, hlen]; omega) (by omega)
      refine ⟨8192 + got, ?_, ?_⟩
      · rw [hg]
        simp only [List.length_append, hlen, hm]
        exact got_step 8192 n K _ (by decide) (by omega) hn8
      · rw [hlen, hm, hr]
        have hsplit : (w.strm.fh.rest.take n).take 8192 ++ (w.strm.fh.rest.drop 8192).take (n - 8192) = w.strm.fh.rest.take n := by
          rw [← List.drop_take]; exact List.take_append_drop 8192 _
        simp only [adv_fh, File.advance_rest, List.append_assoc, hsplit, adv, File.advance_advance, Nat.sub_sub]
    · refine ⟨min 8192 n, ?_, ?_⟩
      · exact got_last 8192 n K _ (by decide) hfit
      · rw [limited_full (by simp only [hlen]; omega)]
        have hsplit : ((w.strm.fh.rest.take n).take 8192) ++ (w.strm.fh.rest.take n).drop 8192 = w.strm.fh.rest.take n := List.take_append_drop 8192 _
        have : (w.out ++ (w.strm.fh.rest.take n).take 8192).take K = (w.out ++ w.strm.fh.rest.take n).take K := by
          refine (take_of_prefix ⟨(w.strm.fh.rest.take n).drop 8192, by rw [List.append_assoc, hsplit]⟩ ?_).symm
          rw [List.length_append, hlen]; omega
        simp only [hlen, this]

/-- the copy loop on a separate file and a device that becomes full on the way -/
theorem copyLoopVia_full_file (fuel : Nat) : ∀ (K : Nat) (f : File) (w : World), f.fault = none → w.rcd.cfile = .file f →
    w.out.length ≤ K → K < w.out.length + f.rest.length → f.rest.length + 1 < fuel →
    ∃ got, got = min f.rest.length (8192 * ((K - w.out.length) / 8192 + 1)) ∧
    copyLoopVia (limited K) fuel w = .raise .osError { w with
      out := (w.out ++ f.rest).take K
      rcd := { w.rcd with cfile := .file (f.advance got) } } := by
  induction fuel with
  | zero => intro K f w _ _ _ _ h; omega
  | succ fuel ih =>
    intro K f w hf hcf hw hK hfuel
    simp only [copyLoopVia, M.bind_apply, cfileRead, hcf]
    have h8 : (8192 : Int) = ((8192 : Nat) : Int) := rfl
    have hread : File.read (some ((8192 : Nat) : Int)) f = .ok (f.rest.take 8192) (f.advance (min 8192 f.rest.length)) := by
      by_cases hle : 8192 ≤ f.rest.length
      · rw [fileRead_ok f 8192 hle, Nat.min_eq_left hle]
      · rw [fileRead_short f 8192 (by omega) hf, Nat.min_eq_right (by omega), List.take_of_length_le (by omega)]
    rw [h8, hread]
    simp only
    have hlen : (f.rest.take 8192).length = min 8192 f.rest.length := List.length_take ..
    have hne : f.rest.take 8192 ≠ [] := by
      intro e
      have := congrArg List.length e
      rw [hlen, List.length_nil] at this
      omega
    simp only [if_neg hne, M.bind_apply]
    by_cases hfit : w.out.length + min 8192 f.rest.length ≤ K
    · have hn8 : 8192 < f.rest.length := by omega
      have hm : min 8192 f.rest.length = 8192 := by omega
      rw [limited_ok (by simp only [hlen]; exact hfit)]
      simp only
      obtain ⟨got, hg, hr⟩ := ih K (f.advance 8192)
        { w with out := w.out ++ f.rest.take 8192, rcd := { w.rcd with cfile := .file (f.advance 8192) } }
        (by simpa using hf) rfl (by simp only [List.length_append, hlen]; omega)
        (by simp only [List.length_append, hlen, File.advance_rest, List.length_drop]; omega) (by simp only [File.advance_rest, List.length_drop]; omega)
      refine ⟨8192 + got, ?_, ?_⟩
      · rw [hg]
        simp only [List.length_append, hlen, hm, File.advance_rest, List.length_drop]
        exact got_step 8192 f.rest.length K _ (by decide) (by omega) hn8
      · rw [hm, hr]
        simp only [File.advance_rest, List.append_assoc, List.take_append_drop, File.advance_advance]
    · refine ⟨min 8192 f.rest.length, ?_, ?_⟩
      · exact got_last 8192 f.rest.length K _ (by decide) hfit
      · rw [limited_full (by simp only [hlen]; omega)]
        have : (w.out ++ f.rest.take 8192).take K = (w.out ++ f.rest).take K := by
          refine (take_of_prefix ⟨f.rest.drop 8192, by rw [List.append_assoc, List.take_append_drop]⟩ ?_).symm
          rw [List.length_append, hlen]; omega
        simp only [this]

theorem writeBodyVia_file (put : Put) (w : World) (hcls : w.rcd.cls = .warc) (hhas : hasCfile w.rcd = true) :
    writeBodyVia put CRLF w = ((put w.rcd.version >>= fun _ => put CRLF >>= fun _ => writeHeadersVia put CRLF true w.rcd.headers >>= fun _ => put CRLF) >>= fun _ =>
      (copyLoopVia put (cfileRemaining w + 2) >>= fun _ => (put CRLF >>= fun _ => put CRLF))) w := by
  simp only [writeBodyVia, hcls, hhas, if_true, writeFileVia, bind_assoc']

/-- a record that has just been read, written to a device that becomes full on the way -/
theorem writeToVia_stream (K n : Nat) (w : World) (hw : w.out.length ≤ K) (hcls : w.rcd.cls = .warc) (hcf : w.rcd.cfile = .stream)
    (hv : w.rcd.cfileValid = true) (he : w.strm.eoc = some (n : Int)) (hok : n ≤ w.strm.fh.rest.length)
    (hK : K < w.out.length + (recordBytes w.rcd.version w.rcd.headers (w.strm.fh.rest.take n)).length) :
    ∃ got, got = lost (K - w.out.length) (headBytes w.rcd.version w.rcd.headers).length n ∧
      writeToVia (limited K) CRLF w = .raise .osError { w with
        out := (w.out ++ recordBytes w.rcd.version w.rcd.headers (w.strm.fh.rest.take n)).take K
        strm := { w.strm.adv got with eoc := some ((n - got : Nat) : Int) } } := by
  have hhas : hasCfile w.rcd = true := by simp [hasCfile, hcf]
  have hrem : cfileRemaining w = w.strm.fh.rest.length := by simp [cfileRemaining, hcf]
  have hraw : writeToVia (limited K) CRLF w = (match writeBodyVia (limited K) CRLF w with
      | .ok () w' => .ok () (if hasCfile w'.rcd then { w' with rcd := { w'.rcd with cfileValid := false } } else w')
      | .raise e w' => .raise e w'
      | .hang => .hang) := by
    simp only [writeToVia, hcf, hhas, hv, Bool.not_true, Bool.and_false, Bool.false_eq_true, if_false]
    rfl
  generalize hp : w.strm.fh.rest.take n = payload at *
  have hpl : payload.length = n := by rw [← hp, List.length_take]; omega
  have hhead : Puts K w.rcd (limited K w.rcd.version >>= fun _ => limited K CRLF >>= fun _ => writeHeadersVia (limited K) CRLF true w.rcd.headers >>= fun _ =>
      limited K CRLF) (headBytes w.rcd.version w.rcd.headers) := by
    have := (Puts.put (r := w.rcd) K w.rcd.version).seq ((Puts.put K CRLF).seq ((Puts.headers_file K w.rcd.headers).seq (Puts.put K CRLF)))
    have e : headBytes w.rcd.version w.rcd.headers = w.rcd.version ++ (CRLF ++ (w.rcd.headers.flatMap headerLine ++ CRLF)) := by simp [headBytes]
    rw [e]; exact this
  have htail : Puts K w.rcd (limited K CRLF >>= fun _ => limited K CRLF) (CRLF ++ CRLF) := (Puts.put K CRLF).seq (Puts.put K CRLF)
  generalize hH : headBytes w.rcd.version w.rcd.headers = head at *
  have hrb : recordBytes w.rcd.version w.rcd.headers payload = head ++ payload ++ (CRLF ++ CRLF) := by simp [recordBytes, hH]
  rw [hrb] at hK ⊢
  rw [hraw, writeBodyVia_file _ w hcls hhas, hrem]
  generalize (limited K w.rcd.version >>= fun _ => limited K CRLF >>= fun _ => writeHeadersVia (limited K) CRLF true w.rcd.headers >>= fun _ =>
      limited K CRLF) = hprog at hhead ⊢
  generalize (limited K CRLF >>= fun _ => limited K CRLF) = tprog at htail ⊢
  simp only [M.bind_apply, hhead w rfl hw]
  by_cases h1 : K < w.out.length + head.length
  · refine ⟨0, by simp only [lost]; rw [if_pos (by omega)], ?_⟩
    rw [limited_full h1]
    have e1 : (w.out ++ (head ++ payload ++ (CRLF ++ CRLF))).take K = (w.out ++ head).take K :=
      take_of_prefix ⟨payload ++ (CRLF ++ CRLF), by simp⟩ (by rw [List.length_append]; omega)
    have e2 : ({ w.strm.adv 0 with eoc := some ((n - 0 : Nat) : Int) } : Stream) = w.strm := by
      obtain ⟨⟨fh, eoc, kind, parser⟩, rcd, out⟩ := w
      simp at he; subst he; simp
    rw [e1, e2]
  · have hfit : w.out.length + head.length ≤ K := by omega
    rw [limited_ok hfit]
    simp only
    generalize hw1 : ({ w with out := w.out ++ head } : World) = w1
    have h1out : w1.out = w.out ++ head := by rw [← hw1]
    have h1rcd : w1.rcd = w.rcd := by rw [← hw1]
    have h1strm : w1.strm = w.strm := by rw [← hw1]
    by_cases h2 : K < w1.out.length + n
    · obtain ⟨got, hg, hr⟩ := copyLoopVia_full (w.strm.fh.rest.length + 2) n K w1 (by rw [h1rcd]; exact hcf) (by rw [h1strm]; exact he) (by rw [h1strm]; exact hok)
        (by rw [h1out, List.length_append]; exact hfit) h2 (by omega)
      refine ⟨got, ?_, ?_⟩
      · rw [hg, h1out, List.length_append]
        simp only [lost]
        rw [if_neg (by omega), Nat.sub_sub]
      · rw [hr]
        have e1 : (w.out ++ (head ++ payload ++ (CRLF ++ CRLF))).take K = (w1.out ++ w1.strm.fh.rest.take n).take K := by
          rw [h1strm, hp, h1out]
          refine take_of_prefix ⟨CRLF ++ CRLF, by simp⟩ ?_
          rw [h1out] at h2
          rw [List.length_append, hpl]; omega
        simp only [e1, h1rcd, h1strm]
    · have hc := copyLoop_stream (w.strm.fh.rest.length + 2) n w1 (by rw [h1rcd]; exact hcf) (by rw [h1strm]; exact he) (by rw [h1strm]; exact Or.inl hok) (by rw [h1strm]; omega)
      rw [← copyLoopVia_write, h1strm, hp, hpl] at hc
      have h1l : w1.out.length = w.out.length + head.length := by rw [h1out, List.length_append]
      have hq := (Lim.copyLoop K _ w1 _ _ hc).2.2.1 (by simp only [List.length_append, hpl]; omega)
      rw [hq]
      simp only
      rw [htail _ (by exact h1rcd) (by simp only [List.length_append, hpl]; omega)]
      rw [limited_full (by
        simp only [List.length_append, hpl] at hK ⊢; omega)]
      refine ⟨n, ?_, ?_⟩
      · simp only [lost]
        rw [if_neg (by omega)]
        have : n ≤ 8192 * ((K - w.out.length - head.length) / 8192 + 1) := by
          have := Nat.lt_mul_div_succ (K - w.out.length - head.length) (show 0 < 8192 by decide)
          omega
        omega
      · simp only [h1rcd, h1out, Nat.sub_self, List.append_assoc]

/-- a record with a content file, written to a device that becomes full on the way -/
theorem writeToVia_file (K : Nat) (w : World) (f : File) (hf : f.fault = none) (hw : w.out.length ≤ K) (hcls : w.rcd.cls = .warc) (hcf : w.rcd.cfile = .file f)
    (hv : w.rcd.cfileValid = true)
    (hK : K < w.out.length + (recordBytes w.rcd.version w.rcd.headers (f.rest)).length) :
    ∃ got, got = lost (K - w.out.length) (headBytes w.rcd.version w.rcd.headers).length f.rest.length ∧
      writeToVia (limited K) CRLF w = .raise .osError { w with
        out := (w.out ++ recordBytes w.rcd.version w.rcd.headers (f.rest)).take K
        rcd := { w.rcd with cfile := .file (f.advance got) } } := by
  have hhas : hasCfile w.rcd = true := by simp [hasCfile, hcf]
  have hrem : cfileRemaining w = f.rest.length := by simp [cfileRemaining, hcf]
  have hraw : writeToVia (limited K) CRLF w = (match writeBodyVia (limited K) CRLF w with
      | .ok () w' => .ok () (if hasCfile w'.rcd then { w' with rcd := { w'.rcd with cfileValid := false } } else w')
      | .raise e w' => .raise e w'
      | .hang => .hang) := by
    simp only [writeToVia, hcf, hhas, hv, Bool.not_true, Bool.and_false, Bool.false_eq_true, if_false]
    rfl
  generalize hp : f.rest = payload at *
  have hhead : Puts K w.rcd (limited K w.rcd.version >>= fun _ => limited K CRLF >>= fun _ => writeHeadersVia (limited K) CRLF true w.rcd.headers >>= fun _ =>
      limited K CRLF) (headBytes w.rcd.version w.rcd.headers) := by
    have := (Puts.put (r := w.rcd) K w.rcd.version).seq ((Puts.put K CRLF).seq ((Puts.headers_file K w.rcd.headers).seq (Puts.put K CRLF)))
    have e : headBytes w.rcd.version w.rcd.headers = w.rcd.version ++ (CRLF ++ (w.rcd.headers.flatMap headerLine ++ CRLF)) := by simp [headBytes]
    rw [e]; exact this
  generalize hH : headBytes w.rcd.version w.rcd.headers = head at *
  have hrb : recordBytes w.rcd.version w.rcd.headers payload = head ++ payload ++ (CRLF ++ CRLF) := by simp [recordBytes, hH]
  rw [hrb] at hK ⊢
  rw [hraw, writeBodyVia_file _ w hcls hhas, hrem]
  generalize (limited K w.rcd.version >>= fun _ => limited K CRLF >>= fun _ => writeHeadersVia (limited K) CRLF true w.rcd.headers >>= fun _ =>
      limited K CRLF) = hprog at hhead ⊢
  have htail' : ∀ w' : World, w'.out.length ≤ K → (limited K CRLF >>= fun _ => limited K CRLF) w' = limited K (CRLF ++ CRLF) w' := fun w' h =>
    ((Puts.put (r := w'.rcd) K CRLF).seq (Puts.put K CRLF)) w' rfl h
  generalize (limited K CRLF >>= fun _ => limited K CRLF) = tprog at htail' ⊢
  simp only [M.bind_apply, hhead w rfl hw]
  by_cases h1 : K < w.out.length + head.length
  · refine ⟨0, by simp only [lost]; rw [if_pos (by omega)], ?_⟩
    rw [limited_full h1]
    have e1 : (w.out ++ (head ++ payload ++ (CRLF ++ CRLF))).take K = (w.out ++ head).take K :=
      take_of_prefix ⟨payload ++ (CRLF ++ CRLF), by simp⟩ (by rw [List.length_append]; omega)
    have e2 : ({ w.rcd with cfile := .file (f.advance 0) } : Rec) = w.rcd := by
      have : f.advance 0 = f := by simp
      rw [this, ← hcf]
    rw [e1, e2]
  · have hfit : w.out.length + head.length ≤ K := by omega
    rw [limited_ok hfit]
    simp only
    generalize hw1 : ({ w with out := w.out ++ head } : World) = w1
    have h1out : w1.out = w.out ++ head := by rw [← hw1]
    have h1rcd : w1.rcd = w.rcd := by rw [← hw1]
    have h1strm : w1.strm = w.strm := by rw [← hw1]
    by_cases h2 : K < w1.out.length + payload.length
    · obtain ⟨got, hg, hr⟩ := copyLoopVia_full_file (payload.length + 2) K f w1 hf (by rw [h1rcd]; exact hcf)
        (by rw [h1out, List.length_append]; exact hfit) (by rw [hp]; exact h2) (by rw [hp]; omega)
      rw [hp] at hg
      refine ⟨got, ?_, ?_⟩
      · rw [hg, h1out, List.length_append]
        simp only [lost]
        rw [if_neg (by omega), Nat.sub_sub]
      · rw [hr]
        have e1 : (w.out ++ (head ++ payload ++ (CRLF ++ CRLF))).take K = (w1.out ++ f.rest).take K := by
          rw [hp, h1out]
          refine take_of_prefix ⟨CRLF ++ CRLF, by simp⟩ ?_
          rw [h1out] at h2
          rw [List.length_append]; omega
        simp only [e1, h1rcd, h1strm]
    · have hc := copyLoop_file (payload.length + 2) f hf w1 (by rw [h1rcd]; exact hcf) (by rw [hp]; omega)
      rw [← copyLoopVia_write, hp] at hc
      have h1l : w1.out.length = w.out.length + head.length := by rw [h1out, List.length_append]
      have hq := (Lim.copyLoop K _ w1 _ _ hc).2.2.1 (by simp only [List.length_append]; omega)
      rw [hq]
      simp only
      rw [htail' _ (by simp only [List.length_append]; omega)]
      rw [limited_full (by
        simp only [List.length_append] at hK ⊢; omega)]
      refine ⟨payload.length, ?_, ?_⟩
      · simp only [lost]
        rw [if_neg (by omega)]
        have : payload.length ≤ 8192 * ((K - w.out.length - head.length) / 8192 + 1) := by
          have := Nat.lt_mul_div_succ (K - w.out.length - head.length) (show 0 < 8192 by decide)
          omega
        omega
      · simp only [h1rcd, h1out, h1strm, List.append_assoc]

end World
end Warc
