import Verif.Spec.Dates
/-
  C52: dates in WARC format, and their relation to the dates of ARC files.
-/
set_option linter.all false
namespace Warc

theorem daysInMonth_le (y m : Nat) : daysInMonth y m ≤ 31 := by
  unfold daysInMonth
  split
  · split <;> omega
  · split <;> omega

theorem fixed_length (w n : Nat) : (fixed w n).length = w := by
  induction w generalizing n with
  | zero => rfl
  | succ w ih => simp [fixed, ih]

theorem digitByte_toNat (n : Nat) : (digitByte n).toNat = 48 + n % 10 := by
  simp only [digitByte, UInt8.toNat_ofNat']
  omega

theorem fixed_no_dot (w n : Nat) : ∀ c ∈ fixed w n, (c ≠ 46) := by
  induction w generalizing n with
  | zero => simp [fixed]
  | succ w ih =>
    intro c hc
    rcases List.mem_append.1 hc with h | h
    · exact ih _ c h
    · have : c = digitByte n := by simpa using h
      rintro rfl
      have := congrArg UInt8.toNat this
      rw [digitByte_toNat] at this
      change 46 = _ at this
      omega

theorem takeWhile_stop (p : Byte → Bool) (a b : Bytes) (h : ∀ c ∈ a, p c = true) (hb : b = [] ∨ ∃ x t, b = x :: t ∧ p x = false) :
    (a ++ b).takeWhile p = a := by
  induction a with
  | nil =>
    rcases hb with rfl | ⟨x, t, rfl, hx⟩
    · rfl
    · simp [hx]
  | cons y a ih =>
    rw [List.cons_append, List.takeWhile_cons, if_pos (h y (by simp)), ih (fun c hc => h c (by simp [hc]))]

/-- the part of the text before fractions and offset -/
def isoSeconds (d : DateTime) : Bytes :=
  fixed 4 d.year ++ b! "-" ++ fixed 2 d.month ++ b! "-" ++ fixed 2 d.day ++ b! "T" ++
  fixed 2 d.hour ++ b! ":" ++ fixed 2 d.minute ++ b! ":" ++ fixed 2 d.second

theorem isoSeconds_no_dot (d : DateTime) : ∀ c ∈ isoSeconds d, c ≠ 46 := by
  intro c hc
  simp only [isoSeconds, List.mem_append, List.mem_singleton] at hc
  rcases hc with ((((((((((h | h) | h) | h) | h) | h) | h) | h) | h) | h) | h)
  all_goals first | exact fixed_no_dot _ _ c h | (rw [h]; decide)

theorem fixed_eq2 (n : Nat) (h : n < 100) : fixed 2 n = twoDigits n := by
  have : n / 10 % 10 = n / 10 := by omega
  simp [fixed, digitByte, this, twoDigits, digitOf]

theorem fixed_eq4 (n : Nat) (h : n < 10000) : fixed 4 n = fourDigits n := by
  have h1 : n / 10 / 10 = n / 100 := by omega
  have h2 : n / 100 / 10 % 10 = n / 1000 := by omega
  have h3 : n / 100 / 10 = n / 1000 := by omega
  have h6 : n / 1000 % 10 = n / 1000 := by omega
  have h4 : n % 100 / 10 = n / 10 % 10 := by omega
  have h5 : n % 100 % 10 = n % 10 := by omega
  simp [fixed, digitByte, h1, h2, h3, h4, h5, h6, fourDigits, twoDigits, digitOf]

theorem stamp_eq (d : DateTime) (hv : d.Valid) :
    isoSeconds d ++ b! "Z" = warcStamp d.year d.month d.day d.hour d.minute d.second := by
  have h1 := hv.year; have h2 := hv.month; have h3 := hv.day; have h4 := hv.hour; have h5 := hv.minute; have h6 := hv.second
  have h7 : daysInMonth d.year d.month ≤ 31 := daysInMonth_le _ _
  simp only [isoSeconds, warcStamp]
  rw [fixed_eq4 _ (by omega), fixed_eq2 d.month (by omega), fixed_eq2 d.day (by omega), fixed_eq2 d.hour (by omega),
    fixed_eq2 d.minute (by omega), fixed_eq2 d.second (by omega)]

theorem str_of (d : DateTime) (X Y : Bytes) (h : d.isoformat = X ++ Y) (hX : ∀ c ∈ X, c ≠ 46) (hY : Y = [] ∨ ∃ t, Y = 46 :: t) :
    warcDatetimeStr d = X ++ b! "Z" := by
  rw [warcDatetimeStr, h, takeWhile_stop _ X Y (fun c hc => by simpa using hX c hc)]
  rcases hY with h | ⟨t, h⟩
  · exact Or.inl h
  · exact Or.inr ⟨46, t, h, by decide⟩

/-- **C52** For every naive `datetime` the result is `YYYY-MM-DDThh:mm:ssZ` with its fields; fractions of a second
are dropped (not rounded). -/
theorem C52_format (d : DateTime) (hv : d.Valid) (hn : d.offset = none) :
    warcDatetimeStr d = warcStamp d.year d.month d.day d.hour d.minute d.second := by
  rw [← stamp_eq d hv]
  apply str_of d (isoSeconds d) (if d.micro = 0 then [] else 46 :: fixed 6 d.micro) _ (isoSeconds_no_dot d)
  · by_cases h : d.micro = 0
    · exact Or.inl (by simp [h])
    · exact Or.inr ⟨_, by rw [if_neg h]⟩
  · simp only [DateTime.isoformat, hn, isoSeconds, List.append_nil]
    rfl

theorem str_aware (d : DateTime) (hv : d.Valid) (z : Int) (hz : d.offset = some z) :
    (d.micro = 0 → warcDatetimeStr d = isoSeconds d ++ offsetSuffix z ++ b! "Z") ∧
    (d.micro ≠ 0 → warcDatetimeStr d = warcStamp d.year d.month d.day d.hour d.minute d.second) := by
  constructor
  · intro h
    apply str_of d (isoSeconds d ++ offsetSuffix z) [] _ _ (Or.inl rfl)
    · simp only [DateTime.isoformat, hz, isoSeconds, h, if_true, List.append_nil]
    · intro c hc
      rcases List.mem_append.1 hc with hc | hc
      · exact isoSeconds_no_dot d c hc
      · simp only [offsetSuffix, List.mem_append] at hc
        rcases hc with (((hc | hc) | hc) | hc) | hc
        · split at hc <;> (have := List.mem_singleton.1 hc; rw [this]; decide)
        · exact fixed_no_dot _ _ c hc
        · have := List.mem_singleton.1 hc; rw [this]; decide
        · exact fixed_no_dot _ _ c hc
        · split at hc
          · cases hc
          · rcases List.mem_append.1 hc with hc | hc
            · have := List.mem_singleton.1 hc; rw [this]; decide
            · exact fixed_no_dot _ _ c hc
  · intro h
    rw [← stamp_eq d hv]
    apply str_of d (isoSeconds d) (46 :: (fixed 6 d.micro ++ offsetSuffix z)) _ (isoSeconds_no_dot d) (Or.inr ⟨_, rfl⟩)
    simp only [DateTime.isoformat, hz, isoSeconds, h, if_false, List.append_assoc]
    rfl

theorem offsetSuffix_text (behind : Bool) (h m s : Nat) (hh : h < 24) (hm : m < 60) (hs : s < 60) (hz : behind = true → h + m + s ≠ 0) :
    offsetSuffix (if behind then -((3600 * h + 60 * m + s : Nat) : Int) else ((3600 * h + 60 * m + s : Nat) : Int)) = utcOffset behind h m s := by
  have ha : (if behind then -((3600 * h + 60 * m + s : Nat) : Int) else ((3600 * h + 60 * m + s : Nat) : Int)).natAbs = 3600 * h + 60 * m + s := by
    cases behind <;> simp only [Bool.false_eq_true, if_false, if_true] <;> omega
  have hn : (if behind then -((3600 * h + 60 * m + s : Nat) : Int) else ((3600 * h + 60 * m + s : Nat) : Int)) < 0 ↔ behind = true := by
    cases behind with
    | false => simp only [Bool.false_eq_true, if_false, iff_false]; omega
    | true =>
      have := hz rfl
      simp only [if_true, iff_true]; omega
  have e1 : (3600 * h + 60 * m + s) / 3600 = h := by omega
  have e2 : (3600 * h + 60 * m + s) / 60 % 60 = m := by omega
  have e3 : (3600 * h + 60 * m + s) % 60 = s := by omega
  simp only [offsetSuffix, ha, hn, e1, e2, e3, utcOffset, fixed_eq2 h (by omega), fixed_eq2 m (by omega), fixed_eq2 s (by omega)]

theorem local_eq (d : DateTime) (hv : d.Valid) : isoSeconds d = localStamp d.year d.month d.day d.hour d.minute d.second := by
  have h := stamp_eq d hv
  exact List.append_cancel_right h

/-- **C52** (defect) An aware `datetime`, `h:m:s` ahead of UTC or behind it, is not converted: without microseconds its offset stays in the text, before
the `Z`, and with microseconds the offset is dropped although the time is not in UTC. -/
theorem C52_aware (d : DateTime) (hv : d.Valid) (behind : Bool) (h m s : Nat) (hh : h < 24) (hm : m < 60) (hs : s < 60)
    (hn : behind = true → h + m + s ≠ 0)
    (hz : d.offset = some (if behind then -((3600 * h + 60 * m + s : Nat) : Int) else ((3600 * h + 60 * m + s : Nat) : Int))) :
    (d.micro = 0 → warcDatetimeStr d =
      localStamp d.year d.month d.day d.hour d.minute d.second ++ utcOffset behind h m s ++ b! "Z") ∧
    (d.micro ≠ 0 → warcDatetimeStr d = warcStamp d.year d.month d.day d.hour d.minute d.second) := by
  have := str_aware d hv _ hz
  rw [offsetSuffix_text behind h m s hh hm hs hn, local_eq d hv] at this
  exact this

/-! ### order -/

/-- earlier in time, to the second -/
def EarlierSecond (d e : DateTime) : Prop :=
  d.year < e.year ∨ d.year = e.year ∧ (d.month < e.month ∨ d.month = e.month ∧ (d.day < e.day ∨ d.day = e.day ∧
    (d.hour < e.hour ∨ d.hour = e.hour ∧ (d.minute < e.minute ∨ d.minute = e.minute ∧ d.second < e.second))))

theorem lt_append_iff (a b x y : Bytes) (h : a.length = b.length) : a ++ x < b ++ y ↔ a < b ∨ a = b ∧ x < y := by
  induction a generalizing b with
  | nil =>
    cases b with
    | nil => simp
    | cons _ _ => simp at h
  | cons c a ih =>
    cases b with
    | nil => simp at h
    | cons d b =>
      simp only [List.cons_append, List.cons_lt_cons_iff, List.cons.injEq]
      rw [ih b (by simpa using h)]
      constructor
      · rintro (h | ⟨h1, h2 | ⟨h2, h3⟩⟩)
        · exact Or.inl (Or.inl h)
        · exact Or.inl (Or.inr ⟨h1, h2⟩)
        · exact Or.inr ⟨⟨h1, h2⟩, h3⟩
      · rintro ((h | ⟨h1, h2⟩) | ⟨⟨h1, h2⟩, h3⟩)
        · exact Or.inl h
        · exact Or.inr ⟨h1, Or.inl h2⟩
        · exact Or.inr ⟨h1, Or.inr ⟨h2, h3⟩⟩

theorem fixed_inj (w m n : Nat) (hm : m < 10 ^ w) (hn : n < 10 ^ w) (h : fixed w m = fixed w n) : m = n := by
  induction w generalizing m n with
  | zero => simp at hm hn; omega
  | succ w ih =>
    obtain ⟨h1, h2⟩ := List.append_inj h (by simp [fixed_length])
    have := ih (m / 10) (n / 10) (by rw [Nat.pow_succ] at hm; omega) (by rw [Nat.pow_succ] at hn; omega) h1
    have h3 := congrArg UInt8.toNat (List.cons.inj h2).1
    rw [digitByte_toNat, digitByte_toNat] at h3
    omega

theorem fixed_lt (w m n : Nat) (hm : m < 10 ^ w) (hn : n < 10 ^ w) : fixed w m < fixed w n ↔ m < n := by
  induction w generalizing m n with
  | zero => simp at hm hn; subst hm hn; simp [fixed]
  | succ w ih =>
    have hm' : m / 10 < 10 ^ w := by rw [Nat.pow_succ] at hm; omega
    have hn' : n / 10 < 10 ^ w := by rw [Nat.pow_succ] at hn; omega
    rw [fixed, fixed, lt_append_iff _ _ _ _ (by simp [fixed_length]), ih _ _ hm' hn']
    have h1 : fixed w (m / 10) = fixed w (n / 10) ↔ m / 10 = n / 10 := ⟨fixed_inj w _ _ hm' hn', fun h => by rw [h]⟩
    have h2 : [digitByte m] < [digitByte n] ↔ m % 10 < n % 10 := by
      simp only [List.cons_lt_cons_iff, List.not_lt_nil, and_false, or_false]
      rw [UInt8.lt_iff_toNat_lt, digitByte_toNat, digitByte_toNat]
      omega
    rw [h1, h2]
    omega

theorem lt_same (a x y : Bytes) : a ++ x < a ++ y ↔ x < y := by
  rw [lt_append_iff a a x y rfl]
  simp [List.lt_irrefl]

theorem field_lt (w m n : Nat) (hm : m < 10 ^ w) (hn : n < 10 ^ w) (x y : Bytes) :
    fixed w m ++ x < fixed w n ++ y ↔ m < n ∨ m = n ∧ x < y := by
  rw [lt_append_iff _ _ _ _ (by simp [fixed_length]), fixed_lt w m n hm hn]
  have h1 : fixed w m = fixed w n ↔ m = n := ⟨fixed_inj w _ _ hm hn, fun h => by rw [h]⟩
  rw [h1]

theorem str_eq (d : DateTime) (hv : d.Valid) (hn : d.offset = none) : warcDatetimeStr d = isoSeconds d ++ b! "Z" := by
  rw [C52_format d hv hn, stamp_eq d hv]

/-- **C52** The texts are ordered, as bytes, like the times they stand for. -/
theorem C52_ordered (d e : DateTime) (hd : d.Valid) (he : e.Valid) (hnd : d.offset = none) (hne : e.offset = none) :
    warcDatetimeStr d < warcDatetimeStr e ↔ EarlierSecond d e := by
  rw [str_eq d hd hnd, str_eq e he hne]
  simp only [isoSeconds, List.append_assoc]
  have d1 := hd.year; have d2 := hd.month; have d3 := hd.day; have d4 := hd.hour; have d5 := hd.minute; have d6 := hd.second
  have e1 := he.year; have e2 := he.month; have e3 := he.day; have e4 := he.hour; have e5 := he.minute; have e6 := he.second
  have d7 : daysInMonth d.year d.month ≤ 31 := daysInMonth_le _ _
  have e7 : daysInMonth e.year e.month ≤ 31 := daysInMonth_le _ _
  rw [field_lt 4 _ _ (by omega) (by omega), lt_same, field_lt 2 _ _ (by omega) (by omega), lt_same,
    field_lt 2 _ _ (by omega) (by omega), lt_same, field_lt 2 _ _ (by omega) (by omega), lt_same,
    field_lt 2 _ _ (by omega) (by omega), lt_same, field_lt 2 _ _ (by omega) (by omega)]
  have : ¬ (b! "Z" : Bytes) < b! "Z" := List.lt_irrefl _
  simp only [this, and_false, or_false, EarlierSecond]

/-- **C52** Two times get the same text only if they agree to the second. -/
theorem C52_injective (d e : DateTime) (hd : d.Valid) (he : e.Valid) (hnd : d.offset = none) (hne : e.offset = none)
    (h : warcDatetimeStr d = warcDatetimeStr e) :
    d.year = e.year ∧ d.month = e.month ∧ d.day = e.day ∧ d.hour = e.hour ∧ d.minute = e.minute ∧ d.second = e.second := by
  have h1 : ¬ EarlierSecond d e := by rw [← C52_ordered d e hd he hnd hne, h]; exact List.lt_irrefl _
  have h2 : ¬ EarlierSecond e d := by rw [← C52_ordered e d he hd hne hnd, h]; exact List.lt_irrefl _
  unfold EarlierSecond at h1 h2
  omega

example : warcDatetimeStr ⟨2012, 2, 29, 23, 59, 9, 999999, none⟩ = b! "2012-02-29T23:59:09Z" := by decide
example : DateTime.Valid ⟨2012, 2, 29, 23, 59, 9, 999999, none⟩ := by decide
example : ¬ DateTime.Valid ⟨2013, 2, 29, 23, 59, 9, 0, none⟩ := by decide
/-- ten past one in Paris becomes ten past one UTC, with or without a trace of the offset -/
example : warcDatetimeStr ⟨2012, 1, 1, 1, 10, 0, 0, some 3600⟩ = b! "2012-01-01T01:10:00+01:00Z" ∧
    warcDatetimeStr ⟨2012, 1, 1, 1, 10, 0, 5, some 3600⟩ = b! "2012-01-01T01:10:00Z" := by decide

example : warcDatetimeStr ⟨2012, 1, 1, 1, 10, 0, 0, some (-12600)⟩ = b! "2012-01-01T01:10:00-03:30Z" :=
  (C52_aware ⟨2012, 1, 1, 1, 10, 0, 0, some (-12600)⟩ (by decide) true 3 30 0 (by decide) (by decide) (by decide) (by decide) rfl).1 rfl

/-! ### the dates of ARC files -/

def arcFixed (y mo d h mi s : Nat) : Bytes := fixed 4 y ++ fixed 2 mo ++ fixed 2 d ++ fixed 2 h ++ fixed 2 mi ++ fixed 2 s

namespace Strptime

theorem dig_digit (n : Nat) : dig (digitByte n) = some (n % 10) := by
  have h := digitByte_toNat n
  have h1 : isDigit (digitByte n) = true := by
    simp only [isDigit, Bool.and_eq_true, decide_eq_true_eq, UInt8.le_iff_toNat_le]
    rw [h]
    change 48 ≤ _ ∧ _ ≤ 57
    omega
  rw [dig, if_pos h1, h]
  congr 1
  omega

theorem two_fixed (ok : Nat → Nat → Bool) (n : Nat) (h : n < 100) (rest : Bytes) :
    two ok (fixed 2 n ++ rest) = if ok (n / 10) (n % 10) then [(n, rest)] else [] := by
  have h1 : n / 10 % 10 = n / 10 := by omega
  have h2 : 10 * (n / 10) + n % 10 = n := by omega
  show two ok (digitByte (n / 10) :: digitByte n :: rest) = _
  simp only [two, dig_digit, h1, h2]

theorem year_fixed (n : Nat) (h : n < 10000) (rest : Bytes) : year (fixed 4 n ++ rest) = [(n, rest)] := by
  show year (digitByte (n / 10 / 10 / 10) :: digitByte (n / 10 / 10) :: digitByte (n / 10) :: digitByte n :: rest) = _
  simp only [year, dig_digit]
  have : 1000 * (n / 10 / 10 / 10 % 10) + 100 * (n / 10 / 10 % 10) + 10 * (n / 10 % 10) + n % 10 = n := by omega
  rw [this]

theorem month_fixed (n : Nat) (h : 1 ≤ n ∧ n ≤ 12) (rest : Bytes) : ∃ t, month (fixed 2 n ++ rest) = (n, rest) :: t := by
  simp only [month, alt, List.flatMap_cons]
  rw [two_fixed _ n (by omega), two_fixed _ n (by omega)]
  by_cases h1 : n < 10
  · rw [if_neg (by simp; omega), if_pos (by simp; omega)]; exact ⟨_, rfl⟩
  · rw [if_pos (by simp; omega)]; exact ⟨_, rfl⟩

theorem day_fixed (n : Nat) (h : 1 ≤ n ∧ n ≤ 31) (rest : Bytes) : ∃ t, day (fixed 2 n ++ rest) = (n, rest) :: t := by
  simp only [day, alt, List.flatMap_cons]
  rw [two_fixed _ n (by omega), two_fixed _ n (by omega), two_fixed _ n (by omega)]
  by_cases h1 : n < 10
  · rw [if_neg (by simp; omega), if_neg (by simp; omega), if_pos (by simp; omega)]; exact ⟨_, rfl⟩
  · by_cases h2 : n < 30
    · rw [if_neg (by simp; omega), if_pos (by simp; omega)]; exact ⟨_, rfl⟩
    · rw [if_pos (by simp; omega)]; exact ⟨_, rfl⟩

theorem hour_fixed (n : Nat) (h : n < 24) (rest : Bytes) : ∃ t, hour (fixed 2 n ++ rest) = (n, rest) :: t := by
  simp only [hour, alt, List.flatMap_cons]
  rw [two_fixed _ n (by omega), two_fixed _ n (by omega)]
  by_cases h1 : n < 20
  · rw [if_neg (by simp; omega), if_pos (by simp; omega)]; exact ⟨_, rfl⟩
  · rw [if_pos (by simp; omega)]; exact ⟨_, rfl⟩

theorem minute_fixed (n : Nat) (h : n < 60) (rest : Bytes) : ∃ t, minute (fixed 2 n ++ rest) = (n, rest) :: t := by
  simp only [minute, alt, List.flatMap_cons]
  rw [two_fixed _ n (by omega), if_pos (by simp; omega)]
  exact ⟨_, rfl⟩

theorem second_fixed (n : Nat) (h : n < 60) (rest : Bytes) : ∃ t, second (fixed 2 n ++ rest) = (n, rest) :: t := by
  simp only [second, alt, List.flatMap_cons]
  rw [two_fixed _ n (by omega), two_fixed _ n (by omega), if_neg (by simp; omega), if_pos (by simp; omega)]
  exact ⟨_, rfl⟩

theorem pieces_step (p : P) (ps : List P) (s : Bytes) (n : Nat) (rest : Bytes) (ns : List Nat) (r : Bytes)
    (h1 : ∃ t, p s = (n, rest) :: t) (h2 : ∃ t, pieces ps rest = (ns, r) :: t) :
    ∃ t, pieces (p :: ps) s = (n :: ns, r) :: t := by
  obtain ⟨t1, h1⟩ := h1
  obtain ⟨t2, h2⟩ := h2
  simp only [pieces, h1, List.flatMap_cons, h2, List.map_cons, List.cons_append]
  exact ⟨_, rfl⟩

/-- a piece that takes at least one byte -/
def Takes (p : P) : Prop := ∀ s, ∀ m ∈ p s, m.2.length < s.length

theorem one_takes (ok : Nat → Bool) : Takes (one ok) := by
  intro s m hm
  cases s with
  | nil => cases hm
  | cons a rest =>
    simp only [one] at hm
    cases ha : dig a with
    | none => simp [ha] at hm
    | some x =>
      simp only [ha] at hm
      split at hm
      · rw [List.mem_singleton.1 hm]; simp
      · cases hm

theorem two_takes (ok : Nat → Nat → Bool) : Takes (two ok) := by
  intro s m hm
  rcases s with _ | ⟨a, _ | ⟨b, rest⟩⟩
  · cases hm
  · cases hm
  · simp only [two] at hm
    cases ha : dig a with
    | none => simp [ha] at hm
    | some x =>
      cases hb : dig b with
      | none => simp [ha, hb] at hm
      | some y =>
        simp only [ha, hb] at hm
        split at hm
        · rw [List.mem_singleton.1 hm]; simp; omega
        · cases hm

theorem alt_takes (ps : List P) (h : ∀ p ∈ ps, Takes p) : Takes (alt ps) := by
  intro s m hm
  obtain ⟨p, hp, hm⟩ := List.mem_flatMap.1 hm
  exact h p hp s m hm

theorem pieces_takes (ps : List P) (h : ∀ p ∈ ps, Takes p) (s : Bytes) : ∀ m ∈ pieces ps s, m.2.length + ps.length ≤ s.length := by
  induction ps generalizing s with
  | nil => intro m hm; rw [List.mem_singleton.1 hm]; simp
  | cons p ps ih =>
    intro m hm
    obtain ⟨q, hq, hm⟩ := List.mem_flatMap.1 hm
    obtain ⟨r, hr, rfl⟩ := List.mem_map.1 hm
    have h1 := h p (by simp) s q hq
    have h2 := ih (fun x hx => h x (by simp [hx])) q.2 r hr
    simp only [List.length_cons]
    omega

theorem month_takes : Takes month := alt_takes _ (by
  intro p hp
  simp at hp
  rcases hp with rfl | rfl | rfl
  · exact two_takes _
  · exact two_takes _
  · exact one_takes _)

theorem day_takes : Takes day := alt_takes _ (by
  intro p hp
  simp only [List.mem_cons, List.not_mem_nil, or_false] at hp
  rcases hp with rfl | rfl | rfl | rfl | rfl
  · exact two_takes _
  · exact two_takes _
  · exact two_takes _
  · exact one_takes _
  · intro s m hm
    cases s with
    | nil => cases hm
    | cons a rest =>
      simp only at hm
      split at hm
      · rename_i r he
        have := one_takes _ _ m hm
        cases he
        simp; omega
      · cases hm)

theorem hour_takes : Takes hour := alt_takes _ (by
  intro p hp
  simp at hp
  rcases hp with rfl | rfl | rfl
  · exact two_takes _
  · exact two_takes _
  · exact one_takes _)

theorem minute_takes : Takes minute := alt_takes _ (by
  intro p hp
  simp at hp
  rcases hp with rfl | rfl
  · exact two_takes _
  · exact one_takes _)

theorem second_takes : Takes second := alt_takes _ (by
  intro p hp
  simp at hp
  rcases hp with rfl | rfl | rfl
  · exact two_takes _
  · exact two_takes _
  · exact one_takes _)

end Strptime
open Strptime

theorem from_fixed (d : DateTime) (hv : d.Valid) :
    ∃ e, Strptime.full (arcFixed d.year d.month d.day d.hour d.minute d.second) = .ok e ∧
      warcDatetimeStr e = warcStamp d.year d.month d.day d.hour d.minute d.second := by
  have h1 := hv.year; have h2 := hv.month; have h3 := hv.day; have h4 := hv.hour; have h5 := hv.minute; have h6 := hv.second
  have h7 : daysInMonth d.year d.month ≤ 31 := daysInMonth_le _ _
  obtain ⟨t, ht⟩ := pieces_step year [month, day, hour, minute, second]
    (arcFixed d.year d.month d.day d.hour d.minute d.second) d.year
    (fixed 2 d.month ++ (fixed 2 d.day ++ (fixed 2 d.hour ++ (fixed 2 d.minute ++ (fixed 2 d.second ++ [])))))
    [d.month, d.day, d.hour, d.minute, d.second] []
    ⟨[], by rw [← year_fixed d.year (by omega)]; simp [arcFixed]⟩
    (pieces_step _ _ _ _ _ _ _ (month_fixed _ h2 _) (pieces_step _ _ _ _ _ _ _ (day_fixed _ (by omega) _)
      (pieces_step _ _ _ _ _ _ _ (hour_fixed _ h4 _) (pieces_step _ _ _ _ _ _ _ (minute_fixed _ h5 _)
        (pieces_step _ _ _ _ _ _ _ (second_fixed _ h6 _) ⟨[], rfl⟩)))))
  have hval : DateTime.Valid ⟨d.year, d.month, d.day, d.hour, d.minute, d.second, 0, none⟩ :=
    ⟨h1, h2, h3, h4, h5, h6, by show 0 < 1000000; omega, by intro z hz; cases hz⟩
  refine ⟨⟨d.year, d.month, d.day, d.hour, d.minute, d.second, 0, none⟩, ?_, C52_format _ hval rfl⟩
  simp only [Strptime.full, fullMatch, ht, construct, hval, if_true]

theorem from_fixed_short (d : DateTime) (hv : d.Valid) :
    Strptime.full (fixed 4 d.year ++ fixed 2 d.month ++ fixed 2 d.day) = .error .valueError ∧
    ∃ e, Strptime.short (fixed 4 d.year ++ fixed 2 d.month ++ fixed 2 d.day) = .ok e ∧
      warcDatetimeStr e = warcStamp d.year d.month d.day 0 0 0 := by
  have h1 := hv.year; have h2 := hv.month; have h3 := hv.day
  have h7 : daysInMonth d.year d.month ≤ 31 := daysInMonth_le _ _
  obtain ⟨t, ht⟩ := pieces_step year [month, day]
    (fixed 4 d.year ++ fixed 2 d.month ++ fixed 2 d.day) d.year
    (fixed 2 d.month ++ (fixed 2 d.day ++ []))
    [d.month, d.day] []
    ⟨[], by rw [← year_fixed d.year (by omega)]; simp⟩
    (pieces_step _ _ _ _ _ _ _ (month_fixed _ h2 _) (pieces_step _ _ _ _ _ _ _ (day_fixed _ (by omega) _) ⟨[], rfl⟩))
  have hval : DateTime.Valid ⟨d.year, d.month, d.day, 0, 0, 0, 0, none⟩ :=
    ⟨h1, h2, h3, by show 0 < 24; omega, by show 0 < 60; omega, by show 0 < 60; omega, by show 0 < 1000000; omega, by intro z hz; cases hz⟩
  refine ⟨?_, ⟨d.year, d.month, d.day, 0, 0, 0, 0, none⟩, ?_, C52_format _ hval rfl⟩
  · have hp : pieces [year, month, day, hour, minute, second] (fixed 4 d.year ++ fixed 2 d.month ++ fixed 2 d.day) = [] := by
      rw [pieces, List.append_assoc, year_fixed d.year (by omega)]
      have hnil : pieces [month, day, hour, minute, second] (fixed 2 d.month ++ fixed 2 d.day) = [] := by
        cases hc : pieces [month, day, hour, minute, second] (fixed 2 d.month ++ fixed 2 d.day) with
        | nil => rfl
        | cons m t =>
          have := pieces_takes [month, day, hour, minute, second] (by
            intro p hp
            simp only [List.mem_cons, List.not_mem_nil, or_false] at hp
            rcases hp with rfl | rfl | rfl | rfl | rfl
            · exact month_takes
            · exact day_takes
            · exact hour_takes
            · exact minute_takes
            · exact second_takes) (fixed 2 d.month ++ fixed 2 d.day) m (by rw [hc]; simp)
          simp [fixed_length] at this
      simp [hnil]
    simp only [Strptime.full, fullMatch, hp]
  · simp only [Strptime.short, fullMatch, ht, construct, hval, if_true]

theorem minutes_fixed (d : DateTime) (hv : d.Valid) :
    Strptime.full (fixed 4 d.year ++ fixed 2 d.month ++ fixed 2 d.day ++ fixed 2 d.hour ++ fixed 2 d.minute) =
      .ok ⟨d.year, d.month, d.day, d.hour, d.minute / 10, d.minute % 10, 0, none⟩ := by
  have h1 := hv.year; have h2 := hv.month; have h3 := hv.day; have h4 := hv.hour; have h5 := hv.minute
  have h7 : daysInMonth d.year d.month ≤ 31 := daysInMonth_le _ _
  have hms : ∃ t, pieces [minute, second] (fixed 2 d.minute) = ([d.minute / 10, d.minute % 10], []) :: t := by
    have e1 : d.minute / 10 % 10 = d.minute / 10 := by omega
    have hf : fixed 2 d.minute = [digitByte (d.minute / 10), digitByte d.minute] := rfl
    have hm : minute (fixed 2 d.minute) = [(d.minute, []), (d.minute / 10, [digitByte d.minute])] := by
      have := two_fixed (fun x _ => decide (x ≤ 5)) d.minute (by omega) []
      rw [List.append_nil, if_pos (by simp; omega)] at this
      simp only [minute, alt, List.flatMap_cons, this]
      rw [hf]
      simp only [one, dig_digit, e1, if_true, List.flatMap_nil, List.append_nil, List.cons_append, List.nil_append]
    refine ⟨[], ?_⟩
    rw [pieces, hm]
    simp only [List.flatMap_cons, pieces, second, alt, two, one, dig_digit, List.flatMap_nil, List.append_nil,
      List.nil_append, List.map_nil, if_true, List.map_cons]
  obtain ⟨t, ht⟩ := pieces_step year [month, day, hour, minute, second]
    (fixed 4 d.year ++ fixed 2 d.month ++ fixed 2 d.day ++ fixed 2 d.hour ++ fixed 2 d.minute) d.year
    (fixed 2 d.month ++ (fixed 2 d.day ++ (fixed 2 d.hour ++ fixed 2 d.minute)))
    [d.month, d.day, d.hour, d.minute / 10, d.minute % 10] []
    ⟨[], by rw [← year_fixed d.year (by omega)]; simp⟩
    (pieces_step _ _ _ _ _ _ _ (month_fixed _ h2 _) (pieces_step _ _ _ _ _ _ _ (day_fixed _ (by omega) _)
      (pieces_step _ _ _ _ _ _ _ (hour_fixed _ h4 _) hms)))
  have hval : DateTime.Valid ⟨d.year, d.month, d.day, d.hour, d.minute / 10, d.minute % 10, 0, none⟩ :=
    ⟨h1, h2, h3, h4, by show d.minute / 10 < 60; omega, by show d.minute % 10 < 60; omega, by show 0 < 1000000; omega,
      by intro z hz; cases hz⟩
  simp only [Strptime.full, fullMatch, ht, construct, hval, if_true]

theorem day_fixed_eq (d : DateTime) (hv : d.Valid) :
    fixed 4 d.year ++ fixed 2 d.month ++ fixed 2 d.day = arcDay d.year d.month d.day := by
  have h1 := hv.year; have h2 := hv.month; have h3 := hv.day
  have h7 : daysInMonth d.year d.month ≤ 31 := daysInMonth_le _ _
  rw [fixed_eq4 _ (by omega), fixed_eq2 _ (by omega), fixed_eq2 _ (by omega), arcDay]

/-- **C52** Reading the 14 digits of an ARC date and writing them in WARC format gives the same date and time. -/
theorem C52_from_arc (d : DateTime) (hv : d.Valid) :
    ∃ e, Strptime.full (arcStamp d.year d.month d.day d.hour d.minute d.second) = .ok e ∧
      warcDatetimeStr e = warcStamp d.year d.month d.day d.hour d.minute d.second := by
  have h4 := hv.hour; have h5 := hv.minute; have h6 := hv.second
  have := from_fixed d hv
  rwa [arcFixed, day_fixed_eq d hv, fixed_eq2 _ (by omega), fixed_eq2 _ (by omega), fixed_eq2 _ (by omega)] at this

theorem dayExists_iff (y mo d : Nat) : DayExists y mo d ↔ 1 ≤ y ∧ (1 ≤ mo ∧ mo ≤ 12) ∧ 1 ≤ d ∧ d ≤ daysInMonth y mo := by
  have hl : isLeap y = true ↔ GregorianLeap y := by
    simp only [isLeap, GregorianLeap, Bool.and_eq_true, Bool.or_eq_true, bne_iff_ne, beq_iff_eq, Nat.dvd_iff_mod_eq_zero]
    omega
  simp only [DayExists, List.mem_cons, List.not_mem_nil, or_false, daysInMonth]
  by_cases hm : mo = 2
  · by_cases hy : isLeap y = true
    · have := hl.1 hy
      rw [if_pos hm, if_pos hy]
      simp only [hm, iff_true_intro this, and_true, true_and]; omega
    · have : ¬ GregorianLeap y := fun h => hy (hl.2 h)
      rw [if_pos hm, if_neg hy]
      simp only [hm, iff_false_intro this, and_false, or_false, true_and]; omega
  · rw [if_neg hm]
    by_cases hm4 : mo = 4 ∨ mo = 6 ∨ mo = 9 ∨ mo = 11
    · rw [if_pos hm4]; omega
    · rw [if_neg hm4]; omega

/-- **C52** Fourteen digits with a month from 1 to 12, a day from 1 to 31 and a time of day are accepted exactly if there is such
a day in the (proleptic) Gregorian calendar, from the year 1 on; otherwise ValueError is raised. -/
theorem C52_calendar (y mo d h mi s : Nat) (hy : y < 10000) (hmo : 1 ≤ mo ∧ mo ≤ 12) (hd : 1 ≤ d ∧ d ≤ 31) (hh : h < 24)
    (hmi : mi < 60) (hs : s < 60) :
    (DayExists y mo d → Strptime.full (arcStamp y mo d h mi s) = .ok ⟨y, mo, d, h, mi, s, 0, none⟩) ∧
    (¬ DayExists y mo d → Strptime.full (arcStamp y mo d h mi s) = .error .valueError) := by
  have he : arcStamp y mo d h mi s = arcFixed y mo d h mi s := by
    rw [arcFixed, fixed_eq4 _ (by omega), fixed_eq2 _ (by omega), fixed_eq2 _ (by omega), fixed_eq2 _ (by omega),
      fixed_eq2 _ (by omega), fixed_eq2 _ (by omega), arcStamp, arcDay]
  obtain ⟨t, ht⟩ := pieces_step year [month, day, hour, minute, second]
    (arcFixed y mo d h mi s) y
    (fixed 2 mo ++ (fixed 2 d ++ (fixed 2 h ++ (fixed 2 mi ++ (fixed 2 s ++ [])))))
    [mo, d, h, mi, s] []
    ⟨[], by rw [← year_fixed y (by omega)]; simp [arcFixed]⟩
    (pieces_step _ _ _ _ _ _ _ (month_fixed _ hmo _) (pieces_step _ _ _ _ _ _ _ (day_fixed _ hd _)
      (pieces_step _ _ _ _ _ _ _ (hour_fixed _ hh _) (pieces_step _ _ _ _ _ _ _ (minute_fixed _ hmi _)
        (pieces_step _ _ _ _ _ _ _ (second_fixed _ hs _) ⟨[], rfl⟩)))))
  rw [he]
  constructor
  · intro hx
    obtain ⟨g1, g2, g3⟩ := (dayExists_iff y mo d).1 hx
    have hval : DateTime.Valid ⟨y, mo, d, h, mi, s, 0, none⟩ :=
      ⟨⟨g1, by show y ≤ 9999; omega⟩, g2, g3, hh, hmi, hs, by show 0 < 1000000; omega, by intro z hz; cases hz⟩
    simp only [Strptime.full, fullMatch, ht, construct, hval, if_true]
  · intro hx
    have hval : ¬ DateTime.Valid ⟨y, mo, d, h, mi, s, 0, none⟩ := fun hv =>
      hx ((dayExists_iff y mo d).2 ⟨hv.year.1, hv.month, hv.day⟩)
    simp only [Strptime.full, fullMatch, ht, construct, hval, if_false]

/-- there was no 29 February 1900, but one in 2000 -/
example : Strptime.full (arcStamp 1900 2 29 0 0 0) = .error .valueError :=
  (C52_calendar 1900 2 29 0 0 0 (by decide) (by decide) (by decide) (by decide) (by decide) (by decide)).2
    (by simp [DayExists, GregorianLeap])
example : Strptime.full (arcStamp 2000 2 29 0 0 0) = .ok ⟨2000, 2, 29, 0, 0, 0, 0, none⟩ :=
  (C52_calendar 2000 2 29 0 0 0 (by decide) (by decide) (by decide) (by decide) (by decide) (by decide)).1
    (by simp [DayExists, GregorianLeap])

/-- **C52** The same for the 8 digits of an ARC date without time, which is taken as midnight; the format with
time is tried first and refuses them. -/
theorem C52_from_arc_short (d : DateTime) (hv : d.Valid) :
    Strptime.full (arcDay d.year d.month d.day) = .error .valueError ∧
    ∃ e, Strptime.short (arcDay d.year d.month d.day) = .ok e ∧
      warcDatetimeStr e = warcStamp d.year d.month d.day 0 0 0 := by
  have := from_fixed_short d hv
  rwa [day_fixed_eq d hv] at this

/-- **C52** (defect) A date with 12 digits, `YYYYMMDDhhmm`, is accepted by the format with seconds, and misread: the
first digit of the minute is taken for the minute and the second digit for the seconds. -/
theorem C52_minutes_misread (d : DateTime) (hv : d.Valid) :
    Strptime.full (arcDay d.year d.month d.day ++ twoDigits d.hour ++ twoDigits d.minute) =
      .ok ⟨d.year, d.month, d.day, d.hour, d.minute / 10, d.minute % 10, 0, none⟩ := by
  have h4 := hv.hour; have h5 := hv.minute
  have := minutes_fixed d hv
  rwa [day_fixed_eq d hv, fixed_eq2 _ (by omega), fixed_eq2 _ (by omega)] at this

/-- half past three in the afternoon becomes three past three -/
example : Strptime.full (b! "201212311530") = .ok ⟨2012, 12, 31, 15, 3, 0, 0, none⟩ := by rfl
/-- and with ten digits even the day changes -/
example : Strptime.full (b! "2012123115") = .ok ⟨2012, 12, 3, 1, 1, 5, 0, none⟩ := by rfl
example : Strptime.full (b! "20120229235909") = .ok ⟨2012, 2, 29, 23, 59, 9, 0, none⟩ := by rfl
example : Strptime.full (b! "20120230235909") = .error .valueError := by rfl

/-! ### everything that is accepted -/

namespace Strptime

/-- what a piece takes off the text is as `Q` says -/
def Reads (p : P) (Q : Bytes → Nat → Prop) : Prop := ∀ s, ∀ m ∈ p s, ∃ t, s = t ++ m.2 ∧ Q t m.1

theorem dig_some {a : Byte} {x : Nat} (h : dig a = some x) : (48 ≤ a ∧ a ≤ 57) ∧ a.toNat - 48 = x := by
  simp only [dig] at h
  split at h
  · rename_i hd
    simp only [isDigit, Bool.and_eq_true, decide_eq_true_eq] at hd
    exact ⟨hd, by simpa using h⟩
  · cases h

theorem one_reads (ok : Nat → Bool) : Reads (one ok) (fun t n => Digits 1 t n ∧ ok n = true) := by
  intro s m hm
  cases s with
  | nil => cases hm
  | cons a rest =>
    simp only [one] at hm
    cases ha : dig a with
    | none => simp [ha] at hm
    | some x =>
      simp only [ha] at hm
      split at hm
      · rename_i hok
        rw [List.mem_singleton.1 hm]
        obtain ⟨h1, h2⟩ := dig_some ha
        exact ⟨[a], rfl, ⟨rfl, by simpa using h1, by simpa using h2⟩, hok⟩
      · cases hm

theorem two_reads (ok : Nat → Nat → Bool) : Reads (two ok) (fun t n => Digits 2 t n ∧ ok (n / 10) (n % 10) = true) := by
  intro s m hm
  rcases s with _ | ⟨a, _ | ⟨b, rest⟩⟩
  · cases hm
  · cases hm
  · simp only [two] at hm
    cases ha : dig a with
    | none => simp [ha] at hm
    | some x =>
      cases hb : dig b with
      | none => simp [ha, hb] at hm
      | some y =>
        simp only [ha, hb] at hm
        split at hm
        · rename_i hok
          rw [List.mem_singleton.1 hm]
          obtain ⟨h1, h2⟩ := dig_some ha
          obtain ⟨h3, h4⟩ := dig_some hb
          have hy : y ≤ 9 := by have := UInt8.le_iff_toNat_le.1 h3.2; simp at this; omega
          refine ⟨[a, b], rfl, ⟨rfl, ?_, ?_⟩, ?_⟩
          · intro c hc; simp at hc; rcases hc with rfl | rfl <;> assumption
          · simp [h2, h4]
          · simp only
            rw [show (10 * x + y) / 10 = x by omega, show (10 * x + y) % 10 = y by omega]; exact hok
        · cases hm

theorem alt_reads (ps : List P) (Q : Bytes → Nat → Prop) (h : ∀ p ∈ ps, Reads p Q) : Reads (alt ps) Q := by
  intro s m hm
  obtain ⟨p, hp, hm⟩ := List.mem_flatMap.1 hm
  exact h p hp s m hm

theorem Reads.imp {p : P} {Q Q' : Bytes → Nat → Prop} (h : Reads p Q) (hq : ∀ t n, Q t n → Q' t n) : Reads p Q' := by
  intro s m hm
  obtain ⟨t, h1, h2⟩ := h s m hm
  exact ⟨t, h1, hq _ _ h2⟩

theorem year_reads : Reads year (Digits 4) := by
  intro s m hm
  rcases s with _ | ⟨a, _ | ⟨b, _ | ⟨c, _ | ⟨d, rest⟩⟩⟩⟩ <;> try cases hm
  simp only [year] at hm
  cases ha : dig a with
  | none => simp [ha] at hm
  | some w =>
    cases hb : dig b with
    | none => simp [ha, hb] at hm
    | some x =>
      cases hc : dig c with
      | none => simp [ha, hb, hc] at hm
      | some y =>
        cases hd : dig d with
        | none => simp [ha, hb, hc, hd] at hm
        | some z =>
          simp only [ha, hb, hc, hd] at hm
          rw [List.mem_singleton.1 hm]
          obtain ⟨a1, a2⟩ := dig_some ha
          obtain ⟨b1, b2⟩ := dig_some hb
          obtain ⟨c1, c2⟩ := dig_some hc
          obtain ⟨d1, d2⟩ := dig_some hd
          refine ⟨[a, b, c, d], rfl, rfl, ?_, ?_⟩
          · intro x hx; simp at hx; rcases hx with rfl | rfl | rfl | rfl <;> assumption
          · simp [a2, b2, c2, d2]; omega

theorem month_reads : Reads month Field := alt_reads _ _ (by
  intro p hp
  simp only [List.mem_cons, List.not_mem_nil, or_false] at hp
  rcases hp with rfl | rfl | rfl
  · exact (two_reads _).imp fun _ _ h => Or.inr h.1
  · exact (two_reads _).imp fun _ _ h => Or.inr h.1
  · exact (one_reads _).imp fun _ _ h => Or.inl h.1)

theorem hour_reads : Reads hour Field := alt_reads _ _ (by
  intro p hp
  simp only [List.mem_cons, List.not_mem_nil, or_false] at hp
  rcases hp with rfl | rfl | rfl
  · exact (two_reads _).imp fun _ _ h => Or.inr h.1
  · exact (two_reads _).imp fun _ _ h => Or.inr h.1
  · exact (one_reads _).imp fun _ _ h => Or.inl h.1)

theorem second_reads : Reads second Field := alt_reads _ _ (by
  intro p hp
  simp only [List.mem_cons, List.not_mem_nil, or_false] at hp
  rcases hp with rfl | rfl | rfl
  · exact (two_reads _).imp fun _ _ h => Or.inr h.1
  · exact (two_reads _).imp fun _ _ h => Or.inr h.1
  · exact (one_reads _).imp fun _ _ h => Or.inl h.1)

theorem minute_reads : Reads minute Field := alt_reads _ _ (by
  intro p hp
  simp only [List.mem_cons, List.not_mem_nil, or_false] at hp
  rcases hp with rfl | rfl
  · exact (two_reads _).imp fun _ _ h => Or.inr h.1
  · exact (one_reads _).imp fun _ _ h => Or.inl h.1)

theorem day_reads : Reads day (fun t n => Field t n ∨ ∃ u, t = 32 :: u ∧ Digits 1 u n) := alt_reads _ _ (by
  intro p hp
  simp only [List.mem_cons, List.not_mem_nil, or_false] at hp
  rcases hp with rfl | rfl | rfl | rfl | rfl
  · exact (two_reads _).imp fun _ _ h => Or.inl (Or.inr h.1)
  · exact (two_reads _).imp fun _ _ h => Or.inl (Or.inr h.1)
  · exact (two_reads _).imp fun _ _ h => Or.inl (Or.inr h.1)
  · exact (one_reads _).imp fun _ _ h => Or.inl (Or.inl h.1)
  · intro s m hm
    dsimp only at hm
    split at hm
    · rename_i rest
      obtain ⟨t, h1, h2⟩ := one_reads _ rest m hm
      exact ⟨32 :: t, by rw [h1]; rfl, Or.inr ⟨t, rfl, h2.1⟩⟩
    · cases hm)

theorem pieces_cons_mem {p : P} {ps : List P} {Q : Bytes → Nat → Prop} (hp : Reads p Q) {s rest : Bytes} {n : Nat} {ns : List Nat}
    (h : (n :: ns, rest) ∈ pieces (p :: ps) s) : ∃ t u, s = t ++ u ∧ Q t n ∧ (ns, rest) ∈ pieces ps u := by
  obtain ⟨q, hq, hm⟩ := List.mem_flatMap.1 h
  obtain ⟨r, hr, he⟩ := List.mem_map.1 hm
  simp only [Prod.mk.injEq, List.cons.injEq] at he
  obtain ⟨⟨h1, h2⟩, h3⟩ := he
  obtain ⟨t, h4, h5⟩ := hp s q hq
  refine ⟨t, q.2, h4, h1 ▸ h5, ?_⟩
  rw [← h2, ← h3]; exact hr

theorem fullMatch_mem {ps : List P} {s : Bytes} {ns : List Nat} (h : fullMatch ps s = some ns) : (ns, []) ∈ pieces ps s := by
  simp only [fullMatch] at h
  split at h
  · rename_i ms heq
    cases h
    rw [heq]; simp
  · cases h

end Strptime

open Strptime in
/-- **C52** Nothing else is accepted: the text is, from its first to its last byte, four digits for the year and one or two digits for each of the
other fields (a space and one digit for the day), the fields of the result are these numbers, and the result is a time of a
day that exists. -/
theorem C52_accepts_only (s : Bytes) (t : DateTime) (h : Strptime.full s = .ok t) :
    (∃ y mo d ho mi se, s = y ++ mo ++ d ++ ho ++ mi ++ se ∧ Digits 4 y t.year ∧ Field mo t.month ∧
      (Field d t.day ∨ ∃ u, d = 32 :: u ∧ Digits 1 u t.day) ∧ Field ho t.hour ∧ Field mi t.minute ∧ Field se t.second) ∧
    DayExists t.year t.month t.day ∧ t.hour < 24 ∧ t.minute < 60 ∧ t.second < 60 ∧ t.micro = 0 ∧ t.offset = none := by
  simp only [Strptime.full] at h
  split at h
  · rename_i y mo d ho mi se hm
    simp only [construct] at h
    split at h
    · rename_i hv
      obtain rfl := Except.ok.inj h
      have h0 := fullMatch_mem hm
      obtain ⟨t1, u1, e1, q1, h1⟩ := pieces_cons_mem year_reads h0
      obtain ⟨t2, u2, e2, q2, h2⟩ := pieces_cons_mem month_reads h1
      obtain ⟨t3, u3, e3, q3, h3⟩ := pieces_cons_mem day_reads h2
      obtain ⟨t4, u4, e4, q4, h4⟩ := pieces_cons_mem hour_reads h3
      obtain ⟨t5, u5, e5, q5, h5⟩ := pieces_cons_mem minute_reads h4
      obtain ⟨t6, u6, e6, q6, h6⟩ := pieces_cons_mem second_reads h5
      simp only [pieces, List.mem_singleton, Prod.mk.injEq, true_and] at h6
      refine ⟨⟨t1, t2, t3, t4, t5, t6, ?_, q1, q2, q3, q4, q5, q6⟩, ?_, hv.hour, hv.minute, hv.second, rfl, rfl⟩
      · rw [e1, e2, e3, e4, e5, e6, ← h6]; simp
      · exact (dayExists_iff _ _ _).2 ⟨hv.year.1, hv.month, hv.day⟩
    · cases h
  · cases h

open Strptime in
/-- **C52** The same for the format without time of day. -/
theorem C52_accepts_only_short (s : Bytes) (t : DateTime) (h : Strptime.short s = .ok t) :
    (∃ y mo d, s = y ++ mo ++ d ∧ Digits 4 y t.year ∧ Field mo t.month ∧ (Field d t.day ∨ ∃ u, d = 32 :: u ∧ Digits 1 u t.day)) ∧
    DayExists t.year t.month t.day ∧ t.hour = 0 ∧ t.minute = 0 ∧ t.second = 0 ∧ t.micro = 0 ∧ t.offset = none := by
  simp only [Strptime.short] at h
  split at h
  · rename_i y mo d hm
    simp only [construct] at h
    split at h
    · rename_i hv
      obtain rfl := Except.ok.inj h
      have h0 := fullMatch_mem hm
      obtain ⟨t1, u1, e1, q1, h1⟩ := pieces_cons_mem year_reads h0
      obtain ⟨t2, u2, e2, q2, h2⟩ := pieces_cons_mem month_reads h1
      obtain ⟨t3, u3, e3, q3, h3⟩ := pieces_cons_mem day_reads h2
      simp only [pieces, List.mem_singleton, Prod.mk.injEq, true_and] at h3
      refine ⟨⟨t1, t2, t3, ?_, q1, q2, q3⟩, ?_, rfl, rfl, rfl, rfl, rfl⟩
      · rw [e1, e2, e3, ← h3]; simp
      · exact (dayExists_iff _ _ _).2 ⟨hv.year.1, hv.month, hv.day⟩
    · cases h
  · cases h

example : Strptime.short (b! "2012011") = .ok ⟨2012, 1, 1, 0, 0, 0, 0, none⟩ := by rfl
example : Strptime.full (b! "201211 3141516") = .ok ⟨2012, 11, 3, 14, 15, 16, 0, none⟩ := by rfl
/-- seconds go to 61 in the format, but not in a `datetime`; more digits are refused -/
example : Strptime.full (b! "20121103141560") = .error .valueError ∧ Strptime.full (b! "201211031415161") = .error .valueError := ⟨rfl, rfl⟩

end Warc
