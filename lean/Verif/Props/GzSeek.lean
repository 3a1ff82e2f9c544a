import Verif.Spec.GzSeek
import Verif.Props.Dump
import Verif.Props.Stale
/-
  C74: seeking in compressed archives.
-/
set_option linter.all false
namespace Warc
open Rx Stream Spec

/-- reading records one by one from a file that starts with well-formed records, whatever follows them -/
theorem collect_prefix (offs : Bool) (fuel : Nat) (s : Stream) (T X : Bytes) (rs : List RT) (hk : s.kind = .gzipRecord) (he : s.eoc = none)
    (hT : Terminator T) (hok : OkT rs) (hp : s.parser = .warc) (hr : s.fh.rest = T ++ (archiveT rs ++ X)) :
    collect offs (fuel + rs.length) s =
      let q := collect offs fuel (s.adv (T.length + (archiveT rs).length))
      { q with records := noted rs ++ q.records } := by
  induction rs generalizing s T with
  | nil =>
    have h0 := readRecord_terminator offs T X s he hT (by rw [hr]; simp [archiveT])
    rw [collect_congr offs _ s (s.adv T.length) h0]
    simp [noted, archiveT]
  | cons r rs ih =>
    obtain ⟨hr1, hr2⟩ := hok r (by simp)
    have hne : s.kind ≠ .gzipFile := by rw [hk]; decide
    have hA : archiveT (r :: rs) = r.1.core ++ r.2 ++ archiveT rs := by simp [archiveT]
    have hhead := readRecord_head offs T r.1.version r.1.headers (r.1.body ++ (r.2 ++ (archiveT rs ++ X))) s hne he hT hr1.version hr1.headers (.inl hp)
      (by rw [hr, hA]; simp [R.core])
    rw [hr1.length] at hhead
    have hrest : (s.adv (T.length + (headBytes r.1.version r.1.headers).length)).fh.rest = r.1.body ++ (r.2 ++ (archiveT rs ++ X)) := by
      rw [adv_fh, File.advance_rest, hr, hA]
      have : T ++ (r.1.core ++ r.2 ++ archiveT rs ++ X) = (T ++ headBytes r.1.version r.1.headers) ++ (r.1.body ++ (r.2 ++ (archiveT rs ++ X))) := by simp [R.core]
      rw [this, ← List.length_append, List.drop_left]
    have hfu : fuel + (r :: rs).length = (fuel + rs.length) + 1 := by simp; omega
    rw [hfu, collect_step offs (fuel + rs.length) s _ _ _ r.1.body r.2 (archiveT rs ++ X) hhead rfl rfl rfl hr2 hrest]
    have e : { ({ s.adv (T.length + (headBytes r.1.version r.1.headers).length) with eoc := some (r.1.body.length : Int) } : Stream).adv
        (r.1.body.length + r.2.length) with eoc := none } = s.adv (T.length + (r.1.core ++ r.2).length) := by
      obtain ⟨fh, eoc, kind, parser⟩ := s
      simp at he; subst he
      simp only [adv, R.core, List.length_append, File.advance_advance, Nat.add_assoc]
    rw [e]
    have := ih (s.adv (T.length + (r.1.core ++ r.2).length)) [] hk he ⟨by simp, .inl rfl⟩ (fun x hx => hok x (by simp [hx])) hp (by
      rw [adv_fh, File.advance_rest, hr, hA, List.nil_append]
      have : T ++ (r.1.core ++ r.2 ++ archiveT rs ++ X) = (T ++ (r.1.core ++ r.2)) ++ (archiveT rs ++ X) := by simp
      rw [this, ← List.length_append, List.drop_left])
    rw [this]
    have hkind : (reported s.kind offs (s.fh.pos + T.length)) = none := by rw [hk]; rfl
    simp only [hkind, parsed, noted, List.map_cons, List.cons_append, adv_adv, List.length_nil, Nat.zero_add, hA, List.length_append (as := r.1.core ++ r.2), Nat.add_assoc]
    rfl

/-- where a program stands that has read some records from the beginning of a file -/
theorem readSome_at (plan : List (List ReadOp)) (s : Stream) (T X : Bytes) (rs : List RT) (hk : s.kind = .gzipRecord) (he : s.eoc = none)
    (hT : Terminator T) (hok : OkT rs) (hp : s.parser = .warc) (hr : s.fh.rest = T ++ (archiveT rs ++ X)) (hl : plan.length = rs.length) (h0 : rs ≠ []) :
    ∃ s' unread T', readSome plan s = some s' ∧ s'.eoc = some ((unread : Bytes).length : Int) ∧ Terminator T' ∧ s'.fh.rest = unread ++ (T' ++ X) ∧
      s'.kind = .gzipRecord ∧ s'.parser = .warc ∧ s'.fh.data = s.fh.data ∧
      s'.fh.pos + (unread ++ T').length = s.fh.pos + (T.length + (archiveT rs).length) := by
  induction rs generalizing plan s T with
  | nil => exact absurd rfl h0
  | cons r rs ih =>
    cases plan with
    | nil => simp at hl
    | cons ops plan =>
      obtain ⟨hr1, hr2⟩ := hok r (by simp)
      have hne : s.kind ≠ .gzipFile := by rw [hk]; decide
      have hA : archiveT (r :: rs) = r.1.core ++ r.2 ++ archiveT rs := by simp [archiveT]
      have hhead := readRecord_head false T r.1.version r.1.headers (r.1.body ++ (r.2 ++ (archiveT rs ++ X))) s hne he hT hr1.version hr1.headers (.inl hp)
        (by rw [hr, hA]; simp [R.core])
      rw [hr1.length] at hhead
      have hrest : (s.adv (T.length + (headBytes r.1.version r.1.headers).length)).fh.rest = r.1.body ++ (r.2 ++ (archiveT rs ++ X)) := by
        rw [adv_fh, File.advance_rest, hr, hA]
        have : T ++ (r.1.core ++ r.2 ++ archiveT rs ++ X) = (T ++ headBytes r.1.version r.1.headers) ++ (r.1.body ++ (r.2 ++ (archiveT rs ++ X))) := by simp [R.core]
        rw [this, ← List.length_append, List.drop_left]
      generalize hs1 : ({ s.adv (T.length + (headBytes r.1.version r.1.headers).length) with eoc := some (r.1.body.length : Int) } : Stream) = s1 at hhead
      have hrest1 : s1.fh.rest = r.1.body ++ (r.2 ++ (archiveT rs ++ X)) := by rw [← hs1]; exact hrest
      have hops := runOps_ok ops s1 r.1.body.length (by rw [← hs1]) (.inl (by rw [hrest1]; simp))
      have htk : s1.fh.rest.take r.1.body.length = r.1.body := by rw [hrest1]; simp
      rw [htk] at hops
      have hle : (results ops r.1.body).flatten.length ≤ r.1.body.length := by
        have := congrArg List.length (leftover_suffix ops r.1.body)
        simp only [List.length_append] at this
        omega
      generalize hm : (results ops r.1.body).flatten.length = m at hops hle
      have hrest2 : (s1.adv m).fh.rest = r.1.body.drop m ++ (r.2 ++ (archiveT rs ++ X)) := by
        rw [adv_fh, File.advance_rest, hrest1, List.drop_append_of_le_length hle]
      have hpos1 : s1.fh.pos = s.fh.pos + (T.length + (headBytes r.1.version r.1.headers).length) := by rw [← hs1]; rfl
      have hdl : (r.1.body.drop m).length = r.1.body.length - m := by simp
      have hread : readSome (ops :: plan) s = readSome plan { s1.adv m with eoc := some ((r.1.body.length - m : Nat) : Int) } := by
        simp only [readSome, hhead, hops]
      cases rs with
      | nil =>
        have hpl : plan = [] := by simpa using hl
        subst hpl
        refine ⟨{ s1.adv m with eoc := some ((r.1.body.length - m : Nat) : Int) }, r.1.body.drop m, r.2, by rw [hread]; rfl, ?_, hr2, ?_, ?_, ?_, ?_, ?_⟩
        · rw [hdl]
        · have := hrest2; simp only [archiveT, List.flatMap_nil, List.nil_append] at this; exact this
        · rw [← hs1]; exact hk
        · rw [← hs1]; exact hp
        · rw [← hs1]; rfl
        · show s1.fh.pos + m + _ = _
          rw [hpos1, hA]; simp [R.core, archiveT]; omega
      | cons r2 rs =>
        cases plan with
        | nil => simp at hl
        | cons ops2 plan =>
          have hskip : readSome (ops2 :: plan) { s1.adv m with eoc := some ((r.1.body.length - m : Nat) : Int) } =
              readSome (ops2 :: plan) { s1.adv r.1.body.length with eoc := none } := by
            have := readRecord_skip false (r.1.body.length - m) { s1.adv m with eoc := some ((r.1.body.length - m : Nat) : Int) } rfl
              (by show _ ≤ (s1.adv m).fh.rest.length; rw [hrest2, List.length_append, hdl]; omega)
            have e : ({ ({ s1.adv m with eoc := some ((r.1.body.length - m : Nat) : Int) } : Stream).adv (r.1.body.length - m) with eoc := none } : Stream) =
                { s1.adv r.1.body.length with eoc := none } := by
              obtain ⟨fh, eoc, kind, parser⟩ := s1
              simp only [adv, File.advance_advance]
              rw [show m + (r.1.body.length - m) = r.1.body.length by omega]
            rw [e] at this
            simp only [readSome, this]
          obtain ⟨s', u, T', g1, g2, g3, g4, g5, g6, g7, g8⟩ := ih (ops2 :: plan) { s1.adv r.1.body.length with eoc := none } r.2 (by rw [← hs1]; exact hk) rfl hr2
            (fun x hx => hok x (by simp [hx])) (by rw [← hs1]; exact hp)
            (by show (s1.adv r.1.body.length).fh.rest = _; rw [adv_fh, File.advance_rest, hrest1, List.drop_left]) (by simpa using hl) (by simp)
          refine ⟨s', u, T', by rw [hread, hskip, g1], g2, g3, g4, g5, g6, ?_, ?_⟩
          · rw [g7, ← hs1]; rfl
          · rw [g8]; show s1.fh.pos + r.1.body.length + _ = _
            rw [hpos1, hA]; simp [R.core]; omega

/-- decompressing some members followed by something else -/
theorem dec_next (c : Codec) (hc : Codec.Next c) (hg : ∀ b, ∃ t, c.enc b = 0x1f :: 0x8b :: t) (ms : List Bytes) (x : Bytes) (hx : x.head? ≠ some 0) :
    c.dec (ms.flatMap c.enc ++ x) = (ms.flatten ++ (c.dec x).1, (c.dec x).2) := by
  induction ms with
  | nil => rfl
  | cons m ms ih =>
    rw [List.flatMap_cons, List.append_assoc, hc.next m _ ?_, ih]
    · simp
    · cases ms with
      | nil => exact hx
      | cons m2 ms =>
        obtain ⟨t, ht⟩ := hg m2
        rw [List.flatMap_cons, ht]; simp

theorem perRecord_flatten (rs : List RT) : (perRecord rs).flatten = archiveT rs := by
  simp [perRecord, archiveT, List.flatMap_def]

theorem gzArchive_append (c : Codec) (a b : List RT) : gzArchive c (a ++ b) = gzArchive c a ++ gzArchive c b := by
  simp [gzArchive, perRecord]

/-- a compressed archive, or a part of one from a member on, does not start with a zero byte -/
theorem gz_head (c : Codec) (hc : Codec.Laws c) (rs : List RT) (k : Nat) (y : Bytes) (hy : y.head? ≠ some 0) : ((gzArchive c rs).take k ++ y).head? ≠ some 0 := by
  cases rs with
  | nil => simpa [gzArchive, perRecord] using hy
  | cons r rs =>
    obtain ⟨t, ht⟩ := hc.magic (r.1.core ++ r.2)
    have : gzArchive c (r :: rs) = 0x1f :: 0x8b :: (t ++ gzArchive c rs) := by simp [gzArchive, perRecord, ht]
    rw [this]
    cases k with
    | zero => simpa using hy
    | succ k => simp

/-- reading to the end of a well-formed compressed archive -/
theorem collect_end (fuel : Nat) (s : Stream) (T : Bytes) (rs : List RT) (hk : s.kind = .gzipRecord) (he : s.eoc = none)
    (hT : Terminator T) (hok : OkT rs) (hp : s.parser = .warc) (hf : s.fh.fault = none) (hr : s.fh.rest = T ++ archiveT rs) (hfuel : rs.length < fuel) :
    collect false fuel s = ⟨noted rs, some ⟨none, none, []⟩, .done⟩ := by
  obtain ⟨n, rfl⟩ : ∃ n, fuel = n + 1 + rs.length := ⟨fuel - rs.length - 1, by omega⟩
  have hne : s.kind ≠ .gzipFile := by rw [hk]; decide
  rw [collect_prefix false (n + 1) s T [] rs hk he hT hok hp (by rw [hr]; simp)]
  have h1 := readRecord_eof false (s.adv (T.length + (archiveT rs).length)) hne he hf
    (by rw [adv_fh, File.advance_rest, hr, ← List.length_append, List.drop_length])
  have hrep : reported (s.adv (T.length + (archiveT rs).length)).kind false (s.adv (T.length + (archiveT rs).length)).fh.pos = none := by
    show reported s.kind false _ = none
    rw [hk]; rfl
  rw [hrep] at h1
  simp only [collect, h1, List.append_nil]

/-- **C74** Nothing has been read yet: after `seek` to the beginning of the record number `j` exactly the records from there on are read. -/
theorem C74_seek_fresh (c : Codec) (hc : Codec.Laws c) (rs : List RT) (hok : OkT rs) (j fuel : Nat) (hf : rs.length < fuel) :
    collect false fuel (GzStream.seek c (gzArchive c (rs.take j)).length (GzStream.openGz c (gzArchive c rs))).strm =
      ⟨noted (rs.drop j), some ⟨none, none, []⟩, .done⟩ := by
  have hdrop : (gzArchive c rs).drop (gzArchive c (rs.take j)).length = gzArchive c (rs.drop j) := by
    conv => lhs; rw [← List.take_append_drop j rs, gzArchive_append]
    simp only [List.take_append_drop]
    rw [List.drop_left]
  have hd := hc.members (perRecord (rs.drop j))
  rw [perRecord_flatten] at hd
  refine collect_end fuel _ [] (rs.drop j) rfl rfl ⟨by simp, .inl rfl⟩ (fun x hx => hok x (List.mem_of_mem_drop hx)) rfl ?_ ?_ (by simp; omega)
  · show (c.dec ([] ++ _)).2 = none
    simp only [GzStream.openGz, List.nil_append, hdrop]
    exact congrArg Prod.snd hd
  · show (c.dec ([] ++ (GzStream.openGz c (gzArchive c rs)).raw.drop _)).1.drop 0 = _
    simp only [GzStream.openGz, List.nil_append, hdrop, List.drop_zero]
    exact congrArg Prod.fst hd

/-- the state after some records, and after the `seek` -/
theorem seek_at (c : Codec) (hc : Codec.Laws c) (hn : Codec.Next c) (rs : List RT) (hok : OkT rs) (plan : List (List ReadOp)) (h1 : plan ≠ [])
    (m k j : Nat) (hi : plan.length ≤ m) (hm : m ≤ rs.length) (hk : (gzArchive c (rs.take m)).length ≤ k) :
    ∃ s' unread T' X, readSome plan (GzStream.openGz c (gzArchive c rs)).strm = some s' ∧
      ∃ t, (GzStream.seek c (gzArchive c (rs.take j)).length ((GzStream.openGz c (gzArchive c rs)).used k s')).strm = t ∧
      t.eoc = some ((unread : Bytes).length : Int) ∧ Terminator T' ∧ t.kind = .gzipRecord ∧ t.parser = .warc ∧
      t.fh.rest = unread ++ (T' ++ (archiveT ((rs.take m).drop plan.length) ++ X)) ∧
      X = (c.dec ((gzArchive c (rs.drop m)).take (k - (gzArchive c (rs.take m)).length) ++ gzArchive c (rs.drop j))).1 ∧
      t.fh.fault = (c.dec ((gzArchive c (rs.drop m)).take (k - (gzArchive c (rs.take m)).length) ++ gzArchive c (rs.drop j))).2 := by
  have hdrop : ∀ i, (gzArchive c rs).drop (gzArchive c (rs.take i)).length = gzArchive c (rs.drop i) := by
    intro i
    conv => lhs; rw [← List.take_append_drop i rs, gzArchive_append]
    simp only [List.take_append_drop]
    rw [List.drop_left]
  have hall := hc.members (perRecord rs)
  rw [perRecord_flatten] at hall
  have hsplit : rs = rs.take plan.length ++ rs.drop plan.length := (List.take_append_drop _ _).symm
  have hA : archiveT rs = archiveT (rs.take plan.length) ++ archiveT (rs.drop plan.length) := by
    conv => lhs; rw [hsplit]
    simp only [archiveT, List.flatMap_append]
  have hpl : plan.length ≤ rs.length := by omega
  have h0 : rs.take plan.length ≠ [] := by
    intro h
    have := congrArg List.length h
    rw [List.length_take, Nat.min_eq_left hpl] at this
    exact h1 (List.length_eq_zero_iff.1 this)
  obtain ⟨s', u, T', g1, g2, g3, g4, g5, g6, g7, g8⟩ := readSome_at plan (GzStream.openGz c (gzArchive c rs)).strm [] (archiveT (rs.drop plan.length)) (rs.take plan.length)
    rfl rfl ⟨by simp, .inl rfl⟩ (fun x hx => hok x (List.mem_of_mem_take hx)) rfl
    (by show (c.dec (List.drop 0 _)).1.drop 0 = _
        simp only [List.drop_zero, File.openFile]
        show (c.dec (gzArchive c rs)).1 = _
        rw [show c.dec (gzArchive c rs) = _ from hall, hA]; rfl) (by rw [List.length_take]; omega) h0
  -- the compressed bytes that were taken
  have htaken : (gzArchive c rs).take k = gzArchive c (rs.take m) ++ (gzArchive c (rs.drop m)).take (k - (gzArchive c (rs.take m)).length) := by
    conv => lhs; rw [← List.take_append_drop m rs, gzArchive_append]
    rw [List.take_append, List.take_of_length_le hk]
  have hdec := dec_next c hn hc.magic (perRecord (rs.take m)) ((gzArchive c (rs.drop m)).take (k - (gzArchive c (rs.take m)).length) ++ gzArchive c (rs.drop j))
    (gz_head c hc _ _ _ (by have := gz_head c hc (rs.drop j) (gzArchive c (rs.drop j)).length [] (by simp); simpa using this))
  rw [perRecord_flatten] at hdec
  have hraw : (GzStream.openGz c (gzArchive c rs)).taken ++ (((GzStream.openGz c (gzArchive c rs)).raw.drop 0).take k) ++ (gzArchive c rs).drop (gzArchive c (rs.take j)).length =
      (perRecord (rs.take m)).flatMap c.enc ++ ((gzArchive c (rs.drop m)).take (k - (gzArchive c (rs.take m)).length) ++ gzArchive c (rs.drop j)) := by
    rw [hdrop]
    simp only [GzStream.openGz, List.nil_append, List.drop_zero]
    rw [htaken]
    simp [gzArchive]
  have hAm : archiveT (rs.take m) = archiveT (rs.take plan.length) ++ archiveT ((rs.take m).drop plan.length) := by
    have : rs.take m = rs.take plan.length ++ (rs.take m).drop plan.length := by
      conv => lhs; rw [← List.take_append_drop plan.length (rs.take m)]
      rw [List.take_take, Nat.min_eq_left hi]
    conv => lhs; rw [this]
    simp [archiveT]
  refine ⟨s', u, T', _, g1, _, rfl, g2, g3, g5, g6, ?_, rfl, ?_⟩
  · show (c.dec ((GzStream.openGz c (gzArchive c rs)).taken ++ (((GzStream.openGz c (gzArchive c rs)).raw.drop 0).take k) ++ (gzArchive c rs).drop (gzArchive c (rs.take j)).length)).1.drop s'.fh.pos = _
    rw [hraw, hdec, hAm]
    have hp0 : (GzStream.openGz c (gzArchive c rs)).strm.fh.pos = 0 := rfl
    rw [hp0] at g8
    simp only [List.length_append, List.length_nil, Nat.zero_add] at g8
    have g4' : (archiveT (rs.take plan.length)).drop s'.fh.pos = u ++ T' := by
      have : s'.fh.data.drop s'.fh.pos = u ++ (T' ++ archiveT (rs.drop plan.length)) := g4
      rw [g7] at this
      have hd : (GzStream.openGz c (gzArchive c rs)).strm.fh.data = archiveT (rs.take plan.length) ++ archiveT (rs.drop plan.length) := by
        show (c.dec (List.drop 0 _)).1 = _
        simp only [List.drop_zero, File.openFile]
        rw [show c.dec (gzArchive c rs) = _ from hall, hA]
      rw [hd, List.drop_append_of_le_length (by omega), ← List.append_assoc] at this
      exact List.append_cancel_right this
    simp only [List.append_assoc]
    rw [List.drop_append_of_le_length (by omega), g4']
    simp
  · show (c.dec ((GzStream.openGz c (gzArchive c rs)).taken ++ (((GzStream.openGz c (gzArchive c rs)).raw.drop 0).take k) ++ (gzArchive c rs).drop (gzArchive c (rs.take j)).length)).2 = _
    rw [hraw, hdec]

/-- **C74** After at least one record was read (and whatever was read of its content), `seek` does not lead to the record that was asked for: first come the remaining records
whose members are among the compressed bytes that the decompressor has already taken, in order.  Here these are the first `m` members. -/
theorem C74_seek_after_reading (c : Codec) (hc : Codec.Laws c) (hn : Codec.Next c) (rs : List RT) (hok : OkT rs) (plan : List (List ReadOp)) (h1 : plan ≠ [])
    (m k j : Nat) (hi : plan.length ≤ m) (hm : m ≤ rs.length) (hk : (gzArchive c (rs.take m)).length ≤ k) (fuel : Nat) (hf : m ≤ fuel) :
    ∃ s', readSome plan (GzStream.openGz c (gzArchive c rs)).strm = some s' ∧
      noted ((rs.take m).drop plan.length) <+:
        (collect false fuel (GzStream.seek c (gzArchive c (rs.take j)).length ((GzStream.openGz c (gzArchive c rs)).used k s')).strm).records := by
  obtain ⟨s', u, T', X, g1, t, ht, g2, g3, g4, g5, g6, _⟩ := seek_at c hc hn rs hok plan h1 m k j hi hm hk
  refine ⟨s', g1, ?_⟩
  rw [ht]
  have hskip := readRecord_skip false u.length t g2 (by rw [g6]; simp)
  rw [collect_congr false fuel t _ hskip]
  have hlen : ((rs.take m).drop plan.length).length ≤ fuel := by rw [List.length_drop, List.length_take]; omega
  obtain ⟨n, rfl⟩ : ∃ n, fuel = n + ((rs.take m).drop plan.length).length := ⟨fuel - ((rs.take m).drop plan.length).length, by omega⟩
  rw [collect_prefix false n { t.adv u.length with eoc := none } T' X _ g4 rfl g3 (fun x hx => hok x (List.mem_of_mem_take (List.mem_of_mem_drop hx))) g5
    (by show (t.adv u.length).fh.rest = _; rw [adv_fh, File.advance_rest, g6, List.drop_left])]
  exact List.prefix_append _ _

/-- **C74** In a file of at most 8192 bytes all remaining records come first, and only then the ones that `seek` asked for. -/
theorem C74_seek_small_file (c : Codec) (hc : Codec.Laws c) (hn : Codec.Next c) (rs : List RT) (hok : OkT rs) (plan : List (List ReadOp)) (h1 : plan ≠ [])
    (hl : plan.length ≤ rs.length) (k j : Nat) (hsmall : (gzArchive c rs).length ≤ 8192) (hk : gzipTakes ≤ k) (fuel : Nat) (hf : 2 * rs.length < fuel) :
    ∃ s', readSome plan (GzStream.openGz c (gzArchive c rs)).strm = some s' ∧
      collect false fuel (GzStream.seek c (gzArchive c (rs.take j)).length ((GzStream.openGz c (gzArchive c rs)).used k s')).strm =
        ⟨noted (rs.drop plan.length) ++ noted (rs.drop j), some ⟨none, none, []⟩, .done⟩ := by
  obtain ⟨s', u, T', X, g1, t, ht, g2, g3, g4, g5, g6, g7, g8⟩ := seek_at c hc hn rs hok plan h1 rs.length k j hl (Nat.le_refl _) (by rw [List.take_length]; have : gzipTakes = 8192 := rfl; omega)
  have hd := hc.members (perRecord (rs.drop j))
  rw [perRecord_flatten] at hd
  have hz : (gzArchive c (rs.drop rs.length)).take (k - (gzArchive c (rs.take rs.length)).length) ++ gzArchive c (rs.drop j) = (perRecord (rs.drop j)).flatMap c.enc := by
    simp [gzArchive, perRecord]
  rw [hz, hd] at g7 g8
  subst g7
  refine ⟨s', g1, ?_⟩
  rw [ht]
  have hskip := readRecord_skip false u.length t g2 (by rw [g6]; simp)
  rw [collect_congr false fuel t _ hskip]
  have hnote : noted (rs.drop plan.length) ++ noted (rs.drop j) = noted (rs.drop plan.length ++ rs.drop j) := by simp [noted]
  rw [hnote]
  refine collect_end fuel _ T' _ g4 rfl g3 ?_ g5 g8 ?_ ?_
  · intro x hx
    rcases List.mem_append.1 hx with h | h
    · exact hok x (List.mem_of_mem_drop h)
    · exact hok x (List.mem_of_mem_drop h)
  · show (t.adv u.length).fh.rest = _
    rw [adv_fh, File.advance_rest, g6, List.drop_left, List.take_length]
    simp [archiveT]
  · rw [List.length_append, List.length_drop, List.length_drop]; omega

/-! ### The hypotheses are met -/

/-- two records, one of them read with two calls on its content, then back to the beginning: the second record comes first -/
example : ∃ s', readSome [[.read (some 3), .readline none]] (GzStream.openGz toy (gzArchive toy demoRT)).strm = some s' ∧
    collect false 5 (GzStream.seek toy 0 ((GzStream.openGz toy (gzArchive toy demoRT)).used 8202 s')).strm =
      ⟨noted [(demo2.R, CRLF ++ CRLF)] ++ noted demoRT, some ⟨none, none, []⟩, .done⟩ :=
  C74_seek_small_file toy toy_laws toy_next demoRT demoRT_ok [[.read (some 3), .readline none]] (by simp) (by decide) 8202 0 (by decide +kernel) (by decide) 5 (by decide)

/-- a decompressor that has taken the first member and a part of the second one -/
example : ∃ s', readSome [[]] (GzStream.openGz toy (gzArchive toy (demoRT ++ demoRT))).strm = some s' ∧
    noted [(demo2.R, CRLF ++ CRLF), (demo1.R, CRLF ++ CRLF)] <+:
      (collect false 5 (GzStream.seek toy 0 ((GzStream.openGz toy (gzArchive toy (demoRT ++ demoRT))).used ((gzArchive toy (demoRT ++ demoRT)).length - 7) s')).strm).records :=
  C74_seek_after_reading toy toy_laws toy_next (demoRT ++ demoRT) (fun x hx => demoRT_ok x (by simpa using hx)) [[]] (by simp) 3 _ 0 (by decide) (by decide)
    (by decide +kernel) 5 (by decide)

end Warc
