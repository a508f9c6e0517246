import Verif.Epoch.Parse
import Mathlib.Tactic.FieldSimp
import Mathlib.Tactic.NormNum

/-!
# Properties of epochs (C01–C07)

Property theorems only; specifications are in `Verif.Epoch.Spec`.
-/

namespace Kep3.Epoch
open Kep3.EpochSpec

/-! ## C01 Julian dates -/

theorem trunc_err (q : ℚ) : |(trunc q : ℚ) - q| < 1 := by
  unfold trunc
  split
  · have h1 := Int.floor_le q
    have h2 := Int.lt_floor_add_one q
    rw [abs_lt]; constructor <;> linarith
  · have h1 := Int.le_ceil q
    have h2 := Int.ceil_lt_add_one q
    rw [abs_lt]; constructor <;> linarith

theorem trunc_int (n : Int) : trunc (n : ℚ) = n := by
  unfold trunc; split <;> simp

theorem ofJulian_value (days : ℚ) (jt : JulianType) (e : Int) (h : ofJulian days jt = .ok e) :
    julian e jt * 86400000000 = (trunc (days * 86400000000) : ℚ) := by
  have hc : ∀ a b : Int, chk64 a = .ok b → a = b := by
    intro a b hab; unfold chk64 at hab; split at hab
    · injection hab
    · cases hab
  have ht : ∀ t, tpFromDays days = .ok t → t = y2kOffset + trunc (days * 86400000000) := by
    intro t ht
    unfold tpFromDays at ht
    cases h1 : chk64 (trunc (days * 86400000000)) with
    | ok u =>
      rw [h1, Res.ok_bind] at ht
      have := hc _ _ h1; have := hc _ _ ht; omega
    | err x => rw [h1] at ht; cases ht
    | ub => rw [h1] at ht; cases ht
  cases jt with
  | MJD2000 =>
    have := ht e h
    subst this
    show ((y2kOffset + trunc (days * 86400000000) - y2kOffset : Int) : ℚ) / 86400000000 * 86400000000 = _
    push_cast; ring
  | MJD =>
    unfold ofJulian at h
    cases h1 : tpFromDays days with
    | ok t =>
      rw [h1, Res.ok_bind] at h
      have e1 := ht t h1; have e2 := hc _ _ h; subst e1; subst e2
      show ((y2kOffset + trunc (days * 86400000000) - mjdOffset - y2kOffset + mjdOffset : Int) : ℚ)
        / 86400000000 * 86400000000 = _
      push_cast; ring
    | err x => rw [h1] at h; cases h
    | ub => rw [h1] at h; cases h
  | JD =>
    unfold ofJulian at h
    cases h1 : tpFromDays days with
    | ok t =>
      rw [h1, Res.ok_bind] at h
      have e1 := ht t h1; have e2 := hc _ _ h; subst e1; subst e2
      show ((y2kOffset + trunc (days * 86400000000) - jdOffset - y2kOffset + jdOffset : Int) : ℚ)
        / 86400000000 * 86400000000 = _
      push_cast; ring
    | err x => rw [h1] at h; cases h
    | ub => rw [h1] at h; cases h

/-- **C01** Reading back the type used for construction is off by less than one microsecond … -/
theorem C01_julian_roundtrip (days : ℚ) (jt : JulianType) (e : Int) (h : ofJulian days jt = .ok e) :
    |julian e jt - days| < 1 / 86400000000 := by
  have h1 := ofJulian_value days jt e h
  have h2 := trunc_err (days * 86400000000)
  rw [← h1, ← sub_mul, abs_mul] at h2
  rw [lt_div_iff₀ (by norm_num)]
  simpa using h2

/-- … is exact for a whole number of microseconds … -/
theorem C01_julian_roundtrip_exact (n : Int) (jt : JulianType) (e : Int)
    (h : ofJulian ((n : ℚ) / 86400000000) jt = .ok e) :
    julian e jt = (n : ℚ) / 86400000000 := by
  have h1 := ofJulian_value _ jt e h
  have e1 : (n : ℚ) / 86400000000 * 86400000000 = n := by field_simp
  rw [e1, trunc_int] at h1
  rw [← h1]; field_simp

/-- … the three readings of one epoch differ by the fixed offsets, … -/
theorem C01_julian_offsets (e : Int) :
    mjd e = mjd2000 e + 51544 ∧ jd e = mjd2000 e + 2451544.5 := by
  unfold mjd mjd2000 jd mjdOffset jdOffset
  constructor <;> push_cast <;> ring

/-- … and within ±290 000 years of 2000 (in particular at every date of the three calendars from
JD 0 on) the constructor is defined. -/
theorem C01_julian_defined (days : ℚ) (jt : JulianType) (h : |days| ≤ 100000000) :
    ∃ e, ofJulian days jt = .ok e := by
  have h2 := trunc_err (days * 86400000000)
  rw [abs_lt] at h2
  rw [abs_le] at h
  have hu : (trunc (days * 86400000000) : ℚ) ≤ 8640000000000000001 := by nlinarith [h.2, h2.2]
  have hl : (-8640000000000000001 : ℚ) ≤ trunc (days * 86400000000) := by nlinarith [h.1, h2.1]
  have hu' : trunc (days * 86400000000) ≤ 8640000000000000001 := by exact_mod_cast hu
  have hl' : -8640000000000000001 ≤ trunc (days * 86400000000) := by exact_mod_cast hl
  have ht : tpFromDays days = .ok (y2kOffset + trunc (days * 86400000000)) := by
    unfold tpFromDays y2kOffset
    rw [chk64_ok (by omega), Res.ok_bind, chk64_ok (by omega)]
  unfold y2kOffset at ht
  cases jt
  · exact ⟨_, ht⟩
  · refine ⟨946684800000000 + trunc (days * 86400000000) - mjdOffset, ?_⟩
    show (tpFromDays days >>= _) = _
    rw [ht, Res.ok_bind]; unfold mjdOffset; rw [chk64_ok (by omega)]
  · refine ⟨946684800000000 + trunc (days * 86400000000) - jdOffset, ?_⟩
    show (tpFromDays days >>= _) = _
    rw [ht, Res.ok_bind]; unfold jdOffset; rw [chk64_ok (by omega)]

/-- Zero MJD2000 is 2000-01-01T00:00, zero MJD is 1858-11-17T00:00, JD 0.5 is -4713-11-25T00:00 in the
proleptic Gregorian calendar: the day numbers mean what the documentation says. -/
theorem C01_julian_reference_dates :
    ofJulian 0 .MJD2000 = .ok (civilMicros 2000 1 1 0 0 0 0) ∧
    ofJulian 0 .MJD = .ok (civilMicros 1858 11 17 0 0 0 0) ∧
    ofJulian 0 .JD = .ok (civilMicros (-4713) 11 24 12 0 0 0) := by
  unfold civilMicros
  rw [← daysFromCivil_eq_dayNumber 2000 1 1 (by omega) (by omega),
    ← daysFromCivil_eq_dayNumber 1858 11 17 (by omega) (by omega),
    ← daysFromCivil_eq_dayNumber (-4713) 11 24 (by omega) (by omega)]
  have h0 : trunc (0 * 86400000000) = 0 := by simp [trunc]
  simp only [ofJulian, tpFromDays, h0]
  decide

example : ∃ e, ofJulian (123456 / 1000) .JD = .ok e :=
  C01_julian_defined _ _ (by rw [abs_of_nonneg (by norm_num)]; norm_num)

/-! ## C02 Time line -/

/-- **C02** Comparisons are those of a total order … -/
theorem C02_order (e f g : Int) :
    (lt e f = true ↔ gt f e = true) ∧ (le e f = true ↔ ge f e = true) ∧
    (le e f = true ↔ (lt e f = true ∨ eq e f = true)) ∧
    (ne e f = true ↔ ¬ eq e f = true) ∧
    (lt e f = true ∨ eq e f = true ∨ lt f e = true) ∧
    ¬ (lt e f = true ∧ lt f e = true) ∧
    (lt e f = true → lt f g = true → lt e g = true) ∧
    (eq e f = true → e = f) := by
  unfold lt gt le ge eq ne
  simp only [decide_eq_true_eq]
  refine ⟨trivial, trivial, by omega, trivial, by omega, by omega, by omega, id⟩

/-- … which agrees with the sign of the difference of the two epochs. -/
theorem C02_order_diff (e f d : Int) (h : diff e f = .ok d) :
    (lt e f = true ↔ d < 0) ∧ (eq e f = true ↔ d = 0) ∧ (gt e f = true ↔ 0 < d) := by
  unfold diff chk64 at h
  split at h
  · injection h with h
    unfold lt eq gt; simp only [decide_eq_true_eq]; omega
  · cases h

/-- Adding a duration and subtracting it again (in either order), or subtracting the original epoch,
recovers the original exactly. Only hypothesis: the sum did not overflow. -/
theorem C02_add_sub_cancel (e d f : Int) (he : fits64 e) (hd : fits64 d) (h : add e d = .ok f) :
    sub f d = .ok e ∧ diff f e = .ok d := by
  unfold add chk64 at h
  split at h
  · injection h with h
    subst h
    unfold sub diff
    have e1 : e + d - d = e := by omega
    have e2 : e + d - e = d := by omega
    rw [e1, e2]
    exact ⟨chk64_ok he, chk64_ok hd⟩
  · cases h

theorem C02_sub_add_cancel (e d f : Int) (he : fits64 e) (h : sub e d = .ok f) :
    add f d = .ok e := by
  unfold sub chk64 at h
  split at h
  · injection h with h
    subst h
    unfold add
    have e1 : e - d + d = e := by omega
    rw [e1]
    exact chk64_ok he
  · cases h

/-- Adding two durations one after the other is adding their sum, in any order. -/
theorem C02_add_add (e d d' f g : Int) (h : add e d = .ok f) (h' : add f d' = .ok g) :
    add e (d + d') = .ok g ∧ (∀ f', add e d' = .ok f' → add f' d = .ok g) := by
  unfold add chk64 at *
  split at h <;> simp only [Res.ok.injEq, reduceCtorEq] at h
  split at h' <;> simp only [Res.ok.injEq, reduceCtorEq] at h'
  rename_i h1 h2
  subst h; subst h'
  refine ⟨?_, ?_⟩
  · have e1 : e + (d + d') = e + d + d' := by omega
    rw [e1, if_pos h2]
  · intro f' hf'
    split at hf' <;> simp only [Res.ok.injEq, reduceCtorEq] at hf'
    subst hf'
    have e1 : e + d' + d = e + d + d' := by omega
    rw [e1, if_pos h2]

/-- The outcome is undefined behaviour exactly when the result leaves the 64-bit clock, and a value otherwise. -/
theorem C02_overflow (e d : Int) :
    (add e d = .ub ↔ ¬ fits64 (e + d)) ∧ (sub e d = .ub ↔ ¬ fits64 (e - d)) ∧ (diff e d = .ub ↔ ¬ fits64 (e - d)) ∧
    (∀ x, add e d ≠ .err x) ∧ (∀ x, sub e d ≠ .err x) ∧ ∀ x, diff e d ≠ .err x := by
  unfold add sub diff chk64
  refine ⟨?_, ?_, ?_, ?_, ?_, ?_⟩ <;> split <;> simp_all

/-- Serialising and deserialising an epoch gives an equal epoch. -/
theorem C02_serialize (e : Int) : eq (load (save e)) e = true := by
  simp [eq, load, save]

example : add default 86400000000 = .ok 946771200000000 := by decide

/-! ## C03 Calendar constructor -/

/-- **C03** For every existing date and all int32 time-of-day arguments the epoch is the number of
microseconds counted by the specification; in particular nothing overflows. -/
theorem C03_calendar (y : Int) (mon d : Nat) (h mi s ms us : Int)
    (hy : -32767 ≤ y ∧ y ≤ 32767) (hex : existsDate y mon d)
    (hh : fits32 h) (hmi : fits32 mi) (hs : fits32 s) (hms : fits32 ms) (hus : fits32 us) :
    makeTp y mon d h mi s ms us = .ok (civilMicros y mon d h mi s (ms * 1000 + us)) :=
  makeTp_spec y mon d h mi s ms us hy hex hh hmi hs hms hus

/-- Later civil times are strictly later epochs: dates compared lexicographically, then hour, minute,
second, millisecond, microsecond in their usual ranges. -/
theorem C03_monotone (y y' : Int) (mon d mon' d' : Nat) (t t' : Fin 24 × Fin 60 × Fin 60 × Fin 1000 × Fin 1000)
    (hy : -32767 ≤ y ∧ y ≤ 32767) (hy' : -32767 ≤ y' ∧ y' ≤ 32767)
    (hex : existsDate y mon d) (hex' : existsDate y' mon' d')
    (hlt : dateLt y mon d y' mon' d' ∨
      ((y = y' ∧ mon = mon' ∧ d = d') ∧
        Prod.Lex (· < ·) (Prod.Lex (· < ·) (Prod.Lex (· < ·) (Prod.Lex (· < ·) (· < ·)))) t t'))
    (e e' : Int)
    (he : makeTp y mon d t.1.val t.2.1.val t.2.2.1.val t.2.2.2.1.val t.2.2.2.2.val = .ok e)
    (he' : makeTp y' mon' d' t'.1.val t'.2.1.val t'.2.2.1.val t'.2.2.2.1.val t'.2.2.2.2.val = .ok e') :
    lt e e' = true := by
  obtain ⟨h, mi, s, ms, us⟩ := t
  obtain ⟨h', mi', s', ms', us'⟩ := t'
  have b := h.isLt; have b1 := mi.isLt; have b2 := s.isLt; have b3 := ms.isLt; have b4 := us.isLt
  have c := h'.isLt; have c1 := mi'.isLt; have c2 := s'.isLt; have c3 := ms'.isLt
  have c4 := us'.isLt
  simp only at he he'
  rw [makeTp_spec y mon d _ _ _ _ _ hy hex (by unfold fits32; omega) (by unfold fits32; omega)
    (by unfold fits32; omega) (by unfold fits32; omega) (by unfold fits32; omega)] at he
  rw [makeTp_spec y' mon' d' _ _ _ _ _ hy' hex' (by unfold fits32; omega) (by unfold fits32; omega)
    (by unfold fits32; omega) (by unfold fits32; omega) (by unfold fits32; omega)] at he'
  injection he with he
  injection he' with he'
  subst he; subst he'
  unfold lt; rw [decide_eq_true_eq]
  unfold civilMicros
  rcases hlt with hd | ⟨⟨rfl, rfl, rfl⟩, hl⟩
  · have := dayNumber_lt hex hex' hd
    omega
  · simp only [Prod.lex_def, Fin.lt_def, Fin.ext_iff] at hl
    omega

example : existsDate 2024 (2 : Nat) (29 : Nat) := by decide
example : ¬ existsDate 2023 (2 : Nat) (29 : Nat) := by decide

/-! ## C04 Print / parse round trip -/

/-- **C04** Every epoch of the years 0..9999 prints as 26 characters which parse back to the same
epoch. The bounds are 0000-01-01 (day -719528) and 10000-01-01 (day 2932897). -/
theorem C04_print_parse (t : Int) (h0 : -719528 * 86400000000 ≤ t) (h1 : t < 2932897 * 86400000000) :
    (asUtcString t).length = 26 ∧ ofString (asUtcString t) = .ok t := by
  obtain ⟨n, hn⟩ : ∃ n, n = t / 86400000000 := ⟨_, rfl⟩
  obtain ⟨r, hr⟩ : ∃ r, r = (t % 86400000000).toNat := ⟨_, rfl⟩
  have hr1 : (r : Int) = t % 86400000000 := by omega
  have ht : t = n * 86400000000 + r := by omega
  have hrlt : r < 86400000000 := by omega
  obtain ⟨hex, hdn⟩ := civilFromDays_spec n
  obtain ⟨⟨y, m, d⟩, hc⟩ : ∃ c, c = civilFromDays n := ⟨_, rfl⟩
  rw [← hc] at hex hdn
  simp only at hex hdn
  have hmr : 1 ≤ m ∧ m ≤ 12 := ⟨hex.1, hex.2.1⟩
  have hdr : 1 ≤ d ∧ d ≤ 31 := ⟨hex.2.2.1, by have := daysInMonth_le y m; have := hex.2.2.2; omega⟩
  -- the year is between 0 and 9999
  have hyr : 0 ≤ y ∧ y ≤ 9999 := by
    have hdn' : dayNumber y m d = n := by rw [← daysFromCivil_eq_dayNumber y m d hmr.1 hmr.2]; exact hdn
    have hn0 : -719528 ≤ n := by omega
    have hn1 : n < 2932897 := by omega
    constructor
    · by_contra hneg
      have : dayNumber y m d < dayNumber 0 1 1 :=
        dayNumber_lt hex (by decide) (Or.inl (by omega))
      rw [← daysFromCivil_eq_dayNumber 0 1 1 (by omega) (by omega)] at this
      have e0 : daysFromCivil 0 1 1 = -719528 := by decide
      omega
    · by_contra hbig
      have : dayNumber 9999 12 31 < dayNumber y m d :=
        dayNumber_lt (by decide) hex (Or.inl (by omega))
      rw [← daysFromCivil_eq_dayNumber 9999 12 31 (by omega) (by omega)] at this
      have e0 : daysFromCivil 9999 12 31 = 2932896 := by decide
      omega
  obtain ⟨yn, hyn⟩ : ∃ k : Nat, k = y.toNat := ⟨_, rfl⟩
  obtain ⟨mn, hmn⟩ : ∃ k : Nat, k = m.toNat := ⟨_, rfl⟩
  obtain ⟨dn, hdnn⟩ : ∃ k : Nat, k = d.toNat := ⟨_, rfl⟩
  have eqs : asUtcString t = pad 4 yn ++ ['-'] ++ pad 2 mn ++ ['-'] ++ pad 2 dn ++ ['T']
    ++ pad 2 (r / 3600000000) ++ [':'] ++ pad 2 (r / 60000000 % 60) ++ [':']
    ++ pad 2 (r / 1000000 % 60) ++ ['.'] ++ pad 6 (r % 1000000) := by
    unfold asUtcString
    simp only [← hn, ← hr, ← hc, hyn, hmn, hdnn]
  rw [eqs]
  simp only [pad_two, pad_four, List.map_cons, List.map_nil, List.cons_append, List.nil_append]
  rw [pad_six]
  refine ⟨by simp only [List.length_cons, List.length_map, List.length_nil], ?_⟩
  rw [ofString_frac _ _ _ _ _ _ _ _ _ _ _ _ _ _ _ _ _ _ _ _ _
    (by refine ⟨?_, ?_, ?_, ?_, ?_, ?_, ?_, ?_, ?_, ?_, ?_, ?_, ?_, ?_⟩ <;> exact Nat.mod_lt _ (by omega))
    (by simp only [List.mem_cons, List.not_mem_nil, or_false]
        rintro n (rfl | rfl | rfl | rfl | rfl | rfl) <;> exact Nat.mod_lt _ (by omega))
    (by simp)]
  have ey : (((yn / 10 / 10 / 10 % 10 * 10 + yn / 10 / 10 % 10) * 10 + yn / 10 % 10) * 10 + yn % 10)
      = yn := by omega
  have em : mn / 10 % 10 * 10 + mn % 10 = mn := by omega
  have ed : dn / 10 % 10 * 10 + dn % 10 = dn := by omega
  have e2 : ∀ k : Nat, k < 100 → k / 10 % 10 * 10 + k % 10 = k := by intro k hk; omega
  have ev : valOf [r % 1000000 / 10 / 10 / 10 / 10 / 10 % 10, r % 1000000 / 10 / 10 / 10 / 10 % 10,
      r % 1000000 / 10 / 10 / 10 % 10, r % 1000000 / 10 / 10 % 10, r % 1000000 / 10 % 10,
      r % 1000000 % 10] = r % 1000000 := by
    simp only [valOf, List.foldl_cons, List.foldl_nil]; omega
  rw [ey, em, ed, e2 _ (by omega), e2 _ (by omega), e2 _ (by omega), ev]
  simp only [List.length_cons, List.length_nil, Nat.reduceAdd, Nat.sub_self, pow_zero, Nat.mul_one]
  have hyn' : (yn : Int) = y := by omega
  have hmn' : (mn : Int) = m := by omega
  have hdn' : (dn : Int) = d := by omega
  rw [makeTp_ok _ _ _ _ _ _ _ _ (by omega) (by omega) (by omega) (by unfold fits32; omega)
    (by unfold fits32; omega) (by unfold fits32; omega) (by unfold fits32; omega)
    (by unfold fits32; omega)]
  rw [hyn', hmn', hdn', ← daysFromCivil_day, hdn]
  congr 1
  omega

/-- Different epochs print differently. -/
theorem C04_print_injective (t t' : Int)
    (h0 : -719528 * 86400000000 ≤ t) (h1 : t < 2932897 * 86400000000)
    (h0' : -719528 * 86400000000 ≤ t') (h1' : t' < 2932897 * 86400000000)
    (h : asUtcString t = asUtcString t') : t = t' := by
  have a := (C04_print_parse t h0 h1).2
  have b := (C04_print_parse t' h0' h1').2
  rw [h] at a
  rw [a] at b
  injection b

/-- The bounds of `C04_print_parse` are the first and last microsecond of the years 0..9999. -/
theorem C04_range :
    civilMicros 0 1 1 0 0 0 0 = -719528 * 86400000000 ∧
    civilMicros 9999 12 31 23 59 59 999999 + 1 = 2932897 * 86400000000 := by
  unfold civilMicros
  rw [← daysFromCivil_eq_dayNumber 0 1 1 (by omega) (by omega),
    ← daysFromCivil_eq_dayNumber 9999 12 31 (by omega) (by omega)]
  decide

example : String.ofList (asUtcString 1456486123000456) = "2016-02-26T11:28:43.000456" := by decide

/-! ## C05 Cropped strings -/

theorem two_eq {n : Nat} (h : n < 100) : two n = [digitChar (n / 10), digitChar (n % 10)] := by
  unfold two; rw [dig_eq (by omega), dig_eq (by omega)]

theorem four_eq {n : Nat} (h : n < 10000) :
    four n = [digitChar (n / 100 / 10), digitChar (n / 100 % 10), digitChar (n % 100 / 10),
      digitChar (n % 100 % 10)] := by
  unfold four; rw [two_eq (by omega), two_eq (by omega)]; rfl

theorem map_dig (f : List (Fin 10)) :
    f.map (fun k => dig k.val) = (f.map (fun k : Fin 10 => k.val)).map digitChar := by
  rw [List.map_map]
  apply List.map_congr_left
  intro k _
  exact dig_eq k.isLt

theorem fracMicros_eq (f : List (Fin 10)) (h : f.length ≤ 6) :
    fracMicros f 100000 = valOf (f.map (fun k : Fin 10 => k.val)) * 10 ^ (6 - f.length) := by
  have key : ∀ (f : List (Fin 10)) (k acc : Nat), f.length ≤ k →
      (f.map (fun k : Fin 10 => k.val)).foldl (fun acc n => acc * 10 + n) acc * 10 ^ (k - f.length)
        = acc * 10 ^ k + fracMicros f (10 ^ k / 10) := by
    intro f
    induction f with
    | nil => intro k acc _; simp [fracMicros]
    | cons a l ih =>
      intro k acc hk
      simp only [List.length_cons] at hk
      obtain ⟨j, rfl⟩ : ∃ j, k = j + 1 := ⟨k - 1, by omega⟩
      have hj := ih j (acc * 10 + a.val) (by omega)
      simp only [List.map_cons, List.foldl_cons, List.length_cons]
      have e : j + 1 - (l.length + 1) = j - l.length := by omega
      rw [e, hj]
      have e2 : 10 ^ (j + 1) / 10 = 10 ^ j := by
        rw [pow_succ]; exact Nat.mul_div_cancel _ (by omega)
      rw [fracMicros, e2]
      ring
  have := key f 6 0 h
  rw [valOf, this]
  norm_num

/-- **C05** A well-formed string of an existing date, cropped anywhere, is the start of the cropped
period; decimals are decimal fractions of a second. (Hours, minutes and seconds up to 99 are accepted
and carried over: the field value is used as it is.) -/
theorem C05_parse (y mo d h mi s : Nat) (f : List (Fin 10))
    (hy : y < 10000) (hex : existsDate y mo d)
    (hh : h < 100) (hmi : mi < 100) (hs : s < 100) (hf : 1 ≤ f.length ∧ f.length ≤ 6) :
    ofString (isoMonth y mo) = .ok (civilMicros y mo 1 0 0 0 0) ∧
    ofString (isoDay y mo d) = .ok (civilMicros y mo d 0 0 0 0) ∧
    ofString (isoHour y mo d h) = .ok (civilMicros y mo d h 0 0 0) ∧
    ofString (isoMinute y mo d h mi) = .ok (civilMicros y mo d h mi 0 0) ∧
    ofString (isoSecond y mo d h mi s) = .ok (civilMicros y mo d h mi s 0) ∧
    ofString (isoFrac y mo d h mi s f) = .ok (civilMicros y mo d h mi s (fracMicros f 100000)) := by
  have hd31 := daysInMonth_le y mo
  have hex1 : existsDate y mo (1 : Nat) :=
    ⟨hex.1, hex.2.1, by omega, by have := hex.2.2; omega⟩
  obtain ⟨a1, a2, a3, a4⟩ := hex
  have hmo : mo < 100 := by omega
  have hd : d < 100 := by omega
  have hex : existsDate y mo d := ⟨a1, a2, a3, a4⟩
  have ey : (((y / 100 / 10 * 10 + y / 100 % 10) * 10 + y % 100 / 10) * 10 + y % 100 % 10) = y := by
    omega
  have e2 : ∀ k : Nat, k < 100 → k / 10 * 10 + k % 10 = k := by intro k _; omega
  have hval := valOf_lt (f.map (fun k : Fin 10 => k.val)) (by
    intro n hn; obtain ⟨k, _, rfl⟩ := List.mem_map.1 hn; exact k.isLt)
  rw [List.length_map] at hval
  have hus : fracMicros f 100000 < 1000000 := by
    rw [fracMicros_eq f hf.2]
    have e1 : (10 : Nat) ^ f.length * 10 ^ (6 - f.length) = 10 ^ 6 := by
      rw [← pow_add]; congr 1; omega
    have := Nat.mul_lt_mul_of_pos_right hval (Nat.pow_pos (n := 6 - f.length) (show 0 < 10 by omega))
    rw [e1] at this
    simpa using this
  have f0 : fits32 0 := by unfold fits32; omega
  have fn : ∀ k : Nat, k < 1000000 → fits32 (k : Int) := by intro k _; unfold fits32; omega
  refine ⟨?_, ?_, ?_, ?_, ?_, ?_⟩
  · simp only [isoMonth, four_eq hy, two_eq hmo, List.cons_append, List.nil_append]
    rw [ofString_7 _ _ _ _ _ _ _ (by omega), ey, e2 _ hmo,
      makeTp_spec _ _ _ _ _ _ _ _ (by omega) hex1 f0 f0 f0 f0 f0]
    simp
  · simp only [isoMonth, isoDay, four_eq hy, two_eq hmo, two_eq hd, List.cons_append, List.nil_append]
    rw [ofString_10 _ _ _ _ _ _ _ _ _ _ (by omega), ey, e2 _ hmo, e2 _ hd,
      makeTp_spec _ _ _ _ _ _ _ _ (by omega) hex f0 f0 f0 f0 f0]
    simp
  · simp only [isoMonth, isoDay, isoHour, four_eq hy, two_eq hmo, two_eq hd, two_eq hh,
      List.cons_append, List.nil_append]
    rw [ofString_13 _ _ _ _ _ _ _ _ _ _ _ _ _ (by omega), ey, e2 _ hmo, e2 _ hd, e2 _ hh,
      makeTp_spec _ _ _ _ _ _ _ _ (by omega) hex (fn _ (by omega)) f0 f0 f0 f0]
    simp
  · simp only [isoMonth, isoDay, isoHour, isoMinute, four_eq hy, two_eq hmo, two_eq hd, two_eq hh,
      two_eq hmi, List.cons_append, List.nil_append]
    rw [ofString_16 _ _ _ _ _ _ _ _ _ _ _ _ _ _ _ _ (by omega), ey, e2 _ hmo, e2 _ hd, e2 _ hh,
      e2 _ hmi,
      makeTp_spec _ _ _ _ _ _ _ _ (by omega) hex (fn _ (by omega)) (fn _ (by omega)) f0 f0 f0]
    simp
  · simp only [isoMonth, isoDay, isoHour, isoMinute, isoSecond, four_eq hy, two_eq hmo, two_eq hd,
      two_eq hh, two_eq hmi, two_eq hs, List.cons_append, List.nil_append]
    rw [ofString_19 _ _ _ _ _ _ _ _ _ _ _ _ _ _ _ _ _ _ _ (by omega), ey, e2 _ hmo, e2 _ hd,
      e2 _ hh, e2 _ hmi, e2 _ hs,
      makeTp_spec _ _ _ _ _ _ _ _ (by omega) hex (fn _ (by omega)) (fn _ (by omega))
        (fn _ (by omega)) f0 f0]
    simp
  · simp only [isoMonth, isoDay, isoHour, isoMinute, isoSecond, isoFrac, four_eq hy, two_eq hmo,
      two_eq hd, two_eq hh, two_eq hmi, two_eq hs, List.cons_append, List.nil_append, map_dig]
    rw [ofString_frac _ _ _ _ _ _ _ _ _ _ _ _ _ _ _ _ _ _ _ _ _ (by omega)
      (by intro n hn; obtain ⟨k, _, rfl⟩ := List.mem_map.1 hn; exact k.isLt)
      (by rw [List.length_map]; exact hf), ey, e2 _ hmo, e2 _ hd,
      e2 _ hh, e2 _ hmi, e2 _ hs, List.length_map, ← fracMicros_eq f hf.2,
      makeTp_spec _ _ _ _ _ _ _ _ (by omega) hex (fn _ (by omega)) (fn _ (by omega))
        (fn _ (by omega)) f0 (fn _ hus)]
    simp

/-- Any string of another length is rejected, whatever its characters. -/
theorem C05_reject_length (s : List Char)
    (h : ¬ (s.length = 7 ∨ s.length = 10 ∨ s.length = 13 ∨ s.length = 16 ∨ s.length = 19 ∨
      (21 ≤ s.length ∧ s.length ≤ 26))) :
    ofString s = .err .logicError := by
  unfold ofString
  rw [if_pos]
  simp only [allowedLengths, List.mem_cons, List.not_mem_nil, or_false]
  omega

/-- The calendar constructor never overflows: any int32 arguments, any year, month, day. -/
theorem C03_no_ub (y : Int) (mon d : Nat) (h mi s ms us : Int)
    (hh : fits32 h) (hmi : fits32 mi) (hs : fits32 s) (hms : fits32 ms) (hus : fits32 us) :
    makeTp y mon d h mi s ms us ≠ .ub := by
  have hb : -32768 ≤ narrowYear y ∧ narrowYear y ≤ 32767 := by unfold narrowYear; omega
  have hnn : narrowYear (narrowYear y) = narrowYear y := narrowYear_id hb
  have hm : narrowByte (narrowByte mon) = narrowByte mon := by unfold narrowByte; omega
  have hd : narrowByte (narrowByte d) = narrowByte d := by unfold narrowByte; omega
  have e : makeTp y mon d h mi s ms us =
      makeTp (narrowYear y) (narrowByte mon) (narrowByte d) h mi s ms us := by
    unfold makeTp; rw [hnn, hm, hd]
  rw [e]
  generalize narrowYear y = y' at *
  have hm2 : narrowByte mon < 256 := Nat.mod_lt _ (by omega)
  have hd2 : narrowByte d < 256 := Nat.mod_lt _ (by omega)
  generalize narrowByte mon = m' at *
  generalize narrowByte d = d' at *
  by_cases hy : y' = -32768
  · subst hy; unfold makeTp; simp [hnn]
  · by_cases hc : 1 ≤ m' ∧ m' ≤ 12
    · by_cases hc2 : 1 ≤ d' ∧ d' ≤ 31
      · rw [makeTp_ok y' m' d' h mi s ms us (by omega) hc hc2 hh hmi hs hms hus]
        intro hx; cases hx
      · unfold makeTp; simp only [hnn, hm, hd]
        rw [if_neg hy, if_neg (by simpa using hc), if_pos hc2]; intro hx; cases hx
    · unfold makeTp; simp only [hnn, hm, hd]
      rw [if_neg hy, if_pos hc]; intro hx; cases hx

/-- The string constructor has no undefined behaviour on any string whatsoever. -/
theorem C05_no_ub (s : List Char) : ofString s ≠ .ub := by
  have hbind : ∀ {α β : Type} (x : Res α) (f : α → Res β), x ≠ .ub →
      (∀ a, x = .ok a → f a ≠ .ub) → (x >>= f) ≠ .ub := by
    intro α β x f hx hf
    cases x with
    | ok a => exact hf a rfl
    | err e => intro h; cases h
    | ub => exact absurd rfl hx
  unfold ofString
  split
  · intro h; cases h
  rename_i hlen
  have hlen' : s.length ≤ 26 := by
    simp only [allowedLengths, List.mem_cons, List.not_mem_nil, or_false, not_not] at hlen
    omega
  refine hbind _ _ (stoi_ne_ub _) (fun y _ => ?_)
  refine hbind _ _ (hbind _ _ (stoi_ne_ub _) (fun v _ => toUnsigned_ne_ub v)) (fun mon _ => ?_)
  refine hbind _ _ ?_ (fun d _ => ?_)
  · split
    · exact hbind _ _ (stoi_ne_ub _) (fun v _ => toUnsigned_ne_ub v)
    · intro h; cases h
  have hf : ∀ (c : Prop) [Decidable c] (l : List Char) (v : Int),
      (if c then stoi l else Res.ok 0) = .ok v → fits32 v := by
    intro c _ l v hv
    split at hv
    · exact stoi_fits32 hv
    · injection hv with hv; subst hv; unfold fits32; omega
  refine hbind _ _ ?_ (fun h hh => ?_)
  · split
    · exact stoi_ne_ub _
    · intro h; cases h
  refine hbind _ _ ?_ (fun mi hmi => ?_)
  · split
    · exact stoi_ne_ub _
    · intro h; cases h
  refine hbind _ _ ?_ (fun sec hs => ?_)
  · split
    · exact stoi_ne_ub _
    · intro h; cases h
  have hlast : ∀ v, stoi (s.drop 20) = .ok v →
      ∃ w, scale10 (6 - (s.drop 20).length) v = .ok w ∧ fits32 w := by
    intro v hv
    have hb := stoi_bound hv
    have hl : (s.drop 20).length ≤ 6 := by rw [List.length_drop]; omega
    exact scale10_fits _ _ hl hb
  refine hbind _ _ ?_ (fun us hus => ?_)
  · split
    · refine hbind _ _ (stoi_ne_ub _) (fun v hv => ?_)
      obtain ⟨w, hw, _⟩ := hlast v hv
      rw [hw]; intro h; cases h
    · intro h; cases h
  · refine C03_no_ub _ _ _ _ _ _ _ _ (hf _ _ _ hh) (hf _ _ _ hmi) (hf _ _ _ hs)
      (by unfold fits32; omega) ?_
    split at hus
    · cases hst : stoi (s.drop 20) with
      | ok v =>
        obtain ⟨w, hw, hw2⟩ := hlast v hst
        rw [hst, Res.ok_bind, hw] at hus
        injection hus with hus
        subst hus; exact hw2
      | err x => rw [hst] at hus; cases hus
      | ub => rw [hst] at hus; cases hus
    · injection hus with hus; subst hus; unfold fits32; omega

example : String.ofList (isoFrac 2064 10 17 11 36 21 [1, 2]) = "2064-10-17T11:36:21.12" ∧
    fracMicros [1, 2] 100000 = 120000 ∧ existsDate (2064 : Nat) (10 : Nat) (17 : Nat) := by decide

/-! ## C06 Only real dates -/

/-- **C06, negation.** 31 February 2023 does not exist, yet it is accepted and becomes 3 March. -/
theorem C06_accepts_nonexistent_date :
    ¬ existsDate 2023 2 31 ∧
    makeTp 2023 2 31 0 0 0 0 0 = .ok (civilMicros 2023 3 3 0 0 0 0) := by
  refine ⟨by decide, ?_⟩
  unfold civilMicros
  rw [← daysFromCivil_eq_dayNumber 2023 3 3 (by omega) (by omega)]
  decide

/-- **C06, negation**, second witness: a month number that does not fit the byte stored by
`std::chrono::month` is silently reduced modulo 256. -/
theorem C06_accepts_month_257 :
    ¬ existsDate 2023 257 1 ∧ makeTp 2023 257 1 0 0 0 0 0 = makeTp 2023 1 1 0 0 0 0 0 := by
  decide

/-- **C06, proved part.** Full statement: a date is accepted iff it exists. Proved: every existing
date of the supported years is accepted; what is accepted has (after narrowing to the stored bytes) a
month in 1..12 and a day in 1..31; everything else is rejected with `invalid_argument`.
Missing (false in the code): rejection of days beyond the end of a shorter month and of values that do
not fit the stored bytes. -/
theorem C06_validation_partial (y : Int) (mon d : Nat) (h mi s ms us : Int)
    (hh : fits32 h) (hmi : fits32 mi) (hs : fits32 s) (hms : fits32 ms) (hus : fits32 us)
    (hy : -32767 ≤ y ∧ y ≤ 32767) (hm : mon < 256) (hd : d < 256) :
    (existsDate y mon d → ∃ e, makeTp y mon d h mi s ms us = .ok e) ∧
    ((∃ e, makeTp y mon d h mi s ms us = .ok e) ↔ (1 ≤ mon ∧ mon ≤ 12 ∧ 1 ≤ d ∧ d ≤ 31)) ∧
    (¬ (1 ≤ mon ∧ mon ≤ 12 ∧ 1 ≤ d ∧ d ≤ 31) →
      makeTp y mon d h mi s ms us = .err .invalidArgument) := by
  have hrej : ¬ (1 ≤ mon ∧ mon ≤ 12 ∧ 1 ≤ d ∧ d ≤ 31) →
      makeTp y mon d h mi s ms us = .err .invalidArgument := by
    intro hn
    have e1 := narrowYear_id (y := y) (by omega)
    have e2 : narrowByte mon = mon := Nat.mod_eq_of_lt (by omega)
    have e3 : narrowByte d = d := Nat.mod_eq_of_lt (by omega)
    unfold makeTp
    simp only [e1, e2, e3]
    rw [if_neg (by omega)]
    by_cases hc : 1 ≤ mon ∧ mon ≤ 12
    · rw [if_neg (by simpa using hc), if_pos (by omega)]
    · rw [if_pos hc]
  refine ⟨fun hex => ⟨_, makeTp_spec y mon d h mi s ms us hy hex hh hmi hs hms hus⟩, ⟨?_, ?_⟩, hrej⟩
  · rintro ⟨e, he⟩
    by_contra hn
    rw [hrej hn] at he
    cases he
  · rintro ⟨b1, b2, b3, b4⟩
    exact ⟨_, makeTp_ok y mon d h mi s ms us hy ⟨b1, b2⟩ ⟨b3, b4⟩ hh hmi hs hms hus⟩

/-- The year -32768 is rejected. -/
theorem C06_rejects_year (mon d : Nat) (h mi s ms us : Int) :
    makeTp (-32768) mon d h mi s ms us = .err .invalidArgument := by
  unfold makeTp narrowYear
  simp

/-! ## C07 Duration constructor -/

/-- **C07, negation.** The documented reference point is MJD2000; the code disagrees for *every*
duration. -/
theorem C07_duration_not_from_mjd2000 (d : Int) (h : fits64 d) : ofDuration d ≠ add default d := by
  unfold ofDuration add default
  rw [chk64_ok h]
  unfold chk64 y2kOffset
  split
  · intro hc; injection hc with hc; omega
  · intro hc; cases hc

/-- **C07, proved part.** Full statement: `epoch(duration)` is `duration` after 0 MJD2000. Proved: it
is `duration` after the Unix epoch, i.e. it is off by exactly the constant 946684800 s. -/
theorem C07_duration_partial (d : Int) (h : fits64 d) (h' : fits64 (default + d)) :
    ∃ e f, ofDuration d = .ok e ∧ add default d = .ok f ∧ f - e = 946684800000000 ∧
      e = civilMicros 1970 1 1 0 0 0 d := by
  refine ⟨d, default + d, chk64_ok h, chk64_ok h', by unfold default y2kOffset; omega, ?_⟩
  unfold civilMicros
  rw [← daysFromCivil_eq_dayNumber 1970 1 1 (by omega) (by omega)]
  have : daysFromCivil 1970 1 1 = 0 := by decide
  rw [this]; omega

example : fits64 0 ∧ fits64 (default + 0) := by decide

end Kep3.Epoch
