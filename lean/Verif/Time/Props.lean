import Verif.Time.Lemmas
set_option autoImplicit false
/-
C12: calendar conversion.
-/
namespace Smlr.Time
open Spec

/-- C12a: up to the end of 2105, gmtime yields the fields of a valid date (weekday and day of the year included)
denoting the given number of seconds since the epoch. -/
theorem c12_gmtime (t : Nat) (ht : t < 49673 * 86400) :
    ∃ c : Civil, c.valid ∧ c.seconds = t ∧ gmtime t = some (some c.tm) := by
  have h0 : daysBeforeYear 0 = 0 := rfl
  have hy := search_ok daysSinceEpoch daysBeforeYear 136 (t / 86400) (fun i hi => epoch_table.2 ⟨i, by omega⟩) 137 0 136
    (by omega) (by omega) (by omega) (by omega) (by rw [year_136]; omega)
  obtain ⟨y, hy1, hy2, hy3, hy4⟩ := hy
  rw [year_succ] at hy4
  have hm := search_ok (daysSinceJan1st (isleap (1970 + y))) (daysBeforeMonth (1970 + y)) 12 (t / 86400 - daysBeforeYear y)
    (fun i hi => jan_table (1970 + y) ⟨i, by omega⟩) 13 0 12 (by omega) (by omega) (by omega) (Nat.zero_le _) (by rw [month_12]; omega)
  obtain ⟨m, hm1, hm2, hm3, hm4⟩ := hm
  rw [month_succ] at hm4
  refine ⟨⟨y, m, t / 86400 - daysBeforeYear y - daysBeforeMonth (1970 + y) m + 1, t % 86400 / 3600, t % 3600 / 60, t % 60⟩, ?_, ?_, ?_⟩
  · refine ⟨hm2, ?_, ?_, ?_, ?_, ?_⟩ <;> simp only <;> omega
  · unfold Civil.seconds Civil.days Civil.yday
    simp only
    omega
  · have e1 : sub32 t (t / 86400 * 86400) = t % 86400 := by rw [sub32_eq _ _ (by omega) (by omega)]; omega
    have e2 : sub32 (t % 86400) (t % 86400 / 3600 * 3600) = t % 3600 := by rw [sub32_eq _ _ (by omega) (by omega)]; omega
    have e3 : sub32 (t % 3600) (t % 3600 / 60 * 60) = t % 60 := by rw [sub32_eq _ _ (by omega) (by omega)]; omega
    have e4 : sub32 (t / 86400) (daysBeforeYear y) = t / 86400 - daysBeforeYear y := sub32_eq _ _ (by omega) (by omega)
    have e5 : sub32 (t / 86400 - daysBeforeYear y) (daysBeforeMonth (1970 + y) m) = t / 86400 - daysBeforeYear y - daysBeforeMonth (1970 + y) m :=
      sub32_eq _ _ (by omega) (by omega)
    have t1 := epoch_table.2 ⟨136, by omega⟩
    have t2 := epoch_table.2 ⟨y, by omega⟩
    have t3 := jan_table (1970 + y) ⟨m, by omega⟩
    simp only [year_136] at t1 t2 t3
    unfold gmtime breaktime
    simp only [e1, e2, e3, t1]
    rw [if_neg (by omega), if_neg (by omega), hy1]
    simp only [t2, e4, hm1, t3, e5]
    unfold Civil.tm Civil.wday Civil.days Civil.yday
    simp only [Option.some.injEq, Tm.mk.injEq, true_and, and_true]
    refine ⟨by omega, by omega, by omega, by omega⟩

/-- C12b: from 2106 on, gmtime reports failure. -/
theorem c12_gmtime_null (t : Nat) (ht : 49673 * 86400 ≤ t) : gmtime t = some none := by
  have t1 := epoch_table.2 ⟨136, by omega⟩
  simp only [year_136] at t1
  unfold gmtime breaktime
  simp only [t1]
  split
  · rfl
  · rw [if_pos (by omega)]

/-- C12c: mktime of any valid date from 1970 to 2105, whatever the weekday and day-of-year fields hold, is the number
of seconds since the epoch (shifted by the time zone), and these two fields are set right. -/
theorem c12_mktime (c : Civil) (hc : c.valid) (hy : c.y < 136) (tz : Int) (w d i : Int) :
    mktime tz ⟨c.s, c.min, c.h, c.d, c.m, 70 + c.y, w, d, i⟩ =
      some (⟨c.s, c.min, c.h, c.d, c.m, 70 + c.y, c.wday, c.yday, i⟩, ((c.seconds + tz * 60) % 2 ^ 32).toNat) := by
  obtain ⟨h1, h2, h3, h4, h5, h6⟩ := hc
  have hm31 : monthLen (1970 + c.y) c.m ≤ 31 := by
    unfold monthLen; split <;> (try split) <;> omega
  have hl : (1900 + (70 + (c.y : Int))).toNat = 1970 + c.y := by omega
  have hdim : (if (c.m : Int) = 1 then 28 + (isleap (1970 + c.y) : Int) else 30 + ((0xAD5 / 2 ^ c.m) % 2 : Nat)) = monthLen (1970 + c.y) c.m := by
    rw [isleap_eq]
    unfold monthLen
    have : c.m = 0 ∨ c.m = 1 ∨ c.m = 2 ∨ c.m = 3 ∨ c.m = 4 ∨ c.m = 5 ∨ c.m = 6 ∨ c.m = 7 ∨ c.m = 8 ∨ c.m = 9 ∨ c.m = 10 ∨ c.m = 11 := by omega
    rcases this with e | e | e | e | e | e | e | e | e | e | e | e <;> rw [e] <;> simp
    split <;> simp
  have t3 := jan_table (1970 + c.y) ⟨c.m, by omega⟩
  simp only at t3
  have hyd := yday_lt c h1 ⟨h2, h3⟩
  have hdays : c.days < 49673 := by
    have := year_mono (c.y + 1) (135 - c.y)
    rw [show c.y + 1 + (135 - c.y) = 136 by omega, year_136, year_succ] at this
    unfold Civil.days; omega
  have hyf := year_formula ⟨c.y, hy⟩
  simp only at hyf
  have hydef : c.yday = daysBeforeMonth (1970 + c.y) c.m + (c.d - 1) := rfl
  have hddef : c.days = daysBeforeYear c.y + c.yday := rfl
  have hsdef : c.seconds = c.days * 86400 + c.h * 3600 + c.min * 60 + c.s := rfl
  have hres : u32 ((c.s : Int) + c.min * 60 + c.h * 3600 + ((daysBeforeMonth (1970 + c.y) c.m : Int) + c.d - 1) * 86400 + ((70 + (c.y : Int)) - 70) * (365 * 86400) +
    (((70 + (c.y : Int) - 69) / 4) * 86400 - ((70 + (c.y : Int) - 1) / 100) * 86400 + ((70 + (c.y : Int) + 299) / 400) * 86400)) = c.seconds := by
    unfold u32
    generalize (70 + (c.y : Int) - 69) / 4 = q1 at *
    generalize (70 + (c.y : Int) - 1) / 100 = q2 at *
    generalize (70 + (c.y : Int) + 299) / 400 = q3 at *
    omega
  have hb : buildtime ⟨c.s, c.min, c.h, c.d, c.m, 70 + c.y, w, d, i⟩ =
      some (⟨c.s, c.min, c.h, c.d, c.m, 70 + c.y, c.wday, c.yday, i⟩, c.seconds) := by
    unfold buildtime
    simp only
    rw [if_neg (by omega), hl, Int.toNat_natCast, hdim, if_neg (by omega), t3]
    simp only [hres]
    unfold Civil.wday
    simp only [Option.some.injEq, Prod.mk.injEq, Tm.mk.injEq, true_and, and_true]
    refine ⟨?_, ?_⟩
    · have : c.seconds / 86400 = c.days := by omega
      rw [this]
    · omega
  unfold mktime
  rw [hb]
  rfl

/-- C12d: in UTC the two conversions are inverse to each other. -/
theorem c12_roundtrip (t : Nat) (ht : t < 49673 * 86400) :
    ∃ tm, gmtime t = some (some tm) ∧ mktime 0 tm = some (tm, t) := by
  obtain ⟨c, hc, hs, hg⟩ := c12_gmtime t ht
  refine ⟨_, hg, ?_⟩
  have hy : c.y < 136 := by
    rcases Nat.lt_or_ge c.y 136 with h | h
    · exact h
    · have := year_mono 136 (c.y - 136)
      rw [show 136 + (c.y - 136) = c.y by omega, year_136] at this
      have h1 : c.days = daysBeforeYear c.y + c.yday := rfl
      have h2 : c.seconds = c.days * 86400 + c.h * 3600 + c.min * 60 + c.s := rfl
      omega
  have := c12_mktime c hc hy 0 c.wday c.yday 0
  unfold Civil.tm
  rw [this]
  simp only [Option.some.injEq, Prod.mk.injEq, true_and]
  omega

/-- C12e: a structure whose fields are not a date of 1970 .. 2105 is refused (in UTC). -/
theorem c12_mktime_invalid (tm : Tm)
    (h : ¬ ∃ c : Civil, c.valid ∧ c.y < 136 ∧ tm.sec = c.s ∧ tm.min = c.min ∧ tm.hour = c.h ∧ tm.mday = c.d ∧ tm.mon = c.m ∧ tm.year = 70 + c.y) :
    mktime 0 tm = some (tm, 2 ^ 32 - 1) := by
  have hb : buildtime tm = some (tm, 2 ^ 32 - 1) := by
    unfold buildtime
    by_cases h1 : tm.sec < 0 ∨ tm.sec > 59 ∨ tm.min < 0 ∨ tm.min > 59 ∨ tm.hour < 0 ∨ tm.hour > 23 ∨ tm.mday < 1 ∨ tm.mday > 31 ∨
     tm.mon < 0 ∨ tm.mon > 11 ∨ tm.year < 70 ∨ tm.year > 70 + 135
    · rw [if_pos h1]
    · rw [if_neg h1]
      have hl : (1900 + tm.year).toNat = 1970 + (tm.year - 70).toNat := by omega
      have hdim : (if tm.mon = 1 then 28 + (isleap (1900 + tm.year).toNat : Int) else 30 + ((0xAD5 / 2 ^ tm.mon.toNat) % 2 : Nat)) =
          monthLen (1970 + (tm.year - 70).toNat) tm.mon.toNat := by
        rw [hl, isleap_eq]
        unfold monthLen
        have : tm.mon = 0 ∨ tm.mon = 1 ∨ tm.mon = 2 ∨ tm.mon = 3 ∨ tm.mon = 4 ∨ tm.mon = 5 ∨ tm.mon = 6 ∨ tm.mon = 7 ∨ tm.mon = 8 ∨ tm.mon = 9 ∨ tm.mon = 10 ∨ tm.mon = 11 := by omega
        rcases this with e | e | e | e | e | e | e | e | e | e | e | e <;> rw [e] <;> simp
        split <;> simp
      simp only
      rw [hdim, if_pos]
      apply Int.not_le.1
      intro hle
      exact h ⟨⟨(tm.year - 70).toNat, tm.mon.toNat, tm.mday.toNat, tm.hour.toNat, tm.min.toNat, tm.sec.toNat⟩,
        ⟨by simp only; omega, by simp only; omega, by simp only; omega, by simp only; omega, by simp only; omega, by simp only; omega⟩,
        by simp only; omega, by simp only; omega, by simp only; omega, by simp only; omega, by simp only; omega, by simp only; omega, by simp only; omega⟩
  unfold mktime
  rw [hb]
  simp [u32]

/-- 29 February 2000, 12:34:56 -/
example : gmtime 951827696 = some (some ⟨56, 34, 12, 29, 1, 100, 2, 59, 0⟩) := by decide +kernel
example : (Civil.mk 30 1 29 12 34 56).valid ∧ (Civil.mk 30 1 29 12 34 56).seconds = 951827696 := by
  refine ⟨?_, by decide +kernel⟩
  unfold Civil.valid; decide +kernel
/-- 29 February 2100 does not exist -/
example : mktime 0 ⟨0, 0, 0, 29, 1, 200, 0, 0, 0⟩ = some (⟨0, 0, 0, 29, 1, 200, 0, 0, 0⟩, 2 ^ 32 - 1) := by decide +kernel

/-- with a time zone, a refused date does not give -1 (mktime.c:97-98 adds the offset to the failure value) -/
theorem c12_defect : ∃ tm : Tm, tm.mon = 12 ∧ ∃ r, mktime 60 tm = some r ∧ r.2 ≠ 2 ^ 32 - 1 :=
  ⟨⟨0, 0, 0, 1, 12, 100, 0, 0, 0⟩, rfl, _, rfl, by decide⟩

end Smlr.Time
