import Verif.Time.Spec
set_option autoImplicit false
namespace Smlr.Time
open Spec

theorem sub32_eq (a b : Nat) (h : b ≤ a) (ha : a < 2 ^ 32) : sub32 a b = a - b := by
  unfold sub32
  rw [Nat.mod_eq_of_lt (show b < 2 ^ 32 by omega)]
  omega

theorem isleap_eq (y : Nat) : isleap y = if leap y then 1 else 0 := by
  have h : ∀ r : Fin 400, isleap r.val = if leap r.val then 1 else 0 := by decide +kernel
  have h1 : isleap y = isleap (y % 400) := by
    unfold isleap
    rw [Nat.mod_mod, show y % 400 % 4 = y % 4 by omega]
  have h2 : leap y ↔ leap (y % 400) := by
    unfold leap
    omega
  rw [h1, h ⟨y % 400, by omega⟩]
  by_cases hl : leap y
  · rw [if_pos hl, if_pos (h2.1 hl)]
  · rw [if_neg hl, if_neg (fun h => hl (h2.2 h))]

theorem epoch_table : daysSinceEpoch.length = 137 ∧ ∀ i : Fin 137, daysSinceEpoch[i.val]? = some (daysBeforeYear i.val) := by
  refine ⟨by decide +kernel, by decide +kernel⟩

theorem month_congr (y z m : Nat) (h : leap y ↔ leap z) : daysBeforeMonth y m = daysBeforeMonth z m := by
  unfold daysBeforeMonth
  congr 1
  apply List.map_congr_left
  intro i _
  unfold monthLen
  split <;> simp only [h]

theorem jan_table (y : Nat) : ∀ i : Fin 13, (daysSinceJan1st (isleap y))[i.val]? = some (daysBeforeMonth y i.val) := by
  have h0 : ∀ i : Fin 13, (daysSinceJan1st 0)[i.val]? = some (daysBeforeMonth 1 i.val) := by decide +kernel
  have h1 : ∀ i : Fin 13, (daysSinceJan1st 1)[i.val]? = some (daysBeforeMonth 4 i.val) := by decide +kernel
  intro i
  rw [isleap_eq]
  by_cases hl : leap y
  · rw [if_pos hl, h1, month_congr y 4 _ ⟨fun _ => by decide, fun _ => hl⟩]
  · rw [if_neg hl, h0, month_congr y 1 _ ⟨fun h => absurd h hl, fun h => absurd h (by decide)⟩]

/-- the binary search finds the interval -/
theorem search_ok (tab : List Nat) (f : Nat → Nat) (n d : Nat) (htab : ∀ i, i ≤ n → tab[i]? = some (f i)) :
    ∀ (fuel l r : Nat), r - l ≤ fuel → r ≤ n → l < r → f l ≤ d → d < f r →
      ∃ i, search tab d fuel l r = some i ∧ i < n ∧ f i ≤ d ∧ d < f (i + 1) := by
  intro fuel
  induction fuel with
  | zero => intro l r h1 _ h2; omega
  | succ fuel ih =>
    intro l r h1 h2 h3 h4 h5
    unfold search
    simp only
    rw [htab ((l + r) / 2) (by omega), htab ((l + r) / 2 + 1) (by omega)]
    simp only
    by_cases c1 : d < f ((l + r) / 2)
    · rw [if_pos c1]
      have : (l + r) / 2 ≠ l := by intro e; rw [e] at c1; omega
      exact ih l ((l + r) / 2) (by omega) (by omega) (by omega) h4 c1
    · rw [if_neg c1]
      by_cases c2 : d ≥ f ((l + r) / 2 + 1)
      · rw [if_pos c2]
        have : (l + r) / 2 + 1 ≠ r := by intro e; rw [e] at c2; omega
        exact ih ((l + r) / 2) r (by omega) h2 (by omega) (by omega) h5
      · rw [if_neg c2]
        exact ⟨_, rfl, by omega, by omega, by omega⟩

theorem year_succ (n : Nat) : daysBeforeYear (n + 1) = daysBeforeYear n + yearLen (1970 + n) := by
  unfold daysBeforeYear; rw [List.range_succ]; simp

theorem month_succ (y m : Nat) : daysBeforeMonth y (m + 1) = daysBeforeMonth y m + monthLen y m := by
  unfold daysBeforeMonth; rw [List.range_succ]; simp

theorem month_12 (y : Nat) : daysBeforeMonth y 12 = yearLen y := by
  have h0 : daysBeforeMonth 1 12 = 365 := by decide +kernel
  have h1 : daysBeforeMonth 4 12 = 366 := by decide +kernel
  unfold yearLen
  by_cases hl : leap y
  · rw [if_pos hl, ← h1]; exact month_congr y 4 _ ⟨fun _ => by decide, fun _ => hl⟩
  · rw [if_neg hl, ← h0]; exact month_congr y 1 _ ⟨fun h => absurd h hl, fun h => absurd h (by decide)⟩

theorem month_mono (y : Nat) : ∀ m k, daysBeforeMonth y m ≤ daysBeforeMonth y (m + k) := by
  intro m k
  induction k with
  | zero => simp
  | succ k ih => rw [← Nat.add_assoc, month_succ]; omega

theorem year_mono : ∀ m k, daysBeforeYear m ≤ daysBeforeYear (m + k) := by
  intro m k
  induction k with
  | zero => simp
  | succ k ih => rw [← Nat.add_assoc, year_succ]; omega

theorem year_136 : daysBeforeYear 136 = 49673 := by decide +kernel

/-- the closed formula of `__buildtime` counts the days of the years -/
theorem year_formula : ∀ n : Fin 136,
    ((70 + n.val : Int) - 70) * 365 + ((70 + n.val - 69) / 4 - (70 + n.val - 1) / 100 + (70 + n.val + 299) / 400) = daysBeforeYear n.val := by
  decide +kernel

theorem yday_lt (c : Civil) (hm : c.m < 12) (hd : 1 ≤ c.d ∧ c.d ≤ monthLen (1970 + c.y) c.m) : c.yday < yearLen (1970 + c.y) := by
  unfold Civil.yday
  have h1 := month_succ (1970 + c.y) c.m
  have h2 := month_mono (1970 + c.y) (c.m + 1) (11 - c.m)
  rw [show c.m + 1 + (11 - c.m) = 12 by omega, month_12] at h2
  omega

end Smlr.Time
