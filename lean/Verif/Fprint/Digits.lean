import Verif.Fprint.Model
import Verif.Fprint.Spec

set_option autoImplicit false
/- decimal digits -/
namespace Smlr.Fprint
open Spec

theorem pad_len (k : Nat) : ∀ n, (pad k n).length = k := by
  induction k with
  | zero => intro n; rfl
  | succ k ih => intro n; simp [pad, ih]

theorem pad_add (a b : Nat) : ∀ n, pad (a + b) n = pad a (n / 10 ^ b) ++ pad b n := by
  induction b with
  | zero => intro n; simp [pad]
  | succ b ih =>
    intro n
    have h : n / 10 ^ (b + 1) = n / 10 / 10 ^ b := by rw [Nat.div_div_eq_div_mul, Nat.pow_succ, Nat.mul_comm]
    rw [← Nat.add_assoc, pad, ih, h, pad, List.append_assoc]

theorem pad_mod (k : Nat) : ∀ n, pad k (n % 10 ^ k) = pad k n := by
  induction k with
  | zero => intro n; rfl
  | succ k ih =>
    intro n
    have h1 : n % 10 ^ (k + 1) / 10 = n / 10 % 10 ^ k := by
      rw [Nat.pow_succ, Nat.mul_comm, Nat.mod_mul_right_div_self]
    have h2 : n % 10 ^ (k + 1) % 10 = n % 10 := Nat.mod_mod_of_dvd _ ⟨10 ^ k, by rw [Nat.pow_succ, Nat.mul_comm]⟩
    rw [pad, pad, h1, h2, ih]

theorem pad_congr {k m n : Nat} (h : m % 10 ^ k = n % 10 ^ k) : pad k m = pad k n := by
  rw [← pad_mod, h, pad_mod]

/-- the first of `k + 1` digits -/
theorem pad_head (k n : Nat) : pad (k + 1) n = (48 + n / 10 ^ k % 10) :: pad k n := by
  rw [Nat.add_comm, pad_add]; rfl

theorem pad_small {k n : Nat} (h : n < 10 ^ k) : pad (k + 1) n = 48 :: pad k n := by
  rw [pad_head, Nat.div_eq_of_lt h]

theorem pad_zero (k : Nat) : pad k 0 = List.replicate k 48 := by
  induction k with
  | zero => rfl
  | succ k ih => rw [pad_head, ih]; simp [List.replicate_succ]

/-- digits after a shift -/
theorem pad_shift (k f n : Nat) : pad (k + f) (n * 10 ^ f) = pad k n ++ List.replicate f 48 := by
  rw [pad_add, Nat.mul_div_cancel _ (Nat.pow_pos (by omega)), ← pad_mod f, Nat.mul_mod_left, pad_zero]

theorem dec_pad : ∀ (c n : Nat), n < 10 ^ (c + 1) → (c = 0 ∨ 10 ^ c ≤ n) → dec n = pad (c + 1) n := by
  intro c
  induction c with
  | zero =>
    intro n h _
    rw [dec, if_pos (by omega)]
    simp [pad, Nat.mod_eq_of_lt (show n < 10 by omega)]
  | succ c ih =>
    intro n h h'
    have h' : 10 ^ (c + 1) ≤ n := by omega
    have hp : 1 ≤ 10 ^ c := Nat.pow_pos (by omega)
    rw [Nat.pow_succ] at h h'
    rw [dec, if_neg (by omega), pad, ih (n / 10) (by omega) (by right; omega)]

theorem pad_get (k : Nat) : ∀ (n i : Nat), i < k → (pad k n).getD i 0 = 48 + n / 10 ^ (k - 1 - i) % 10 := by
  induction k with
  | zero => intro n i h; omega
  | succ k ih =>
    intro n i h
    rw [pad_head]
    cases i with
    | zero => simp
    | succ i =>
      rw [List.getD_cons_succ, ih n i (by omega)]
      congr 4
      omega

/-- a list is known by its elements -/
theorem take_ext {l m : List Nat} {k : Nat} (hl : k ≤ l.length) (hm : m.length = k)
    (h : ∀ i, i < k → l.getD i 0 = m.getD i 0) : l.take k = m := by
  apply List.ext_getElem?
  intro i
  by_cases hi : i < k
  · have := h i hi
    rw [List.getElem?_take_of_lt hi, List.getElem?_eq_getElem (by omega), List.getElem?_eq_getElem (by omega)]
    rw [List.getD_eq_getElem?_getD, List.getD_eq_getElem?_getD, List.getElem?_eq_getElem (by omega), List.getElem?_eq_getElem (by omega)] at this
    simpa using this
  · rw [List.getElem?_eq_none (by simp; omega), List.getElem?_eq_none (by omega)]

theorem getD_set (l : List Nat) (i v j : Nat) : (l.set i v).getD j 0 = if i = j ∧ i < l.length then v else l.getD j 0 := by
  rw [List.getD_eq_getElem?_getD, List.getElem?_set, List.getD_eq_getElem?_getD]
  by_cases h : i = j
  · subst h
    by_cases h2 : i < l.length
    · simp [h2]
    · simp [h2]
  · simp [h]

end Smlr.Fprint
