import Verif.Number.Spec
import Mathlib.Tactic.Ring
set_option autoImplicit false
namespace Smlr.Number

theorem fval_enc (k q : Nat) (hq : q ≤ 2 ^ 24) (hk : 2 ^ 23 ≤ q ∨ k = 0) : fval (k * 2 ^ 23 + q) = q * 2 ^ k := by
  unfold fval
  by_cases h1 : q < 2 ^ 23
  · have : k = 0 := by omega
    subst this
    rw [if_pos (by omega)]; simp
  · rw [if_neg (by omega)]
    by_cases h2 : q = 2 ^ 24
    · subst h2
      rw [show k * 2 ^ 23 + 2 ^ 24 = (k + 2) * 2 ^ 23 by omega, Nat.mul_mod_left, Nat.mul_div_cancel _ (by omega)]
      rw [show k + 2 - 1 = k + 1 by omega, Nat.pow_succ]; omega
    · rw [show k * 2 ^ 23 + q = (q - 2 ^ 23) + (k + 1) * 2 ^ 23 by omega, Nat.add_mul_mod_self_right, Nat.add_mul_div_right _ _ (by omega)]
      rw [Nat.mod_eq_of_lt (by omega), Nat.div_eq_of_lt (by omega)]
      rw [show 0 + (k + 1) - 1 = k by omega, show 2 ^ 23 + (q - 2 ^ 23) = q by omega]

theorem fval_succ (r : Nat) : fval r < fval (r + 1) := by
  have h : ∃ k q, r = k * 2 ^ 23 + q ∧ q < 2 ^ 24 ∧ (2 ^ 23 ≤ q ∨ k = 0) := by
    refine ⟨r / 2 ^ 23 - 1, r - (r / 2 ^ 23 - 1) * 2 ^ 23, ?_, ?_, ?_⟩ <;> omega
  obtain ⟨k, q, rfl, h1, h2⟩ := h
  rw [Nat.add_assoc, fval_enc k q (by omega) h2, fval_enc k (q + 1) (by omega) (by omega), Nat.succ_mul]
  have : 0 < 2 ^ k := Nat.pow_pos (by omega)
  omega

theorem fval_mono {r s : Nat} (h : r ≤ s) : fval r ≤ fval s := by
  induction h with
  | refl => exact Nat.le_refl _
  | step _ ih => exact Nat.le_trans ih (Nat.le_of_lt (fval_succ _))

theorem fval_inf : fval inf = 2 ^ 24 * 2 ^ 253 := by
  rw [← fval_enc 253 (2 ^ 24) (by omega) (Or.inl (by omega))]; rfl

theorem fval_max : fval (inf - 1) = (2 ^ 24 - 1) * 2 ^ 253 := by
  rw [← fval_enc 253 (2 ^ 24 - 1) (by omega) (Or.inl (by omega))]; rfl

/-- choosing between the two neighbours -/
theorem round_ok (num den k q : Nat) (hd : 0 < den) (hq : q < 2 ^ 24) (hk : 2 ^ 23 ≤ q ∨ k = 0) (lo : q * 2 ^ k * den ≤ num)
    (hi : num < (q + 1) * 2 ^ k * den) (up : Nat)
    (hup : up = if (2 * q + 1) * 2 ^ k * den < 2 * num ∨ ((2 * q + 1) * 2 ^ k * den = 2 * num ∧ q % 2 = 1) then 1 else 0) :
    Rounded num den (min inf (k * 2 ^ 23 + q + up)) := by
  obtain ⟨r, hr⟩ : ∃ r, r = k * 2 ^ 23 + q := ⟨_, rfl⟩
  have e0 := fval_enc k q (by omega) hk
  have e1 := fval_enc k (q + 1) (by omega) (by omega)
  rw [← hr]
  rw [← Nat.add_assoc, ← hr] at e1
  rw [← hr] at e0
  have f1 := fval_inf
  have f2 := fval_max
  rw [← e0] at lo
  rw [← e1] at hi
  have hc : (2 * q + 1) * 2 ^ k * den = 2 * (fval r * den) + 2 ^ k * den := by rw [e0]; ring
  have hb : fval (r + 1) * den = fval r * den + 2 ^ k * den := by rw [e1, e0]; ring
  rw [hc] at hup
  have hpos : 0 < 2 ^ k * den := Nat.mul_pos (Nat.pow_pos (by omega)) hd
  have hle : ∀ s, s ≤ r → fval s * den ≤ fval r * den := fun s hs => Nat.mul_le_mul_right _ (fval_mono hs)
  have hge : ∀ s, r + 1 ≤ s → fval (r + 1) * den ≤ fval s * den := fun s hs => Nat.mul_le_mul_right _ (fval_mono hs)
  have hpar : r % 2 = q % 2 := by omega
  have hinf : inf = 255 * 2 ^ 23 := rfl
  obtain ⟨T, hTh⟩ : ∃ T, T = (2 ^ 25 - 1) * 2 ^ 252 * den := ⟨_, rfl⟩
  have hT : ∀ x, fval x * den ≤ num → inf ≤ x → T ≤ num := by
    intro x hx hx2
    rw [hTh]
    refine Nat.le_trans ?_ hx
    refine Nat.mul_le_mul_right _ (Nat.le_trans ?_ (fval_mono hx2))
    rw [f1]; decide
  have hT2 : ∀ x, num < fval x * den → x < inf → num < T := by
    intro x hx hx2
    rw [hTh]
    refine Nat.lt_of_lt_of_le hx ?_
    refine Nat.mul_le_mul_right _ (Nat.le_trans (fval_mono (show x ≤ inf - 1 by omega)) ?_)
    rw [f2]; decide
  have hmax : r + 1 = inf → 2 * T = 2 * (fval r * den) + 2 ^ k * den ∧ q % 2 = 1 := by
    intro h
    have hk3 : k = 253 := by omega
    have hq3 : q = 2 ^ 24 - 1 := by omega
    rw [hTh, ← hc, hk3, hq3]
    refine ⟨?_, by decide⟩
    rw [← Nat.mul_assoc, ← Nat.mul_assoc]
    congr 1
  obtain ⟨A, hA⟩ : ∃ A, fval r * den = A := ⟨_, rfl⟩
  obtain ⟨B, hB⟩ : ∃ B, fval (r + 1) * den = B := ⟨_, rfl⟩
  obtain ⟨C, hC⟩ : ∃ C, 2 ^ k * den = C := ⟨_, rfl⟩
  rw [hA] at lo hup hb hmax
  rw [hB] at hi hb
  rw [hC] at hup hb hmax hpos
  have hle : ∀ s, s ≤ r → fval s * den ≤ A := fun s h => by rw [← hA]; exact hle s h
  have hge : ∀ s, r + 1 ≤ s → B ≤ fval s * den := fun s h => by rw [← hB]; exact hge s h
  have hA' : (fval r : Int) * den = A := by rw [← hA]; push_cast; rfl
  have hB' : (fval (r + 1) : Int) * den = B := by rw [← hB]; push_cast; rfl
  have tr : ∀ s, s ≤ r ∨ r + 1 ≤ s := fun s => by omega
  have hs : ∀ s : Nat, ((fval s : Int) * den ≤ A ∧ s ≤ r) ∨ ((B : Int) ≤ (fval s : Int) * den ∧ r + 1 ≤ s) := by
    intro s
    rcases tr s with h | h
    · left
      have := hle s h
      refine ⟨?_, h⟩
      rw [← Int.natCast_mul]; omega
    · right
      have := hge s h
      refine ⟨?_, h⟩
      rw [← Int.natCast_mul]; omega
  by_cases hcase : 2 * A + C < 2 * num ∨ (2 * A + C = 2 * num ∧ q % 2 = 1)
  · rw [if_pos hcase] at hup
    subst hup
    refine ⟨?_, Nat.min_le_left _ _, ?_, ?_⟩
    · rw [← hTh]
      constructor
      · intro h
        have : inf ≤ r + 1 := by omega
        by_cases h2 : inf ≤ r
        · exact hT r (by omega) h2
        · have := hmax (by omega)
          omega
      · intro h
        rcases Nat.lt_or_ge (r + 1) inf with h2 | h2
        · have := hT2 (r + 1) (by omega) h2; omega
        · omega
    · intro hne s _
      rw [show min inf (r + 1) = r + 1 by omega, hB']
      rcases hs s with ⟨h, -⟩ | ⟨h, -⟩ <;> omega
    · intro hne s _ hsr heq
      rw [show min inf (r + 1) = r + 1 by omega] at *
      rw [hB'] at heq
      have hx : (fval s : Int) * den ≠ B ∨ (fval s : Int) * den = B := by omega
      rcases hs s with ⟨h, hh⟩ | ⟨h, hh⟩
      · omega
      · -- strictly above
        have h5 : fval (r + 1 + 1) ≤ fval s := fval_mono (by omega)
        have h6 := fval_succ (r + 1)
        have h7 : fval (r + 1) * den + den ≤ fval s * den := by
          rw [← Nat.succ_mul]; exact Nat.mul_le_mul_right _ (by omega)
        rw [hB] at h7
        have h8 : (B : Int) + den ≤ (fval s : Int) * den := by rw [← Int.natCast_mul]; omega
        omega
  · rw [if_neg hcase] at hup
    subst hup
    simp only [Nat.add_zero]
    refine ⟨?_, Nat.min_le_left _ _, ?_, ?_⟩
    · rw [← hTh]
      constructor
      · intro h
        exact hT r (by omega) (by omega)
      · intro h
        rcases Nat.lt_or_ge r inf with h2 | h2
        · exfalso
          rcases Nat.lt_or_ge (r + 1) inf with h3 | h3
          · have := hT2 (r + 1) (by omega) h3; omega
          · have := hmax (by omega); omega
        · omega
    · intro hne s _
      rw [show min inf r = r by omega, hA']
      rcases hs s with ⟨h, -⟩ | ⟨h, -⟩ <;> omega
    · intro hne s _ hsr heq
      rw [show min inf r = r by omega] at *
      rw [hA'] at heq
      rcases hs s with ⟨h, hh⟩ | ⟨h, hh⟩
      · have h5 : fval s + 1 ≤ fval r := by
          have h6 := fval_succ s
          have h7 : fval (s + 1) ≤ fval r := fval_mono (by omega)
          omega
        have h7 : fval s * den + den ≤ fval r * den := by
          rw [← Nat.succ_mul]; exact Nat.mul_le_mul_right _ (by omega)
        rw [hA] at h7
        have h8 : (fval s : Int) * den + den ≤ A := by rw [← Int.natCast_mul]; omega
        omega
      · omega

end Smlr.Number
