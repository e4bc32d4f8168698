import Verif.Fprint.Chunks
import Mathlib.Tactic.Linarith
import Mathlib.Tactic.FieldSimp
import Mathlib.Tactic.Positivity
import Mathlib.Tactic.NormNum
import Mathlib.Tactic.Ring

set_option autoImplicit false
/- rounding -/
namespace Smlr.Fprint
open Spec

theorem roundup_ok : ∀ (k : Nat) (b : List Nat) (n : Nat), k < b.length → b.take (k + 1) = pad (k + 1) n → n + 1 < 10 ^ (k + 1) →
    (roundup k b).length = b.length ∧ (roundup k b).take (k + 1) = pad (k + 1) (n + 1) ∧
      (roundup k b).drop (k + 1) = b.drop (k + 1) := by
  intro k
  induction k with
  | zero =>
    intro b n hk hb hn
    cases b with
    | nil => simp at hk
    | cons c b =>
      simp [pad] at hb
      have hc : c = 48 + n := by omega
      have h57 : ¬ c = 57 := by omega
      simp [roundup, h57, pad]
      omega
  | succ k ih =>
    intro b n hk hb hn
    have hb2 := take_one hk
    rw [hb, pad] at hb2
    obtain ⟨hb3, hb4⟩ := List.append_inj' hb2 rfl
    have hg : b.getD (k + 1) 0 = 48 + n % 10 := by
      rw [getD_lt hk]; simpa using hb4.symm
    rw [roundup, hg]
    rw [Nat.pow_succ] at hn
    by_cases h9 : n % 10 = 9
    · rw [if_pos (by omega)]
      obtain ⟨g1, g2, g3⟩ := ih (b.set (k + 1) 48) (n / 10) (by simp; omega) (by
        rw [List.take_set_of_le (by omega)]; exact hb3.symm) (by omega)
      refine ⟨by simpa using g1, ?_, ?_⟩
      · have hl : k + 1 < (roundup k (b.set (k + 1) 48)).length := by rw [g1]; simpa using hk
        have e1 : (roundup k (b.set (k + 1) 48))[k + 1] = 48 := by
          have e2 : ((roundup k (b.set (k + 1) 48)).drop (k + 1))[0]? = ((b.set (k + 1) 48).drop (k + 1))[0]? := by rw [g3]
          rw [List.getElem?_drop, List.getElem?_drop, List.getElem?_eq_getElem (by simpa using hl)] at e2
          simp [hk] at e2
          exact e2
        rw [take_one hl, g2, e1]
        show _ = pad (k + 1) ((n + 1) / 10) ++ [48 + (n + 1) % 10]
        rw [show (n + 1) / 10 = n / 10 + 1 by omega, show (n + 1) % 10 = 0 by omega]
      · have e1 := congrArg (List.drop 1) g3
        rw [List.drop_drop, List.drop_drop] at e1
        rw [e1]
        exact List.drop_set_of_lt (by omega)
    · rw [if_neg (by omega)]
      refine ⟨by simp, ?_, List.drop_set_of_lt (by omega)⟩
      rw [take_one (by simpa using hk), List.take_set_of_le (by omega), ← hb3, List.getElem_set_self]
      show _ = pad (k + 1) ((n + 1) / 10) ++ [48 + (n + 1) % 10]
      rw [show (n + 1) / 10 = n / 10 by omega, show (n + 1) % 10 = n % 10 + 1 by omega]
      rfl

/-- the number made of all digits but the last one of `Q`, rounded -/
def rnd (Q : Nat) (rem : Bool) : Nat :=
  Q / 10 + if Q % 10 > 5 ∨ (Q % 10 = 5 ∧ (rem = true ∨ Q / 10 % 2 = 1)) then 1 else 0

theorem rnd_le (Q : Nat) (rem : Bool) : Q / 10 ≤ rnd Q rem ∧ rnd Q rem ≤ Q / 10 + 1 := by
  unfold rnd; split <;> omega

theorem roundEven_ok (k : Nat) (hk : 1 ≤ k) (b : List Nat) (Q : Nat) (rem : Bool) (hl : k + 1 < b.length)
    (hb : b.take (k + 2) = pad (k + 2) Q) (hQ : Q < 10 ^ (k + 1)) :
    (roundEven k rem b).length = b.length ∧ (roundEven k rem b).take (k + 1) = pad (k + 1) (rnd Q rem) := by
  have hb1 : b.take (k + 1) = pad (k + 1) (Q / 10) := by
    rw [take_one hl, pad] at hb
    exact (List.append_inj' hb rfl).1
  have g1 : b.getD (1 + k) 0 = 48 + Q % 10 := by
    rw [← getD_take b (k + 2) _ (by omega), hb, pad_get _ _ _ (by omega), show k + 2 - 1 - (1 + k) = 0 by omega]
    simp
  have g2 : b.getD k 0 = 48 + Q / 10 % 10 := by
    rw [← getD_take b (k + 2) _ (by omega), hb, pad_get _ _ _ (by omega), show k + 2 - 1 - k = 1 by omega]
    simp
  have hiff : (b.getD (1 + k) 0 ≥ 53 ∧ (b.getD (1 + k) 0 ≠ 53 ∨ rem = true ∨ (b.getD k 0 - 48) % 2 = 1)) ↔
      (Q % 10 > 5 ∨ (Q % 10 = 5 ∧ (rem = true ∨ Q / 10 % 2 = 1))) := by
    rw [g1, g2]
    have : (48 + Q / 10 % 10 - 48) % 2 = Q / 10 % 2 := by omega
    rw [this]
    cases rem <;> simp <;> omega
  unfold roundEven
  simp only []
  by_cases h : Q % 10 > 5 ∨ (Q % 10 = 5 ∧ (rem = true ∨ Q / 10 % 2 = 1))
  · rw [if_pos (hiff.2 h), rnd, if_pos h]
    rw [Nat.pow_succ] at hQ
    have h1 : 10 ≤ 10 ^ k := by
      calc 10 = 10 ^ 1 := rfl
        _ ≤ 10 ^ k := Nat.pow_le_pow_right (by omega) hk
    have h2 := roundup_ok k b (Q / 10) (by omega) hb1 (by rw [Nat.pow_succ]; omega)
    exact ⟨h2.1, h2.2.1⟩
  · rw [if_neg (fun h' => h (hiff.1 h')), rnd, if_neg h]
    exact ⟨rfl, hb1⟩

/-- nearest numbers to a fraction -/
theorem nearest_frac (up : Prop) (A B n : Nat) (hB : 0 < B) (h1 : 2 * A ≤ (2 * n + 1) * B) (h2 : 2 * n * B ≤ 2 * A + B)
    (h3 : 2 * A = (2 * n + 1) * B → ¬ up ∧ n % 2 = 0) (h4 : 2 * n * B = 2 * A + B → up ∨ n % 2 = 0) :
    Nearest up ((A : ℚ) / B) n := by
  have hB' : (0 : ℚ) < B := by exact_mod_cast hB
  have h1' : (2 : ℚ) * A ≤ (2 * n + 1) * B := by exact_mod_cast h1
  have h2' : (2 : ℚ) * n * B ≤ 2 * A + B := by exact_mod_cast h2
  have e : (A : ℚ) / B * B = A := div_mul_cancel₀ _ (ne_of_gt hB')
  generalize hx : (A : ℚ) / B = x at *
  have b1 : x - n ≤ 1 / 2 := by
    by_contra h
    have : 0 < (x - n - 1 / 2) * B := mul_pos (by linarith) hB'
    nlinarith
  have b2 : -(1 / 2) ≤ x - n := by
    by_contra h
    have : 0 < (n - x - 1 / 2) * B := mul_pos (by linarith) hB'
    nlinarith
  refine ⟨abs_le.2 ⟨b2, b1⟩, ?_⟩
  intro ht
  rcases (abs_eq (by norm_num)).1 ht with h | h
  · have : (2 : ℚ) * A = (2 * n + 1) * B := by
      rw [← e, show x = n + 1 / 2 by linarith]; ring
    have h5 := h3 (by exact_mod_cast this)
    exact ⟨fun hu => absurd hu h5.1, fun _ => h5.2⟩
  · have : (2 : ℚ) * n * B = 2 * A + B := by
      rw [← e, show x = n - 1 / 2 by linarith]; ring
    have h5 := h4 (by exact_mod_cast this)
    refine ⟨fun _ => by linarith, fun hu => h5.resolve_left hu⟩

/-- what `rnd` computes -/
theorem near (up : Prop) (rem : Bool) (A B : Nat) (hB : 0 < B) (hr : ¬ up → (rem = true ↔ 10 * A % B ≠ 0)) (hu : up → rem = true) :
    Nearest up ((A : ℚ) / B) (rnd (10 * A / B) rem) := by
  have hd := Nat.div_add_mod (10 * A) B
  have hlt := Nat.mod_lt (10 * A) hB
  have hq := Nat.div_add_mod (10 * A / B) 10
  have hd10 := Nat.mod_lt (10 * A / B) (show 0 < 10 by omega)
  unfold rnd
  generalize 10 * A % B = r at *
  generalize 10 * A / B = Q at *
  generalize Q / 10 = q at *
  generalize Q % 10 = d at *
  subst hq
  have e0 : B * (10 * q + d) = 10 * (q * B) + d * B := by ring
  have e1 : ∀ n, (2 * n + 1) * B = 2 * (n * B) + B := fun n => by ring
  have e2 : ∀ n, 2 * n * B = 2 * (n * B) := fun n => by ring
  have e3 : (q + 1) * B = q * B + B := by ring
  rw [e0] at hd
  by_cases h : d > 5 ∨ (d = 5 ∧ (rem = true ∨ q % 2 = 1))
  · rw [if_pos h]
    have h5 : 5 * B ≤ d * B := Nat.mul_le_mul_right _ (by omega)
    have h9 : d * B ≤ 9 * B := Nat.mul_le_mul_right _ (by omega)
    refine nearest_frac up A B (q + 1) hB ?_ ?_ ?_ ?_
    · rw [e1, e3]; omega
    · rw [e2, e3]; omega
    · rw [e1, e3]; intro h'; omega
    · rw [e2, e3]
      intro h'
      by_cases hup : up
      · exact Or.inl hup
      · right
        have hr0 : r = 0 := by omega
        have hd5 : d = 5 := by
          rcases Nat.lt_or_ge 5 d with h6 | h6
          · have : 6 * B ≤ d * B := Nat.mul_le_mul_right _ h6
            omega
          · omega
        have hrem : rem = false := by
          cases hrem : rem
          · rfl
          · exact absurd hr0 ((hr hup).1 hrem)
        rw [hrem] at h
        simp at h
        omega
  · rw [if_neg h, Nat.add_zero]
    have hd5 : d < 5 ∨ (d = 5 ∧ rem = false ∧ q % 2 = 0) := by
      cases rem <;> simp at h ⊢ <;> omega
    have hr0 : d = 5 → ¬ up ∧ r = 0 ∧ q % 2 = 0 := by
      intro h5
      have h6 : rem = false ∧ q % 2 = 0 := by
        rcases hd5 with h7 | h7
        · omega
        · exact h7.2
      have hup : ¬ up := fun h => by have := hu h; rw [h6.1] at this; cases this
      refine ⟨hup, ?_, h6.2⟩
      by_contra hne
      have := (hr hup).2 hne
      rw [h6.1] at this; cases this
    have hdB : d * B + r ≤ 5 * B ∧ (d * B + r = 5 * B → d = 5) := by
      rcases hd5 with h4 | h4
      · have : d * B ≤ 4 * B := Nat.mul_le_mul_right _ (by omega)
        omega
      · rw [h4.1, (hr0 h4.1).2.1]
        exact ⟨Nat.le_refl _, fun _ => rfl⟩
    refine nearest_frac up A B q hB ?_ ?_ ?_ ?_
    · rw [e1]; omega
    · rw [e2]; omega
    · rw [e1]
      intro h'
      have := hr0 (hdB.2 (by omega))
      exact ⟨this.1, this.2.2⟩
    · rw [e2]; intro h'; omega

theorem nearest_self (up : Prop) (n : Nat) : Nearest up (n : ℚ) n := by
  unfold Nearest
  rw [sub_self, abs_zero]
  exact ⟨by norm_num, fun h => by norm_num at h⟩

theorem nearest_nat {up : Prop} {m n : Nat} (h : Nearest up (m : ℚ) n) : n = m := by
  have h1 := h.1
  have h2 := abs_le.1 h1
  have h3 : (m : ℚ) < n + 1 := by linarith [h2.2]
  have h4 : (n : ℚ) < m + 1 := by linarith [h2.1]
  have h5 : m < n + 1 := by exact_mod_cast h3
  have h6 : n < m + 1 := by exact_mod_cast h4
  omega

/-- digits before and after the point together -/
theorem floor_split (x D t : Nat) (hD : 0 < D) : x * 10 ^ t / D = x / D * 10 ^ t + x % D * 10 ^ t / D ∧
    x % D * 10 ^ t / D < 10 ^ t ∧ x * 10 ^ t % D = x % D * 10 ^ t % D := by
  have h := Nat.div_add_mod x D
  have hp : 0 < 10 ^ t := Nat.pow_pos (by omega)
  have e : x * 10 ^ t = D * (x / D * 10 ^ t) + x % D * 10 ^ t := by
    rw [← Nat.mul_assoc, ← Nat.add_mul, h]
  refine ⟨?_, ?_, ?_⟩
  · conv => lhs; rw [e]
    rw [Nat.mul_add_div hD]
  · rw [Nat.div_lt_iff_lt_mul hD, Nat.mul_comm]
    exact Nat.mul_lt_mul_of_pos_left (Nat.mod_lt _ hD) hp
  · conv => lhs; rw [e]
    rw [Nat.mul_add_mod]

theorem exact_div {x m k t : Nat} (hx : x = m * 2 ^ k) (h : 149 ≤ k + t) : x * 10 ^ t % 2 ^ 149 = 0 := by
  have e : x * 10 ^ t = m * 5 ^ t * 2 ^ (k + t - 149) * 2 ^ 149 := by
    have : (10 : Nat) ^ t = 5 ^ t * 2 ^ t := by rw [← Nat.mul_pow]
    rw [hx, this, Nat.mul_assoc (m * 5 ^ t), ← Nat.pow_add, show k + t - 149 + 149 = k + t by omega, Nat.pow_add]
    ring
  rw [e, Nat.mul_mod_left]

end Smlr.Fprint
