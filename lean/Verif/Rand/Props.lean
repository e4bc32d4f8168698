import Verif.Rand.Model
import Mathlib.Dynamics.PeriodicPts.Lemmas
import Mathlib.Tactic.Ring
set_option autoImplicit false
/-! C68: `rand` and `srand`. -/
namespace Smlr.Rand

theorem and_7fff (n : Nat) : n &&& 0x7FFF = n % 2 ^ 15 := Nat.and_two_pow_sub_one_eq_mod n 15

/-- every result is from 0 to `RAND_MAX`, 32767 -/
theorem c68_range (s : Nat) (t : Nat × Nat) : (0 ≤ (rand32 s).2 ∧ (rand32 s).2 ≤ 32767) ∧ (0 ≤ (rand16 t).2 ∧ (rand16 t).2 ≤ 32767) := by
  unfold rand32 rand16
  simp only [and_7fff]
  omega

/-- the states of the two libraries stand for each other -/
def Rel (s : Nat) (t : Nat × Nat) : Prop := s = t.1 + t.2 * 65536

theorem rel_step {s : Nat} {t : Nat × Nat} (h : Rel s t) : Rel (rand32 s).1 (rand16 t).1 ∧ (rand32 s).2 = (rand16 t).2 := by
  unfold Rel at h
  have key : (t.1 + t.2 * 65536) * 1103515245 % 2 ^ 32 = s * 1103515245 % 2 ^ 32 := by rw [h]
  have e : (s * 1103515245 % 2 ^ 32 + 12345) % 2 ^ 32 = next s := by unfold next; omega
  unfold Rel rand32 rand16 helper
  simp only [key, e, Nat.shiftRight_eq_div_pow]
  constructor
  · omega
  · trivial

/-- the 16-bit and the 32-bit library give the same numbers, from the start and after `srand` with any 16-bit seed -/
theorem c68_same (n seed : Nat) : run rand16 n init16 = run rand32 n init32 ∧ run rand16 n (srand16 seed) = run rand32 n (srand32 seed) := by
  have : ∀ n s t, Rel s t → run rand16 n t = run rand32 n s := by
    intro n
    induction n with
    | zero => intro s t _; rfl
    | succ n ih =>
      intro s t h
      have := rel_step h
      rw [run, run, this.2, ih _ _ this.1]
  exact ⟨this n _ _ rfl, this n _ _ (by unfold Rel srand16 srand32; simp)⟩

/-- without `srand` the numbers are those after `srand(1)` (C99 7.20.2.2), and equal seeds give equal numbers -/
theorem c68_default (n : Nat) : run rand32 n init32 = run rand32 n (srand32 1) ∧ run rand16 n init16 = run rand16 n (srand16 1) := ⟨rfl, rfl⟩

theorem powers (j : Nat) : ∃ p q : Nat, ∀ s, next^[2 ^ j] s = (s * (1 + 2 ^ (j + 2) * p) + 2 ^ j * (2 * q + 1)) % 2 ^ 32 := by
  induction j with
  | zero => exact ⟨275878811, 6172, fun s => by simp only [pow_zero, Function.iterate_one]; rfl⟩
  | succ j ih =>
    obtain ⟨p, q, h⟩ := ih
    refine ⟨p + 2 ^ (j + 1) * p ^ 2, q + 2 ^ j * p * (2 * q + 1), fun s => ?_⟩
    have e : 2 ^ (j + 1) = 2 ^ j + 2 ^ j := by ring
    rw [show next^[2 ^ (j + 1)] s = next^[2 ^ j] (next^[2 ^ j] s) by rw [e, Function.iterate_add_apply], h, h]
    rw [Nat.add_mod, Nat.mod_mul_mod, ← Nat.add_mod]
    congr 1
    ring

theorem next_lt (s : Nat) : next s < 2 ^ 32 := Nat.mod_lt _ (by decide)

theorem period (s : Nat) (hs : s < 2 ^ 32) : Function.minimalPeriod next s = 2 ^ 32 := by
  apply Function.minimalPeriod_eq_prime_pow (hp := ⟨Nat.prime_two⟩) (k := 31)
  · obtain ⟨p, q, h⟩ := powers 31
    intro hp
    have h1 : next^[2 ^ 31] s = s := hp
    rw [h] at h1
    have : s * (1 + 2 ^ (31 + 2) * p) = s + 2 ^ 33 * (s * p) := by ring
    rw [this] at h1
    generalize s * p = x at h1
    omega
  · obtain ⟨p, q, h⟩ := powers 32
    show next^[2 ^ (31 + 1)] s = s
    rw [show 31 + 1 = 32 from rfl, h]
    have : s * (1 + 2 ^ (32 + 2) * p) = s + 2 ^ 34 * (s * p) := by ring
    rw [this]
    generalize s * p = x
    omega

/-- the state comes back after 2^32 calls and not before -/
theorem c68_period (s n : Nat) (hs : s < 2 ^ 32) : next^[n] s = s ↔ 2 ^ 32 ∣ n := by
  rw [← period s hs]
  exact Function.isPeriodicPt_iff_minimalPeriod_dvd

/-- from every state every other state is reached, once in 2^32 calls -/
theorem c68_all (s t : Nat) (hs : s < 2 ^ 32) (ht : t < 2 ^ 32) : ∃ n, n < 2 ^ 32 ∧ next^[n] s = t ∧ ∀ m, m < 2 ^ 32 → next^[m] s = t → m = n := by
  have inj : ∀ m n, m < 2 ^ 32 → n < 2 ^ 32 → next^[m] s = next^[n] s → m = n := by
    intro m n hm hn h
    exact Function.iterate_injOn_Iio_minimalPeriod (f := next) (x := s) (by rw [period s hs]; exact hm) (by rw [period s hs]; exact hn) h
  have lt : ∀ n, next^[n] s < 2 ^ 32 := by
    intro n
    cases n with
    | zero => exact hs
    | succ n => rw [Function.iterate_succ_apply']; exact next_lt _
  let g : Fin (2 ^ 32) → Fin (2 ^ 32) := fun n => ⟨next^[n.1] s, lt n.1⟩
  have gi : Function.Injective g := by
    intro m n h
    exact Fin.ext (inj m.1 n.1 m.2 n.2 (congrArg Fin.val h))
  obtain ⟨n, hn⟩ := (Finite.injective_iff_surjective.1 gi) ⟨t, ht⟩
  have hn' : next^[n.1] s = t := congrArg Fin.val hn
  exact ⟨n.1, n.2, hn', fun m hm h => inj m n.1 hm n.2 (by rw [h, hn'])⟩

/-! ### examples -/

example : run rand32 3 init32 = [16838, 5758, 10113] ∧ run rand16 3 (srand16 1) = [16838, 5758, 10113] := by decide +kernel

example : next^[2] 7 ≠ 7 := fun h => absurd ((c68_period 7 2 (by decide)).1 h) (by decide)

end Smlr.Rand
