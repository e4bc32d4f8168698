import Verif.Mips.Pt
set_option autoImplicit false
/-! Operators that `GenPrep` replaces have the same value. -/
namespace Smlr.Mips
open Smlr.Cg (Wd wd Ar Cc arith rel)

theorem bit_top {x k : Nat} (h : 2 ^ k ≤ x) (h' : x < 2 ^ (k + 1)) : x.testBit k = true := by
  rw [Nat.testBit_eq_decide_div_mod_eq]
  have : x / 2 ^ k = 1 := by
    apply Nat.div_eq_of_lt_le
    · omega
    · rw [Nat.pow_succ] at h'; omega
  rw [this]; rfl

theorem pow_of_and {m : Nat} (h0 : m ≠ 0) (h : m &&& (m - 1) = 0) : m = 2 ^ m.log2 := by
  have h1 := Nat.log2_self_le h0
  have h2 : m < 2 ^ (m.log2 + 1) := Nat.lt_log2_self
  apply Classical.byContradiction
  intro hne
  have h3 := bit_top (x := m) h1 h2
  have h4 := bit_top (x := m - 1) (k := m.log2) (by omega) (by omega)
  have h5 : (m &&& (m - 1)).testBit m.log2 = true := by rw [Nat.testBit_and, h3, h4]; rfl
  rw [h] at h5
  simp at h5

theorem pow2_some {n : Int} {k : Nat} (h : pow2 n = some k) : (wd 4 n).toNat = 2 ^ k ∧ k < 32 := by
  unfold pow2 at h
  dsimp only at h
  split at h
  · next hc =>
    cases h
    refine ⟨pow_of_and hc.1 hc.2, ?_⟩
    have := (wd 4 n).isLt
    rw [pow_of_and hc.1 hc.2] at this
    exact (Nat.pow_lt_pow_iff_right (by decide)).mp this
  · cases h

theorem wd_small {k : Nat} (h : k < 2 ^ 32) : (wd 4 (k : Int)).toNat = k := by
  rw [Cg.wd_nat, BitVec.toNat_ofNat]
  exact Nat.mod_eq_of_lt h

theorem wd_k {k : Nat} (h : k < 32) : (wd 4 (k : Int)).toNat = k := wd_small (by omega)

/-- the numbers that the code computes may differ by a multiple of `2 ^ 32`, so that the words count -/
def Same (a b : Option Int) : Prop := ∀ z, a = some z → ∃ z', b = some z' ∧ wd 4 z' = wd 4 z

theorem Same.refl (a : Option Int) : Same a a := fun z h => ⟨z, h, rfl⟩

theorem udiv_shr {n : Int} {k : Nat} (h : pow2 n = some k) (x : Wd 4) : Same (arith .udiv x (wd 4 n)) (arith .shr x (wd 4 (k : Int))) := by
  obtain ⟨h1, h2⟩ := pow2_some h
  intro z hz
  simp only [arith, h1] at hz
  rw [if_neg (Nat.ne_of_gt (Nat.pow_pos (by decide)))] at hz
  refine ⟨z, ?_, rfl⟩
  simp only [arith, wd_k h2]
  rw [if_pos (by omega)]
  exact hz

theorem umod_and {n : Int} {k : Nat} (h : pow2 n = some k) (x : Wd 4) : Same (arith .umod x (wd 4 n)) (arith .band x (wd 4 ((truncU n : Int) - 1))) := by
  obtain ⟨h1, h2⟩ := pow2_some h
  intro z hz
  simp only [arith, h1] at hz
  rw [if_neg (Nat.ne_of_gt (Nat.pow_pos (by decide)))] at hz
  refine ⟨z, ?_, rfl⟩
  rw [← hz]
  have hp : 0 < 2 ^ k := Nat.pow_pos (by decide)
  have hq : 2 ^ k < 2 ^ 32 := (Nat.pow_lt_pow_iff_right (by decide)).mpr h2
  have e : (wd 4 ((truncU n : Int) - 1)).toNat = 2 ^ k - 1 := by
    have : ((truncU n : Int) - 1) = ((2 ^ k - 1 : Nat) : Int) := by
      rw [truncU, h1]; omega
    rw [this]
    exact wd_small (by omega)
  simp only [arith]
  rw [BitVec.toNat_and, e, Nat.and_two_pow_sub_one_eq_mod]

theorem mul_shl {n : Int} {k : Nat} (h : pow2 n = some k) (x : Wd 4) : Same (arith .mul x (wd 4 n)) (arith .shl x (wd 4 (k : Int))) := by
  obtain ⟨h1, h2⟩ := pow2_some h
  intro z hz
  simp only [arith, Option.some.injEq] at hz
  refine ⟨x.toInt * 2 ^ k, ?_, ?_⟩
  · simp only [arith, wd_k h2]
    rw [if_pos (by omega)]
  · rw [← hz]
    have e : wd 4 ((2:Int) ^ k) = wd 4 n := by
      apply BitVec.eq_of_toNat_eq
      rw [h1]
      have : ((2:Int) ^ k) = ((2 ^ k : Nat) : Int) := by simp
      rw [this]
      exact wd_small ((Nat.pow_lt_pow_iff_right (by decide)).mpr h2)
    rw [wd, BitVec.ofInt_mul, wd, BitVec.ofInt_mul]
    congr 1
    rw [BitVec.ofInt_toInt]
    exact e

theorem red_ok (o : Ar) (n : Int) (x : Wd 4) : Same (arith o x (wd 4 n)) (arith (red o n).1 x (wd 4 (red o n).2)) := by
  unfold red
  cases hp : pow2 n with
  | none => exact .refl _
  | some k => cases o <;> first | exact .refl _ | exact udiv_shr hp x | exact umod_and hp x | exact mul_shl hp x

theorem redA_ok (o : Ar) (n : Int) (x : Wd 4) : Same (arith o x (wd 4 n)) (arith (redA o n).1 x (wd 4 (redA o n).2)) := by
  unfold redA
  cases hp : pow2 n with
  | none => exact .refl _
  | some k => cases o <;> first | exact .refl _ | exact udiv_shr hp x | exact umod_and hp x

theorem arith_comm {o : Ar} (h : comm o = true) (x y : Wd 4) : arith o x y = arith o y x := by
  cases o <;> first | (cases h; done) | skip
  · simp only [arith, Int.add_comm]
  · simp only [arith, Int.mul_comm]
  · simp only [arith, BitVec.and_comm]
  · simp only [arith, BitVec.xor_comm]
  · simp only [arith, BitVec.or_comm]

theorem mirror_rel (c : Cc) : ∃ c', mirror (.cmp c) = .cmp c' ∧ ∀ x y : Wd 4, rel c' y x = rel c x y := by
  cases c <;> refine ⟨_, rfl, fun x y => ?_⟩ <;> first | rfl | (simp only [rel]; exact decide_eq_decide.mpr (by constructor <;> (intro h; first | exact h.symm | exact fun g => h g.symm)))

/-- a comparison with a number stays one, or is always false -/
theorem special_rel (c : Cc) (n : Int) :
    (∃ c' n', special (.cmp c) n = (.cmp c', n') ∧ ∀ x : Wd 4, rel c' x (wd 4 n') = rel c x (wd 4 n)) ∨
    (special (.cmp c) n = (.ar .band, 0) ∧ ∀ x : Wd 4, rel c x (wd 4 n) = false) := by
  have t0 : (wd 4 0).toNat = 0 := by decide
  have big : (wd 4 n).toNat = 0x7FFFFFFF → (wd 4 n).toInt = 0x7FFFFFFF := by
    intro h
    have : wd 4 n = wd 4 0x7FFFFFFF := BitVec.eq_of_toNat_eq (h.trans (by decide))
    rw [this]; decide
  have rng : ∀ x : Wd 4, x.toInt ≤ 0x7FFFFFFF := fun x => by
    have := BitVec.toInt_lt (x := x)
    simp at this
    omega
  cases c <;> simp only [special] <;> try exact Or.inl ⟨_, _, rfl, fun _ => rfl⟩
  · by_cases hc : truncU n = 0x7FFFFFFF
    · rw [if_pos hc]
      refine Or.inr ⟨rfl, fun x => ?_⟩
      have := rng x
      simp only [rel, big hc]
      exact decide_eq_false (by omega)
    · rw [if_neg hc]; exact Or.inl ⟨_, _, rfl, fun _ => rfl⟩
  · by_cases hc : truncU n = 0xFFFFFFFF
    · rw [if_pos hc]
      refine Or.inr ⟨rfl, fun x => ?_⟩
      have := x.isLt
      have hc' : (wd 4 n).toNat = 0xFFFFFFFF := hc
      simp only [rel, hc']
      exact decide_eq_false (by omega)
    · rw [if_neg hc]; exact Or.inl ⟨_, _, rfl, fun _ => rfl⟩
  · by_cases hc : truncU n = 0x7FFFFFFF
    · rw [if_pos hc]
      refine Or.inl ⟨_, _, rfl, fun x => ?_⟩
      have := rng x
      simp only [rel, big hc, t0]
      exact decide_eq_decide.mpr ⟨fun _ => this, fun _ => Nat.zero_le _⟩
    · rw [if_neg hc]; exact Or.inl ⟨_, _, rfl, fun _ => rfl⟩
  · by_cases hc : truncU n = 0xFFFFFFFF
    · rw [if_pos hc]
      refine Or.inl ⟨_, _, rfl, fun x => ?_⟩
      have := x.isLt
      have hc' : (wd 4 n).toNat = 0xFFFFFFFF := hc
      simp only [rel, hc', t0]
      exact decide_eq_decide.mpr ⟨fun _ => by omega, fun _ => Nat.zero_le _⟩
    · rw [if_neg hc]; exact Or.inl ⟨_, _, rfl, fun _ => rfl⟩

end Smlr.Mips
