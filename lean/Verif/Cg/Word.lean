import Verif.Cg.Spec
set_option autoImplicit false
/-! Words, bytes and conversions. -/
namespace Smlr.Cg
variable {W : Nat}

theorem ld_lt (m : Mem W) (a : Wd W) (n : Nat) : ld m a n < 256 ^ n := by
  induction n generalizing a with
  | zero => simp [ld]
  | succ n ih =>
    have h1 := (m a).isLt
    have h2 := ih (a + 1)
    rw [Nat.pow_succ]
    simp only [ld]
    omega

theorem ld_congr (m m' : Mem W) (a : Wd W) (n : Nat) (h : ∀ i < n, m (a + BitVec.ofNat _ i) = m' (a + BitVec.ofNat _ i)) :
    ld m a n = ld m' a n := by
  induction n generalizing a with
  | zero => rfl
  | succ n ih =>
    simp only [ld]
    have h0 := h 0 (by omega)
    rw [BitVec.add_zero] at h0
    rw [h0, ih]
    intro i hi
    have := h (i + 1) (by omega)
    rw [BitVec.ofNat_add, BitVec.add_comm (BitVec.ofNat _ i), ← BitVec.add_assoc] at this
    exact this

theorem st_other (m : Mem W) (a : Wd W) (n v : Nat) (x : Wd W) (h : ∀ i < n, x ≠ a + BitVec.ofNat _ i) : st m a n v x = m x := by
  induction n generalizing a v with
  | zero => rfl
  | succ n ih =>
    simp only [st]
    have h0 := h 0 (by omega)
    rw [BitVec.add_zero] at h0
    rw [if_neg h0]
    apply ih
    intro i hi
    have := h (i + 1) (by omega)
    rw [BitVec.ofNat_add, BitVec.add_comm (BitVec.ofNat _ i), ← BitVec.add_assoc] at this
    exact this

/-- a store at addresses where two memories agree or not -/
theorem st_congr (m m' : Mem W) (a : Wd W) (n v : Nat) (x : Wd W) (h : m x = m' x) : st m a n v x = st m' a n v x := by
  induction n generalizing a v with
  | zero => exact h
  | succ n ih => simp only [st]; rw [ih]

theorem st_mod (m : Mem W) (a : Wd W) (n v v' : Nat) (h : v % 256 ^ n = v' % 256 ^ n) : st m a n v = st m a n v' := by
  induction n generalizing a v v' with
  | zero => rfl
  | succ n ih =>
    have e1 : v % 256 = v' % 256 := by
      have := congrArg (· % 256) h
      simp only [Nat.pow_succ, Nat.mod_mul_left_mod] at this
      exact this
    have e2 : (v / 256) % 256 ^ n = (v' / 256) % 256 ^ n := by
      have := congrArg (· / 256) h
      simp only [Nat.pow_succ, Nat.mul_comm (256 ^ n) 256, Nat.mod_mul_right_div_self] at this
      exact this
    funext x
    simp only [st]
    rw [ih (a + 1) _ _ e2]
    by_cases hx : x = a
    · rw [if_pos hx, if_pos hx]
      apply BitVec.eq_of_toNat_eq
      simpa using e1
    · rw [if_neg hx, if_neg hx]

theorem ne_add (a : Wd W) (i : Nat) (h0 : 0 < i) (h1 : i < 2 ^ (8 * W)) : a ≠ a + BitVec.ofNat _ i := by
  intro h
  have := congrArg BitVec.toNat h
  rw [BitVec.toNat_add, BitVec.toNat_ofNat, Nat.mod_eq_of_lt h1] at this
  have h2 := a.isLt
  by_cases h3 : a.toNat + i < 2 ^ (8 * W)
  · rw [Nat.mod_eq_of_lt h3] at this; omega
  · rw [Nat.mod_eq_sub_mod (by omega), Nat.mod_eq_of_lt (by omega)] at this; omega

theorem ld_st (m : Mem W) (a : Wd W) (n v : Nat) (hn : n ≤ 2 ^ (8 * W)) : ld (st m a n v) a n = v % 256 ^ n := by
  induction n generalizing a v m with
  | zero => simp [ld, Nat.mod_one]
  | succ n ih =>
    simp only [ld]
    have h1 : st m a (n + 1) v a = BitVec.ofNat 8 v := by simp [st]
    have h2 : ld (st m a (n + 1) v) (a + 1) n = ld (st m (a + 1) n (v / 256)) (a + 1) n := by
      apply ld_congr
      intro i hi
      simp only [st]
      rw [if_neg]
      have : a + 1 + BitVec.ofNat (8 * W) i = a + BitVec.ofNat _ (i + 1) := by
        rw [BitVec.ofNat_add, BitVec.add_comm (BitVec.ofNat _ i), ← BitVec.add_assoc]
        rfl
      rw [this]
      exact fun h => ne_add a (i + 1) (by omega) (by omega) h.symm
    rw [h1, h2, ih _ _ _ (by omega), BitVec.toNat_ofNat, Nat.pow_succ (n := 256), Nat.mul_comm (256 ^ n) 256, Nat.mod_mul]

theorem sext_eq (k : Nat) (x : Wd W) : sext k x = wd W (Int.bmod (x.toNat : Int) (2 ^ (8 * k))) := by
  simp only [sext, BitVec.signExtend]
  rw [BitVec.toInt_ofNat']

theorem bmod_congr {x y : Int} {n : Nat} (h : x % n = y % n) : Int.bmod x n = Int.bmod y n := by
  simp only [Int.bmod, h]

theorem wd_emod (v : Int) : wd W (v % 2 ^ (8 * W)) = wd W v := by
  apply BitVec.eq_of_toNat_eq
  simp [BitVec.toNat_ofInt]

theorem wd_congr {u v : Int} (h : u % 2 ^ (8 * W) = v % 2 ^ (8 * W)) : wd W u = wd W v := by
  rw [← wd_emod u, h, wd_emod]

theorem wd_nat (n : Nat) : wd W (n : Int) = BitVec.ofNat _ n := by
  apply BitVec.eq_of_toNat_eq
  simp [wd, BitVec.toNat_ofInt]

theorem wd_toInt (x : Wd W) : wd W x.toInt = x := BitVec.ofInt_toInt

theorem wd_toNat (x : Wd W) : wd W (x.toNat : Int) = x := by
  rw [wd_nat]; simp

theorem wd_eq_iff {u v : Int} : wd W u = wd W v ↔ u % 2 ^ (8 * W) = v % 2 ^ (8 * W) := by
  constructor
  · intro h
    have := congrArg BitVec.toNat h
    rw [BitVec.toNat_ofInt, BitVec.toNat_ofInt] at this
    have h1 : (0:Int) < 2 ^ (8 * W) := Int.pow_pos (by decide)
    have h2 := Int.emod_nonneg u (Int.ne_of_gt h1)
    have h3 := Int.emod_nonneg v (Int.ne_of_gt h1)
    have e : ((2 ^ (8 * W) : Nat) : Int) = 2 ^ (8 * W) := by simp
    rw [e] at this
    omega
  · exact wd_congr

end Smlr.Cg
