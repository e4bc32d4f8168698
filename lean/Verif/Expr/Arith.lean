import Verif.Expr.Spec
set_option autoImplicit false
/-! The calculations of the compiler, made with the host's 32-bit `int`, against those with words. -/
namespace Smlr.Expr
open Spec

variable {W : Nat} (hW : W = 2 ∨ W = 4)

/-- the word in a value of the host -/
abbrev wd (W : Nat) (n : V) : BitVec (8 * W) := n.setWidth (8 * W)

include hW

omit hW in
theorem mask_lo : ∀ i < 32, (65535#32).getLsbD i = decide (i < 16) := by decide
omit hW in
theorem mask_hi : ∀ i < 32, (4294901760#32).getLsbD i = decide (16 ≤ i) := by decide

theorem truncUint_eq (n : V) : truncUint W n = (wd W n).setWidth 32 := by
  unfold truncUint
  apply BitVec.eq_of_getLsbD_eq
  intro i hi
  rcases hW with rfl | rfl
  · have e : (~~~ ((~~~ 0#32) <<< (8 * 2)) : V) = 65535#32 := by decide
    rw [e, BitVec.getLsbD_and, mask_lo i hi]
    simp only [BitVec.getLsbD_setWidth, hi, decide_true, Bool.true_and]
    rw [Bool.and_comm]
  · have e : (~~~ ((~~~ 0#32) <<< (8 * 4)) : V) = BitVec.allOnes 32 := by decide
    rw [e, BitVec.and_allOnes]
    simp only [BitVec.getLsbD_setWidth, hi, decide_true, Bool.true_and, show 8 * 4 = 32 from rfl]

theorem truncInt_eq (n : V) : truncInt W n = (wd W n).signExtend 32 := by
  rcases hW with rfl | rfl
  · have hm : (wd 2 n).msb = n.getLsbD 15 := by
      rw [BitVec.msb_eq_getLsbD_last, BitVec.getLsbD_setWidth]; rfl
    have h : (((((n &&& ~~~ ((~~~ 0#32) <<< (8 * 2))) >>> (8 * 2 - 1)) &&& 1#32)) : V) = if n.getLsbD 15 then 1#32 else 0#32 := by
      have e : (~~~ ((~~~ 0#32) <<< (8 * 2)) : V) = 65535#32 := by decide
      rw [e]
      apply BitVec.eq_of_getLsbD_eq
      intro i hi
      rw [BitVec.getLsbD_and, BitVec.getLsbD_ushiftRight, BitVec.getLsbD_and]
      by_cases h0 : i = 0
      · subst h0
        have e1 : (65535#32).getLsbD (8 * 2 - 1 + 0) = true := by decide
        have e2 : (1#32).getLsbD 0 = true := by decide
        rw [e1, e2, Bool.and_true, Bool.and_true]
        show n.getLsbD 15 = _
        cases n.getLsbD 15 <;> decide
      · have e2 : (1#32).getLsbD i = false := by simp [h0]
        rw [e2, Bool.and_false]
        cases n.getLsbD 15
        · simp
        · simp [h0]
    have hu := truncUint_eq (Or.inl rfl : 2 = 2 ∨ 2 = 4) n
    unfold truncUint at hu
    unfold truncInt
    dsimp only
    rw [h, hu]
    apply BitVec.eq_of_getLsbD_eq
    intro i hi
    rw [BitVec.getLsbD_signExtend, hm, BitVec.getLsbD_or]
    simp only [BitVec.getLsbD_setWidth, hi, decide_true, Bool.true_and]
    cases hb : n.getLsbD 15
    · have e : (((if false = true then 1#32 else 0#32) * ~~~ 0#32) <<< (8 * 2) : V) = 0#32 := by decide
      rw [e]
      by_cases h16 : i < 8 * 2 <;> simp [h16]
    · have e : (((if true = true then 1#32 else 0#32) * ~~~ 0#32) <<< (8 * 2) : V) = 4294901760#32 := by decide
      rw [e, mask_hi i hi]
      by_cases h16 : i < 8 * 2
      · have : ¬ 16 ≤ i := by omega
        simp [h16, this]
      · have : 16 ≤ i := by omega
        simp [this]
  · have h1 : (wd 4 n).signExtend 32 = n := by
      show (n.setWidth 32).signExtend 32 = n
      simp
    have hu := truncUint_eq (Or.inr rfl : 4 = 2 ∨ 4 = 4) n
    unfold truncUint at hu
    rw [h1]
    unfold truncInt
    dsimp only
    rw [hu]
    have e2 : ∀ x : V, x <<< (8 * 4) = 0#32 := by intro x; simp
    rw [e2]
    show (n.setWidth 32).setWidth 32 ||| 0#32 = n
    simp

theorem toNat_truncUint (n : V) : (truncUint W n).toNat = (wd W n).toNat := by
  rw [truncUint_eq hW, BitVec.toNat_setWidth, Nat.mod_eq_of_lt]
  have := (wd W n).isLt
  rcases hW with rfl | rfl <;> omega

theorem toInt_truncInt (n : V) : (truncInt W n).toInt = (wd W n).toInt := by
  rw [truncInt_eq hW, BitVec.toInt_signExtend_of_le (by omega)]

theorem wd_truncUint (n : V) : wd W (truncUint W n) = wd W n := by
  apply BitVec.eq_of_toNat_eq
  rw [BitVec.toNat_setWidth, toNat_truncUint hW, Nat.mod_eq_of_lt (wd W n).isLt]

theorem wd_truncInt (n : V) : wd W (truncInt W n) = wd W n := by
  rw [truncInt_eq hW]
  apply BitVec.eq_of_getLsbD_eq
  intro i hi
  simp [BitVec.getLsbD_signExtend, hi]
  omega

theorem truncInt_zero (n : V) : (truncInt W n = 0#32) = (wd W n = 0#_) := by
  apply propext
  rw [← BitVec.toInt_inj, ← BitVec.toInt_inj, toInt_truncInt hW]
  simp

theorem truncUint_zero (n : V) : (truncUint W n = 0#32) = (wd W n = 0#_) := by
  apply propext
  rw [← BitVec.toNat_inj, ← BitVec.toNat_inj, toNat_truncUint hW]
  simp

/-- the word as a number, signed or unsigned -/
def num (uns : Bool) {w : Nat} (v : BitVec w) : Int := if uns then v.toNat else v.toInt

theorem relCalc_eq (op : ROp) (uns : Bool) (sl sr : V) : relCalc W op.tok uns sl sr = b2v (relVal op uns (wd W sl) (wd W sr)) := by
  have hu := toNat_truncUint hW
  have hi := toInt_truncInt hW
  cases uns
  · cases op <;> simp only [relCalc, ROp.tok, relVal, BitVec.slt, BitVec.sle, hi, if_false, Bool.false_eq_true] <;> congr 1
    · rw [Bool.eq_iff_iff, beq_iff_eq, decide_eq_true_iff, ← BitVec.toInt_inj, hi, hi]
    · rw [Bool.eq_iff_iff, bne_iff_ne, decide_eq_true_iff, ne_eq, ne_eq, ← BitVec.toInt_inj, hi, hi]
  · cases op <;> simp only [relCalc, ROp.tok, relVal, BitVec.ult, BitVec.ule, hu, if_true, Int.ofNat_lt, Int.ofNat_le, ne_eq, Int.ofNat_inj] <;> congr 1
    · rw [Bool.eq_iff_iff, beq_iff_eq, decide_eq_true_iff, ← BitVec.toNat_inj, hu, hu]
    · rw [Bool.eq_iff_iff, bne_iff_ne, decide_eq_true_iff, ne_eq, ← BitVec.toNat_inj, hu, hu]

/-! ### shifts -/

theorem and_mask (k : V) : (k &&& BitVec.ofNat 32 (W * 8 - 1)).toNat = k.toNat % (8 * W) := by
  rcases hW with rfl | rfl
  · show (k &&& 15#32).toNat = _
    rw [BitVec.toNat_and]
    exact Nat.and_two_pow_sub_one_eq_mod k.toNat 4
  · show (k &&& 31#32).toNat = _
    rw [BitVec.toNat_and]
    exact Nat.and_two_pow_sub_one_eq_mod k.toNat 5

/-- the count that is used -/
theorem shiftCount_fst (uns : Bool) (k : V) : (shiftCount W uns k).1.toNat = (wd W k).toNat % (8 * W) := by
  have e : (wd W k).toNat % (8 * W) = k.toNat % (8 * W) := by
    rw [BitVec.toNat_setWidth]
    apply Nat.mod_mod_of_dvd
    rcases hW with rfl | rfl <;> decide
  rw [e]
  unfold shiftCount
  split
  · exact and_mask hW k
  · rename_i h
    simp only [ge_iff_le, Bool.or_eq_true, decide_eq_true_eq, not_or] at h
    rw [Nat.mod_eq_of_lt (by omega)]

theorem shiftCount_snd (uns : Bool) (sr : V) :
    (shiftCount W uns (if uns then truncUint W sr else truncInt W sr)).2 = shiftOut uns (wd W sr) := by
  have hu := toNat_truncUint hW sr
  have hi := toInt_truncInt hW sr
  have hb : 8 * W ≤ 32 := by omega
  generalize wd W sr = a at hu hi ⊢
  generalize truncInt W sr = i at hi ⊢
  generalize truncUint W sr = u at hu ⊢
  cases uns
  · unfold shiftCount shiftOut
    simp only [Bool.false_eq_true, if_false, Bool.not_false, Bool.true_and]
    have h1 : i.slt 0#32 = decide (a.toInt < 0) := by simp [BitVec.slt, hi]
    rw [h1]
    by_cases hn : a.toInt < 0
    · simp [hn]
    · have h2 : (i.toNat : Int) = a.toInt := by
        rw [← hi]
        rw [← hi] at hn
        rw [BitVec.toInt_eq_toNat_cond] at hn ⊢
        split at hn <;> omega
      by_cases hg : a.toInt ≥ (8 * W : Nat)
      · have : i.toNat ≥ 8 * W := by omega
        simp [hn, this]; omega
      · have h3 : ¬ i.toNat ≥ 8 * W := by omega
        have h4 : ¬ i.toNat ≥ 32 := by omega
        simp [hn, h3, h4]; omega
  · unfold shiftCount shiftOut
    simp only [if_true, Bool.not_true, Bool.false_and, Bool.false_or, hu]
    by_cases hg : a.toNat ≥ 8 * W
    · simp [hg]
    · have h4 : ¬ a.toNat ≥ 32 := by omega
      simp [hg, h4]

theorem dvd_host : 2 ^ (8 * W) ∣ 2 ^ 32 := by
  rcases hW with rfl | rfl <;> decide

theorem shl_eq (sl : V) (n : Nat) : wd W (sl <<< n) = BitVec.ofNat (8 * W) ((wd W sl).toNat * 2 ^ n) := by
  apply BitVec.eq_of_toNat_eq
  rw [BitVec.toNat_setWidth, BitVec.toNat_shiftLeft, BitVec.toNat_ofNat, BitVec.toNat_setWidth, Nat.mod_mod_of_dvd _ (dvd_host hW), Nat.shiftLeft_eq, Nat.mod_mul_mod]

theorem ushr_eq (sl : V) (n : Nat) : wd W (truncUint W sl >>> n) = BitVec.ofNat (8 * W) ((wd W sl).toNat / 2 ^ n) := by
  apply BitVec.eq_of_toNat_eq
  rw [BitVec.toNat_setWidth, BitVec.toNat_ushiftRight, BitVec.toNat_ofNat, toNat_truncUint hW, Nat.shiftRight_eq_div_pow]

omit hW in
theorem sshr_spec {w : Nat} (a : BitVec w) (n : Nat) : BitVec.ofInt w (a.toInt / 2 ^ n) = a.sshiftRight n := by
  have h : a.toInt / 2 ^ n = (a.sshiftRight n).toInt := by rw [BitVec.toInt_sshiftRight, Int.shiftRight_eq_div_pow]; rfl
  rw [h, BitVec.ofInt_toInt]

omit hW in
theorem ones_shl (m i : Nat) (hi : i < 32) : (((~~~ 0#32) <<< m) : V).getLsbD i = decide (m ≤ i) := by
  rw [BitVec.getLsbD_shiftLeft, BitVec.getLsbD_not]
  have : i - m < 32 := by omega
  by_cases h : m ≤ i
  · have : ¬ i < m := by omega
    simp [hi, h, this, *]
  · have : i < m := by omega
    simp [h, this]

theorem sshr_eq (sl : V) (n : Nat) (hn : n < 8 * W) :
    wd W ((truncUint W (truncInt W sl) >>> n) ||| (b2v ((truncInt W sl).slt 0#32) * ((~~~ 0#32) <<< (8 * W - n)))) = BitVec.ofInt (8 * W) ((wd W sl).toInt / 2 ^ n) := by
  rw [sshr_spec]
  have h1 : truncUint W (truncInt W sl) = (wd W sl).setWidth 32 := by rw [truncUint_eq hW, wd_truncInt hW]
  have h2 : (truncInt W sl).slt 0#32 = (wd W sl).msb := by
    rw [BitVec.msb_eq_toInt]
    simp only [BitVec.slt, toInt_truncInt hW]
    rfl
  rw [h1, h2]
  generalize wd W sl = a
  apply BitVec.eq_of_getLsbD_eq
  intro i hi
  rw [BitVec.getLsbD_setWidth, BitVec.getLsbD_or, BitVec.getLsbD_ushiftRight, BitVec.getLsbD_setWidth, BitVec.getLsbD_sshiftRight]
  have hb : 8 * W ≤ 32 := by omega
  have h0 : ¬ 8 * W ≤ i := by omega
  by_cases hm : n + i < 8 * W
  · have h3 : n + i < 32 := by omega
    have h4 : (b2v a.msb * ((~~~ 0#32) <<< (8 * W - n)) : V).getLsbD i = false := by
      have h5 : ¬ 8 * W - n ≤ i := by omega
      cases a.msb
      · simp [b2v]
      · simp only [b2v, if_true, BitVec.one_mul, ones_shl _ _ (show i < 32 by omega), h5, decide_false]
    rw [h4]
    simp [h3, hm, hi]
  · have h6 : a.getLsbD (n + i) = false := BitVec.getLsbD_of_ge _ _ (by omega)
    have h4 : (b2v a.msb * ((~~~ 0#32) <<< (8 * W - n)) : V).getLsbD i = a.msb := by
      cases a.msb
      · simp [b2v]
      · simp only [b2v, if_true, BitVec.one_mul, ones_shl _ _ (show i < 32 by omega), show 8 * W - n ≤ i by omega, decide_true]
    rw [h4, h6]
    simp [hm, hi]

/-! ### the other operators -/

theorem wd_add (x y : V) : wd W (x + y) = wd W x + wd W y := BitVec.setWidth_add _ _ (by omega)
theorem wd_mul (x y : V) : wd W (x * y) = wd W x * wd W y := BitVec.setWidth_mul _ _ (by omega)
theorem wd_neg (x : V) : wd W (- x) = - wd W x := BitVec.setWidth_neg_of_le (by omega)
theorem wd_sub (x y : V) : wd W (x - y) = wd W x - wd W y := by
  rw [BitVec.sub_eq_add_neg, wd_add hW, wd_neg hW, ← BitVec.sub_eq_add_neg]
theorem wd_not (x : V) : wd W (~~~ x) = ~~~ wd W x := BitVec.setWidth_not (by omega)

theorem wd_ofInt (z : Int) : wd W (BitVec.ofInt 32 z) = BitVec.ofInt (8 * W) z := by
  apply BitVec.eq_of_toInt_eq
  rw [BitVec.toInt_setWidth, BitVec.toInt_ofInt, BitVec.toNat_ofInt]
  have : ((z % (2 ^ 32 : Nat)).toNat : Int) = z % (2 ^ 32 : Nat) := Int.toNat_of_nonneg (Int.emod_nonneg _ (by decide))
  rw [this]
  rw [← Int.emod_bmod, Int.emod_emod_of_dvd, Int.emod_bmod]
  exact_mod_cast dvd_host hW

theorem toInt_lt (a : BitVec (8 * W)) : a.toInt < 2 ^ (8 * W - 1) := by
  have := BitVec.toInt_lt (x := a)
  exact_mod_cast this

theorem le_toInt (a : BitVec (8 * W)) : - 2 ^ (8 * W - 1) ≤ a.toInt := by
  have := BitVec.le_toInt (x := a)
  exact_mod_cast this

omit hW in
theorem tdiv_le (a b : Int) (m : Int) (h1 : a ≤ m) (h2 : -m ≤ a) : a.tdiv b ≤ m ∧ -m ≤ a.tdiv b := by
  have h := Int.natAbs_tdiv a b
  have h3 : (a.tdiv b).natAbs ≤ a.natAbs := by rw [h]; exact Nat.div_le_self _ _
  omega

/-- the test for a quotient that cannot be represented -/
theorem div_test (a b : BitVec (8 * W)) (l r : V) (hl : l.toInt = a.toInt) (hr : r.toInt = b.toInt) :
    ((l = BitVec.intMin 32 && r = -1#32) || l.sdiv r ≠ truncInt W (l.sdiv r) : Bool) = decide (a.toInt.tdiv b.toInt ≥ 2 ^ (8 * W - 1)) := by
  have ha1 := toInt_lt hW a
  have ha2 := le_toInt hW a
  have hq := tdiv_le a.toInt b.toInt (2 ^ (8 * W - 1)) (by omega) ha2
  by_cases hc : l = BitVec.intMin 32 ∧ r = -1#32
  · have h1 : a.toInt = - 2 ^ 31 := by rw [← hl, hc.1]; decide
    have h2 : b.toInt = -1 := by rw [← hr, hc.2]; decide
    rw [h1, h2]
    have h3 : W = 4 := by
      rcases hW with rfl | rfl
      · rw [h1] at ha2; omega
      · rfl
    subst h3
    simp [hc]
  · have hs : (l.sdiv r).toInt = a.toInt.tdiv b.toInt := by
      rw [BitVec.toInt_sdiv_of_ne_or_ne _ _ (by
        by_cases h : l = BitVec.intMin 32
        · exact Or.inr (fun h' => hc ⟨h, h'⟩)
        · exact Or.inl h), hl, hr]
    have h0 : (decide (l = BitVec.intMin 32) && decide (r = -1#32)) = false := by
      simp only [Bool.and_eq_false_iff, decide_eq_false_iff_not]
      by_cases h : l = BitVec.intMin 32
      · exact Or.inr (fun h' => hc ⟨h, h'⟩)
      · exact Or.inl h
    rw [h0, Bool.false_or, Bool.eq_iff_iff, decide_eq_true_iff, decide_eq_true_iff, ne_eq, ← BitVec.toInt_inj, toInt_truncInt hW, hs]
    have ht : (wd W (l.sdiv r)).toInt = (a.toInt.tdiv b.toInt).bmod (2 ^ (8 * W)) := by
      rw [← hs, BitVec.toInt_setWidth, BitVec.toInt_eq_toNat_bmod, Int.bmod_bmod_of_dvd (dvd_host hW)]
    rw [ht]
    generalize a.toInt.tdiv b.toInt = q at hq
    have hbq := Int.bmod_lt (x := q) (m := 2 ^ (8 * W)) (Nat.two_pow_pos _)
    constructor
    · intro h
      refine Decidable.byContradiction fun hlt => h ?_
      symm
      apply Int.bmod_eq_of_le <;> rcases hW with rfl | rfl <;> simp at hq hlt ⊢ <;> omega
    · intro h h2
      rw [← h2] at hbq
      rcases hW with rfl | rfl <;> simp at h hbq <;> omega

/-- division and remainder -/
theorem divCalc_const (isDiv uns : Bool) (sl sr : V) :
    (divCalc W isDiv sl sr uns true true).2 = divOut uns (wd W sl) (wd W sr) ∧
    (divOut uns (wd W sl) (wd W sr) = false → wd W (divCalc W isDiv sl sr uns true true).1 =
      if uns then BitVec.ofNat (8 * W) (if isDiv then (wd W sl).toNat / (wd W sr).toNat else (wd W sl).toNat % (wd W sr).toNat)
      else BitVec.ofInt (8 * W) (if isDiv then (wd W sl).toInt.tdiv (wd W sr).toInt else (wd W sl).toInt.tmod (wd W sr).toInt)) := by
  unfold divCalc
  simp only [Bool.not_true, Bool.false_eq_true, if_false]
  cases uns with
  | true =>
    simp only [if_true, Bool.not_true, Bool.false_and, Bool.false_eq_true, if_false, truncUint_zero hW, divOut, Bool.or_false]
    by_cases h0 : wd W sr = 0#(8 * W)
    · simp [h0]
    · simp only [h0, if_false, decide_false, true_and]
      intro _
      have hl := toNat_truncUint hW sl
      have hr := toNat_truncUint hW sr
      cases isDiv
      · simp only [Bool.false_eq_true, if_false]
        apply BitVec.eq_of_toNat_eq
        rw [BitVec.toNat_setWidth, BitVec.toNat_ofNat, ← hl, ← hr]; rfl
      · simp only [if_true]
        apply BitVec.eq_of_toNat_eq
        rw [BitVec.toNat_setWidth, BitVec.toNat_ofNat, ← hl, ← hr]; rfl
  | false =>
    simp only [Bool.false_eq_true, if_false, Bool.not_false, Bool.true_and, truncInt_zero hW, divOut]
    rw [div_test hW (wd W sl) (wd W sr) _ _ (toInt_truncInt hW sl) (toInt_truncInt hW sr)]
    by_cases h0 : wd W sr = 0#(8 * W)
    · simp [h0]
    · simp only [h0, if_false, decide_false, Bool.false_or]
      by_cases hq : (wd W sl).toInt.tdiv (wd W sr).toInt ≥ 2 ^ (8 * W - 1)
      · simp only [hq, decide_true, if_true, true_and]
        intro h; cases h
      · simp only [hq, decide_false, Bool.false_eq_true, if_false, true_and]
        intro _
        have hl := toInt_truncInt hW sl
        have hr := toInt_truncInt hW sr
        cases isDiv
        · simp only [Bool.false_eq_true, if_false]
          rw [← hl, ← hr, ← BitVec.toInt_srem, ← wd_ofInt hW, BitVec.ofInt_toInt]
        · simp only [if_true]
          rw [← hl, ← hr, ← wd_ofInt hW]
          have ht := div_test hW (wd W sl) (wd W sr) _ _ hl hr
          simp only [hq, decide_false, Bool.or_eq_false_iff, Bool.and_eq_false_iff, decide_eq_false_iff_not] at ht
          rw [← BitVec.toInt_sdiv_of_ne_or_ne _ _ ht.1, BitVec.ofInt_toInt]

theorem divCalc_zero (isDiv uns : Bool) (sl sr : V) : (divCalc W isDiv sl sr uns false true).2 = decide (wd W sr = 0#_) := by
  unfold divCalc
  simp only [Bool.not_true, Bool.false_eq_true, if_false]
  cases uns <;> simp only [Bool.false_eq_true, if_false, if_true, truncUint_zero hW, truncInt_zero hW, Bool.not_false] <;> by_cases h0 : wd W sr = 0#(8 * W) <;> simp [h0]

omit hW in
theorem divCalc_nc (isDiv uns cl : Bool) (sl sr : V) : (divCalc W isDiv sl sr uns cl false).2 = false := by
  unfold divCalc; simp

omit hW in
theorem isUint_toTy (t : IT) : isUint t.toTy = decide (t.prom = .uint) := by cases t <;> rfl

omit hW in
theorem usual_eq (l r : IT) : (isUint l.toTy || isUint r.toTy) = decide (l.usual r = .uint) := by cases l <;> cases r <;> rfl

/-- a value of the compiler as an optional word -/
def ow (W : Nat) (b : Bool) (s : V) : Option (BitVec (8 * W)) := if b then some (wd W s) else none

theorem binCalc_value (op : BOp) (h1 : op ≠ .add) (h2 : op ≠ .sub) (L R : IT) (sl sr : V) :
    ow W (binCalc W op.tok L.toTy R.toTy sl sr true true).const (binCalc W op.tok L.toTy R.toTy sl sr true true).s =
      binVal op (L.usual R = .uint) (L.prom = .uint) (wd W sl) (wd W sr) := by
  have hd := fun isDiv => divCalc_const hW isDiv (decide (L.usual R = .uint)) sl sr
  have hk := fun uns => shiftCount_fst hW uns (if uns = true then truncUint W sr else truncInt W sr)
  have hk2 : ∀ uns : Bool, wd W (if uns = true then truncUint W sr else truncInt W sr) = wd W sr := by
    intro uns; cases uns
    · exact wd_truncInt hW sr
    · exact wd_truncUint hW sr
  simp only [hk2] at hk
  cases op with
  | add => exact absurd rfl h1
  | sub => exact absurd rfl h2
  | mul => simp only [binCalc, BOp.tok, ow, Bool.and_self, if_true, binVal, wd_mul hW]
  | and => simp only [binCalc, BOp.tok, ow, Bool.and_self, if_true, binVal, wd, BitVec.setWidth_and]
  | xor => simp only [binCalc, BOp.tok, ow, Bool.and_self, if_true, binVal, wd, BitVec.setWidth_xor]
  | or => simp only [binCalc, BOp.tok, ow, Bool.and_self, if_true, binVal, wd, BitVec.setWidth_or]
  | div =>
    simp only [binCalc, BOp.tok, ow, Bool.and_self, Bool.true_and, binVal, usual_eq, decide_true]
    rw [(hd true).1]
    cases ho : divOut (decide (L.usual R = .uint)) (wd W sl) (wd W sr)
    · simp only [Bool.not_false, if_true, Bool.false_eq_true, if_false, (hd true).2 ho]
    · simp
  | mod =>
    show ow W (true && !(divCalc W false sl sr (isUint L.toTy || isUint R.toTy) true true).2) (divCalc W false sl sr (isUint L.toTy || isUint R.toTy) true true).1 = _
    simp only [ow, Bool.true_and, binVal, usual_eq]
    rw [(hd false).1]
    cases ho : divOut (decide (L.usual R = .uint)) (wd W sl) (wd W sr)
    · simp only [Bool.not_false, if_true, Bool.false_eq_true, if_false, (hd false).2 ho]
    · simp
  | shl =>
    simp only [binCalc, BOp.tok, ow, Bool.and_self, if_true, binVal]
    rw [shl_eq hW, hk]
  | shr =>
    have e : (Tok.shr = Tok.shl) = False := by simp
    simp only [binCalc, BOp.tok, ow, Bool.and_self, if_true, binVal, e, if_false, isUint_toTy]
    congr 1
    have hk' := hk (decide (R.prom = .uint))
    generalize (shiftCount W (decide (R.prom = .uint)) (if decide (R.prom = IT.uint) = true then truncUint W sr else truncInt W sr)).1 = n at hk' ⊢
    cases decide (L.prom = IT.uint)
    · simp only [Bool.false_eq_true, if_false]
      have hn : n.toNat < 8 * W := by rw [hk']; exact Nat.mod_lt _ (by omega)
      by_cases h0 : n ≠ 0#32
      · rw [if_pos h0, sshr_eq hW _ _ hn, hk']
      · rw [if_neg h0]
        have : n.toNat = 0 := by
          simp only [ne_eq, Decidable.not_not] at h0
          rw [h0]; rfl
        rw [← hk', this, Int.pow_zero, Int.ediv_one, BitVec.ofInt_toInt]
    · simp only [if_true]
      rw [ushr_eq hW, hk']

omit hW in
theorem binCalc_nc (op : BOp) (h1 : op ≠ .add) (h2 : op ≠ .sub) (L R : Ty) (sl sr : V) (cl cr : Bool) (h : (cl && cr) = false) :
    (binCalc W op.tok L R sl sr cl cr).const = false := by
  cases op <;> simp_all [binCalc, BOp.tok]

theorem binCalc_warn (op : BOp) (h1 : op ≠ .add) (h2 : op ≠ .sub) (L R : IT) (sl sr : V) (cl cr : Bool) :
    (binCalc W op.tok L.toTy R.toTy sl sr cl cr).warn.toList = binDiag W op (L.usual R = .uint) (R.prom = .uint) (ow W cl sl) (ow W cr sr) := by
  have hd := fun isDiv => (divCalc_const hW isDiv (decide (L.usual R = .uint)) sl sr).1
  have hz := fun isDiv => divCalc_zero hW isDiv (decide (L.usual R = .uint)) sl sr
  have hk := fun uns => shiftCount_snd hW uns sr
  cases op with
  | add => exact absurd rfl h1
  | sub => exact absurd rfl h2
  | mul | and | xor | or => cases cl <;> cases cr <;> rfl
  | div =>
    simp only [binCalc, BOp.tok, usual_eq]
    cases cr
    · rw [divCalc_nc]; cases cl <;> rfl
    · cases cl
      · rw [hz]; simp only [binDiag, ow, if_true, Bool.false_eq_true, if_false]
        by_cases h : wd W sr = 0#(8 * W) <;> simp [h]
      · rw [hd]; simp only [binDiag, ow, if_true]
        cases divOut (decide (L.usual R = .uint)) (wd W sl) (wd W sr) <;> rfl
  | mod =>
    simp only [binCalc, BOp.tok, usual_eq]
    cases cr
    · rw [divCalc_nc]; cases cl <;> rfl
    · cases cl
      · rw [hz]; simp only [binDiag, ow, if_true, Bool.false_eq_true, if_false]
        by_cases h : wd W sr = 0#(8 * W) <;> simp [h]
      · rw [hd]; simp only [binDiag, ow, if_true]
        cases divOut (decide (L.usual R = .uint)) (wd W sl) (wd W sr) <;> rfl
  | shl | shr =>
    simp only [binCalc, BOp.tok, isUint_toTy, hk]
    cases cr
    · cases cl <;> rfl
    · cases cl <;> simp only [binDiag, ow, if_true, Bool.true_and] <;> cases shiftOut (decide (R.prom = .uint)) (wd W sr) <;> rfl

/-! ### casts -/

theorem wd_ofNat_toNat (n : V) : wd W n = BitVec.ofNat (8 * W) n.toNat := by
  apply BitVec.eq_of_toNat_eq; simp

omit hW in
theorem and_ff (s : V) : (s &&& 0xFF#32).toNat = s.toNat % 256 := by
  rw [BitVec.toNat_and]
  exact Nat.and_two_pow_sub_one_eq_mod s.toNat 8

omit hW in
theorem and_ffff (s : V) : (s &&& 0xFFFF#32).toNat = s.toNat % 65536 := by
  rw [BitVec.toNat_and]
  exact Nat.and_two_pow_sub_one_eq_mod s.toNat 16

omit hW in
/-- the sign extension of the code -/
theorem sext_eq (s : V) (b : Nat) (hb : b < 31) (y : V) (hy : y.toNat = s.toNat % 2 ^ (b + 1)) :
    (if y.toNat ≥ 2 ^ b then y - BitVec.ofNat 32 (2 ^ (b + 1)) else y) = BitVec.ofInt 32 ((s.toNat : Int).bmod (2 ^ (b + 1))) := by
  have e1 : ((s.toNat : Int) % ((2 ^ (b + 1) : Nat) : Int)) = (y.toNat : Int) := by rw [hy]; simp
  have e2 : (((2 ^ (b + 1) : Nat) : Int) + 1) / 2 = 2 ^ b := by
    have : (2 ^ (b + 1) : Nat) = 2 * 2 ^ b := by rw [Nat.pow_succ, Nat.mul_comm]
    rw [this]; push_cast; omega
  rw [Int.bmod_eq_emod, e1, e2]
  have e3 : ((y.toNat : Int) ≥ 2 ^ b) ↔ y.toNat ≥ 2 ^ b := by
    constructor
    · intro h; exact_mod_cast h
    · intro h; exact_mod_cast h
  by_cases h : y.toNat ≥ 2 ^ b
  · rw [if_pos h, if_pos (e3.2 h)]
    apply BitVec.eq_of_toInt_eq
    rw [BitVec.toInt_sub, BitVec.toInt_ofInt, BitVec.toInt_eq_toNat_bmod, BitVec.toInt_eq_toNat_bmod (x := BitVec.ofNat 32 (2 ^ (b + 1))), BitVec.toNat_ofNat,
      Int.bmod_sub_bmod, Int.sub_bmod_bmod, Int.natCast_emod, Int.sub_emod_bmod]
  · rw [if_neg h, if_neg (fun h' => h (e3.1 h'))]
    apply BitVec.eq_of_toInt_eq
    rw [BitVec.toInt_ofInt, BitVec.toInt_eq_toNat_bmod]; simp

theorem bmod_wd (s : V) (m : Nat) (hm : m ∣ 2 ^ (8 * W)) : ((wd W s).toInt).bmod m = (s.toNat : Int).bmod m := by
  rw [BitVec.toInt_setWidth, Int.bmod_bmod_of_dvd hm]

theorem dvd_word (b : Nat) (hb : b ≤ 8 * W) : 2 ^ b ∣ 2 ^ (8 * W) := Nat.pow_dvd_pow 2 hb

theorem wd_uext (s y : V) (b : Nat) (hb : b ≤ 8 * W) (hy : y.toNat = s.toNat % 2 ^ b) : wd W y = conv b false (wd W s) := by
  show _ = BitVec.ofNat _ _
  rw [wd_ofNat_toNat hW, hy, BitVec.toNat_setWidth, Nat.mod_mod_of_dvd _ (dvd_word hW b hb)]

theorem wd_sext (s y : V) (b : Nat) (hb : b < 31) (hw : b + 1 ≤ 8 * W) (hy : y.toNat = s.toNat % 2 ^ (b + 1)) :
    wd W (if y.toNat ≥ 2 ^ b then y - BitVec.ofNat 32 (2 ^ (b + 1)) else y) = conv (b + 1) true (wd W s) := by
  show _ = BitVec.ofInt _ _
  rw [sext_eq s b hb y hy, wd_ofInt hW, bmod_wd hW _ _ (dvd_word hW _ hw)]

theorem conv_word (sg : Bool) (a : BitVec (8 * W)) : conv (8 * W) sg a = a := by
  cases sg
  · show BitVec.ofNat _ _ = _
    rw [Nat.mod_eq_of_lt a.isLt]; simp
  · show BitVec.ofInt _ _ = _
    rw [← BitVec.toInt_ofInt, BitVec.ofInt_toInt, BitVec.ofInt_toInt]

/-- the size that a cast to `t` is given -/
def castSize (W : Nat) (cs : Bool) : IT → Int
  | .char => if cs then -1 else 1
  | .schar => -1
  | .uchar => 1
  | .short => -2
  | .ushort => 2
  | .int | .uint => W

theorem declSize_cast (cs : Bool) (env : V → Option Sym) (t : IT) : declSize ⟨W, cs, env⟩ true t.toTy = .ok (castSize W cs t) := by
  rcases hW with rfl | rfl <;> cases t <;> cases cs <;> first | rfl | simp [declSize, declSizeFrom, IT.toTy, castSize, IT.bits]

theorem declSize_sizeof (cs : Bool) (env : V → Option Sym) (t : IT) : declSize ⟨W, cs, env⟩ false t.toTy = .ok ((t.bits W / 8 : Nat) : Int) := by
  rcases hW with rfl | rfl <;> cases t <;> cases cs <;> first | rfl | simp [declSize, declSizeFrom, IT.toTy, castSize, IT.bits]

theorem castCalc_spec (cs : Bool) (t : IT) (ht : W = 2 → t ≠ .short ∧ t ≠ .ushort) (d : Bool) (s : V) :
    wd W (castCalc W (castSize W cs t) d s).1 = conv (t.bits W) (t.signed cs) (wd W s) := by
  have hs : wd W (castCalc W (-1) d s).1 = conv 8 true (wd W s) := wd_sext hW s (s &&& 0xFF#32) 7 (by decide) (by omega) (and_ff s)
  have hu : wd W (castCalc W 1 d s).1 = conv 8 false (wd W s) := wd_uext hW s (s &&& 0xFF#32) 8 (by omega) (and_ff s)
  cases t with
  | char => cases cs
            · exact hu
            · exact hs
  | schar => exact hs
  | uchar => exact hu
  | short =>
    have h4 : W = 4 := by
      rcases hW with h | h
      · exact absurd rfl (ht h).1
      · exact h
    subst h4
    exact wd_sext hW s (s &&& 0xFFFF#32) 15 (by decide) (by omega) (and_ffff s)
  | ushort =>
    have h4 : W = 4 := by
      rcases hW with h | h
      · exact absurd rfl (ht h).2
      · exact h
    subst h4
    exact wd_uext hW s (s &&& 0xFFFF#32) 16 (by omega) (and_ffff s)
  | int | uint =>
    simp only [IT.bits, conv_word hW]
    rcases hW with rfl | rfl <;> rfl

end Smlr.Expr
