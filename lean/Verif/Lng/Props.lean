import Verif.Lng.Model
set_option autoImplicit false
/-
Property C37.  The specification: a pair of halves denotes the unsigned number
`uval` and the two's complement number `sval`.
-/
namespace Smlr.Lng

/-- unsigned value of a pair of halves -/
def uval (l : Lng) : Int := l.lo.toNat + 65536 * l.hi.toNat

/-- two's complement value of a pair of halves -/
def sval (l : Lng) : Int := if uval l < 2147483648 then uval l else uval l - 4294967296

theorem lt16 (x : UInt16) : x.toNat < 65536 := x.toNat_lt
theorem ofNat16 (n : Nat) : (UInt16.ofNat n).toNat = n % 65536 := UInt16.toNat_ofNat'

theorem uval_range (l : Lng) : 0 ≤ uval l ∧ uval l < 4294967296 := by
  have := lt16 l.lo; have := lt16 l.hi; unfold uval; omega

theorem sval_range (l : Lng) : -2147483648 ≤ sval l ∧ sval l < 2147483648 := by
  have := uval_range l; unfold sval; split <;> omega

theorem uval_inj (a b : Lng) (h : uval a = uval b) : a = b := by
  have h1 := lt16 a.lo; have h2 := lt16 a.hi; have h3 := lt16 b.lo; have h4 := lt16 b.hi
  unfold uval at h
  cases a with | mk al ah => cases b with | mk bl bh =>
  simp only at h h1 h2 h3 h4
  have e1 : al.toNat = bl.toNat := by omega
  have e2 : ah.toNat = bh.toNat := by omega
  rw [UInt16.toNat_inj] at e1 e2
  rw [e1, e2]

/-- C37: addition is exact modulo 2^32, for signed and unsigned readings. -/
theorem c37_add (a b : Lng) :
    uval (lngAdd a b) = (uval a + uval b) % 4294967296 ∧
    (sval (lngAdd a b) - (sval a + sval b)) % 4294967296 = 0 := by
  have h1 := lt16 a.lo; have h2 := lt16 a.hi; have h3 := lt16 b.lo; have h4 := lt16 b.hi
  have key : uval (lngAdd a b) = (uval a + uval b) % 4294967296 := by
    unfold uval lngAdd
    simp only [ofNat16]
    split <;> omega
  refine ⟨key, ?_⟩
  have r := uval_range (lngAdd a b)
  unfold sval
  split <;> split <;> split <;> omega

/-- C37: subtraction is exact modulo 2^32. -/
theorem c37_sub (a b : Lng) :
    uval (lngSub a b) = (uval a - uval b) % 4294967296 ∧
    (sval (lngSub a b) - (sval a - sval b)) % 4294967296 = 0 := by
  have h1 := lt16 a.lo; have h2 := lt16 a.hi; have h3 := lt16 b.lo; have h4 := lt16 b.hi
  have key : uval (lngSub a b) = (uval a - uval b) % 4294967296 := by
    unfold uval lngSub
    simp only [ofNat16]
    split <;> omega
  refine ⟨key, ?_⟩
  have r := uval_range (lngSub a b)
  unfold sval
  split <;> split <;> split <;> omega

/-- C37: comparisons decide the order of the values. -/
theorem c37_compare (a b : Lng) :
    (lngEq a b = true ↔ uval a = uval b) ∧ (lngUnsignedLess a b = true ↔ uval a < uval b) ∧
    (lngSignedLess a b = true ↔ sval a < sval b) ∧ (lngLessThan0 a = true ↔ sval a < 0) := by
  have h1 := lt16 a.lo; have h2 := lt16 a.hi; have h3 := lt16 b.lo; have h4 := lt16 b.hi
  have ul : lngUnsignedLess a b = true ↔ uval a < uval b := by
    simp only [lngUnsignedLess, Bool.or_eq_true, Bool.and_eq_true, decide_eq_true_eq, beq_iff_eq, uval,
      ← UInt16.toNat_inj]
    omega
  refine ⟨?_, ul, ?_, ?_⟩
  · simp only [lngEq, Bool.and_eq_true, beq_iff_eq, uval, ← UInt16.toNat_inj]; omega
  · have e : lngSignedLess a b = (if a.hi.toNat > 65535 / 2 then
        if b.hi.toNat ≤ 65535 / 2 then true else lngUnsignedLess a b
        else if b.hi.toNat > 65535 / 2 then false else lngUnsignedLess a b) := rfl
    rw [e]
    have d1 : uval a = a.lo.toNat + 65536 * a.hi.toNat := rfl
    have d2 : uval b = b.lo.toNat + 65536 * b.hi.toNat := rfl
    have hsa : sval a = if uval a < 2147483648 then uval a else uval a - 4294967296 := rfl
    have hsb : sval b = if uval b < 2147483648 then uval b else uval b - 4294967296 := rfl
    split
    · rw [if_neg (by omega)] at hsa
      split
      · rw [if_pos (by omega)] at hsb
        simp only [true_iff]; omega
      · rw [if_neg (by omega)] at hsb
        rw [ul]; omega
    · rw [if_pos (by omega)] at hsa
      split
      · rw [if_neg (by omega)] at hsb
        simp only [Bool.false_eq_true, false_iff]; omega
      · rw [if_pos (by omega)] at hsb
        rw [ul]; omega
  · have d1 : uval a = a.lo.toNat + 65536 * a.hi.toNat := rfl
    have hsa : sval a = if uval a < 2147483648 then uval a else uval a - 4294967296 := rfl
    simp only [lngLessThan0, decide_eq_true_eq]
    split at hsa <;> omega

theorem int16_toNat (n : Int16) : (n.toUInt16.toNat : Int) = n.toInt % 65536 := by
  have := Int16.toNat_toBitVec n
  rw [Int16.toInt, BitVec.toInt_eq_toNat_cond]
  have h : n.toUInt16.toNat = n.toBitVec.toNat := rfl
  have l : n.toBitVec.toNat < 65536 := n.toBitVec.isLt
  rw [h]; split <;> omega

theorem int32_toNat (n : Int32) : (n.toUInt32.toNat : Int) = n.toInt % 4294967296 := by
  rw [Int32.toInt, BitVec.toInt_eq_toNat_cond]
  have h : n.toUInt32.toNat = n.toBitVec.toNat := rfl
  have l : n.toBitVec.toNat < 4294967296 := n.toBitVec.isLt
  rw [h]; split <;> omega

theorem i16_range (n : Int16) : -32768 ≤ n.toInt ∧ n.toInt < 32768 := by
  rw [Int16.toInt, BitVec.toInt_eq_toNat_cond]
  have l : n.toBitVec.toNat < 65536 := n.toBitVec.isLt
  split <;> omega

theorem i32_range (n : Int32) : -2147483648 ≤ n.toInt ∧ n.toInt < 2147483648 := by
  rw [Int32.toInt, BitVec.toInt_eq_toNat_cond]
  have l : n.toBitVec.toNat < 4294967296 := n.toBitVec.isLt
  split <;> omega

/-- C37: conversions to 32 bits preserve the value (both builds). -/
theorem c37_from (n16 : Int16) (n32 : Int32) (u16 : UInt16) (u32 : UInt32) :
    sval (lngFromSigned16 n16) = n16.toInt ∧ sval (lngFromSigned32 n32) = n32.toInt ∧
    uval (lngFromUnsigned16 u16) = u16.toNat ∧ uval (lngFromUnsigned32 u32) = u32.toNat := by
  refine ⟨?_, ?_, ?_, ?_⟩
  · have h := int16_toNat n16
    have r := i16_range n16
    have e : uval (lngFromSigned16 n16) = n16.toInt % 65536 + (if n16.toInt < 0 then 65536 * 65535 else 0) := by
      simp only [uval, lngFromSigned16, h]
      split
      · rfl
      · rfl
    unfold sval; rw [e]
    split <;> split <;> omega
  · have h := int32_toNat n32
    have r := i32_range n32
    have e : uval (lngFromSigned32 n32) = n32.toInt % 4294967296 := by
      simp only [uval, lngFromSigned32, ofNat16]; omega
    unfold sval; rw [e]
    split <;> omega
  · simp [uval, lngFromUnsigned16]
  · have : u32.toNat < 4294967296 := u32.toNat_lt
    simp only [uval, lngFromUnsigned32, ofNat16]; omega

/-- C37: conversions back reduce modulo the width (and so are exact whenever the value is
representable); 32-bit conversions are the identity on the value. -/
theorem c37_to (l : Lng) :
    (lngToSigned16 l).toInt % 65536 = sval l % 65536 ∧ (lngToSigned32 l).toInt = sval l ∧
    ((lngToUnsigned16 l).toNat : Int) = uval l % 65536 ∧ ((lngToUnsigned32 l).toNat : Int) = uval l := by
  have h1 := lt16 l.lo; have h2 := lt16 l.hi
  have e32 : (UInt32.ofNat (l.lo.toNat + 65536 * l.hi.toNat)).toNat = l.lo.toNat + 65536 * l.hi.toNat := by
    rw [UInt32.toNat_ofNat']; omega
  refine ⟨?_, ?_, ?_, ?_⟩
  · have h := int16_toNat (lngToSigned16 l)
    have : (lngToSigned16 l).toUInt16 = l.lo := rfl
    rw [this] at h
    have s : sval l % 65536 = uval l % 65536 := by unfold sval; split <;> omega
    rw [s, ← h]; unfold uval; omega
  · have h := int32_toNat (lngToSigned32 l)
    have r := i32_range (lngToSigned32 l)
    have e : (lngToSigned32 l).toUInt32 = UInt32.ofNat (l.lo.toNat + 65536 * l.hi.toNat) := rfl
    rw [e, e32] at h
    unfold sval uval
    split <;> omega
  · simp only [lngToUnsigned16, uval]; omega
  · simp only [lngToUnsigned32, e32, uval]; omega

/-- 0x0001FFFF + 0x00010001 carries into the high half -/
example : lngAdd ⟨0xFFFF, 1⟩ ⟨1, 1⟩ = ⟨0, 3⟩ := by decide +kernel

end Smlr.Lng
