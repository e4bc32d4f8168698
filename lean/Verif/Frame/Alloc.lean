import Verif.Frame.Spec
set_option autoImplicit false
namespace Smlr.Frame

theorem mask4 (x : I32) : (x &&& ~~~(4#32 - 1#32)).toNat = x.toNat / 4 * 4 := by
  have h : x &&& ~~~(4#32 - 1#32) = (x >>> 2) <<< 2 := by
    apply BitVec.eq_of_getLsbD_eq
    intro i hi
    have hm : (~~~(4#32 - 1#32)).getLsbD i = decide (2 ≤ i) := by
      have := (by decide : ∀ i : Fin 32, (~~~(4#32 - 1#32)).getLsbD i = decide (2 ≤ i.val)) ⟨i, hi⟩
      exact this
    rw [BitVec.getLsbD_and, hm, BitVec.getLsbD_shiftLeft, BitVec.getLsbD_ushiftRight]
    by_cases h2 : 2 ≤ i
    · rw [show 2 + (i - 2) = i by omega]
      simp [hi, h2, Nat.not_lt.mpr h2]
    · simp [hi, h2, Nat.lt_of_not_le h2]
  rw [h, BitVec.toNat_shiftLeft, BitVec.toNat_ushiftRight, Nat.shiftRight_eq_div_pow, Nat.shiftLeft_eq]
  have := x.isLt
  omega

theorem mask2 (x : I32) : (x &&& ~~~(2#32 - 1#32)).toNat = x.toNat / 2 * 2 := by
  have h : x &&& ~~~(2#32 - 1#32) = (x >>> 1) <<< 1 := by
    apply BitVec.eq_of_getLsbD_eq
    intro i hi
    have hm : (~~~(2#32 - 1#32)).getLsbD i = decide (1 ≤ i) := by
      have := (by decide : ∀ i : Fin 32, (~~~(2#32 - 1#32)).getLsbD i = decide (1 ≤ i.val)) ⟨i, hi⟩
      exact this
    rw [BitVec.getLsbD_and, hm, BitVec.getLsbD_shiftLeft, BitVec.getLsbD_ushiftRight]
    by_cases h2 : 1 ≤ i
    · rw [show 1 + (i - 1) = i by omega]
      simp [hi, h2, Nat.not_lt.mpr h2]
    · simp [hi, h2, Nat.lt_of_not_le h2]
  rw [h, BitVec.toNat_shiftLeft, BitVec.toNat_ushiftRight, Nat.shiftRight_eq_div_pow, Nat.shiftLeft_eq]
  have := x.isLt
  omega

theorem mask {W : Nat} (hW : W = 2 ∨ W = 4) (x : I32) : (x &&& ~~~(BitVec.ofNat 32 W - 1#32)).toNat = x.toNat / W * W := by
  rcases hW with rfl | rfl
  · exact mask2 x
  · exact mask4 x

/-- the limit as a number -/
def lim (W : Nat) (flat : Bool) : Nat := if W = 4 ∧ flat = true then 2147483647 else 32767

theorem maxLocals_toNat (W : Nat) (flat : Bool) : (maxLocals W flat).toNat = lim W flat := by
  unfold maxLocals lim; split <;> rfl

theorem maxLocals_neg (W : Nat) (flat : Bool) : (- maxLocals W flat).toInt = - (lim W flat : Int) := by
  unfold maxLocals lim; split <;> rfl

theorem lim_le (W : Nat) (flat : Bool) : lim W flat ≤ 2147483647 := by unfold lim; split <;> omega

theorem up_eq {W : Nat} (hW : W = 2 ∨ W = 4) (n : Nat) : up W n = (n + (W - 1)) / W * W := rfl

/-- offset is `-h` for a number `h` of bytes in whole words within the limit -/
structure At (W : Nat) (flat : Bool) (o : I32) (h : Nat) : Prop where
  val : o.toInt = - (h : Int)
  le : h ≤ lim W flat
  dvd : h % W = 0

theorem truncInt_ok {W : Nat} (hW : W = 2 ∨ W = 4) (o : I32) (h : -32767 ≤ o.toInt ∧ o.toInt ≤ 0 ∨ W = 4) : o = truncInt W o := by
  unfold truncInt
  split
  · rename_i h2
    rcases h with h | h
    · apply BitVec.eq_of_toInt_eq
      rw [BitVec.toInt_signExtend_of_le (by omega), BitVec.toInt_setWidth, Int.bmod_def]
      rw [BitVec.toInt_eq_toNat_cond] at *
      have := o.isLt
      split at h <;> split <;> rename_i h3 <;> split <;> omega
    · omega
  · rfl

theorem allocLocal_iff {W : Nat} (hW : W = 2 ∨ W = 4) {flat : Bool} {size : I32} {s : Ofs} {h k : Nat} (hc : At W flat s.cur h) (hm : At W flat s.min k) (h0 : size.toNat ≠ 0) :
    if h + up W size.toNat ≤ lim W flat then
      ∃ s1, allocLocal W flat size s = some s1 ∧ At W flat s1.cur (h + up W size.toNat) ∧ At W flat s1.min (max k (h + up W size.toNat))
    else allocLocal W flat size s = none := by
  have hl := lim_le W flat
  have hs := size.isLt
  have hnat : ((s.cur - size) &&& ~~~(BitVec.ofNat 32 W - 1#32)).toNat = (2 ^ 32 - size.toNat + s.cur.toNat) % 2 ^ 32 / W * W := by
    rw [mask hW, BitVec.toNat_sub]
  generalize hcur : (s.cur - size) &&& ~~~(BitVec.ofNat 32 W - 1#32) = cur at hnat
  have hun : allocLocal W flat size s = if cur.toInt ≥ s.cur.toInt ∨ cur ≠ truncInt W cur ∨ cur.toInt < (- maxLocals W flat).toInt then none
    else some ⟨cur, if s.min.toInt > cur.toInt then cur else s.min⟩ := by
    unfold allocLocal
    simp only [hcur]
  obtain ⟨c1, c2, c3⟩ := hc
  obtain ⟨m1, m2, m3⟩ := hm
  have hcn : s.cur.toNat = (2 ^ 32 - h) % 2 ^ 32 := by
    rw [BitVec.toInt_eq_toNat_cond] at c1
    have := s.cur.isLt
    split at c1 <;> omega
  have hci := BitVec.toInt_eq_toNat_cond cur
  have hclt := cur.isLt
  rw [hun, maxLocals_neg]
  by_cases hfit : h + up W size.toNat ≤ lim W flat
  · rw [if_pos hfit]
    have hv : cur.toInt = - ((h + up W size.toNat : Nat) : Int) := by
      unfold up at *
      rcases hW with rfl | rfl <;> split at hci <;> omega
    have hup : 0 < up W size.toNat ∧ up W size.toNat % W = 0 := by
      unfold up
      rcases hW with rfl | rfl <;> omega
    have ht : cur = truncInt W cur := by
      apply truncInt_ok hW
      by_cases h4 : W = 4
      · exact .inr h4
      · left
        have : lim W flat = 32767 := by unfold lim; rw [if_neg (fun h => h4 h.1)]
        omega
    rw [if_neg (by
      rintro (h1 | h1 | h1)
      · omega
      · exact h1 ht
      · omega)]
    have hd : (h + up W size.toNat) % W = 0 := by
      rcases hW with rfl | rfl <;> omega
    refine ⟨_, rfl, ⟨hv, hfit, hd⟩, ?_⟩
    dsimp only
    by_cases hgt : s.min.toInt > cur.toInt
    · rw [if_pos hgt, Nat.max_eq_right (by omega)]
      exact ⟨hv, hfit, hd⟩
    · rw [if_neg hgt, Nat.max_eq_left (by omega)]
      exact ⟨m1, m2, m3⟩
  · rw [if_neg hfit, if_pos]
    by_contra hno
    have h1 : ¬ cur.toInt ≥ s.cur.toInt := fun h => hno (.inl h)
    have h3 : ¬ cur.toInt < - (lim W flat : Int) := fun h => hno (.inr (.inr h))
    clear hno
    unfold up at hfit
    rcases hW with rfl | rfl <;> split at hci <;> omega

end Smlr.Frame
