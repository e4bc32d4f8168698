import Verif.Eval.Spec
set_option autoImplicit false
/-! The arithmetic of the model against that of the specification. -/
namespace Smlr.Eval

/-- a value of its type -/
def Ok (w : Nat) (v : SV) : Prop := if v.sign then inS w v.x else 0 ≤ v.x ∧ v.x < 2 ^ w

/-- the model's form of a value -/
def rep (w : Nat) (v : SV) : V w := ⟨v.sign, BitVec.ofInt w v.x⟩

structure Wd (w : Nat) : Prop where
  two : 32 ≤ w
  small : w ≤ 64

variable {w : Nat}

theorem Wd.pow (h : Wd w) : (2 : Int) ^ w = 2 * 2 ^ (w - 1) := by
  obtain ⟨k, rfl⟩ : ∃ k, w = k + 1 := ⟨w - 1, by have := h.two; omega⟩
  rw [Nat.add_sub_cancel, Int.pow_succ, Int.mul_comm]

theorem Wd.half (h : Wd w) : (2 : Int) ≤ 2 ^ (w - 1) := by
  obtain ⟨k, rfl⟩ : ∃ k, w = k + 2 := ⟨w - 2, by have := h.two; omega⟩
  have : (0 : Int) < 2 ^ k := Int.pow_pos (by omega)
  rw [show k + 2 - 1 = k + 1 by omega, Int.pow_succ]; omega

theorem toInt_ofInt (h : Wd w) {z : Int} (hz : inS w z) : (BitVec.ofInt w z).toInt = z := by
  rw [BitVec.toInt_ofInt]
  have h1 := h.pow
  have h2 := h.half
  have h3 : ((2 ^ w : Nat) : Int) = 2 ^ w := by norm_cast
  unfold inS at hz
  apply Int.bmod_eq_of_le <;> rw [h3] <;> omega

theorem toNat_ofInt (z : Int) : ((BitVec.ofInt w z).toNat : Int) = z % 2 ^ w := by
  rw [BitVec.toNat_ofInt]
  have h3 : ((2 ^ w : Nat) : Int) = 2 ^ w := by norm_cast
  have : 0 ≤ z % ((2 ^ w : Nat) : Int) := Int.emod_nonneg _ (by rw [h3]; exact Int.ne_of_gt (Int.pow_pos (by omega)))
  rw [Int.toNat_of_nonneg this, h3]

theorem toNat_ofInt_ok {z : Int} (h0 : 0 ≤ z) (h1 : z < 2 ^ w) : ((BitVec.ofInt w z).toNat : Int) = z := by
  rw [toNat_ofInt, Int.emod_eq_of_lt h0 h1]

theorem sres_val (z : Int) (hz : inS w z) : sres w z = .ok (BitVec.ofInt w z) := if_pos hz

/-- bit vectors from equal residues -/
theorem ofInt_eq {x : BitVec w} {z : Int} (h : (x.toNat : Int) = z % 2 ^ w) : x = BitVec.ofInt w z := by
  apply BitVec.eq_of_toNat_eq
  have := toNat_ofInt (w := w) z
  omega

theorem ofInt_emod (z : Int) : BitVec.ofInt w (z % 2 ^ w) = BitVec.ofInt w z := by
  apply BitVec.eq_of_toNat_eq
  have h1 := toNat_ofInt (w := w) z
  have h2 := toNat_ofInt (w := w) (z % 2 ^ w)
  rw [Int.emod_emod] at h2
  omega

theorem ofInt_zero (h : Wd w) {v : SV} (hv : Ok w v) : (BitVec.ofInt w v.x = 0#w) ↔ v.x = 0 := by
  have h1 := h.pow
  have h2 := h.half
  unfold Ok at hv
  split at hv
  · rw [← BitVec.toInt_inj, toInt_ofInt h hv, BitVec.toInt_zero]
  · rw [← BitVec.toNat_inj]
    have := toNat_ofInt_ok hv.1 hv.2
    simp only [BitVec.toNat_ofNat, Nat.zero_mod]
    omega

theorem boolval_rep (h : Wd w) {v : SV} (hv : Ok w v) : boolval (rep w v) = decide (v.x ≠ 0) := by
  unfold boolval rep
  by_cases hx : v.x = 0
  · simp [hx]
  · have := mt (ofInt_zero h hv).mp hx
    simp [hx, this]

theorem ok_truth (h : Wd w) (b : Prop) [Decidable b] : Ok w ⟨true, if b then 1 else 0⟩ := by
  have h2 := h.half
  unfold Ok inS
  simp only [if_true]
  split <;> omega

theorem rep_truth (b : Prop) [Decidable b] : rep w ⟨true, if b then 1 else 0⟩ = ⟨true, ofBool w (decide b)⟩ := by
  unfold rep ofBool
  by_cases hb : b <;> simp [hb]

theorem rep_fit_u (z : Int) : rep w ⟨false, z % 2 ^ w⟩ = ⟨false, BitVec.ofInt w z⟩ := by
  unfold rep; rw [ofInt_emod]

theorem ok_emod (z : Int) : Ok w ⟨false, z % 2 ^ w⟩ := by
  have : (0 : Int) < 2 ^ w := Int.pow_pos (by omega)
  exact ⟨Int.emod_nonneg _ (by omega), Int.emod_lt_of_pos _ this⟩

/-- the outcome of the model that a meaning asks for -/
def Meets (w : Nat) (r : Res (V w)) : Sem → Prop
  | .val v => r = .ok (rep w v) ∧ Ok w v
  | .nodiv => r = .err
  | .undef => True

theorem meets_truth (h : Wd w) (b : Prop) [Decidable b] {c : Bool} (hc : c = decide b) :
    Meets w (.ok ⟨true, ofBool w c⟩) (truth b) :=
  ⟨by rw [rep_truth, hc], ok_truth h b⟩

theorem meets_fit_s {z : Int} : Meets w ((sres w z).bind fun r => .ok ⟨true, r⟩) (fit w true z) := by
  unfold fit
  by_cases hz : inS w z
  · rw [sres_val z hz]; simp only [if_true, if_pos hz]; exact ⟨rfl, hz⟩
  · simp only [if_true, if_neg hz]; trivial

theorem meets_fit_u {z : Int} {x : BitVec w} (hx : x = BitVec.ofInt w z) : Meets w (.ok ⟨false, x⟩) (fit w false z) :=
  ⟨by rw [rep_fit_u, hx], ok_emod z⟩

theorem not_ofInt (h : Wd w) (z : Int) : ~~~(BitVec.ofInt w z) = BitVec.ofInt w (-z - 1) := by
  have := BitVec.neg_eq_not_add (BitVec.ofInt w z)
  have e : BitVec.ofInt w (-z - 1) = -(BitVec.ofInt w z) - 1#w := by
    rw [Int.sub_eq_add_neg, BitVec.ofInt_add, BitVec.ofInt_neg, BitVec.sub_eq_add_neg]
    congr 1
    rw [BitVec.ofInt_neg]
    rfl
  rw [e, this, BitVec.add_sub_cancel]

theorem meets_un (h : Wd w) {v : SV} (hv : Ok w v) (o : Uop) : Meets w (opun o (rep w v)) (semUn w o v) := by
  cases o with
  | lnot =>
    apply meets_truth h
    show ((BitVec.ofInt w v.x) == 0#w) = _
    by_cases hx : v.x = 0
    · simp [hx]
    · have := mt (ofInt_zero h hv).mp hx
      simp [hx, this]
  | not =>
    show Meets w (.ok ⟨v.sign, ~~~(BitVec.ofInt w v.x)⟩) (fit w v.sign (-v.x - 1))
    rw [not_ofInt h]
    cases hs : v.sign
    · exact meets_fit_u rfl
    · unfold Ok at hv
      rw [if_pos hs] at hv
      have hz : inS w (-v.x - 1) := by unfold inS at hv ⊢; omega
      unfold fit
      rw [if_pos rfl, if_pos hz]
      exact ⟨rfl, hz⟩
  | uplus => exact ⟨rfl, hv⟩
  | uminus =>
    unfold Ok at hv
    cases hs : v.sign
    · simp only [opun, rep, hs, semUn]
      exact meets_fit_u (by rw [BitVec.ofInt_neg])
    · simp only [opun, rep, hs, semUn]
      rw [if_pos hs] at hv
      rw [toInt_ofInt h hv]
      exact meets_fit_s

/-! ### binary operators -/

/-- both operands signed -/
theorem both_s {a b : SV} (ha : Ok w a) (hb : Ok w b) (hs : (a.sign && b.sign) = true) : inS w a.x ∧ inS w b.x := by
  unfold Ok at ha hb
  simp only [Bool.and_eq_true] at hs
  rw [if_pos hs.1] at ha
  rw [if_pos hs.2] at hb
  exact ⟨ha, hb⟩

theorem meets_sbin (h : Wd w) {a b : SV} (ha : Ok w a) (hb : Ok w b)
    (s u : BitVec w → BitVec w → Res (BitVec w)) (m : Int → Int → Bool → Sem)
    (hs : inS w a.x → inS w b.x → Meets w ((s (BitVec.ofInt w a.x) (BitVec.ofInt w b.x)).bind fun r => .ok ⟨true, r⟩) (m a.x b.x true))
    (hu : ∀ x y : Int, 0 ≤ x → x < 2 ^ w → 0 ≤ y → y < 2 ^ w →
      Meets w ((u (BitVec.ofInt w x) (BitVec.ofInt w y)).bind fun r => .ok ⟨false, r⟩) (m x y false)) :
    Meets w (sbinop ((rep w a).sign && (rep w b).sign) s u (rep w a) (rep w b))
      (m (conv w (a.sign && b.sign) a) (conv w (a.sign && b.sign) b) (a.sign && b.sign)) := by
  show Meets w (sbinop (a.sign && b.sign) s u (rep w a) (rep w b)) _
  cases hc : (a.sign && b.sign)
  · have ea := ok_emod (w := w) a.x
    have eb := ok_emod (w := w) b.x
    have := hu (a.x % 2 ^ w) (b.x % 2 ^ w) ea.1 ea.2 eb.1 eb.2
    rw [ofInt_emod, ofInt_emod] at this
    exact this
  · exact hs (both_s ha hb hc).1 (both_s ha hb hc).2

theorem meets_cmp (h : Wd w) {a b : SV} (ha : Ok w a) (hb : Ok w b)
    (s u : BitVec w → BitVec w → Bool) (p : Int → Int → Prop) [∀ x y, Decidable (p x y)]
    (hs : ∀ x y : BitVec w, s x y = decide (p x.toInt y.toInt))
    (hu : ∀ x y : BitVec w, u x y = decide (p x.toNat y.toNat)) :
    Meets w (nssbinop ((rep w a).sign && (rep w b).sign) s u (rep w a) (rep w b))
      (truth (p (conv w (a.sign && b.sign) a) (conv w (a.sign && b.sign) b))) := by
  apply meets_truth h
  show (if (a.sign && b.sign) = true then s (BitVec.ofInt w a.x) (BitVec.ofInt w b.x) else u (BitVec.ofInt w a.x) (BitVec.ofInt w b.x)) = _
  cases hc : (a.sign && b.sign)
  · simp only [conv, if_false, Bool.false_eq_true]
    rw [hu, toNat_ofInt, toNat_ofInt]
  · simp only [conv, if_true]
    obtain ⟨h1, h2⟩ := both_s ha hb hc
    rw [hs, toInt_ofInt h h1, toInt_ofInt h h2]

theorem bits_eq (v : SV) : bits w v = (BitVec.ofInt w v.x).toNat := by
  have := toNat_ofInt (w := w) v.x
  unfold bits
  omega

theorem ofBits_eq (h : Wd w) (x : BitVec w) (s : Bool) : Meets w (.ok ⟨s, x⟩) (ofBits w s x.toNat) := by
  have h1 := h.pow
  have h2 := h.half
  have h3 : ((2 ^ w : Nat) : Int) = 2 ^ w := by norm_cast
  have h4 : ((2 ^ (w - 1) : Nat) : Int) = 2 ^ (w - 1) := by norm_cast
  have hx : (x.toNat : Int) < 2 ^ w := by have := x.isLt; omega
  have e1 : (x.toNat : Int) % 2 ^ w = x.toNat := Int.emod_eq_of_lt (by omega) hx
  unfold ofBits
  by_cases hc : s = true ∧ x.toNat ≥ 2 ^ (w - 1)
  · rw [if_pos hc]
    constructor
    · unfold rep
      congr 2
      apply ofInt_eq
      rw [Int.sub_emod_right, e1]
    · unfold Ok inS
      simp only [hc.1, if_true]
      omega
  · rw [if_neg hc]
    constructor
    · unfold rep
      congr 2
      apply ofInt_eq
      rw [e1]
    · unfold Ok inS
      simp only
      split
      · rename_i hs
        have : ¬ x.toNat ≥ 2 ^ (w - 1) := fun hge => hc ⟨hs, hge⟩
        omega
      · omega

theorem meets_bit (h : Wd w) {a b : SV} (f : BitVec w → BitVec w → BitVec w) (g : Nat → Nat → Nat)
    (hf : ∀ x y : BitVec w, (f x y).toNat = g x.toNat y.toNat) :
    Meets w (sbinop ((rep w a).sign && (rep w b).sign) (fun x y => .ok (f x y)) (fun x y => .ok (f x y)) (rep w a) (rep w b))
      (ofBits w (a.sign && b.sign) (g (bits w a) (bits w b))) := by
  rw [bits_eq, bits_eq, ← hf]
  have := ofBits_eq h (f (BitVec.ofInt w a.x) (BitVec.ofInt w b.x)) (a.sign && b.sign)
  unfold sbinop
  show Meets w (if (a.sign && b.sign) = true then _ else _) _
  cases hc : (a.sign && b.sign) <;> (rw [hc] at this; exact this)

theorem tdiv_range {x y : Int} {M : Int} (hM : 1 ≤ M) (hx : -M ≤ x ∧ x < M) (hy : y ≠ 0) (hn : ¬ (x = -M ∧ y = -1)) :
    -M ≤ x.tdiv y ∧ x.tdiv y < M := by
  have h1 : (x.tdiv y).natAbs = x.natAbs / y.natAbs := Int.natAbs_tdiv x y
  by_cases hy1 : y = 1
  · subst hy1; rw [Int.tdiv_one]; exact hx
  by_cases hy2 : y = -1
  · subst hy2
    rw [Int.tdiv_neg, Int.tdiv_one]
    omega
  have : x.natAbs / y.natAbs ≤ x.natAbs / 2 := Nat.div_le_div_left (by omega) (by omega)
  omega

theorem tdiv_min {M : Int} (hM : 1 ≤ M) : ¬ (-M ≤ (-M).tdiv (-1) ∧ (-M).tdiv (-1) < M) := by
  rw [Int.tdiv_neg, Int.tdiv_one]; omega

/-- the condition of the model for a quotient that does not fit -/
theorem quot_fits (h : Wd w) {x y : Int} (hx : inS w x) (hy : y ≠ 0) :
    inS w (x.tdiv y) ↔ ¬ (x = -2 ^ (w - 1) ∧ y = -1) := by
  have h2 := h.half
  constructor
  · rintro hq ⟨rfl, rfl⟩
    exact tdiv_min (by omega) hq
  · exact fun hn => tdiv_range (by omega) hx hy hn

theorem tmod_range {x y : Int} {M : Int} (hx : -M ≤ x ∧ x < M) : -M ≤ x.tmod y ∧ x.tmod y < M := by
  have h1 : (x.tmod y).natAbs = x.natAbs % y.natAbs := Int.natAbs_tmod x y
  have h2 : x.natAbs % y.natAbs ≤ x.natAbs := Nat.mod_le _ _
  by_cases h0 : 0 ≤ x
  · have := Int.tmod_nonneg y h0
    omega
  · have := Int.tmod_nonneg y (show 0 ≤ -x by omega)
    rw [Int.neg_tmod] at this
    omega

theorem ofInt_ne_zero (h : Wd w) {y : Int} (hy : inS w y) : ((BitVec.ofInt w y) == 0#w) = decide (y = 0) := by
  have := ofInt_zero h (v := ⟨true, y⟩) hy
  by_cases h0 : y = 0 <;> simp [h0] at this ⊢
  exact this

theorem ofInt_ne_zero_u (h : Wd w) {y : Int} (h0 : 0 ≤ y) (h1 : y < 2 ^ w) : ((BitVec.ofInt w y) == 0#w) = decide (y = 0) := by
  have := ofInt_zero h (v := ⟨false, y⟩) ⟨h0, h1⟩
  by_cases h0 : y = 0 <;> simp [h0] at this ⊢
  exact this

theorem meets_slash (h : Wd w) {a b : SV} (ha : Ok w a) (hb : Ok w b) :
    Meets w (opbin .slash (rep w a) (rep w b)) (semBin w .slash a b) := by
  refine meets_sbin h ha hb sSlash uSlash
    (fun x y s => if y = 0 then .nodiv else if s ∧ ¬ inS w (x.tdiv y) then .nodiv else fit w s (x.tdiv y)) ?_ ?_
  · intro h1 h2
    unfold sSlash
    rw [ofInt_ne_zero h h2, toInt_ofInt h h1, toInt_ofInt h h2]
    by_cases h0 : b.x = 0
    · simp only [h0, decide_true, if_true]; rfl
    · simp only [h0, decide_false, if_false, Bool.false_eq_true]
      have hq := quot_fits h h1 h0
      by_cases hc : a.x = -2 ^ (w - 1) ∧ b.x = -1
      · have hq' : ¬ inS w (a.x.tdiv b.x) := fun hh => hq.mp hh hc
        simp only [hq', not_false_eq_true, and_self, if_true]
        rw [if_pos (by simp [hc.1, hc.2])]
        rfl
      · have hq' : inS w (a.x.tdiv b.x) := hq.mpr hc
        have hb : (a.x == -2 ^ (w - 1) && b.x == -1) = false := by
          simp only [Bool.and_eq_false_iff, beq_eq_false_iff_ne]
          by_cases h3 : a.x = -2 ^ (w - 1)
          · exact .inr fun h4 => hc ⟨h3, h4⟩
          · exact .inl h3
        simp only [hb, Bool.false_eq_true, if_false, hq', not_true_eq_false, and_false]
        exact meets_fit_s
  · intro x y h1 h2 h3 h4
    unfold uSlash
    rw [ofInt_ne_zero_u h h3 h4]
    by_cases h0 : y = 0
    · simp only [h0, decide_true, if_true]; rfl
    · simp only [h0, decide_false, if_false, Bool.false_eq_true, false_and]
      apply meets_fit_u
      apply ofInt_eq
      rw [BitVec.toNat_udiv, Int.natCast_ediv, toNat_ofInt_ok h1 h2, toNat_ofInt_ok h3 h4,
        Int.tdiv_eq_ediv_of_nonneg h1]
      have : x / y ≤ x := Int.ediv_le_self _ h1
      exact (Int.emod_eq_of_lt (Int.ediv_nonneg h1 h3) (by omega)).symm

theorem meets_pct (h : Wd w) {a b : SV} (ha : Ok w a) (hb : Ok w b) :
    Meets w (opbin .pct (rep w a) (rep w b)) (semBin w .pct a b) := by
  refine meets_sbin h ha hb sPct uPct
    (fun x y s => if y = 0 then .nodiv else if s ∧ ¬ inS w (x.tdiv y) then .undef else fit w s (x.tmod y)) ?_ ?_
  · intro h1 h2
    unfold sPct
    rw [ofInt_ne_zero h h2, toInt_ofInt h h1, toInt_ofInt h h2]
    by_cases h0 : b.x = 0
    · simp only [h0, decide_true, if_true]; rfl
    · simp only [h0, decide_false, if_false, Bool.false_eq_true]
      have hq := quot_fits h h1 h0
      by_cases hc : a.x = -2 ^ (w - 1) ∧ b.x = -1
      · have hq' : ¬ inS w (a.x.tdiv b.x) := fun hh => hq.mp hh hc
        simp only [hq', not_false_eq_true, and_self, if_true]
        trivial
      · have hq' : inS w (a.x.tdiv b.x) := hq.mpr hc
        have hb : (a.x == -2 ^ (w - 1) && b.x == -1) = false := by
          simp only [Bool.and_eq_false_iff, beq_eq_false_iff_ne]
          by_cases h3 : a.x = -2 ^ (w - 1)
          · exact .inr fun h4 => hc ⟨h3, h4⟩
          · exact .inl h3
        simp only [hb, Bool.false_eq_true, if_false, hq', not_true_eq_false, and_false]
        exact meets_fit_s
  · intro x y h1 h2 h3 h4
    unfold uPct
    rw [ofInt_ne_zero_u h h3 h4]
    by_cases h0 : y = 0
    · simp only [h0, decide_true, if_true]; rfl
    · simp only [h0, decide_false, if_false, Bool.false_eq_true, false_and]
      apply meets_fit_u
      apply ofInt_eq
      rw [BitVec.toNat_umod, Int.natCast_emod, toNat_ofInt_ok h1 h2, toNat_ofInt_ok h3 h4,
        Int.tmod_eq_emod_of_nonneg h1]
      have : x % y < y := Int.emod_lt_of_pos _ (by omega)
      exact (Int.emod_eq_of_lt (Int.emod_nonneg _ h0) (by omega)).symm

/-- the shift count -/
theorem iv2_eq (h : Wd w) {b : SV} (hb : Ok w b) :
    let i := if (rep w b).sign then sToint (rep w b).v else uToint (rep w b).v
    (¬ (b.x < 0 ∨ b.x ≥ w) → i = b.x) ∧ (b.x < 0 ∨ b.x ≥ w → i < 0 ∨ i ≥ w) := by
  have hw := h.small
  unfold Ok at hb
  simp only [rep]
  split at hb
  · rename_i hs
    simp only [hs, if_true, sToint]
    rw [toInt_ofInt h hb]
    split
    · omega
    · split <;> omega
  · rename_i hs
    simp only [hs, if_false, uToint, Bool.false_eq_true]
    have := toNat_ofInt_ok hb.1 hb.2
    split <;> omega

theorem meets_lsh (h : Wd w) {a b : SV} (ha : Ok w a) (hb : Ok w b) :
    Meets w (opbin .lsh (rep w a) (rep w b)) (semBin w .lsh a b) := by
  have hi := iv2_eq h hb
  simp only at hi
  show Meets w (abinop sLsh uLsh (rep w a) (rep w b)) (if b.x < 0 ∨ b.x ≥ w ∨ a.x < 0 then .undef else fit w a.sign (a.x * 2 ^ b.x.toNat))
  unfold abinop
  generalize (if (rep w b).sign then sToint (rep w b).v else uToint (rep w b).v) = i at hi
  by_cases hc : b.x < 0 ∨ b.x ≥ w ∨ a.x < 0
  · rw [if_pos hc]; trivial
  · rw [if_neg hc]
    have hi' := hi.1 (by omega)
    subst hi'
    have hn : ¬ (b.x < 0 ∨ b.x ≥ w) := by omega
    unfold Ok at ha
    cases hs : a.sign
    · simp only [rep, hs, uLsh, if_neg hn, Bool.false_eq_true, if_false]
      rw [hs] at ha
      apply meets_fit_u
      apply ofInt_eq
      rw [BitVec.toNat_shiftLeft, Nat.shiftLeft_eq, Int.natCast_emod, Int.natCast_mul, toNat_ofInt_ok ha.1 ha.2]
      norm_cast
    · simp only [rep, hs, sLsh, if_neg hn, if_true]
      rw [hs] at ha
      rw [toInt_ofInt h ha, if_neg (by omega)]
      exact meets_fit_s

theorem meets_rsh (h : Wd w) {a b : SV} (ha : Ok w a) (hb : Ok w b) :
    Meets w (opbin .rsh (rep w a) (rep w b)) (semBin w .rsh a b) := by
  have hi := iv2_eq h hb
  simp only at hi
  show Meets w (abinop sRsh uRsh (rep w a) (rep w b)) (if b.x < 0 ∨ b.x ≥ w then .undef else fit w a.sign (a.x / 2 ^ b.x.toNat))
  unfold abinop
  generalize (if (rep w b).sign then sToint (rep w b).v else uToint (rep w b).v) = i at hi
  by_cases hn : b.x < 0 ∨ b.x ≥ w
  · rw [if_pos hn]; trivial
  · rw [if_neg hn]
    have hi' := hi.1 hn
    subst hi'
    have hp : (0 : Int) < 2 ^ b.x.toNat := Int.pow_pos (by omega)
    unfold Ok at ha
    cases hs : a.sign
    · simp only [rep, hs, uRsh, if_neg hn, Bool.false_eq_true, if_false]
      rw [hs] at ha
      apply meets_fit_u
      apply ofInt_eq
      have e : (((BitVec.ofInt w a.x).toNat >>> b.x.toNat : Nat) : Int) = a.x / 2 ^ b.x.toNat := by
        rw [Nat.shiftRight_eq_div_pow, Int.natCast_ediv, toNat_ofInt_ok ha.1 ha.2]
        norm_cast
      rw [BitVec.toNat_ushiftRight, e]
      have : a.x / 2 ^ b.x.toNat ≤ a.x := Int.ediv_le_self _ ha.1
      have h5 : a.x < 2 ^ w := ha.2
      exact (Int.emod_eq_of_lt (Int.ediv_nonneg ha.1 (by omega)) (by omega)).symm
    · simp only [rep, hs, sRsh, if_neg hn, if_true]
      rw [hs] at ha
      have ha' : inS w a.x := ha
      have hr : inS w (a.x / 2 ^ b.x.toNat) := by
        have h2 := h.half
        unfold inS at ha' ⊢
        constructor
        · apply Int.le_ediv_of_mul_le hp
          have : (2 : Int) ^ (w - 1) ≤ 2 ^ (w - 1) * 2 ^ b.x.toNat := by
            have h6 := Int.mul_le_mul_of_nonneg_left (show (1 : Int) ≤ 2 ^ b.x.toNat by omega) (show (0 : Int) ≤ 2 ^ (w - 1) by omega)
            omega
          have : -2 ^ (w - 1) * 2 ^ b.x.toNat = -(2 ^ (w - 1) * (2 : Int) ^ b.x.toNat) := Int.neg_mul _ _
          omega
        · by_cases h0 : 0 ≤ a.x
          · have : a.x / 2 ^ b.x.toNat ≤ a.x := Int.ediv_le_self _ h0
            omega
          · have : a.x / 2 ^ b.x.toNat < 0 := Int.ediv_neg_of_neg_of_pos (by omega) hp
            omega
      unfold fit
      rw [if_pos rfl, if_pos hr]
      refine ⟨?_, hr⟩
      show Res.ok _ = Res.ok _
      unfold rep
      congr 2
      rw [← BitVec.toInt_inj, BitVec.toInt_sshiftRight, toInt_ofInt h ha', toInt_ofInt h hr, Int.shiftRight_eq_div_pow]
      norm_cast

/-- every operator of the model computes what C asks -/
theorem meets_bin (h : Wd w) {a b : SV} (ha : Ok w a) (hb : Ok w b) (o : Bop) :
    Meets w (opbin o (rep w a) (rep w b)) (semBin w o a b) := by
  cases o with
  | star =>
    refine meets_sbin h ha hb (fun x y => sres w (x.toInt * y.toInt)) (fun x y => .ok (x * y)) (fun x y s => fit w s (x * y)) (fun h1 h2 => ?_) (fun x y h1 h2 h3 h4 => ?_)
    · rw [toInt_ofInt h h1, toInt_ofInt h h2]; exact meets_fit_s
    · exact meets_fit_u (by rw [BitVec.ofInt_mul])
  | plus =>
    refine meets_sbin h ha hb (fun x y => sres w (x.toInt + y.toInt)) (fun x y => .ok (x + y)) (fun x y s => fit w s (x + y)) (fun h1 h2 => ?_) (fun x y h1 h2 h3 h4 => ?_)
    · rw [toInt_ofInt h h1, toInt_ofInt h h2]; exact meets_fit_s
    · exact meets_fit_u (by rw [BitVec.ofInt_add])
  | minus =>
    refine meets_sbin h ha hb (fun x y => sres w (x.toInt - y.toInt)) (fun x y => .ok (x - y)) (fun x y s => fit w s (x - y)) (fun h1 h2 => ?_) (fun x y h1 h2 h3 h4 => ?_)
    · rw [toInt_ofInt h h1, toInt_ofInt h h2]; exact meets_fit_s
    · exact meets_fit_u (by rw [Int.sub_eq_add_neg, BitVec.ofInt_add, BitVec.ofInt_neg, BitVec.sub_eq_add_neg])
  | slash => exact meets_slash h ha hb
  | pct => exact meets_pct h ha hb
  | lsh => exact meets_lsh h ha hb
  | rsh => exact meets_rsh h ha hb
  | lt =>
    exact meets_cmp h ha hb _ _ (fun x y => x < y) (fun x y => by rw [BitVec.slt_eq_decide])
      (fun x y => by rw [BitVec.ult_eq_decide]; simp only [Int.ofNat_lt])
  | leq =>
    exact meets_cmp h ha hb _ _ (fun x y => x ≤ y) (fun x y => by rw [BitVec.sle_eq_decide])
      (fun x y => by rw [BitVec.ule_eq_decide]; simp only [Int.ofNat_le])
  | gt =>
    exact meets_cmp h ha hb (fun x y => y.slt x) (fun x y => y.ult x) (fun x y => x > y) (fun x y => by rw [BitVec.slt_eq_decide])
      (fun x y => by rw [BitVec.ult_eq_decide]; simp only [gt_iff_lt, Int.ofNat_lt])
  | geq =>
    exact meets_cmp h ha hb (fun x y => y.sle x) (fun x y => y.ule x) (fun x y => x ≥ y) (fun x y => by rw [BitVec.sle_eq_decide])
      (fun x y => by rw [BitVec.ule_eq_decide]; simp only [ge_iff_le, Int.ofNat_le])
  | same =>
    exact meets_cmp h ha hb _ _ (fun x y => x = y) (fun x y => by rw [Bool.eq_iff_iff, decide_eq_true_iff, beq_iff_eq, BitVec.toInt_inj])
      (fun x y => by rw [Bool.eq_iff_iff, decide_eq_true_iff, beq_iff_eq, Int.ofNat_inj, BitVec.toNat_inj])
  | neq =>
    exact meets_cmp h ha hb _ _ (fun x y => x ≠ y) (fun x y => by rw [Bool.eq_iff_iff, decide_eq_true_iff, bne_iff_ne, ne_eq, ne_eq, BitVec.toInt_inj])
      (fun x y => by rw [Bool.eq_iff_iff, decide_eq_true_iff, bne_iff_ne, ne_eq, ne_eq, Int.ofNat_inj, BitVec.toNat_inj])
  | and => exact meets_bit h (fun x y => x &&& y) (fun x y => x &&& y) BitVec.toNat_and
  | circ => exact meets_bit h (fun x y => x ^^^ y) (fun x y => x ^^^ y) BitVec.toNat_xor
  | or => exact meets_bit h (fun x y => x ||| y) (fun x y => x ||| y) BitVec.toNat_or
  | land =>
    apply meets_truth h
    have e1 := boolval_rep h ha
    have e2 := boolval_rep h hb
    unfold boolval at e1 e2
    rw [e1, e2, Bool.decide_and]
  | lor =>
    apply meets_truth h
    have e1 := boolval_rep h ha
    have e2 := boolval_rep h hb
    unfold boolval at e1 e2
    rw [e1, e2, Bool.decide_or]
  | comma => exact ⟨rfl, hb⟩

end Smlr.Eval
