import Verif.Mips.Red
set_option autoImplicit false
/-! The code of comparisons. -/
namespace Smlr.Mips
open Smlr.Cg (Wd wd Ar Cc arith rel)

theorem p3_slt (d a : Nat) (o : Opd) : p3 .slt d a o = [.alu .slt d a o] := if_neg (by rintro ⟨-, h | h, -⟩ <;> cases h)
theorem p3_sltu (d a : Nat) (o : Opd) : p3 .sltu d a o = [.alu .sltu d a o] := if_neg (by rintro ⟨-, h | h, -⟩ <;> cases h)
theorem p3_xor (d a : Nat) (o : Opd) : p3 .xor d a o = [.alu .xor d a o] := if_neg (by rintro ⟨-, h | h, -⟩ <;> cases h)

theorem bit_xor (b : Bool) : bit b ^^^ wd 4 1 = bit (!b) := by cases b <;> decide
theorem bit_eq_zero (b : Bool) : (bit b = (0 : Wd 4)) ↔ b = false := by cases b <;> decide

theorem toNat_zero (x : Wd 4) : x.toNat = 0 ↔ x = 0 := ⟨fun h => BitVec.eq_of_toNat_eq h, fun h => by rw [h]; rfl⟩

theorem not_dec {p q : Prop} [Decidable p] [Decidable q] (h : p ↔ ¬ q) : decide p = !decide q := by
  rw [← decide_not]; exact decide_eq_decide.mpr h

theorem sltu_one (x : Wd 4) : decide (x.toNat < (wd 4 1).toNat) = decide (x = 0) := by
  have h1 : (wd 4 1).toNat = 1 := by decide
  rw [h1]
  refine decide_eq_decide.mpr ?_
  rw [← toNat_zero]; omega

theorem sltu_zero (x : Wd 4) : decide ((0 : Wd 4).toNat < x.toNat) = !decide (x = 0) := by
  have h1 : (0 : Wd 4).toNat = 0 := by decide
  rw [h1]
  by_cases h : x = 0
  · rw [h]; rfl
  · have : x.toNat ≠ 0 := fun g => h ((toNat_zero x).mp g)
    rw [decide_eq_true (by omega), decide_eq_false h]; rfl

theorem xor_zero (x y : Wd 4) : (x ^^^ y = 0) ↔ x.toNat = y.toNat := by
  constructor
  · intro h
    have : x = y := by
      have h1 : x ^^^ y ^^^ y = y := by rw [h]; exact BitVec.zero_xor
      rw [BitVec.xor_assoc, BitVec.xor_self] at h1
      exact (BitVec.xor_zero).symm.trans h1
    rw [this]
  · intro h
    rw [BitVec.eq_of_toNat_eq h]
    exact BitVec.xor_self

/-- the comparisons whose code adds one to the number -/
def fits (c : Cc) (n : Int) : Prop :=
  match c with
  | .le | .gt => truncU n ≠ 0x7FFFFFFF
  | .ule | .ugt => truncU n ≠ 0xFFFFFFFF
  | _ => True

theorem succ_toInt {n : Int} (h : truncU n ≠ 0x7FFFFFFF) : (wd 4 (n + 1)).toInt = (wd 4 n).toInt + 1 := by
  have e : wd 4 (n + 1) = wd 4 ((wd 4 n).toInt + 1) := by
    rw [wd, BitVec.ofInt_add, wd, BitVec.ofInt_add, BitVec.ofInt_toInt]
  rw [e]
  have h2 := BitVec.toInt_lt (x := wd 4 n)
  have h3 : -2147483648 ≤ (wd 4 n).toInt := Int.le_trans (by decide) (BitVec.le_toInt (x := wd 4 n))
  have h4 : (wd 4 n).toInt ≠ 0x7FFFFFFF := by
    intro hh
    apply h
    have : wd 4 n = wd 4 0x7FFFFFFF := by rw [← hh, Cg.wd_toInt]
    unfold truncU
    rw [this]; decide
  have h2 : (wd 4 n).toInt < 2147483648 := Int.lt_of_lt_of_le h2 (by decide)
  generalize (wd 4 n).toInt = z at *
  show (BitVec.ofInt _ (z + 1)).toInt = z + 1
  rw [BitVec.toInt_ofInt]
  have h2' : z < 2147483648 := h2
  show Int.bmod (z + 1) 4294967296 = _
  rw [Int.bmod_def]
  split <;> omega

theorem succ_toNat {n : Int} (h : truncU n ≠ 0xFFFFFFFF) : (wd 4 (n + 1)).toNat = (wd 4 n).toNat + 1 := by
  unfold truncU at h
  have e : wd 4 (n + 1) = wd 4 n + wd 4 1 := by rw [wd, BitVec.ofInt_add]
  have h1 : (wd 4 1).toNat = 1 := by decide
  have := (wd 4 n).isLt
  rw [e, BitVec.toNat_add, h1]
  apply Nat.mod_eq_of_lt
  omega

theorem i0 : (wd 4 0).toInt = 0 := by decide
theorem n0 : (wd 4 0).toNat = 0 := by decide
theorem i1 : (wd 4 1).toInt = 1 := by decide
theorem n1 : (wd 4 1).toNat = 1 := by decide
theorem z0 : (0 : Wd 4).toInt = 0 := by decide
theorem zn0 : (0 : Wd 4).toNat = 0 := by decide

theorem execs_alu (G : Int → Wd 4) (s : St) (i : Alu) (d a : Nat) (o : Opd) (r : List Ins) :
    execs G (.alu i d a o :: r) s = execs G r (s.set d (alu i (s.get a) (opd s o))) := rfl

theorem get_set (s : St) {d : Nat} (h : d ≠ 0) (v : Wd 4) : (s.set d v).get d = v := by rw [get_pos h, set_r_same]

macro "cmp_code" : tactic => `(tactic| simp only [cmpWith, cmpOp, blocks, block, Option.isSome_none, Option.isSome_some, Bool.false_and, Bool.true_and, Bool.and_true, Bool.and_false,
  List.flatMap_cons, List.flatMap_nil, List.append_nil, List.cons_append, List.nil_append, p3_slt, p3_sltu, p3_xor, if_true, if_false,
  reduceCtorEq, beq_self_eq_true, Nat.reduceBEq, Nat.reduceLT, decide_true, decide_false, Bool.not_true, Bool.not_false, Bool.false_eq_true, Option.getD_some, Option.getD_none])

/-- one or two instructions -/
theorem one_alu (G : Int → Wd 4) (s : St) (i : Alu) {d : Nat} (a : Nat) (o : Opd) {v : Wd 4} (h : alu i (s.get a) (opd s o) = v) :
    ∃ s', execs G [.alu i d a o] s = some s' ∧ s'.r d = v ∧ s'.mem = s.mem ∧ Only [d] s s' :=
  ⟨_, rfl, by rw [← h]; exact set_r_same _ _ _, rfl, only_set _ _ _⟩

theorem two_alu (G : Int → Wd 4) (s : St) (i i' : Alu) {d : Nat} (a : Nat) (o : Opd) (a' : Nat) (o' : Opd) {x v : Wd 4} (h : alu i (s.get a) (opd s o) = x)
    (h' : ∀ s' : St, s'.r d = x → alu i' (s'.get a') (opd s' o') = v) :
    ∃ s', execs G [.alu i d a o, .alu i' d a' o'] s = some s' ∧ s'.r d = v ∧ s'.mem = s.mem ∧ Only [d] s s' := by
  refine ⟨_, rfl, ?_, rfl, (only_set s d _).trans (only_set _ d _)⟩
  rw [set_r_same]
  exact h' _ (by rw [set_r_same]; exact h)

/-- two registers -/
theorem cmp_reg (G : Int → Wd 4) (s : St) (c : Cc) {w : Nat} (hw : w ≠ 0) (L R : Nat) :
    ∃ s', execs G (cmpCode c w L R none none) s = some s' ∧ s'.r w = bit (rel c (s.get L) (s.get R)) ∧ s'.mem = s.mem ∧ Only [w] s s' := by
  have x1 : ∀ {b b' : Bool}, b' = !b → ∀ s' : St, s'.r w = bit b → alu .xor (s'.get w) (opd s' (.imm 1)) = bit b' := by
    intro b b' hb s' h
    rw [get_pos hw, h, hb]; exact bit_xor b
  have q1 : ∀ {x : Wd 4} {b' : Bool}, b' = decide (x = 0) → ∀ s' : St, s'.r w = x → alu .sltu (s'.get w) (opd s' (.imm 1)) = bit b' := by
    intro x b' hb s' h
    rw [get_pos hw, h, hb]; exact congrArg bit (sltu_one x)
  have p1 : ∀ {x : Wd 4} {b' : Bool}, b' = !decide (x = 0) → ∀ s' : St, s'.r w = x → alu .sltu (s'.get 0) (opd s' (.reg w)) = bit b' := by
    intro x b' hb s' h
    show bit (decide ((0 : Wd 4).toNat < (s'.get w).toNat)) = _
    rw [get_pos hw, h, hb]; exact congrArg bit (sltu_zero x)
  unfold cmpCode
  cases c <;> cmp_code
  · exact one_alu G s _ _ _ rfl
  · exact one_alu G s _ _ _ rfl
  · exact one_alu G s _ _ _ rfl
  · exact one_alu G s _ _ _ rfl
  · exact two_alu G s _ _ _ _ _ _ rfl (x1 (not_dec (by simp only [opd]; omega)))
  · exact two_alu G s _ _ _ _ _ _ rfl (x1 (not_dec (by simp only [opd]; omega)))
  · exact two_alu G s _ _ _ _ _ _ rfl (x1 (not_dec (by simp only [opd]; omega)))
  · exact two_alu G s _ _ _ _ _ _ rfl (x1 (not_dec (by simp only [opd]; omega)))
  · exact two_alu G s _ _ _ _ _ _ rfl (q1 (by simp only [rel]; exact decide_eq_decide.mpr (xor_zero _ _).symm))
  · exact two_alu G s _ _ _ _ _ _ rfl (p1 (by simp only [rel]; rw [← decide_not]; exact decide_eq_decide.mpr (not_congr (xor_zero _ _).symm)))

/-- a register and a number -/
theorem cmp_imm (G : Int → Wd 4) (s : St) (c : Cc) {w : Nat} (hw : w ≠ 0) (L R : Nat) (n : Int) (hf : fits c n) :
    ∃ s', execs G (cmpCode c w L R (some n) none) s = some s' ∧ s'.r w = bit (rel c (s.get w) (wd 4 n)) ∧ s'.mem = s.mem ∧ Only [w] s s' := by
  have x1 : ∀ {b b' : Bool}, b' = !b → ∀ s' : St, s'.r w = bit b → alu .xor (s'.get w) (opd s' (.imm 1)) = bit b' := by
    intro b b' hb s' h
    rw [get_pos hw, h, hb]; exact bit_xor b
  have q1 : ∀ {x : Wd 4} {b' : Bool}, b' = decide (x = 0) → ∀ s' : St, s'.r w = x → alu .sltu (s'.get w) (opd s' (.imm 1)) = bit b' := by
    intro x b' hb s' h
    rw [get_pos hw, h, hb]; exact congrArg bit (sltu_one x)
  have p1 : ∀ {x : Wd 4} {b' : Bool}, b' = !decide (x = 0) → ∀ s' : St, s'.r w = x → alu .sltu (s'.get 0) (opd s' (.reg w)) = bit b' := by
    intro x b' hb s' h
    show bit (decide ((0 : Wd 4).toNat < (s'.get w).toNat)) = _
    rw [get_pos hw, h, hb]; exact congrArg bit (sltu_zero x)
  unfold cmpCode
  by_cases hz : n = 0
  · subst hz
    simp only [if_true]
    cases c <;> cmp_code
    · exact one_alu G s _ _ _ rfl
    · exact one_alu G s _ _ _ rfl
    · exact one_alu G s _ _ _ rfl
    · exact one_alu G s _ _ _ rfl
    · exact one_alu G s _ _ _ (by simp only [alu, rel, opd, i0, i1]; exact congrArg bit (decide_eq_decide.mpr (by omega)))
    · exact one_alu G s _ _ _ (by simp only [alu, rel, opd, n0, n1]; exact congrArg bit (decide_eq_decide.mpr (by omega)))
    · exact two_alu G s _ _ _ _ _ _ rfl (x1 (by exact not_dec (by simp only [opd, get_zero, i0, z0]; omega)))
    · exact two_alu G s _ _ _ _ _ _ rfl (x1 (by show decide ((s.get w).toNat ≥ (wd 4 0).toNat) = !decide ((s.get w).toNat < (s.get 0).toNat); exact not_dec (by rw [n0, get_zero, zn0]; omega)))
    · exact one_alu G s _ _ _ (q1 (x := s.get w) (by simp only [rel, n0]; exact decide_eq_decide.mpr (toNat_zero _)) s (get_pos hw).symm)
    · exact one_alu G s _ _ _ (p1 (x := s.get w) (by simp only [rel, n0]; rw [← decide_not]; exact decide_eq_decide.mpr (not_congr (toNat_zero _))) s (get_pos hw).symm)
  · simp only [if_neg hz]
    cases c <;> cmp_code
    · exact one_alu G s _ _ _ rfl
    · exact one_alu G s _ _ _ rfl
    · exact two_alu G s _ _ _ _ _ _ rfl (x1 (by exact not_dec (by simp only [opd, succ_toInt hf]; omega)))
    · exact two_alu G s _ _ _ _ _ _ rfl (x1 (by exact not_dec (by simp only [opd, succ_toNat hf]; omega)))
    · exact one_alu G s _ _ _ (by simp only [alu, rel, opd, succ_toInt hf]; exact congrArg bit (decide_eq_decide.mpr (by omega)))
    · exact one_alu G s _ _ _ (by simp only [alu, rel, opd, succ_toNat hf]; exact congrArg bit (decide_eq_decide.mpr (by omega)))
    · exact two_alu G s _ _ _ _ _ _ rfl (x1 (not_dec (by simp only [opd]; omega)))
    · exact two_alu G s _ _ _ _ _ _ rfl (x1 (not_dec (by simp only [opd]; omega)))
    · exact two_alu G s _ _ _ _ _ _ rfl (q1 (by simp only [rel]; exact decide_eq_decide.mpr (xor_zero _ _).symm))
    · exact two_alu G s _ _ _ _ _ _ rfl (p1 (by simp only [rel]; rw [← decide_not]; exact decide_eq_decide.mpr (not_congr (xor_zero _ _).symm)))

/-! ### comparisons that jump -/

/-- code that ends with a jump that is taken if `b` is `tr` -/
def JumpIf (G : Int → Wd 4) (s : St) (w : Nat) (lab : Int) (tr : Bool) (code : List Ins) (b : Bool) : Prop :=
  ∃ c' i s', code = c' ++ [i] ∧ execs G c' s = some s' ∧ jump s' i = some (lab, decide (b = tr)) ∧ s'.mem = s.mem ∧ Only [w] s s'

theorem jumpIf_now (G : Int → Wd 4) (s : St) (w : Nat) {lab : Int} {tr b : Bool} {i j : Ins} (h : jump s i = some (lab, b)) (h' : jump s j = some (lab, !b)) :
    JumpIf G s w lab tr (if tr then [i] else [j]) b := by
  cases tr
  · exact ⟨[], j, s, rfl, rfl, by rw [h']; cases b <;> rfl, rfl, .refl _ _⟩
  · exact ⟨[], i, s, rfl, rfl, by rw [h]; cases b <;> rfl, rfl, .refl _ _⟩

theorem jumpIf_after (G : Int → Wd 4) (s : St) {w : Nat} (hw : w ≠ 0) {lab : Int} {tr b : Bool} {c : List Ins} {x : Wd 4}
    (h : ∃ s', execs G c s = some s' ∧ s'.r w = x ∧ s'.mem = s.mem ∧ Only [w] s s') :
    (b = !decide (x = 0) → JumpIf G s w lab tr (c ++ if tr then [.bne w 0 lab] else [.beq w 0 lab]) b) ∧
    (b = decide (x = 0) → JumpIf G s w lab tr (c ++ if tr then [.beq w 0 lab] else [.bne w 0 lab]) b) := by
  obtain ⟨s', h1, h2, h3, h4⟩ := h
  have g : s'.get w = x := by rw [get_pos hw, h2]
  have e1 : jump s' (.beq w 0 lab) = some (lab, decide (x = 0)) := by simp only [jump, g, get_zero]
  have e2 : jump s' (.bne w 0 lab) = some (lab, !decide (x = 0)) := by simp only [jump, g, get_zero, ne_eq, decide_not]
  constructor
  · rintro rfl
    cases tr
    · exact ⟨c, _, s', rfl, h1, by rw [e1]; cases decide (x = 0) <;> rfl, h3, h4⟩
    · exact ⟨c, _, s', rfl, h1, by rw [e2]; cases decide (x = 0) <;> rfl, h3, h4⟩
  · rintro rfl
    cases tr
    · exact ⟨c, _, s', rfl, h1, by rw [e2]; cases decide (x = 0) <;> rfl, h3, h4⟩
    · exact ⟨c, _, s', rfl, h1, by rw [e1]; cases decide (x = 0) <;> rfl, h3, h4⟩

theorem not_bit {b b' : Bool} (h : b = b') : b = !decide (bit b' = 0) := by subst h; cases b <;> decide
theorem yes_bit {b b' : Bool} (h : b = !b') : b = decide (bit b' = 0) := by subst h; cases b' <;> decide

theorem cmp_reg_br (G : Int → Wd 4) (s : St) (c : Cc) {w : Nat} (hw : w ≠ 0) (L R : Nat) (tr : Bool) (lab : Int) :
    JumpIf G s w lab tr (cmpCode c w L R none (some (tr, lab))) (rel c (s.get L) (s.get R)) := by
  have one : ∀ (i : Alu) (a : Nat) (o : Opd), ∃ s', execs G [.alu i w a o] s = some s' ∧ s'.r w = alu i (s.get a) (opd s o) ∧ s'.mem = s.mem ∧ Only [w] s s' :=
    fun i a o => one_alu G s i a o rfl
  unfold cmpCode
  cases c <;> cmp_code
  · exact (jumpIf_after G s hw (one .slt L (.reg R))).1 (not_bit rfl)
  · exact (jumpIf_after G s hw (one .sltu L (.reg R))).1 (not_bit rfl)
  · exact (jumpIf_after G s hw (one .slt R (.reg L))).1 (not_bit rfl)
  · exact (jumpIf_after G s hw (one .sltu R (.reg L))).1 (not_bit rfl)
  · exact (jumpIf_after G s hw (one .slt R (.reg L))).2 (yes_bit (not_dec (by simp only [opd]; omega)))
  · exact (jumpIf_after G s hw (one .sltu R (.reg L))).2 (yes_bit (not_dec (by simp only [opd]; omega)))
  · exact (jumpIf_after G s hw (one .slt L (.reg R))).2 (yes_bit (not_dec (by simp only [opd]; omega)))
  · exact (jumpIf_after G s hw (one .sltu L (.reg R))).2 (yes_bit (not_dec (by simp only [opd]; omega)))
  · have : rel .eq (s.get L) (s.get R) = decide (s.get L = s.get R) := by
      simp only [rel]; exact decide_eq_decide.mpr ⟨fun h => BitVec.eq_of_toNat_eq h, fun h => by rw [h]⟩
    rw [this]
    exact jumpIf_now G s w rfl (by simp only [jump, ne_eq, decide_not])
  · have : rel .ne (s.get L) (s.get R) = decide (s.get L ≠ s.get R) := by
      simp only [rel]; exact decide_eq_decide.mpr (not_congr ⟨fun h => BitVec.eq_of_toNat_eq h, fun h => by rw [h]⟩)
    rw [this]
    exact jumpIf_now G s w rfl (by simp only [jump, ne_eq, decide_not, Bool.not_not])

theorem cmp_imm_br (G : Int → Wd 4) (s : St) (c : Cc) {w : Nat} (hw : w ≠ 0) (L R : Nat) (n : Int) (hf : fits c n) (tr : Bool) (lab : Int) :
    JumpIf G s w lab tr (cmpCode c w L R (some n) (some (tr, lab))) (rel c (s.get w) (wd 4 n)) := by
  have one : ∀ (i : Alu) (a : Nat) (o : Opd), ∃ s', execs G [.alu i w a o] s = some s' ∧ s'.r w = alu i (s.get a) (opd s o) ∧ s'.mem = s.mem ∧ Only [w] s s' :=
    fun i a o => one_alu G s i a o rfl
  have now : ∃ s', execs G [] s = some s' ∧ s'.r w = s.get w ∧ s'.mem = s.mem ∧ Only [w] s s' := ⟨s, rfl, (get_pos hw).symm, rfl, .refl _ _⟩
  have nz : ∀ x : Wd 4, decide (x.toNat > (wd 4 0).toNat) = !decide (x = 0) := fun x => sltu_zero x
  unfold cmpCode
  by_cases hz : n = 0
  · subst hz
    simp only [if_true]
    cases c <;> cmp_code
    · exact jumpIf_now G s w (by simp only [jump, Bz.holds, rel, i0]) (by simp only [jump, Bz.holds, rel, i0]; exact congrArg (fun z => some (lab, z)) (not_dec (by omega)))
    · exact (jumpIf_after G s hw (one .sltu w (.imm 0))).1 (not_bit rfl)
    · exact jumpIf_now G s w (by simp only [jump, Bz.holds, rel, i0]) (by simp only [jump, Bz.holds, rel, i0]; exact congrArg (fun z => some (lab, z)) (not_dec (by omega)))
    · exact (jumpIf_after G s hw now).1 (nz _)
    · exact jumpIf_now G s w (by simp only [jump, Bz.holds, rel, i0]) (by simp only [jump, Bz.holds, rel, i0]; exact congrArg (fun z => some (lab, z)) (not_dec (by omega)))
    · exact (jumpIf_after G s hw (one .sltu w (.imm (0 + 1)))).1 (not_bit (by
        show decide ((s.get w).toNat ≤ (wd 4 0).toNat) = decide ((s.get w).toNat < (wd 4 1).toNat)
        rw [n0, n1]
        exact decide_eq_decide.mpr (by omega)))
    · exact jumpIf_now G s w (by simp only [jump, Bz.holds, rel, i0]) (by simp only [jump, Bz.holds, rel, i0]; exact congrArg (fun z => some (lab, z)) (not_dec (by omega)))
    · exact (jumpIf_after G s hw (one .sltu w (.imm 0))).2 (yes_bit (by
        show decide ((s.get w).toNat ≥ (wd 4 0).toNat) = !decide ((s.get w).toNat < (wd 4 0).toNat)
        exact not_dec (by omega)))
    · exact (jumpIf_after G s hw now).2 (by
        show decide ((s.get w).toNat = (wd 4 0).toNat) = _
        rw [n0]
        exact decide_eq_decide.mpr (toNat_zero _))
    · exact (jumpIf_after G s hw now).1 (by
        show decide ((s.get w).toNat ≠ (wd 4 0).toNat) = _
        rw [n0]
        exact not_dec (not_congr (toNat_zero _)))
  · simp only [if_neg hz]
    cases c <;> cmp_code
    · exact (jumpIf_after G s hw (one .slt w (.imm n))).1 (not_bit rfl)
    · exact (jumpIf_after G s hw (one .sltu w (.imm n))).1 (not_bit rfl)
    · exact (jumpIf_after G s hw (one .slt w (.imm (n + 1)))).2 (yes_bit (not_dec (by simp only [opd, succ_toInt hf]; omega)))
    · exact (jumpIf_after G s hw (one .sltu w (.imm (n + 1)))).2 (yes_bit (not_dec (by simp only [opd, succ_toNat hf]; omega)))
    · exact (jumpIf_after G s hw (one .slt w (.imm (n + 1)))).1 (not_bit (by simp only [rel, opd, succ_toInt hf]; exact decide_eq_decide.mpr (by omega)))
    · exact (jumpIf_after G s hw (one .sltu w (.imm (n + 1)))).1 (not_bit (by simp only [rel, opd, succ_toNat hf]; exact decide_eq_decide.mpr (by omega)))
    · exact (jumpIf_after G s hw (one .slt w (.imm n))).2 (yes_bit (not_dec (by simp only [opd]; omega)))
    · exact (jumpIf_after G s hw (one .sltu w (.imm n))).2 (yes_bit (not_dec (by simp only [opd]; omega)))
    · exact (jumpIf_after G s hw (one .xor w (.imm n))).2 (by simp only [rel]; exact decide_eq_decide.mpr (xor_zero _ _).symm)
    · exact (jumpIf_after G s hw (one .xor w (.imm n))).1 (by simp only [rel]; exact not_dec (not_congr (xor_zero _ _).symm))

end Smlr.Mips
