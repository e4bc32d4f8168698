import Verif.Mips.Base
set_option autoImplicit false
/-! What the pieces of code that are printed for operators do. -/
namespace Smlr.Mips
open Smlr.Cg (Wd Mem ld st sext wd Env Ar Cc conv val upd arith rel unary okSz b2i)

theorem hi_lo (a : Wd 4) : hiOf a + loOf a = a := by
  have h : loOf a = wd 4 (Int.bmod a.toInt 65536) := by
    unfold loOf
    rw [Cg.sext_eq]
    refine congrArg _ ?_
    show Int.bmod (a.toNat : Int) 65536 = _
    exact Cg.bmod_congr (Cg.toInt_mod (n := 65536) (by decide) a).symm
  rw [h, hiOf, ← BitVec.ofInt_add]
  have : (a.toInt + 32768) / 65536 * 65536 + Int.bmod a.toInt 65536 = a.toInt := by
    rw [Int.bmod_def]
    split <;> omega
  rw [this]
  exact Cg.wd_toInt a

theorem add0 (x : Wd 4) : x + wd 4 0 = x := by simp [wd]

theorem sub0 (x : Wd 4) : x - wd 4 0 = x := by simp [wd]

/-- the address of an object -/
def oaddr (G : Int → Wd 4) (s : St) : Obj → Wd 4
  | .ident x => G x
  | .locl o => s.r 30 + wd 4 o
  | .reg r => s.get r

theorem load_ok {sz : Int} (hz : okSz 4 sz) (m : Mem 4) (a : Wd 4) : load m a (ldI sz) = wd 4 (val m a sz) := by
  have h1 := Cg.ld_lt m a 1
  have h2 := Cg.ld_lt m a 2
  have h4 := Cg.ld_lt m a 4
  have e : ∀ n : Nat, (256:Int) ^ n = ((256 ^ n : Nat) : Int) := by intro n; simp
  rcases hz with rfl | rfl | rfl | ⟨-, rfl | rfl⟩
  · show BitVec.ofNat _ (ld m a 4) = wd 4 (conv 4 (ld m a 4))
    rw [conv, if_pos (by decide), e, ← Int.natCast_emod, Nat.mod_eq_of_lt (by simpa using h4), Cg.wd_nat]
  · show BitVec.ofNat _ (ld m a 1) = wd 4 (conv 1 (ld m a 1))
    rw [conv, if_pos (by decide), e, ← Int.natCast_emod, Nat.mod_eq_of_lt (by simpa using h1), Cg.wd_nat]
  · show sext 1 (BitVec.ofNat _ (ld m a 1)) = wd 4 (conv (-1) (ld m a 1))
    rw [conv, if_neg (by decide), Cg.sext_eq]
    refine congrArg _ (Cg.bmod_congr ?_)
    simp
  · show BitVec.ofNat _ (ld m a 2) = wd 4 (conv 2 (ld m a 2))
    rw [conv, if_pos (by decide), e, ← Int.natCast_emod, Nat.mod_eq_of_lt (by simpa using h2), Cg.wd_nat]
  · show sext 2 (BitVec.ofNat _ (ld m a 2)) = wd 4 (conv (-2) (ld m a 2))
    rw [conv, if_neg (by decide), Cg.sext_eq]
    refine congrArg _ (Cg.bmod_congr ?_)
    simp

theorem stI_size {sz : Int} (hz : okSz 4 sz) : (stI sz).size = sz.natAbs := by
  rcases hz with rfl | rfl | rfl | ⟨-, rfl | rfl⟩ <;> rfl

theorem rd_ok (G : Int → Wd 4) (s : St) {sz : Int} (hz : okSz 4 sz) {d : Nat} (hd : d ≠ 1) (o : Obj) :
    ∃ s', execs G (rd d sz o) s = some s' ∧ s'.r d = wd 4 (val s.mem (oaddr G s o) sz) ∧ s'.mem = s.mem ∧ Only [d, 1] s s' := by
  cases o with
  | ident x =>
    refine ⟨_, rfl, ?_, rfl, ?_⟩
    · show ((s.set 1 (hiOf (G x))).set d _).r d = _
      rw [set_r_same]
      show load s.mem (((s.set 1 (hiOf (G x))).get 1) + loOf (G x)) _ = _
      rw [load_ok hz, get_pos (by decide), set_r_same, hi_lo]
      rfl
    · exact ((only_set s 1 _).mono (by simp)).trans ((only_set _ d _).mono (by simp))
  | locl x =>
    refine ⟨_, rfl, ?_, rfl, (only_set _ d _).mono (by simp)⟩
    show (s.set d _).r d = _
    rw [set_r_same, load_ok hz]
    rfl
  | reg x =>
    refine ⟨_, rfl, ?_, rfl, (only_set _ d _).mono (by simp)⟩
    show (s.set d _).r d = _
    rw [set_r_same, load_ok hz]
    show wd 4 (val s.mem (s.get x + wd 4 0) sz) = _
    rw [add0]
    rfl

theorem wr_ok (G : Int → Wd 4) (s : St) {sz : Int} (hz : okSz 4 sz) {t : Nat} (ht : t ≠ 1) (o : Obj) :
    ∃ s', execs G (wr t sz o) s = some s' ∧ s'.mem = upd s.mem (oaddr G s o) sz (s.get t) ∧ Only [1] s s' := by
  have hs := stI_size hz
  cases o with
  | ident x =>
    refine ⟨_, rfl, ?_, only_set s 1 _⟩
    show st s.mem ((s.set 1 (hiOf (G x))).get 1 + loOf (G x)) (stI sz).size ((s.set 1 (hiOf (G x))).get t).toNat = _
    rw [hs, get_pos (by decide), set_r_same, hi_lo]
    have : (s.set 1 (hiOf (G x))).get t = s.get t := by
      simp only [St.get]; rw [set_r_ne s _ ht]
    rw [this]; rfl
  | locl x =>
    refine ⟨_, rfl, ?_, fun _ _ => rfl⟩
    show st s.mem _ (stI sz).size (s.get t).toNat = _
    rw [hs]; rfl
  | reg x =>
    refine ⟨_, rfl, ?_, fun _ _ => rfl⟩
    show st s.mem (s.get x + wd 4 0) (stI sz).size (s.get t).toNat = _
    rw [hs, add0]; rfl

theorem p3_reg (i : Alu) (d a b : Nat) : p3 i d a (.reg b) = [.alu i d a (.reg b)] := by
  unfold p3; rw [if_neg]; rintro ⟨h, -⟩; cases h

theorem p3_ok (G : Int → Wd 4) (s : St) (i : Alu) {d a : Nat} (ha : a = d → d ≠ 0) (o : Opd) :
    ∃ s', execs G (p3 i d a o) s = some s' ∧ s'.r d = alu i (s.get a) (opd s o) ∧ s'.mem = s.mem ∧ Only [d] s s' := by
  unfold p3
  split
  · next h =>
    obtain ⟨rfl, h1, rfl⟩ := h
    refine ⟨s, rfl, ?_, rfl, .refl _ _⟩
    rw [get_pos (ha rfl)]
    rcases h1 with rfl | rfl
    · show s.r d = s.r d + wd 4 0
      rw [add0]
    · show s.r d = s.r d - wd 4 0
      rw [sub0]
  · exact ⟨_, rfl, set_r_same _ _ _, rfl, only_set _ _ _⟩

theorem extend_ok (G : Int → Wd 4) (s : St) {sz : Int} (hz : okSz 4 sz) {d : Nat} (hd : d ≠ 0) :
    ∃ s', execs G (extend d sz) s = some s' ∧ s'.r d = wd 4 (conv sz (s.r d).toNat) ∧ s'.mem = s.mem ∧ Only [d] s s' := by
  have hand : ∀ (k : Nat) (n : Nat) (c : Int), n = 2 ^ k - 1 → k ≤ 32 → c = 2 ^ k → s.r d &&& wd 4 (n : Int) = wd 4 (((s.r d).toNat : Int) % c) := by
    intro k n c hn hk hc
    subst hc
    apply BitVec.eq_of_toNat_eq
    have h1 : (wd 4 (n : Int)).toNat = n := by
      rw [Cg.wd_nat, BitVec.toNat_ofNat]
      apply Nat.mod_eq_of_lt
      have : 2 ^ k ≤ 2 ^ 32 := Nat.pow_le_pow_right (by decide) hk
      have : 0 < 2 ^ k := Nat.pow_pos (by decide)
      omega
    rw [BitVec.toNat_and, h1, hn, Nat.and_two_pow_sub_one_eq_mod]
    have : ((s.r d).toNat : Int) % 2 ^ k = (((s.r d).toNat % 2 ^ k : Nat) : Int) := by simp
    rw [this, Cg.wd_nat, BitVec.toNat_ofNat]
    symm
    apply Nat.mod_eq_of_lt
    exact Nat.lt_of_le_of_lt (Nat.mod_le _ _) (s.r d).isLt
  rcases hz with rfl | rfl | rfl | ⟨-, rfl | rfl⟩
  · refine ⟨s, rfl, ?_, rfl, .refl _ _⟩
    have : conv 4 ((s.r d).toNat) = (s.r d).toNat := by
      show ((s.r d).toNat : Int) % 256 ^ 4 = _
      have := (s.r d).isLt
      omega
    show s.r d = wd 4 (conv 4 ((s.r d).toNat))
    rw [this, Cg.wd_toNat]
  · obtain ⟨s', h1, h2, h3, h4⟩ := p3_ok G s .and (d := d) (a := d) (fun _ => hd) (.imm 255)
    refine ⟨s', h1, ?_, h3, h4⟩
    rw [h2, get_pos hd, conv, if_pos (by decide)]
    have h5 : opd s (.imm 255) = wd 4 ((255 : Nat) : Int) := rfl
    rw [h5]
    show s.r d &&& _ = _
    rw [hand 8 255 (256 ^ (Int.natAbs 1)) (by decide) (by decide) (by decide)]
  · refine ⟨_, rfl, ?_, rfl, only_set _ _ _⟩
    show (s.set d _).r d = _
    rw [set_r_same, get_pos hd, Cg.sext_eq, conv, if_neg (by decide)]
    refine congrArg _ (congrArg _ ?_)
    decide
  · obtain ⟨s', h1, h2, h3, h4⟩ := p3_ok G s .and (d := d) (a := d) (fun _ => hd) (.imm 65535)
    refine ⟨s', h1, ?_, h3, h4⟩
    rw [h2, get_pos hd, conv, if_pos (by decide)]
    have h5 : opd s (.imm 65535) = wd 4 ((65535 : Nat) : Int) := rfl
    rw [h5]
    show s.r d &&& _ = _
    rw [hand 16 65535 (256 ^ (Int.natAbs 2)) (by decide) (by decide) (by decide)]
  · refine ⟨_, rfl, ?_, rfl, only_set _ _ _⟩
    show (s.set d _).r d = _
    rw [set_r_same, get_pos hd, Cg.sext_eq, conv, if_neg (by decide)]
    refine congrArg _ (congrArg _ ?_)
    decide

theorem alu_ok {o : Ar} {i : Alu} (hi : aluOf o = some i) {x y : Wd 4} {z : Int} (h : arith o x y = some z) : alu i x y = wd 4 z := by
  have sh : ∀ {a b : Int}, (if y.toNat < 8 * 4 then some a else none) = some b → y.toNat % 32 = y.toNat ∧ a = b := by
    intro a b h
    split at h
    · next hy => exact ⟨Nat.mod_eq_of_lt hy, Option.some.inj h⟩
    · cases h
  cases o <;> simp only [aluOf, Option.some.injEq] at hi <;> try (cases hi; done)
  · subst hi
    cases h
    show x + y = _
    rw [wd, BitVec.ofInt_add, BitVec.ofInt_toInt, BitVec.ofInt_toInt]
  · subst hi
    cases h
    show x - y = _
    rw [wd, Int.sub_eq_add_neg, BitVec.ofInt_add, BitVec.ofInt_neg, BitVec.ofInt_toInt, BitVec.ofInt_toInt, BitVec.sub_eq_add_neg]
  · subst hi
    cases h
    exact Cg.mul_wd x y
  · subst hi
    obtain ⟨h1, rfl⟩ := sh h
    show x <<< (y.toNat % 32) = _
    rw [h1, Cg.shl_wd]
  · subst hi
    obtain ⟨h1, rfl⟩ := sh h
    show x.sshiftRight (y.toNat % 32) = _
    rw [h1, Cg.sar_wd]
  · subst hi
    obtain ⟨h1, rfl⟩ := sh h
    show x >>> (y.toNat % 32) = _
    rw [h1, Cg.shr_wd]
  · subst hi
    cases h
    exact (Cg.wd_toNat _).symm
  · subst hi
    cases h
    exact (Cg.wd_toNat _).symm
  · subst hi
    cases h
    exact (Cg.wd_toNat _).symm

theorem op_ok (G : Int → Wd 4) (s : St) {o : Ar} {d l r : Nat} (hd : d ≠ 0) {z : Int} (h : arith o (s.get l) (s.get r) = some z) :
    ∃ s', execs G (opOf o d l r) s = some s' ∧ s'.r d = wd 4 z ∧ s'.mem = s.mem ∧ Only [d] s s' := by
  unfold opOf
  cases hi : aluOf o with
  | some i =>
    obtain ⟨s', h1, h2, h3, h4⟩ := p3_ok G s i (d := d) (a := l) (fun _ => hd) (.reg r)
    exact ⟨s', h1, by rw [h2]; exact alu_ok hi h, h3, h4⟩
  | none =>
    have two : ∀ (i j : Ins) (s1 s2 : St), exec G s i = some s1 → exec G s1 j = some s2 → execs G ([i] ++ [j]) s = some s2 := by
      intro i j s1 s2 h1 h2
      simp only [List.cons_append, List.nil_append, execs, h1, h2, Option.bind_some]
    have sg : ∀ {a : Int}, (if (s.get r).toInt = 0 ∨ ((s.get l).toInt = -2 ^ (8 * 4 - 1) ∧ (s.get r).toInt = -1) then none else some a) = some z →
        a = z ∧ exec G s (.div l r) = some { s with lo := wd 4 (Int.tdiv (s.get l).toInt (s.get r).toInt), hi := wd 4 (Int.tmod (s.get l).toInt (s.get r).toInt) } := by
      intro a h
      split at h
      · cases h
      · next hc => exact ⟨Option.some.inj h, if_neg hc⟩
    have us : ∀ {a : Int}, (if (s.get r).toNat = 0 then none else some a) = some z →
        a = z ∧ exec G s (.divu l r) = some { s with lo := BitVec.ofNat _ ((s.get l).toNat / (s.get r).toNat), hi := BitVec.ofNat _ ((s.get l).toNat % (s.get r).toNat) } := by
      intro a h
      split at h
      · cases h
      · next hc => exact ⟨Option.some.inj h, if_neg hc⟩
    cases o <;> simp only [aluOf] at hi <;> try (cases hi; done)
    · obtain ⟨rfl, h1⟩ := sg h
      exact ⟨_, two _ (.mflo d) _ _ h1 rfl, set_r_same _ _ _, rfl, only_set _ d _⟩
    · obtain ⟨rfl, h1⟩ := us h
      exact ⟨_, two _ (.mflo d) _ _ h1 rfl, (set_r_same _ _ _).trans (Cg.wd_nat _).symm, rfl, only_set _ d _⟩
    · obtain ⟨rfl, h1⟩ := sg h
      exact ⟨_, two _ (.mfhi d) _ _ h1 rfl, set_r_same _ _ _, rfl, only_set _ d _⟩
    · obtain ⟨rfl, h1⟩ := us h
      exact ⟨_, two _ (.mfhi d) _ _ h1 rfl, (set_r_same _ _ _).trans (Cg.wd_nat _).symm, rfl, only_set _ d _⟩

theorem imm_ok (G : Int → Wd 4) (s : St) {o : Ar} {i : Alu} (hi : aluOf o = some i) {d : Nat} (hd : d ≠ 0) {n z : Int} (h : arith o (s.get d) (wd 4 n) = some z) :
    ∃ s', execs G (p3 i d d (.imm n)) s = some s' ∧ s'.r d = wd 4 z ∧ s'.mem = s.mem ∧ Only [d] s s' := by
  obtain ⟨s', h1, h2, h3, h4⟩ := p3_ok G s i (d := d) (a := d) (fun _ => hd) (.imm n)
  exact ⟨s', h1, by rw [h2]; exact alu_ok hi h, h3, h4⟩

end Smlr.Mips
