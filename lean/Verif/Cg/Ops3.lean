import Verif.Cg.Ops2
set_option autoImplicit false
/-! Shifts; loading the operands. -/
namespace Smlr.Cg
variable {W : Nat}

def shiftV (i : I2) (x y : Wd W) : Option Int :=
  if y.toNat < 8 * W then
    match i with
    | .shl => some (x.toInt * 2 ^ y.toNat)
    | .sar => some (x.toInt / 2 ^ y.toNat)
    | .shr => some (x.toNat / 2 ^ y.toNat : Nat)
    | _ => none
  else none

theorem shl_wd (x : Wd W) (n : Nat) : x <<< n = wd W (x.toInt * 2 ^ n) := by
  rw [wd, BitVec.ofInt_mul, BitVec.ofInt_toInt]
  have : BitVec.ofInt (8 * W) (2 ^ n) = BitVec.ofNat (8 * W) (2 ^ n) := by
    rw [← wd_nat]; simp
  rw [this]
  apply BitVec.eq_of_toNat_eq
  rw [BitVec.toNat_shiftLeft, BitVec.toNat_mul, BitVec.toNat_ofNat, Nat.shiftLeft_eq, Nat.mul_mod_mod]

theorem sar_wd (x : Wd W) (n : Nat) : x.sshiftRight n = wd W (x.toInt / 2 ^ n) := by
  rw [BitVec.sshiftRight, Int.shiftRight_eq_div_pow]
  simp

theorem shr_wd (x : Wd W) (n : Nat) : x >>> n = wd W ((x.toNat / 2 ^ n : Nat) : Int) := by
  rw [wd_nat]
  apply BitVec.eq_of_toNat_eq
  rw [BitVec.toNat_ushiftRight, BitVec.toNat_ofNat, Nat.shiftRight_eq_div_pow, Nat.mod_eq_of_lt]
  exact Nat.lt_of_le_of_lt (Nat.div_le_self _ _) x.isLt

theorem count_eq (hW : W = 2 ∨ W = 4) {x y : Wd W} (h : x.toNat % 256 = y.toNat % 256) (hy : y.toNat < 8 * W) :
    count x = y.toNat := by
  rw [count, h]
  rcases hW with rfl | rfl <;> omega

theorem shift1 (hW : W = 2 ∨ W = 4) {i : I2} {G : Int → Wd W} {s : St W} {o : Opd} {y : Wd W} {z : Int}
    (hr : (read G s 1 o).toNat % 256 = y.toNat % 256) (hz : shiftV i s.ax y = some z) :
    exec G s (.i2 i .ax o) = some { s with ax := wd W z, flags := none } := by
  simp only [shiftV] at hz
  by_cases hy : y.toNat < 8 * W
  · rw [if_pos hy] at hz
    have hc := count_eq hW hr hy
    have hx : read G s W .ax = s.ax := rfl
    cases i <;> simp only [Option.some.injEq, reduceCtorEq] at hz <;> subst hz <;>
      simp only [exec, exec2, Opd.size, if_true, write, hc, hx]
    · rw [shl_wd]
    · rw [sar_wd]
    · rw [shr_wd]
  · rw [if_neg hy] at hz; cases hz

theorem conv_low {sz : Int} (hW : W = 2 ∨ W = 4) (hz : okSz W sz) (m : Mem W) (a : Wd W) :
    (wd W (val m a sz)).toNat % 256 = ld m a 1 % 256 := by
  have h1 := natAbs_le hW hz
  have h2 := wd_mod (val m a sz) h1
  rw [val, conv_mod, ← Int.natCast_emod] at h2
  have h3 : (wd W (conv sz (ld m a sz.natAbs : Nat))).toNat % 256 ^ sz.natAbs = ld m a sz.natAbs % 256 ^ sz.natAbs := by
    exact_mod_cast h2
  have hn : ∃ n, sz.natAbs = n + 1 := by
    have := okSz_ne hW hz
    exact ⟨sz.natAbs - 1, by omega⟩
  obtain ⟨n, hn⟩ := hn
  have h4 := congrArg (· % 256) h3
  simp only [hn, Nat.pow_succ, Nat.mod_mul_left_mod] at h4
  rw [val, hn, h4]
  simp only [ld]
  omega

theorem p2_shift {i : I2} (h : i = .shl ∨ i = .sar ∨ i = .shr) (d t : Opd) : p2 W i d t = [.i2 i d t] := by
  rcases h with rfl | rfl | rfl <;> cases t <;> simp [p2]

theorem shift_ok (hW : W = 2 ∨ W = 4) {i : I2} (hi : i = .shl ∨ i = .sar ∨ i = .shr) {G : Int → Wd W} {s : St W} {c : Cls}
    {a y : Wd W} {z : Int} (hc : c.ok W)
    (hy : y = opv G s.bp s.mem c a) (hcx : c.isAcc = true → s.cx = y) (hz : shiftV i s.ax y = some z) :
    ∃ s', execs G (shiftA W i (rT W c)) s = some s' ∧ s'.ax = wd W z ∧ Same s s' := by
  have h1W : 1 ≤ W := by omega
  have cxStep : ∀ (v : List Ins) (t : St W), execs G v s = some t → t.ax = s.ax → t.cx.toNat % 256 = y.toNat % 256 → Same s t →
      ∃ s', execs G (v ++ p2 W i .ax .cl) s = some s' ∧ s'.ax = wd W z ∧ Same s s' := by
    intro v t hv h1 h2 h3
    rw [p2_shift hi]
    refine ⟨_, execs_app hv ((execs_one _ _ _).trans (shift1 hW (s := t) (y := y) ?_ (h1 ▸ hz))), rfl,
      h3.trans ⟨rfl, rfl, rfl, rfl⟩⟩
    rw [← h2]
    simp only [read, BitVec.toNat_ofNat]
    rw [Nat.mod_mod_of_dvd _ (by simpa using pow_dvd h1W), Nat.mod_mod]
  have memCase : ∀ (sz : Int) (b : Adr), okSz W sz → y = wd W (val s.mem (ea G s b) sz) →
      ∃ s', execs G (p2 W .mov .cl (.mem b none) ++ p2 W i .ax .cl) s = some s' ∧ s'.ax = wd W z ∧ Same s s' := by
    intro sz b hz hy
    refine cxStep _ { s with cx := BitVec.ofNat _ (s.cx.toNat / 256 * 256 + ld s.mem (ea G s b) 1 % 256) } ?_ rfl ?_
      ⟨rfl, rfl, rfl, rfl⟩
    · rw [p2_not_imm (by simp), execs_one]
      simp only [exec, exec2, size2, Opd.size, Option.bind_some, read, write, BitVec.toNat_ofNat]
      rw [Nat.mod_mod_of_dvd _ (by simpa using pow_dvd h1W)]
    · rw [hy, conv_low hW hz, BitVec.toNat_ofNat, Nat.mod_mod_of_dvd _ (by simpa using pow_dvd h1W)]
      omega
  cases c with
  | num v =>
    simp only [rT, rInfo, shiftA, p2_shift hi]
    refine ⟨_, (execs_one _ _ _).trans (shift1 hW (y := y) ?_ hz), rfl, ⟨rfl, rfl, rfl, rfl⟩⟩
    have := read_small h1W G s v
    rw [hy]
    rw [Nat.pow_one] at this
    exact this
  | id x =>
    simp only [rT, rInfo, shiftA, p2_shift hi]
    refine ⟨_, (execs_one _ _ _).trans (shift1 hW (y := y) ?_ hz), rfl, ⟨rfl, rfl, rfl, rfl⟩⟩
    rw [hy]
    simp only [read, BitVec.toNat_ofNat]
    rw [Nat.mod_mod_of_dvd _ (by simpa using pow_dvd h1W)]
    simp [opv]
  | loc o =>
    exact cxStep _ _ (lea_cx G s o) rfl (by rw [hy]; rfl) ⟨rfl, rfl, rfl, rfl⟩
  | dId sz x => exact memCase sz (.lab x) hc hy
  | dLoc sz o => exact memCase sz (.loc o) hc hy
  | dAcc sz => exact cxStep [] s rfl rfl (by rw [hcx rfl]) (Same.refl s)
  | acc => exact cxStep [] s rfl rfl (by rw [hcx rfl]) (Same.refl s)

theorem oper_ok (hW : W = 2 ∨ W = 4) {o : Ar} {G : Int → Wd W} {s : St W} {c : Cls} {a y : Wd W} {z : Int} (hc : c.ok W)
    (hy : y = opv G s.bp s.mem c a) (hcx : c.isAcc = true → s.cx = y) (hz : arith o s.ax y = some z) :
    ∃ s', execs G (operA W o (rInfo W c).size (rT W c)) s = some s' ∧ s'.ax = wd W z ∧ Same s s' := by
  cases o with
  | add =>
    simp only [arith, Option.some.injEq] at hz
    refine alu_ok hW hc hy hcx (i := .add) ?_
    rw [← hz, wd, BitVec.ofInt_add, BitVec.ofInt_toInt, BitVec.ofInt_toInt]; rfl
  | sub =>
    simp only [arith, Option.some.injEq] at hz
    refine alu_ok hW hc hy hcx (i := .sub) ?_
    rw [← hz, Int.sub_eq_add_neg, wd, BitVec.ofInt_add, BitVec.ofInt_neg, BitVec.ofInt_toInt, BitVec.ofInt_toInt,
      ← BitVec.sub_eq_add_neg]; rfl
  | mul =>
    simp only [arith, Option.some.injEq] at hz
    rw [← hz]
    exact mul_ok hW hc hy hcx
  | div => exact div_ok hW hc hy hcx (sgn := true) (md := false) (by simpa [divV, arith] using hz)
  | udiv => exact div_ok hW hc hy hcx (sgn := false) (md := false) (by simpa [divV, arith] using hz)
  | mod => exact div_ok hW hc hy hcx (sgn := true) (md := true) (by simpa [divV, arith] using hz)
  | umod => exact div_ok hW hc hy hcx (sgn := false) (md := true) (by simpa [divV, arith] using hz)
  | shl => exact shift_ok hW (Or.inl rfl) hc hy hcx hz
  | sar => exact shift_ok hW (Or.inr (Or.inl rfl)) hc hy hcx hz
  | shr => exact shift_ok hW (Or.inr (Or.inr rfl)) hc hy hcx hz
  | band =>
    simp only [arith, Option.some.injEq] at hz
    refine alu_ok hW hc hy hcx (i := .band) ?_
    rw [← hz, wd_toNat]; rfl
  | xor =>
    simp only [arith, Option.some.injEq] at hz
    refine alu_ok hW hc hy hcx (i := .xor) ?_
    rw [← hz, wd_toNat]; rfl
  | bor =>
    simp only [arith, Option.some.injEq] at hz
    refine alu_ok hW hc hy hcx (i := .bor) ?_
    rw [← hz, wd_toNat]; rfl

/-! ### loading the operands -/

/-- where the computed parts of the operands are: in `ax`, or on the stack -/
def Held (s : St W) (l r : Cls) (la ra : Wd W) : Prop :=
  if l.isAcc then
    if r.isAcc then ra = s.ax ∧ ld s.mem s.sp W = la.toNat else la = s.ax
  else r.isAcc = true → ra = s.ax

theorem mov_bx_ax (G : Int → Wd W) (s : St W) : execs G (p2 W .mov .bx .ax) s = some { s with bx := s.ax } := by
  simp [p2, execs, exec, exec2, size2, Opd.size, write, read]

theorem save_ok (hW : W = 2 ∨ W = 4) (G : Int → Wd W) (s : St W) (r : Cls) (hr : r.ok W) :
    ∃ s', execs G (saveR W (rInfo W r).size (rT W r)) s = some s' ∧ s'.ax = s.ax ∧
      (r.isAcc = true → s'.cx = opv G s.bp s.mem r s.ax) ∧ s'.sp = s.sp ∧ s'.bp = s.bp ∧ s'.mem = s.mem := by
  cases r with
  | dAcc sz =>
    have h := execs_app (mov_bx_ax G s) (readC_ok hW hr G { s with bx := s.ax } .bx)
    exact ⟨_, h, rfl, fun _ => rfl, rfl, rfl, rfl⟩
  | acc =>
    refine ⟨{ s with cx := s.ax }, ?_, rfl, fun _ => rfl, rfl, rfl, rfl⟩
    simp [saveR, rT, rInfo, p2, execs, exec, exec2, size2, Opd.size, write, read]
  | num v => exact ⟨s, rfl, rfl, fun h => (Bool.noConfusion h), rfl, rfl, rfl⟩
  | id v => exact ⟨s, rfl, rfl, fun h => (Bool.noConfusion h), rfl, rfl, rfl⟩
  | loc v => exact ⟨s, rfl, rfl, fun h => (Bool.noConfusion h), rfl, rfl, rfl⟩
  | dId sz v => exact ⟨s, rfl, rfl, fun h => (Bool.noConfusion h), rfl, rfl, rfl⟩
  | dLoc sz v => exact ⟨s, rfl, rfl, fun h => (Bool.noConfusion h), rfl, rfl, rfl⟩

theorem isAcc_typ (W : Nat) (c : Cls) : (rInfo W c).typ.isAcc = c.isAcc := by cases c <;> rfl

theorem mov_ax_imm (G : Int → Wd W) (s : St W) (v : Int) :
    execs G (p2 W .mov .ax (.imm v)) s = some { s with ax := wd W v } := by
  have : p2 W .mov .ax (.imm v) = [.i2 .mov .ax (.imm v)] := by simp [p2]
  rw [this, execs_one]
  simp only [exec, exec2, size2, Opd.size, Option.bind_some, read_imm, write]

theorem mov_ax_lab (G : Int → Wd W) (s : St W) (x : Int) :
    execs G (p2 W .mov .ax (.lab x)) s = some { s with ax := G x } := by
  rw [p2_not_imm (by simp), execs_one]
  simp only [exec, exec2, size2, Opd.size, Option.bind_some, read_lab, write]

theorem pop_ax (G : Int → Wd W) (s : St W) :
    exec G s (.i1 .pop .ax) = some { s with sp := s.sp + BitVec.ofNat _ W, ax := BitVec.ofNat _ (ld s.mem s.sp W) } := by
  simp [exec, exec1, Opd.size, write]

theorem pop_bx (G : Int → Wd W) (s : St W) :
    exec G s (.i1 .pop .bx) = some { s with sp := s.sp + BitVec.ofNat _ W, bx := BitVec.ofNat _ (ld s.mem s.sp W) } := by
  simp [exec, exec1, Opd.size, write]

theorem ltyp_leaf {W : Nat} {l r : Cls} (h : l.isAcc = false) : ltyp (rInfo W l) (rInfo W r) = (rInfo W l).typ := by
  simp [ltyp, isAcc_typ, h]

theorem load_leaf (hW : W = 2 ∨ W = 4) (G : Int → Wd W) (s : St W) (l : Cls) (a : Wd W) (hl : l.ok W) (h : l.isAcc = false) :
    execs G (loadA W (rInfo W l).size (rT W l)) s = some { s with ax := opv G s.bp s.mem l a } := by
  cases l with
  | num v => exact mov_ax_imm G s v
  | id x => exact mov_ax_lab G s x
  | loc o => exact lea_ax G s o
  | dId sz x => exact readA_ok hW hl G s (.lab x)
  | dLoc sz x => exact readA_ok hW hl G s (.loc x)
  | dAcc sz => exact Bool.noConfusion h
  | acc => exact Bool.noConfusion h

theorem load_ok (hW : W = 2 ∨ W = 4) (G : Int → Wd W) (s : St W) (l r : Cls) (la ra : Wd W) (hl : l.ok W) (hr : r.ok W)
    (hh : Held s l r la ra) :
    ∃ s', execs G (saveR W (rInfo W r).size (rT W r) ++
        loadA W (rInfo W l).size (ltyp (rInfo W l) (rInfo W r), (rInfo W l).val)) s = some s' ∧
      s'.ax = opv G s.bp s.mem l la ∧ (r.isAcc = true → s'.cx = opv G s.bp s.mem r ra) ∧
      (∀ sz, l = .dAcc sz → s'.bx = la) ∧
      s'.sp = (if l.isAcc && r.isAcc then s.sp + BitVec.ofNat _ W else s.sp) ∧ s'.bp = s.bp ∧ s'.mem = s.mem := by
  obtain ⟨t, h1, h2, h3, h4, h5, h6⟩ := save_ok hW G s r hr
  cases hla : l.isAcc with
  | false =>
    have h7 := load_leaf hW G t l la hl hla
    rw [ltyp_leaf hla]
    refine ⟨_, execs_app h1 h7, by rw [h5, h6], ?_, ?_, h4, h5, h6⟩
    · intro hra
      simp only [Held, hla, Bool.false_eq_true, if_false] at hh
      rw [hh hra]
      exact h3 hra
    · intro sz hsz
      rw [hsz] at hla
      cases hla
  | true =>
    cases hra : r.isAcc with
    | false =>
      simp only [Held, hla, hra, if_true, Bool.false_eq_true, if_false] at hh
      cases l with
      | num v => cases hla
      | id v => cases hla
      | loc v => cases hla
      | dId s v => cases hla
      | dLoc s v => cases hla
      | acc =>
        have : ltyp (rInfo W .acc) (rInfo W r) = .opAcc := by cases r <;> first | rfl | exact Bool.noConfusion hra
        rw [this]
        refine ⟨t, execs_app h1 rfl, by rw [h2, hh]; rfl, fun h => (Bool.noConfusion h), ?_, h4, h5, h6⟩
        intro sz hsz; cases hsz
      | dAcc sz =>
        have : ltyp (rInfo W (.dAcc sz)) (rInfo W r) = .opIAcc := by cases r <;> first | rfl | exact Bool.noConfusion hra
        rw [this]
        have h7 := execs_app (mov_bx_ax G t) (readA_ok hW hl G { t with bx := t.ax } .bx)
        refine ⟨_, execs_app h1 h7, ?_, fun h => (Bool.noConfusion h), ?_, h4, h5, h6⟩
        · rw [hh, ← h2, ← h6]; rfl
        · intro _ _; rw [hh, ← h2]
    | true =>
      simp only [Held, hla, hra, if_true] at hh
      have hpop : BitVec.ofNat (8 * W) (ld t.mem t.sp W) = la := by
        rw [h4, h6, hh.2]; simp
      cases l with
      | num v => cases hla
      | id v => cases hla
      | loc v => cases hla
      | dId s v => cases hla
      | dLoc s v => cases hla
      | acc =>
        have : ltyp (rInfo W .acc) (rInfo W r) = .opStk := by cases r <;> first | rfl | exact Bool.noConfusion hra
        rw [this]
        refine ⟨_, execs_app h1 ((execs_one _ _ _).trans (pop_ax G t)), hpop, ?_, ?_, ?_, h5, h6⟩
        · intro h; rw [hh.1]; exact h3 hra
        · intro sz hsz; cases hsz
        · show t.sp + _ = _
          rw [h4]; rfl
      | dAcc sz =>
        have : ltyp (rInfo W (.dAcc sz)) (rInfo W r) = .opIStk := by cases r <;> first | rfl | exact Bool.noConfusion hra
        rw [this]
        have h7 := readA_ok hW hl G { t with sp := t.sp + BitVec.ofNat _ W, bx := BitVec.ofNat _ (ld t.mem t.sp W) } .bx
        have h8 := execs_app (G := G) (a := [.i1 .pop .bx]) ((execs_one _ _ _).trans (pop_bx G t)) h7
        refine ⟨_, execs_app h1 h8, ?_, ?_, ?_, ?_, h5, h6⟩
        · show wd W (val t.mem (BitVec.ofNat (8 * W) (ld t.mem t.sp W)) sz) = wd W (val s.mem la sz)
          rw [hpop, h6]
        · intro _; rw [hh.1]; exact h3 hra
        · intro _ _; exact hpop
        · show t.sp + _ = _
          rw [h4]; rfl

end Smlr.Cg
