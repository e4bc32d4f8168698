import Verif.Cg.Mach
import Verif.Cg.Fuse2
set_option autoImplicit false
/-! The operators of `GenExpr1` on the machine. -/
namespace Smlr.Cg
variable {W : Nat}

theorem wd_one : wd W 1 = 1 := by
  apply BitVec.eq_of_toNat_eq
  simp [BitVec.toNat_ofInt, wd]

theorem trunc_zero {v : Int} (h : truncUint W v = 0) : wd W v = 0 := by
  rw [truncUint] at h
  rw [← wd_emod, h]
  rfl

theorem read_imm (G : Int → Wd W) (s : St W) (v : Int) : read G s W (.imm v) = wd W v := by
  simp only [read, pow_eq]
  apply BitVec.eq_of_toNat_eq
  rw [BitVec.toNat_ofNat, Nat.mod_mod, Nat.mod_eq_of_lt (BitVec.isLt _)]

theorem read_lab (G : Int → Wd W) (s : St W) (x : Int) : read G s W (.lab x) = G x := by
  simp only [read, pow_eq]
  apply BitVec.eq_of_toNat_eq
  rw [BitVec.toNat_ofNat, Nat.mod_mod, Nat.mod_eq_of_lt (BitVec.isLt _)]

theorem wd_val_W (h0 : 0 < W) (m : Mem W) (a : Wd W) : wd W (val m a W) = BitVec.ofNat _ (ld m a W) := by
  have h1 : (0 : Int) < W := by omega
  simp only [val, conv, if_pos h1, Int.natAbs_natCast]
  have e : (256 : Int) ^ W = 2 ^ (8 * W) := by
    rw [Int.pow_mul]; rfl
  rw [e, wd_emod, wd_nat]

theorem read_mem (h0 : 0 < W) (G : Int → Wd W) (s : St W) (a : Adr) (n : Option Nat) :
    read G s W (.mem a n) = wd W (val s.mem (ea G s a) W) := by
  rw [wd_val_W h0]; rfl

theorem read_small {n : Nat} (hn : n ≤ W) (G : Int → Wd W) (s : St W) (v : Int) :
    (read G s n (.imm v)).toNat % 256 ^ n = (wd W v).toNat % 256 ^ n := by
  simp only [read, BitVec.toNat_ofNat]
  rw [Nat.mod_mod_of_dvd _ (pow_dvd hn), Nat.mod_mod]

theorem add_mod_congr {n : Nat} (hn : n ≤ W) (x y y' : Wd W) (h : y.toNat % 256 ^ n = y'.toNat % 256 ^ n) :
    (x + y).toNat % 256 ^ n = (x + y').toNat % 256 ^ n := by
  rw [BitVec.toNat_add, BitVec.toNat_add, Nat.mod_mod_of_dvd _ (pow_dvd hn), Nat.mod_mod_of_dvd _ (pow_dvd hn), Nat.add_mod, h,
    ← Nat.add_mod]

theorem sub_mod_congr {n : Nat} (hn : n ≤ W) (x y y' : Wd W) (h : y.toNat % 256 ^ n = y'.toNat % 256 ^ n) :
    (x - y).toNat % 256 ^ n = (x - y').toNat % 256 ^ n := by
  have e : x - y = (x - y - y') + y' := by rw [BitVec.sub_add_cancel]
  have e' : x - y' = (x - y - y') + y := by
    rw [BitVec.sub_eq_add_neg (x - y), BitVec.sub_eq_add_neg x y, BitVec.sub_eq_add_neg x y', BitVec.add_assoc, BitVec.add_assoc, BitVec.add_comm (-y),
      BitVec.add_assoc, BitVec.add_right_neg]
    simp
  rw [e, e']
  exact add_mod_congr hn _ _ _ h.symm

theorem wd_add_neg (x : Wd W) (k : Int) : x - wd W k = x + wd W (-k) := by
  rw [BitVec.sub_eq_add_neg, wd, wd, BitVec.ofInt_neg]

/-- adding a number to an object in memory -/
theorem padd_ok (hW : W = 2 ∨ W = 4) {sz : Int} (hz : okSz W sz) (G : Int → Wd W) (s : St W) (a : Adr) (sub : Bool) (n : Int) :
    ∃ f, execs G (p2 W (if sub then .sub else .add) (selM W a sz) (.imm n)) s =
      some { s with mem := upd s.mem (ea G s a) sz (wd W (val s.mem (ea G s a) sz + if sub then -n else n)), flags := f } := by
  have h := natAbs_le hW hz
  simp only [p2]
  rw [if_pos (by cases sub <;> simp)]
  by_cases h0 : truncUint W n = 0
  · rw [if_pos h0]
    refine ⟨s.flags, ?_⟩
    have : upd s.mem (ea G s a) sz (wd W (val s.mem (ea G s a) sz + if sub then -n else n)) = s.mem := by
      rw [upd_val_add _ _ h, wd, BitVec.ofInt_add]
      have e : BitVec.ofInt (8 * W) (if sub then -n else n) = 0 := by
        cases sub
        · exact trunc_zero h0
        · have := trunc_zero h0
          simp only [if_true]
          rw [BitVec.ofInt_neg]
          show - wd W n = 0
          rw [this]
          simp
      rw [e]
      have : BitVec.ofInt (8 * W) (ld s.mem (ea G s a) sz.natAbs : Int) = BitVec.ofNat _ (ld s.mem (ea G s a) sz.natAbs) := wd_nat _
      rw [this, show ∀ x : Wd W, x + 0 = x from fun x => by simp, upd]
      rw [st_mod _ _ _ _ (ld s.mem (ea G s a) sz.natAbs), st_self]
      rw [BitVec.toNat_ofNat, Nat.mod_mod_of_dvd _ (pow_dvd h)]
    rw [this]
    rfl
  · rw [if_neg h0]
    refine ⟨none, ?_⟩
    by_cases h1 : n = 1 ∨ n = -1
    · rw [if_pos h1]
      rcases h1 with rfl | rfl <;> cases sub
      · exact (execs_one _ _ _).trans (inc_ok hW hz G s a false)
      · exact (execs_one _ _ _).trans (inc_ok hW hz G s a true)
      · exact (execs_one _ _ _).trans (inc_ok hW hz G s a true)
      · exact (execs_one _ _ _).trans (inc_ok hW hz G s a false)
    · rw [if_neg h1, execs_one, selM_eq hW hz]
      cases sub
      · simp only [exec, exec2, size2, Opd.size, Option.bind_some, write, Bool.false_eq_true, if_false]
        refine congrArg some (congrArg (fun x => { s with mem := x, flags := none }) ?_)
        rw [upd_val_add _ _ h, upd, ← ld_word _ _ h _ n rfl]
        exact st_mod _ _ _ _ _ (add_mod_congr h _ _ _ (read_small h G s n))
      · simp only [exec, exec2, size2, Opd.size, Option.bind_some, write, if_true]
        refine congrArg some (congrArg (fun x => { s with mem := x, flags := none }) ?_)
        rw [upd_val_add _ _ h, upd, ← ld_word _ _ h _ (-n) rfl, ← wd_add_neg]
        exact st_mod _ _ _ _ _ (sub_mod_congr h _ _ _ (read_small h G s n))

/-- the value of an operand; the accumulator holds the value or the address of one that is computed -/
def opv (G : Int → Wd W) (bp : Wd W) (m : Mem W) (c : Cls) (a : Wd W) : Wd W :=
  match c with
  | .num v => wd W v
  | .id x => G x
  | .loc o => bp + wd W o
  | .dId sz x => wd W (val m (G x) sz)
  | .dLoc sz o => wd W (val m (bp + wd W o) sz)
  | .dAcc sz => wd W (val m a sz)
  | .acc => a

def Cls.isAcc : Cls → Bool
  | .dAcc _ | .acc => true
  | _ => false

def Cls.ok (W : Nat) : Cls → Prop
  | .dId sz _ | .dLoc sz _ | .dAcc sz => okSz W sz
  | _ => True

/-- the token of a right operand -/
def rT (W : Nat) (c : Cls) : T := ((rInfo W c).typ, (rInfo W c).val)

/-- only `ax`, `cx`, `dx` and the flags differ -/
structure Same (s s' : St W) : Prop where
  bx : s'.bx = s.bx
  sp : s'.sp = s.sp
  bp : s'.bp = s.bp
  mem : s'.mem = s.mem

theorem Same.refl (s : St W) : Same s s := ⟨rfl, rfl, rfl, rfl⟩

theorem Same.trans {s t u : St W} (h : Same s t) (h' : Same t u) : Same s u :=
  ⟨h'.bx.trans h.bx, h'.sp.trans h.sp, h'.bp.trans h.bp, h'.mem.trans h.mem⟩

/-- operators of the first group -/
def aluF (i : I2) (x y : Wd W) : Option (Wd W) :=
  match i with
  | .add => some (x + y)
  | .sub => some (x - y)
  | .band => some (x &&& y)
  | .xor => some (x ^^^ y)
  | .bor => some (x ||| y)
  | _ => none

theorem alu2 {i : I2} {s : St W} {z : Wd W} {G : Int → Wd W} {o : Opd} {y : Wd W} (h : aluF i s.ax y = some z)
    (hs : o.size W = none ∨ o.size W = some W) (hr : read G s W o = y) :
    exec G s (.i2 i .ax o) = some { s with ax := z, flags := none } := by
  have e : size2 W .ax o = some W := by
    unfold size2
    rcases hs with hs | hs <;> rw [hs] <;> simp [Opd.size]
  cases i <;> simp only [aluF, Option.some.injEq, reduceCtorEq] at h <;> subst h <;>
    simp only [exec, exec2, e, Option.bind_some, write, hr] <;> rfl

/-- `op ax, imm` with the short forms -/
theorem alu2imm {i : I2} {s : St W} {z : Wd W} {G : Int → Wd W} {v : Int} (h : aluF i s.ax (wd W v) = some z) :
    ∃ f, execs G (p2 W i .ax (.imm v)) s = some { s with ax := z, flags := f } := by
  simp only [p2]
  by_cases hi : i = .add ∨ i = .sub
  · rw [if_pos hi]
    by_cases h0 : truncUint W v = 0
    · rw [if_pos h0]
      refine ⟨s.flags, ?_⟩
      have : z = s.ax := by
        rcases hi with rfl | rfl
        · simp only [aluF, Option.some.injEq, trunc_zero h0] at h
          rw [← h]; simp
        · simp only [aluF, Option.some.injEq, trunc_zero h0] at h
          rw [← h]; simp
      rw [this]; rfl
    · rw [if_neg h0]
      by_cases h1 : v = 1 ∨ v = -1
      · rw [if_pos h1]
        refine ⟨none, ?_⟩
        have en : wd W (-1) = -1 := by rw [wd, BitVec.ofInt_neg]; exact congrArg _ wd_one
        rcases h1 with rfl | rfl <;> rcases hi with rfl | rfl
        · simp only [aluF, Option.some.injEq, wd_one] at h
          subst h
          simp [execs, exec, exec1, Opd.size, write, read]
        · simp only [aluF, Option.some.injEq, wd_one] at h
          subst h
          simp [execs, exec, exec1, Opd.size, write, read]
        · simp only [aluF, Option.some.injEq, en] at h
          subst h
          simp [execs, exec, exec1, Opd.size, write, read, BitVec.sub_eq_add_neg]
        · simp only [aluF, Option.some.injEq, en] at h
          subst h
          simp [execs, exec, exec1, Opd.size, write, read, BitVec.sub_eq_add_neg]
      · rw [if_neg h1, execs_one]
        exact ⟨_, alu2 h (Or.inl rfl) (read_imm _ _ _)⟩
  · rw [if_neg hi, execs_one]
    exact ⟨_, alu2 h (Or.inl rfl) (read_imm _ _ _)⟩

theorem lea_cx (G : Int → Wd W) (s : St W) (o : Int) :
    execs G (p2 W .lea .cx (.mem (.loc o) none)) s = some { s with cx := s.bp + wd W o } := by
  simp [p2, execs, exec, exec2, Opd.size, write, ea]

theorem lea_ax (G : Int → Wd W) (s : St W) (o : Int) :
    execs G (p2 W .lea .ax (.mem (.loc o) none)) s = some { s with ax := s.bp + wd W o } := by
  simp [p2, execs, exec, exec2, Opd.size, write, ea]

theorem p2_not_imm {i : I2} {d t : Opd} (h : ∀ v, t ≠ .imm v) : p2 W i d t = [.i2 i d t] := by
  cases t <;> first | rfl | exact absurd rfl (h _)

theorem alu_ok (hW : W = 2 ∨ W = 4) {i : I2} {G : Int → Wd W} {s : St W} {c : Cls} {a y z : Wd W} (hc : c.ok W)
    (hy : y = opv G s.bp s.mem c a) (hcx : c.isAcc = true → s.cx = y) (h : aluF i s.ax y = some z) :
    ∃ s', execs G (alu W i (rInfo W c).size (rT W c)) s = some s' ∧ s'.ax = z ∧ Same s s' := by
  have h0 : 0 < W := by omega
  have cxStep : ∀ t : St W, t.ax = s.ax → t.cx = y → Same s t →
      ∃ s', execs G (p2 W i .ax .cx) t = some s' ∧ s'.ax = z ∧ Same s s' := by
    intro t h1 h2 h3
    refine ⟨_, (execs_one _ _ _).trans (alu2 (h1 ▸ h) (Or.inr rfl) h2), rfl, h3.trans ⟨rfl, rfl, rfl, rfl⟩⟩
  have memCase : ∀ (sz : Int) (b : Adr) , okSz W sz → y = wd W (val s.mem (ea G s b) sz) →
      ∃ s', execs G (if sz ≠ W then readC W sz b ++ p2 W i .ax .cx else p2 W i .ax (.mem b none)) s = some s' ∧
        s'.ax = z ∧ Same s s' := by
    intro sz b hz hy
    by_cases hs : sz = W
    · rw [if_neg (by simp [hs]), p2_not_imm (by simp), execs_one]
      refine ⟨_, alu2 h (Or.inl rfl) ?_, rfl, ⟨rfl, rfl, rfl, rfl⟩⟩
      rw [read_mem h0, hy, hs]
    · rw [if_pos hs]
      obtain ⟨s', h1, h2, h3⟩ := cxStep { s with cx := wd W (val s.mem (ea G s b) sz) } rfl hy.symm ⟨rfl, rfl, rfl, rfl⟩
      exact ⟨s', execs_app (readC_ok hW hz G s b) h1, h2, h3⟩
  cases c with
  | num v =>
    obtain ⟨f, hf⟩ := alu2imm (G := G) (v := v) (by rw [hy] at h; exact h)
    exact ⟨_, hf, rfl, ⟨rfl, rfl, rfl, rfl⟩⟩
  | id x =>
    exact ⟨_, (execs_one _ _ _).trans (alu2 h (Or.inl rfl) ((read_lab _ _ _).trans hy.symm)), rfl, ⟨rfl, rfl, rfl, rfl⟩⟩
  | loc o =>
    obtain ⟨s', h1, h2, h3⟩ := cxStep { s with cx := s.bp + wd W o } rfl hy.symm ⟨rfl, rfl, rfl, rfl⟩
    exact ⟨s', execs_app (lea_cx G s o) h1, h2, h3⟩
  | dId sz x => exact memCase sz (.lab x) hc hy
  | dLoc sz o => exact memCase sz (.loc o) hc hy
  | dAcc sz => exact cxStep s rfl (hcx rfl) (Same.refl s)
  | acc => exact cxStep s rfl (hcx rfl) (Same.refl s)

end Smlr.Cg
