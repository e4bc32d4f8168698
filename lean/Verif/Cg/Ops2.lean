import Verif.Cg.Ops
set_option autoImplicit false
/-! Comparisons, multiplication, division and shifts. -/
namespace Smlr.Cg
variable {W : Nat}

theorem cmp2 {s : St W} {G : Int → Wd W} {o : Opd} {y : Wd W}
    (hs : o.size W = none ∨ o.size W = some W) (hr : read G s W o = y) :
    exec G s (.i2 .cmp .ax o) = some { s with flags := some (subFlags s.ax y) } := by
  have e : size2 W .ax o = some W := by
    unfold size2
    rcases hs with hs | hs <;> rw [hs] <;> simp [Opd.size]
  simp only [exec, exec2, e, Option.bind_some, if_true, hr]
  rfl

theorem p2_cmp (d t : Opd) : p2 W .cmp d t = [.i2 .cmp d t] := by
  cases t <;> simp [p2]

theorem cmp_ok (hW : W = 2 ∨ W = 4) {G : Int → Wd W} {s : St W} {c : Cls} {a y : Wd W} (hc : c.ok W)
    (hy : y = opv G s.bp s.mem c a) (hcx : c.isAcc = true → s.cx = y) :
    ∃ s', execs G (alu W .cmp (rInfo W c).size (rT W c)) s = some s' ∧ s'.flags = some (subFlags s.ax y) ∧ Same s s' := by
  have h0 : 0 < W := by omega
  have cxStep : ∀ t : St W, t.ax = s.ax → t.cx = y → Same s t →
      ∃ s', execs G (p2 W .cmp .ax .cx) t = some s' ∧ s'.flags = some (subFlags s.ax y) ∧ Same s s' := by
    intro t h1 h2 h3
    refine ⟨_, (execs_one _ _ _).trans (cmp2 (Or.inr rfl) h2), by rw [h1], h3.trans ⟨rfl, rfl, rfl, rfl⟩⟩
  have memCase : ∀ (sz : Int) (b : Adr) , okSz W sz → y = wd W (val s.mem (ea G s b) sz) →
      ∃ s', execs G (if sz ≠ W then readC W sz b ++ p2 W .cmp .ax .cx else p2 W .cmp .ax (.mem b none)) s = some s' ∧
        s'.flags = some (subFlags s.ax y) ∧ Same s s' := by
    intro sz b hz hy
    by_cases hs : sz = W
    · rw [if_neg (by simp [hs]), p2_cmp, execs_one]
      refine ⟨_, cmp2 (Or.inl rfl) ?_, rfl, ⟨rfl, rfl, rfl, rfl⟩⟩
      rw [read_mem h0, hy, hs]
    · rw [if_pos hs]
      obtain ⟨s', h1, h2, h3⟩ := cxStep { s with cx := wd W (val s.mem (ea G s b) sz) } rfl hy.symm ⟨rfl, rfl, rfl, rfl⟩
      exact ⟨s', execs_app (readC_ok hW hz G s b) h1, h2, h3⟩
  cases c with
  | num v =>
    simp only [rInfo, rT, alu, p2_cmp]
    exact ⟨_, (execs_one _ _ _).trans (cmp2 (Or.inl rfl) ((read_imm _ _ _).trans hy.symm)), rfl, ⟨rfl, rfl, rfl, rfl⟩⟩
  | id x =>
    exact ⟨_, (execs_one _ _ _).trans (cmp2 (Or.inl rfl) ((read_lab _ _ _).trans hy.symm)), rfl, ⟨rfl, rfl, rfl, rfl⟩⟩
  | loc o =>
    obtain ⟨s', h1, h2, h3⟩ := cxStep { s with cx := s.bp + wd W o } rfl hy.symm ⟨rfl, rfl, rfl, rfl⟩
    exact ⟨s', execs_app (lea_cx G s o) h1, h2, h3⟩
  | dId sz x => exact memCase sz (.lab x) hc hy
  | dLoc sz o => exact memCase sz (.loc o) hc hy
  | dAcc sz => exact cxStep s rfl (hcx rfl) (Same.refl s)
  | acc => exact cxStep s rfl (hcx rfl) (Same.refl s)

/-! ### flags -/

theorem slt_flags (x y : Wd W) (h0 : 0 < W) : ((subFlags x y).sf != (subFlags x y).of) = decide (x.toInt < y.toInt) := by
  simp only [subFlags]
  have hp : (0 : Nat) < 2 ^ (8 * W - 1) := Nat.two_pow_pos _
  have e : 2 ^ (8 * W) = 2 * 2 ^ (8 * W - 1) := by
    rw [← Nat.pow_succ']; congr 1; omega
  have hx1 := BitVec.le_toInt x
  have hx2 := BitVec.toInt_lt (x := x)
  have hy1 := BitVec.le_toInt y
  have hy2 := BitVec.toInt_lt (x := y)
  have hs := BitVec.toInt_sub (x := x) (y := y)
  have hz1 := BitVec.le_toInt (x - y)
  have hz2 := BitVec.toInt_lt (x := x - y)
  rw [BitVec.msb_eq_toInt]
  have hk : (x - y).toInt = x.toInt - y.toInt ∨ (x - y).toInt = x.toInt - y.toInt - 2 ^ (8 * W) ∨
      (x - y).toInt = x.toInt - y.toInt + 2 ^ (8 * W) := by
    rw [hs]
    have hb := Int.bmod_add_bdiv (x.toInt - y.toInt) (2 ^ (8 * W))
    rw [hs] at hz1 hz2
    have e' : (2 : Int) ^ (8 * W) = 2 * 2 ^ (8 * W - 1) := by exact_mod_cast e
    have ec : ((2 ^ (8 * W) : Nat) : Int) = 2 ^ (8 * W) := by simp
    rw [ec] at hb
    generalize Int.bdiv (x.toInt - y.toInt) (2 ^ (8 * W)) = q at hb
    rw [e'] at hb ⊢
    have hp' : (0 : Int) < 2 ^ (8 * W - 1) := by exact_mod_cast hp
    generalize (2 : Int) ^ (8 * W - 1) = p at *
    have q1 : q < 2 := by
      apply Classical.byContradiction
      intro hq
      have : 2 * p * 2 ≤ 2 * p * q := Int.mul_le_mul_of_nonneg_left (by omega) (by omega)
      omega
    have q2 : -2 < q := by
      apply Classical.byContradiction
      intro hq
      have : 2 * p * q ≤ 2 * p * (-2) := Int.mul_le_mul_of_nonneg_left (by omega) (by omega)
      omega
    have : q = -1 ∨ q = 0 ∨ q = 1 := by omega
    rcases this with rfl | rfl | rfl <;> omega
  have e' : (2 : Int) ^ (8 * W) = 2 * 2 ^ (8 * W - 1) := by exact_mod_cast e
  rw [e'] at hk
  have hp' : (0 : Int) < 2 ^ (8 * W - 1) := by exact_mod_cast hp
  generalize (2 : Int) ^ (8 * W - 1) = p at *
  generalize (x - y).toInt = d at *
  by_cases h1 : d < 0 <;> by_cases h2 : d = x.toInt - y.toInt <;> by_cases h3 : x.toInt < y.toInt <;>
    simp [h1, h2, h3] <;> omega

theorem flags_rel (h0 : 0 < W) (c : Cc) (x y : Wd W) : (subFlags x y).holds c = rel c x y := by
  have h := slt_flags x y h0
  have hz : (subFlags x y).zf = decide (x.toInt = y.toInt) := by
    simp only [subFlags, BitVec.toInt_inj]
  have hz' : (subFlags x y).zf = decide (x.toNat = y.toNat) := by
    simp only [subFlags, BitVec.toNat_inj]
  have hc : (subFlags x y).cf = decide (x.toNat < y.toNat) := rfl
  have h' : ((subFlags x y).sf == (subFlags x y).of) = !decide (x.toInt < y.toInt) := by
    rw [← h]; cases (subFlags x y).sf <;> cases (subFlags x y).of <;> rfl
  cases c <;> simp only [Flags.holds, rel]
  · exact h
  · exact hc
  · rw [h', hz, Bool.eq_iff_iff]; simp; omega
  · rw [hc, hz', Bool.eq_iff_iff]; simp; omega
  · rw [h, hz, Bool.eq_iff_iff]; simp; omega
  · rw [hc, hz', Bool.eq_iff_iff]; simp; omega
  · rw [h', Bool.eq_iff_iff]; simp
  · rw [hc, Bool.eq_iff_iff]; simp
  · exact hz'
  · rw [hz', Bool.eq_iff_iff]; simp

theorem rel_inv (c : Cc) (x y : Wd W) : rel c.inv x y = !rel c x y := by
  cases c <;> rw [Bool.eq_iff_iff] <;> simp [Cc.inv, rel]

theorem setcc_ok (hW : W = 2 ∨ W = 4) (G : Int → Wd W) (s : St W) (c : Cc) (f : Flags) (hf : s.flags = some f) (next : Option T)
    (hn : ∀ t, next = some t → t.1 ≠ .ifT ∧ t.1 ≠ .ifN) :
    ∃ s', execs G (cmpEnd W c next) s = some s' ∧ s'.ax = wd W (b2i (f.holds c)) ∧ Same s s' := by
  have e : cmpEnd W c next = .i1 (.setcc c) .al :: (if W = 2 then [.i0 .cbw] else p2 W .movzx .ax .al) := by
    cases next with
    | none => rfl
    | some t =>
      obtain ⟨k, v⟩ := t
      have := hn _ rfl
      cases k <;> first | rfl | exact absurd rfl this.1 | exact absurd rfl this.2
  rw [e]
  refine ⟨{ s with ax := wd W (b2i (f.holds c)) }, ?_, rfl, ⟨rfl, rfl, rfl, rfl⟩⟩
  rcases hW with rfl | rfl
  · have h1 := s.ax.isLt
    cases hh : f.holds c
    · simp [execs, exec, exec1, Opd.size, hf, hh, write, exec0, sext_eq, b2i]
      refine congrArg _ (bmod_congr (y := 0) (by simp)) |>.trans ?_
      rfl
    · simp [execs, exec, exec1, Opd.size, hf, hh, write, exec0, sext_eq, b2i]
      refine congrArg _ (bmod_congr (y := 1) (by simp)) |>.trans ?_
      rfl
  · have h1 := s.ax.isLt
    cases hh : f.holds c
    · simp [execs, exec, exec1, exec2, p2, Opd.size, hf, hh, write, read, b2i]
    · simp [execs, exec, exec1, exec2, p2, Opd.size, hf, hh, write, read, b2i]

/-! ### multiplication -/

theorem mul_wd (x y : Wd W) : x * y = wd W (x.toInt * y.toInt) := by
  rw [wd, BitVec.ofInt_mul, BitVec.ofInt_toInt, BitVec.ofInt_toInt]

theorem mul_nat (x y : Wd W) : BitVec.ofNat (8 * W) (x.toNat * y.toNat) = wd W (x.toInt * y.toInt) := by
  rw [← mul_wd]
  apply BitVec.eq_of_toNat_eq
  rw [BitVec.toNat_ofNat, BitVec.toNat_mul]

/-- what happens with an operand that may have to be moved to `cx` first -/
theorem cx_ok (hW : W = 2 ∨ W = 4) {G : Int → Wd W} {s : St W} {y : Wd W} {Q : St W → Prop} {i : Opd → Ins}
    (hcx : ∀ t : St W, t.ax = s.ax → t.dx = s.dx → t.cx = y → Same s t → ∃ s', exec G t (i .cx) = some s' ∧ Q s')
    (hm : ∀ a : Adr, read G s W (.mem a (some W)) = y → ∃ s', exec G s (i (.mem a (some W))) = some s' ∧ Q s')
    (sz : Int) (b : Adr) (hz : okSz W sz) (hy : y = wd W (val s.mem (ea G s b) sz)) :
    ∃ s', execs G (if sz ≠ W then readC W sz b ++ [i .cx] else [i (.mem b (some W))]) s = some s' ∧ Q s' := by
  have h0 : 0 < W := by omega
  by_cases hs : sz = W
  · rw [if_neg (by simp [hs]), execs_one]
    exact hm b (by rw [read_mem h0, hy, hs])
  · rw [if_pos hs]
    obtain ⟨s', h1, h2⟩ := hcx { s with cx := wd W (val s.mem (ea G s b) sz) } rfl rfl hy.symm ⟨rfl, rfl, rfl, rfl⟩
    exact ⟨s', execs_app (readC_ok hW hz G s b) ((execs_one _ _ _).trans h1), h2⟩

theorem mul1 {G : Int → Wd W} {s : St W} {o : Opd} {y : Wd W} (hs : o.size W = some W) (hr : read G s W o = y) :
    ∃ s', exec G s (.i1 .mul o) = some s' ∧ s'.ax = wd W (s.ax.toInt * y.toInt) ∧ Same s s' := by
  simp only [exec, exec1, hs, Option.bind_some, if_true, hr]
  exact ⟨_, rfl, mul_nat _ _, ⟨rfl, rfl, rfl, rfl⟩⟩

theorem mul_ok (hW : W = 2 ∨ W = 4) {G : Int → Wd W} {s : St W} {c : Cls} {a y : Wd W} (hc : c.ok W)
    (hy : y = opv G s.bp s.mem c a) (hcx : c.isAcc = true → s.cx = y) :
    ∃ s', execs G (mulA W (rInfo W c).size (rT W c)) s = some s' ∧ s'.ax = wd W (s.ax.toInt * y.toInt) ∧ Same s s' := by
  have h0 : 0 < W := by omega
  have cxStep : ∀ t : St W, t.ax = s.ax → t.cx = y → Same s t →
      ∃ s', exec G t (.i1 .mul .cx) = some s' ∧ s'.ax = wd W (s.ax.toInt * y.toInt) ∧ Same s s' := by
    intro t h1 h2 h3
    obtain ⟨s', e1, e2, e3⟩ := mul1 (G := G) (s := t) (o := .cx) rfl h2
    exact ⟨s', e1, h1 ▸ e2, h3.trans e3⟩
  have memCase := fun sz b => cx_ok hW (G := G) (s := s) (y := y) (Q := fun s' => s'.ax = wd W (s.ax.toInt * y.toInt) ∧ Same s s')
    (i := fun o => .i1 .mul o) (fun t h1 _ h2 h3 => cxStep t h1 h2 h3)
    (fun a ha => mul1 (o := .mem a (some W)) rfl ha) sz b
  have im : ∀ o : Opd, read G s W o = y → ∃ s', execs G [.imul3 .ax .ax o] s = some s' ∧ s'.ax = wd W (s.ax.toInt * y.toInt) ∧ Same s s' := by
    intro o ho
    rw [execs_one]
    refine ⟨{ s with ax := s.ax * y, flags := none }, ?_, mul_wd _ _, ⟨rfl, rfl, rfl, rfl⟩⟩
    simp [exec, Opd.size, ho, write]
    rfl
  cases c with
  | num v => exact im _ ((read_imm _ _ _).trans hy.symm)
  | id x => exact im _ ((read_lab _ _ _).trans hy.symm)
  | loc o =>
    obtain ⟨s', h1, h2⟩ := cxStep { s with cx := s.bp + wd W o } rfl hy.symm ⟨rfl, rfl, rfl, rfl⟩
    exact ⟨s', execs_app (lea_cx G s o) ((execs_one _ _ _).trans h1), h2⟩
  | dId sz x => exact memCase sz (.lab x) hc hy
  | dLoc sz o => exact memCase sz (.loc o) hc hy
  | dAcc sz =>
    obtain ⟨s', h1, h2⟩ := cxStep s rfl (hcx rfl) (Same.refl s)
    exact ⟨s', (execs_one _ _ _).trans h1, h2⟩
  | acc =>
    obtain ⟨s', h1, h2⟩ := cxStep s rfl (hcx rfl) (Same.refl s)
    exact ⟨s', (execs_one _ _ _).trans h1, h2⟩

/-! ### division -/

theorem sign_pair (h0 : 0 < W) (x : Wd W) :
    (if x.msb then (-1 : Wd W) else 0).toInt * 2 ^ (8 * W) + (x.toNat : Int) = x.toInt := by
  rw [BitVec.toInt_eq_msb_cond x]
  have e : ((2 ^ (8 * W) : Nat) : Int) = 2 ^ (8 * W) := by simp
  cases x.msb
  · simp
  · have : (-1 : Wd W).toInt = -1 := by
      have := BitVec.toInt_allOnes (w := 8 * W)
      rw [if_pos (by omega)] at this
      rw [← this, ← BitVec.neg_one_eq_allOnes]; rfl
    simp only [if_true]
    rw [this, e]
    omega

theorem tdiv_range {p x y : Int} (hp : 0 < p) (h1 : -p ≤ x) (h2 : x < p) (hy : ¬ (y = 0 ∨ (x = -p ∧ y = -1))) :
    -p ≤ Int.tdiv x y ∧ Int.tdiv x y < p := by
  have ha : (Int.tdiv x y).natAbs = x.natAbs / y.natAbs := Int.natAbs_tdiv x y
  have hle : x.natAbs / y.natAbs ≤ x.natAbs := Nat.div_le_self _ _
  refine ⟨by omega, ?_⟩
  by_cases hx : x = -p
  · by_cases hy1 : y.natAbs = 1
    · have : y = 1 := by omega
      subst this
      rw [Int.tdiv_one]
      exact h2
    · have : x.natAbs / y.natAbs < x.natAbs := Nat.div_lt_self (by omega) (by omega)
      omega
  · omega

def divV (sgn md : Bool) (x y : Wd W) : Option Int :=
  if sgn then
    if y.toInt = 0 ∨ (x.toInt = -2 ^ (8 * W - 1) ∧ y.toInt = -1) then none
    else some (if md then Int.tmod x.toInt y.toInt else Int.tdiv x.toInt y.toInt)
  else if y.toNat = 0 then none
  else some (if md then (x.toNat % y.toNat : Nat) else (x.toNat / y.toNat : Nat))

theorem div1 (h0 : 0 < W) {G : Int → Wd W} {s : St W} {o : Opd} {x y : Wd W} {sgn md : Bool} {z : Int} (hs : o.size W = some W)
    (hr : read G s W o = y) (hx : s.ax = x) (hd : s.dx = if sgn then (if x.msb then -1 else 0) else 0)
    (hz : divV sgn md x y = some z) :
    ∃ s', exec G s (.i1 (if sgn then .idiv else .div) o) = some s' ∧ (if md then s'.dx else s'.ax) = wd W z ∧ Same s s' := by
  cases sgn
  · simp only [divV, Bool.false_eq_true, if_false] at hz hd ⊢
    by_cases hy : y.toNat = 0
    · rw [if_pos hy] at hz; cases hz
    · rw [if_neg hy] at hz
      simp only [exec, exec1, hs, Option.bind_some, hr, hx, hd]
      have hlt : x.toNat / y.toNat < 2 ^ (8 * W) := Nat.lt_of_le_of_lt (Nat.div_le_self _ _) x.isLt
      rw [if_pos (by simpa using ⟨fun h => hy (by rw [h]), hlt⟩)]
      refine ⟨_, rfl, ?_, ⟨rfl, rfl, rfl, rfl⟩⟩
      cases md
      · simp only [Bool.false_eq_true, if_false, Option.some.injEq] at hz ⊢
        rw [← hz, wd_nat]; try simp
      · simp only [if_true, Option.some.injEq] at hz ⊢
        rw [← hz, wd_nat]; try simp
  · simp only [divV, if_true] at hz hd ⊢
    by_cases hy : y.toInt = 0 ∨ (x.toInt = -2 ^ (8 * W - 1) ∧ y.toInt = -1)
    · rw [if_pos hy] at hz; cases hz
    · rw [if_neg hy] at hz
      simp only [exec, exec1, hs, Option.bind_some, hr, hx, hd]
      rw [sign_pair h0]
      have hr := tdiv_range (p := 2 ^ (8 * W - 1)) (Int.pow_pos (by decide)) (BitVec.le_toInt x) BitVec.toInt_lt hy
      rw [if_pos ⟨trivial, fun h => hy (Or.inl h), hr.1, hr.2⟩]
      refine ⟨_, rfl, ?_, ⟨rfl, rfl, rfl, rfl⟩⟩
      cases md
      · simp only [Bool.false_eq_true, if_false, Option.some.injEq] at hz ⊢
        rw [← hz]
      · simp only [if_true, Option.some.injEq] at hz ⊢
        rw [← hz]

theorem mov_cx_imm (G : Int → Wd W) (s : St W) (v : Int) :
    execs G (p2 W .mov .cx (.imm v)) s = some { s with cx := wd W v } := by
  have : p2 W .mov .cx (.imm v) = [.i2 .mov .cx (.imm v)] := by simp [p2]
  rw [this, execs_one]
  simp only [exec, exec2, size2, Opd.size, Option.bind_some, read_imm, write]

theorem mov_cx_lab (G : Int → Wd W) (s : St W) (x : Int) :
    execs G (p2 W .mov .cx (.lab x)) s = some { s with cx := G x } := by
  rw [p2_not_imm (by simp), execs_one]
  simp only [exec, exec2, size2, Opd.size, Option.bind_some, read_lab, write]

theorem div_ok (hW : W = 2 ∨ W = 4) {G : Int → Wd W} {s : St W} {c : Cls} {a y : Wd W} {sgn md : Bool} {z : Int} (hc : c.ok W)
    (hy : y = opv G s.bp s.mem c a) (hcx : c.isAcc = true → s.cx = y) (hz : divV sgn md s.ax y = some z) :
    ∃ s', execs G (divA W sgn md (rInfo W c).size (rT W c)) s = some s' ∧ s'.ax = wd W z ∧ Same s s' := by
  have h0 : 0 < W := by omega
  have pre : execs G (if sgn then (if W = 2 then [.i0 .cwd] else [.i0 .cdq]) else p2 W .mov .dx (.imm 0)) s =
      some { s with dx := if sgn then (if s.ax.msb then -1 else 0) else 0 } := by
    cases sgn
    · have : p2 W .mov .dx (.imm 0) = [.i2 .mov .dx (.imm 0)] := by simp [p2]
      simp only [Bool.false_eq_true, if_false, this, execs_one]
      simp only [exec, exec2, size2, Opd.size, Option.bind_some, read_imm, write]
      rfl
    · rcases hW with rfl | rfl <;> simp [execs, exec, exec0]
  have post : ∀ t : St W, (if md then t.dx else t.ax) = wd W z → Same s t →
      ∃ s', execs G (if md then p2 W .mov .ax .dx else []) t = some s' ∧ s'.ax = wd W z ∧ Same s s' := by
    intro t h1 h2
    cases md
    · exact ⟨t, rfl, h1, h2⟩
    · refine ⟨{ t with ax := t.dx }, ?_, h1, h2.trans ⟨rfl, rfl, rfl, rfl⟩⟩
      simp [p2, execs, exec, exec2, size2, Opd.size, write, read]
  suffices mid : ∀ u : St W, u.ax = s.ax → u.cx = s.cx → u.dx = (if sgn then (if s.ax.msb then -1 else 0) else 0) → Same s u →
      ∃ t, execs G (match (rT W c).1 with
        | .opNum => p2 W .mov .cx (.imm (rT W c).2) ++ [.i1 (if sgn then .idiv else .div) .cx]
        | .opIdent => p2 W .mov .cx (.lab (rT W c).2) ++ [.i1 (if sgn then .idiv else .div) .cx]
        | .opLoc => p2 W .lea .cx (.mem (.loc (rT W c).2) none) ++ [.i1 (if sgn then .idiv else .div) .cx]
        | .opAcc | .opIAcc => [.i1 (if sgn then .idiv else .div) .cx]
        | .opIIdent => if (rInfo W c).size ≠ W then readC W (rInfo W c).size (.lab (rT W c).2) ++ [.i1 (if sgn then .idiv else .div) .cx]
          else [.i1 (if sgn then .idiv else .div) (.mem (.lab (rT W c).2) (some W))]
        | .opILoc => if (rInfo W c).size ≠ W then readC W (rInfo W c).size (.loc (rT W c).2) ++ [.i1 (if sgn then .idiv else .div) .cx]
          else [.i1 (if sgn then .idiv else .div) (.mem (.loc (rT W c).2) (some W))]
        | _ => []) u = some t ∧ (if md then t.dx else t.ax) = wd W z ∧ Same s t by
    obtain ⟨t, h1, h2, h3⟩ := mid { s with dx := if sgn then (if s.ax.msb then -1 else 0) else 0 } rfl rfl rfl ⟨rfl, rfl, rfl, rfl⟩
    obtain ⟨s', h4, h5, h6⟩ := post t h2 h3
    exact ⟨s', execs_app (execs_app pre h1) h4, h5, h6⟩
  intro u hax hucx hdx hu
  have cxStep : ∀ t : St W, t.ax = s.ax → t.dx = u.dx → t.cx = y → Same s t →
      ∃ s', exec G t (.i1 (if sgn then .idiv else .div) .cx) = some s' ∧ (if md then s'.dx else s'.ax) = wd W z ∧ Same s s' := by
    intro t h1 h1' h2 h3
    obtain ⟨s', e1, e2, e3⟩ := div1 h0 (G := G) (s := t) (o := .cx) rfl h2 h1 (h1'.trans hdx) hz
    exact ⟨s', e1, e2, h3.trans e3⟩
  have memCase := fun sz b => cx_ok hW (G := G) (s := u) (y := y) (Q := fun s' => (if md then s'.dx else s'.ax) = wd W z ∧ Same s s')
    (i := fun o => .i1 (if sgn then .idiv else .div) o) (fun t h1 h1' h2 h3 => cxStep t (h1.trans hax) h1' h2 (hu.trans h3))
    (fun a ha => by
      obtain ⟨s', e1, e2, e3⟩ := div1 h0 (G := G) (s := u) (o := .mem a (some W)) rfl ha hax hdx hz
      exact ⟨s', e1, e2, hu.trans e3⟩) sz b
  have one : ∀ v : List Ins, ∀ t : St W, execs G v u = some t → t.ax = s.ax → t.dx = u.dx → t.cx = y → Same s t →
      ∃ s', execs G (v ++ [.i1 (if sgn then .idiv else .div) .cx]) u = some s' ∧ (if md then s'.dx else s'.ax) = wd W z ∧ Same s s' := by
    intro v t hv h1 h2 h3 h4
    obtain ⟨s', e1, e2⟩ := cxStep t h1 h2 h3 h4
    exact ⟨s', execs_app hv ((execs_one _ _ _).trans e1), e2⟩
  rw [← hu.bp, ← hu.mem] at hy
  cases c with
  | num v => exact one _ _ (mov_cx_imm G u v) hax rfl hy.symm (hu.trans ⟨rfl, rfl, rfl, rfl⟩)
  | id x => exact one _ _ (mov_cx_lab G u x) hax rfl hy.symm (hu.trans ⟨rfl, rfl, rfl, rfl⟩)
  | loc o => exact one _ _ (lea_cx G u o) hax rfl hy.symm (hu.trans ⟨rfl, rfl, rfl, rfl⟩)
  | dId sz x => exact memCase sz (.lab x) hc hy
  | dLoc sz o => exact memCase sz (.loc o) hc hy
  | dAcc sz => exact one [] u rfl hax rfl (hucx.trans (hcx rfl)) hu
  | acc => exact one [] u rfl hax rfl (hucx.trans (hcx rfl)) hu

end Smlr.Cg
