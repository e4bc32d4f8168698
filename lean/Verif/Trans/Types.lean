import Verif.Trans.Conv
import Verif.Expr.Fold
set_option autoImplicit false
/-! The types of the model against those of the specification. -/
namespace Smlr.Trans
open Smlr.Expr (Ty Sym Cfg V)

theorem decay_eq (t : Ty) : Expr.decay t = rty t := by cases t <;> rfl
theorem isArr_eq (t : Ty) : Expr.isArr t = array t := by cases t <;> rfl
theorem isNumeric_eq (t : Ty) : Expr.isNumeric t = int t := by cases t <;> rfl

theorem rty_of_int {t : Ty} (h : int t = true) : rty t = t := by cases t <;> first | (cases h; done) | rfl
theorem array_of_int {t : Ty} (h : int t = true) : array t = false := by cases t <;> first | (cases h; done) | rfl
theorem anyPtr_of_int {t : Ty} (h : int t = true) : Expr.isAnyPtr t = false := by cases t <;> first | (cases h; done) | rfl
theorem void_of_int {t : Ty} (h : int t = true) : t ≠ .void := by rintro rfl; cases h
theorem numeric_of_int {t : Ty} (h : int t = true) : Expr.numericCheck t = .ok () := by
  unfold Expr.numericCheck; rw [isNumeric_eq, h]; rfl
theorem scalar_ok {t : Ty} (h : t ≠ .void) : Expr.scalarCheck t = .ok () := if_neg h
theorem int_common (a b : Ty) : int (common a b) = true := by unfold common; split <;> rfl

theorem promote_int {a b : Ty} (ha : int a = true) : Expr.promote a b = common a b := by
  cases a <;> first | (cases ha; done) | (unfold Expr.promote common; by_cases h : b = .uint <;> simp [h])

theorem int_of_rty {t u : Ty} (h : rty t = u) (hu : int u = true) : t = u := by
  cases t <;> first | exact h | (subst h; cases hu)

/-- integer types of C23 -/
def toIT : Ty → Expr.Spec.IT
  | .char => .char
  | .schar => .schar
  | .uchar => .uchar
  | .short => .short
  | .ushort => .ushort
  | .uint => .uint
  | _ => .int

theorem toIT_toTy {t : Ty} (h : int t = true) : (toIT t).toTy = t := by cases t <;> first | (cases h; done) | rfl
theorem toIT_prom (t : Ty) : decide ((toIT t).prom = .uint) = decide (t = .uint) := by cases t <;> first | rfl | simp [toIT, Expr.Spec.IT.prom]
theorem toIT_usual (a b : Ty) : decide ((toIT a).usual (toIT b) = .uint) = decide (common a b = .uint) := by
  unfold Expr.Spec.IT.usual common
  have ha := toIT_prom a
  have hb := toIT_prom b
  rw [decide_eq_decide] at ha hb
  simp only [ha, hb]
  by_cases h : a = .uint ∨ b = .uint <;> simp [h]

theorem size_pos {W : Nat} (hW : W = 2 ∨ W = 4) : ∀ {t : Ty}, obj W t = true → 0 < size W t := by
  intro t
  induction t with
  | void => intro h; cases h
  | arr n t ih =>
    intro h
    simp only [obj, Bool.and_eq_true, decide_eq_true_eq] at h
    exact Nat.mul_pos h.1.1 (ih h.1.2)
  | _ => intro _; simp only [size]; omega

theorem size_lt {W : Nat} (hW : W = 2 ∨ W = 4) {t : Ty} (h : obj W t = true) : size W t < 2 ^ (8 * W) := by
  cases t with
  | void => cases h
  | arr n t =>
    simp only [obj, Bool.and_eq_true, decide_eq_true_eq] at h
    exact h.2
  | _ => rcases hW with rfl | rfl <;> simp [size]

theorem scale_ok {W : Nat} (hW : W = 2 ∨ W = 4) {s k : Nat} (hk : 0 < k) (h : s * k < 2 ^ (8 * W)) : s * k % 2 ^ 32 = s * k ∧ ¬ (s * k % 2 ^ 32 / k ≠ s ∨ s * k % 2 ^ 32 ≥ 2 ^ (8 * W)) := by
  have h32 : s * k < 2 ^ 32 := Nat.lt_of_lt_of_le h (Nat.pow_le_pow_right (by decide) (by omega))
  rw [Nat.mod_eq_of_lt h32, Nat.mul_div_cancel _ hk]
  exact ⟨rfl, by omega⟩

theorem declSizeFrom_ok {c : Cfg} (hW : c.W = 2 ∨ c.W = 4) : ∀ (t : Ty) (s : Nat) (b : Bool), obj c.W t = true → s * size c.W t < 2 ^ (8 * c.W) →
    Expr.declSizeFrom c false s b t = .ok ((s * size c.W t : Nat) : Int) := by
  have hp : 0 < c.W := by omega
  intro t
  induction t with
  | void => intro s b h; cases h
  | char | schar | uchar => intro s b h hs; simp [Expr.declSizeFrom, size]
  | short => intro s b h hs; have := scale_ok hW (k := 2) (by decide) hs; simp only [Expr.declSizeFrom, size, Bool.and_false, Bool.false_eq_true, if_false]; rw [if_neg this.2, this.1]
  | ushort => intro s b h hs; have := scale_ok hW (k := 2) (by decide) hs; simp only [Expr.declSizeFrom, size]; rw [if_neg this.2, this.1]
  | int | uint | ptr => intro s b h hs; have := scale_ok hW (k := c.W) hp hs; simp only [Expr.declSizeFrom, size]; rw [if_neg this.2, this.1]
  | arr n t ih =>
    intro s b h hs
    have hpos := size_pos hW (t := t)
    simp only [obj, Bool.and_eq_true, decide_eq_true_eq] at h
    have hpos := hpos h.1.2
    simp only [size] at hs ⊢
    rw [← Nat.mul_assoc] at hs ⊢
    have h1 : s * n < 2 ^ (8 * c.W) := Nat.lt_of_le_of_lt (Nat.le_mul_of_pos_right _ hpos) hs
    have := scale_ok hW h.1.1 h1
    simp only [Expr.declSizeFrom]
    rw [if_neg (fun hc => this.2 (hc.imp And.right id)), this.1]
    exact ih _ _ h.1.2 hs

theorem declSize_ok {c : Cfg} (hW : c.W = 2 ∨ c.W = 4) {t : Ty} (h : obj c.W t = true) : Expr.declSize c false t = .ok ((size c.W t : Nat) : Int) := by
  have := declSizeFrom_ok hW t 1 false h (by rw [Nat.one_mul]; exact size_lt hW h)
  rw [Nat.one_mul] at this
  exact this

theorem declSize_acc {c : Cfg} (hW : c.W = 2 ∨ c.W = 4) {t : Ty} (h : obj c.W t = true) (ha : array t = false) : Expr.declSize c true t = .ok (acc c t) := by
  obtain ⟨W, cs, env⟩ := c
  dsimp only at hW h
  cases t with
  | void => cases h
  | arr => cases ha
  | ushort =>
    have h4 : W = 4 := by simpa [obj] using h
    subst h4; rfl
  | char => cases cs <;> rfl
  | int | uint | ptr => rcases hW with rfl | rfl <;> simp [Expr.declSize, Expr.declSizeFrom, acc]
  | _ => rfl

theorem acc_okSz {c : Cfg} {t : Ty} (h : obj c.W t = true) : Cg.okSz c.W (acc c t) := by
  have h4 : t = .short ∨ t = .ushort → c.W = 4 := by rintro (rfl | rfl) <;> simpa [obj] using h
  unfold Cg.okSz
  cases t <;> simp only [acc] <;> first | (split <;> simp) | simp [h4] | simp

theorem acc_szOk {c : Cfg} (hW : c.W = 2 ∨ c.W = 4) {t : Ty} (h : obj c.W t = true) : SzOk c.W (acc c t) := by
  have := acc_okSz (c := c) h
  unfold Cg.okSz at this
  unfold SzOk
  omega

theorem acc_toInt {c : Cfg} (hW : c.W = 2 ∨ c.W = 4) {t : Ty} (h : obj c.W t = true) : (BitVec.ofInt 32 (acc c t)).toInt = acc c t := by
  have := acc_okSz (c := c) h
  unfold Cg.okSz at this
  generalize acc c t = z at this
  have hz : z = 4 ∨ z = 2 ∨ z = 1 ∨ z = -1 ∨ z = -2 := by omega
  rcases hz with rfl | rfl | rfl | rfl | rfl <;> decide

theorem arith_ptr {c : Cfg} (hW : c.W = 2 ∨ c.W = 4) {t : Ty} (h : obj c.W t = true) : Expr.arithCheck c (.ptr t) = .ok () := by
  have hp := size_pos hW h
  have hv : t ≠ .void := by rintro rfl; cases h
  have hs : ¬ ((size c.W t : Nat) : Int) = 0 := by omega
  simp only [Expr.arithCheck, Expr.isAnyPtr, Expr.pointee, if_true, if_neg hv, declSize_ok hW h, if_neg hs]

theorem arith_int {c : Cfg} {t : Ty} (h : int t = true) : Expr.arithCheck c t = .ok () := by
  simp only [Expr.arithCheck, anyPtr_of_int h, Bool.false_eq_true, if_false]

end Smlr.Trans
