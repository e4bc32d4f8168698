import Verif.Cg.Ctx
set_option autoImplicit false
/-! When one expression may be replaced by another: whatever evaluation of the new one does, evaluation of the old one may do, in all contexts. -/
namespace Smlr.Trans
open Smlr.Cg
variable {W : Nat} {V : Env W}

/-- what relates `x`, the new expression, to `y`, the old one, if `R` relates what becomes of them; anything will do where the behaviour of `y` may be undefined -/
structure Sim1 (V : Env W) (R : E → E → Prop) (x y : E) : Prop where
  step : ∀ m x' m', Step V x m x' m' → Safe V y m → ∃ y', Steps V y m y' m' ∧ R x' y'
  ub : ∀ m, Ub V x m → ∃ y' m', Steps V y m y' m' ∧ Ub V y' m'
  val : ∀ v, x = .num v → ∀ m, Safe V y m → ∃ w, wd W w = wd W v ∧ Steps V y m (.num w) m

def Ref (V : Env W) (x y : E) : Prop := ∃ R : E → E → Prop, (∀ a b, R a b → Sim1 V R a b) ∧ R x y

theorem Sim1.mono {R R' : E → E → Prop} (h : ∀ a b, R a b → R' a b) {x y : E} (s : Sim1 V R x y) : Sim1 V R' x y :=
  ⟨fun m x' m' hs sf => (s.step m x' m' hs sf).imp fun _ h1 => ⟨h1.1, h _ _ h1.2⟩, s.ub, s.val⟩

theorem Ref.sim {x y : E} (h : Ref V x y) : Sim1 V (Ref V) x y := by
  obtain ⟨R, h1, h2⟩ := h
  exact (h1 _ _ h2).mono fun a b hab => ⟨R, h1, hab⟩

/-- a relation that is preserved up to `Ref` -/
theorem Ref.coind (R : E → E → Prop) (h : ∀ a b, R a b → Sim1 V (fun x y => R x y ∨ Ref V x y) a b) {x y : E} (hr : R x y) : Ref V x y := by
  refine ⟨fun a b => R a b ∨ Ref V a b, fun a b hab => ?_, Or.inl hr⟩
  rcases hab with hab | hab
  · exact h a b hab
  · exact hab.sim.mono fun _ _ => Or.inr

theorem Ref.refl (x : E) : Ref V x x := by
  refine ⟨fun a b => a = b, ?_, rfl⟩
  rintro a _ rfl
  exact ⟨fun m x' m' hs _ => ⟨x', .one hs, rfl⟩, fun m hu => ⟨a, m, .refl _ _, hu⟩, fun v hv m _ => ⟨v, rfl, by rw [hv]; exact .refl _ _⟩⟩

theorem safe_steps {y y' : E} {m m' : Mem W} (h : Safe V y m) (hs : Steps V y m y' m') : Safe V y' m' := fun e' m'' h1 => h e' m'' (hs.trans h1)

theorem bad_of {y : E} {m : Mem W} (h : ¬ Safe V y m) : ∃ y' m', Steps V y m y' m' ∧ Ub V y' m' := by
  apply Classical.byContradiction
  intro hn
  exact h fun e' m' h1 h2 => hn ⟨e', m', h1, h2⟩

theorem Ref.steps {x y : E} (h : Ref V x y) {m m' : Mem W} {x' : E} (hs : Steps V x m x' m') (sf : Safe V y m) : ∃ y', Steps V y m y' m' ∧ Ref V x' y' := by
  induction hs generalizing y with
  | refl => exact ⟨y, .refl _ _, h⟩
  | step h1 _ ih =>
    obtain ⟨y1, s1, r1⟩ := h.sim.step _ _ _ h1 sf
    obtain ⟨y2, s2, r2⟩ := ih r1 (safe_steps sf s1)
    exact ⟨y2, s1.trans s2, r2⟩

theorem Ref.safe {x y : E} (h : Ref V x y) {m : Mem W} (hs : Safe V y m) : Safe V x m := by
  intro x' m' s1 u1
  obtain ⟨y', s2, r⟩ := h.steps s1 hs
  obtain ⟨y'', m'', s3, u3⟩ := r.sim.ub _ u1
  exact hs _ _ (s2.trans s3) u3

theorem Ref.trans {x y z : E} (h : Ref V x y) (h' : Ref V y z) : Ref V x z := by
  refine ⟨fun a b => ∃ c, Ref V a c ∧ Ref V c b, ?_, y, h, h'⟩
  rintro a b ⟨c, h1, h2⟩
  refine ⟨fun m x' m' hs sf => ?_, fun m hu => ?_, fun v hv m sf => ?_⟩
  · obtain ⟨c', s1, r1⟩ := h1.sim.step _ _ _ hs (h2.safe sf)
    obtain ⟨b', s2, r2⟩ := h2.steps s1 sf
    exact ⟨b', s2, c', r1, r2⟩
  · obtain ⟨c', m', s1, u1⟩ := h1.sim.ub _ hu
    exact bad_of fun sf => h2.safe sf _ _ s1 u1
  · obtain ⟨w, e1, s1⟩ := h1.sim.val v hv m (h2.safe sf)
    obtain ⟨b', s2, r2⟩ := h2.steps s1 sf
    obtain ⟨u, e2, s3⟩ := r2.sim.val w rfl m (safe_steps sf s2)
    exact ⟨u, e2.trans e1, s2.trans s3⟩

/-! ### consequences -/

theorem Ref.value {x y : E} (h : Ref V x y) {m m' : Mem W} {v : Int} (hs : Steps V x m (.num v) m') (sf : Safe V y m) : ∃ w, wd W w = wd W v ∧ Steps V y m (.num w) m' := by
  obtain ⟨y', s2, r⟩ := h.steps hs sf
  obtain ⟨w, e, s3⟩ := r.sim.val v rfl m' (safe_steps sf s2)
  exact ⟨w, e, s2.trans s3⟩

/-- an expression that always has the value of a number can be replaced by it -/
theorem ref_num {v : Int} {y : E} (h : ∀ m, Safe V y m → ∃ w, wd W w = wd W v ∧ Steps V y m (.num w) m) : Ref V (.num v) y := by
  refine .coind (fun a b => a = .num v ∧ b = y) ?_ ⟨rfl, rfl⟩
  rintro _ _ ⟨rfl, rfl⟩
  refine ⟨fun m x' m' hs => (nomatch hs), fun m hu => (nomatch hu), fun u hu m sf => ?_⟩
  cases hu
  exact h m sf

theorem Ref.num {v : Int} {y : E} (h : Ref V (.num v) y) (m : Mem W) (sf : Safe V y m) : ∃ w, wd W w = wd W v ∧ Steps V y m (.num w) m := h.sim.val v rfl m sf

/-- the same words are the same -/
theorem ref_num_eq {v w : Int} (h : wd W v = wd W w) : Ref V (.num v) (.num w) := ref_num fun _ _ => ⟨w, h.symm, .refl _ _⟩

/-- a lemma for operators that wait for one operand: the context `f` of the new and `g` of the old expression -/
theorem ref_ctx {f g : E → E} (hg : Hole V g) (hn : ∀ e v, f e ≠ .num v)
    (red : ∀ e m z m', Step V (f e) m z m' → (∃ e', Step V e m e' m' ∧ z = f e') ∨ ∃ v, e = .num v)
    (ubd : ∀ e m, Ub V (f e) m → Ub V e m ∨ ∃ v, e = .num v)
    (fin : ∀ v w m, wd W w = wd W v → Safe V (g (.num w)) m → (∀ z m', Step V (f (.num v)) m z m' → ∃ z', Steps V (g (.num w)) m z' m' ∧ Ref V z z') ∧
      (Ub V (f (.num v)) m → ∃ z' m', Steps V (g (.num w)) m z' m' ∧ Ub V z' m'))
    {x y : E} (h : Ref V x y) : Ref V (f x) (g y) := by
  refine .coind (fun a b => ∃ x y, Ref V x y ∧ a = f x ∧ b = g y) ?_ ⟨x, y, h, rfl, rfl⟩
  rintro _ _ ⟨x, y, h, rfl, rfl⟩
  refine ⟨fun m z m' hs sf => ?_, fun m hu => bad_of fun sf => ?_, fun v hv => absurd hv (hn _ _)⟩
  · rcases red _ _ _ _ hs with ⟨e', h1, rfl⟩ | ⟨v, rfl⟩
    · obtain ⟨y', s1, r1⟩ := h.sim.step _ _ _ h1 (hg.safe sf)
      exact ⟨_, hg.steps s1, Or.inl ⟨e', y', r1, rfl, rfl⟩⟩
    · obtain ⟨w, e, s1⟩ := h.num m (hg.safe sf)
      obtain ⟨z', s2, r⟩ := (fin v w m e (safe_steps sf (hg.steps s1))).1 _ _ hs
      exact ⟨z', (hg.steps s1).trans s2, Or.inr r⟩
  · rcases ubd _ _ hu with h1 | ⟨v, rfl⟩
    · obtain ⟨y', m', s1, u1⟩ := h.sim.ub _ h1
      exact sf _ m' (hg.steps s1) (hg.ub u1)
    · obtain ⟨w, e, s1⟩ := h.num m (hg.safe sf)
      obtain ⟨z', m', s2, r⟩ := (fin v w m e (safe_steps sf (hg.steps s1))).2 hu
      exact sf z' m' ((hg.steps s1).trans s2) r

/-- the same for two operands -/
theorem ref_ctx2 {f g : E → E → E} (hl : ∀ r, Hole V (fun l => g l r)) (hr : ∀ l, Hole V (g l)) (hn : ∀ l r v, f l r ≠ .num v)
    (red : ∀ l r m z m', Step V (f l r) m z m' → (∃ l', Step V l m l' m' ∧ z = f l' r) ∨ (∃ r', Step V r m r' m' ∧ z = f l r') ∨ ∃ v w, l = .num v ∧ r = .num w)
    (ubd : ∀ l r m, Ub V (f l r) m → Ub V l m ∨ Ub V r m ∨ ∃ v w, l = .num v ∧ r = .num w)
    (fin : ∀ v w v' w' m, wd W v' = wd W v → wd W w' = wd W w → Safe V (g (.num v') (.num w')) m →
      (∀ z m', Step V (f (.num v) (.num w)) m z m' → ∃ z', Steps V (g (.num v') (.num w')) m z' m' ∧ Ref V z z') ∧
      (Ub V (f (.num v) (.num w)) m → ∃ z' m', Steps V (g (.num v') (.num w')) m z' m' ∧ Ub V z' m'))
    {l r l' r' : E} (h1 : Ref V l l') (h2 : Ref V r r') : Ref V (f l r) (g l' r') := by
  refine .coind (fun a b => ∃ l r l' r', Ref V l l' ∧ Ref V r r' ∧ a = f l r ∧ b = g l' r') ?_ ⟨l, r, l', r', h1, h2, rfl, rfl⟩
  rintro _ _ ⟨l, r, l', r', h1, h2, rfl, rfl⟩
  have two : ∀ m v w, Safe V (g l' r') m → l = .num v → r = .num w → ∃ v' w', wd W v' = wd W v ∧ wd W w' = wd W w ∧ Steps V (g l' r') m (g (.num v') (.num w')) m := by
    rintro m v w sf rfl rfl
    obtain ⟨v', e1, s1⟩ := h1.num m ((hl r').safe sf)
    obtain ⟨w', e2, s2⟩ := h2.num m ((hr _).safe (safe_steps sf ((hl r').steps s1)))
    exact ⟨v', w', e1, e2, ((hl r').steps s1).trans ((hr _).steps s2)⟩
  refine ⟨fun m z m' hs sf => ?_, fun m hu => bad_of fun sf => ?_, fun v hv => absurd hv (hn _ _ _)⟩
  · rcases red _ _ _ _ _ hs with ⟨e', k, rfl⟩ | ⟨e', k, rfl⟩ | ⟨v, w, ev, ew⟩
    · obtain ⟨y', s1, r1⟩ := h1.sim.step _ _ _ k ((hl r').safe sf)
      exact ⟨_, (hl r').steps s1, Or.inl ⟨e', r, y', r', r1, h2, rfl, rfl⟩⟩
    · obtain ⟨y', s1, r1⟩ := h2.sim.step _ _ _ k ((hr l').safe sf)
      exact ⟨_, (hr l').steps s1, Or.inl ⟨l, e', l', y', h1, r1, rfl, rfl⟩⟩
    · obtain ⟨v', w', e1, e2, s1⟩ := two m v w sf ev ew
      subst ev ew
      obtain ⟨z', s2, r⟩ := (fin v w v' w' m e1 e2 (safe_steps sf s1)).1 _ _ hs
      exact ⟨z', s1.trans s2, Or.inr r⟩
  · rcases ubd _ _ _ hu with k | k | ⟨v, w, ev, ew⟩
    · obtain ⟨y', m', s1, u1⟩ := h1.sim.ub _ k
      exact sf _ m' ((hl r').steps s1) ((hl r').ub u1)
    · obtain ⟨y', m', s1, u1⟩ := h2.sim.ub _ k
      exact sf _ m' ((hr l').steps s1) ((hr l').ub u1)
    · obtain ⟨v', w', e1, e2, s1⟩ := two m v w sf ev ew
      subst ev ew
      obtain ⟨z', m', s2, r⟩ := (fin v w v' w' m e1 e2 (safe_steps sf s1)).2 hu
      exact sf z' m' (s1.trans s2) r

/-! ### operators -/

theorem ref_un (u : Un) {x y : E} (h : Ref V x y) : Ref V (.un u x) (.un u y) := by
  refine ref_ctx (f := .un u) (hole_un V u) (by simp) ?_ ?_ ?_ h
  · intro e m z m' hs
    cases hs with
    | un _ v => exact Or.inr ⟨v, rfl⟩
    | unC k => exact Or.inl ⟨_, k, rfl⟩
  · intro e m hu
    cases hu with
    | unC k => exact Or.inl k
  · intro v w m e _
    refine ⟨fun z m' hs => ?_, fun hu => ?_⟩
    · cases hs with
      | un => exact ⟨_, .one (.un _ _ _), by rw [e]; exact .refl _⟩
      | unC k => nomatch k
    · cases hu with
      | unC k => nomatch k

theorem ref_deref (sz : Int) {x y : E} (h : Ref V x y) : Ref V (.deref sz x) (.deref sz y) := by
  refine ref_ctx (f := .deref sz) (hole_deref V sz) (by simp) ?_ ?_ ?_ h
  · intro e m z m' hs
    cases hs with
    | deref _ v => exact Or.inr ⟨v, rfl⟩
    | derefC k => exact Or.inl ⟨_, k, rfl⟩
  · intro e m hu
    cases hu with
    | deref => exact Or.inr ⟨_, rfl⟩
    | derefC k => exact Or.inl k
  · intro v w m e _
    refine ⟨fun z m' hs => ?_, fun hu => ?_⟩
    · cases hs with
      | deref _ _ _ ha => exact ⟨_, .one (.deref _ _ _ (e ▸ ha)), by rw [e]; exact .refl _⟩
      | derefC k => nomatch k
    · cases hu with
      | deref _ _ _ ha => exact ⟨_, m, .refl _ _, .deref _ _ _ (e ▸ ha)⟩
      | derefC k => nomatch k

theorem ref_bin (o : Ar) {l r l' r' : E} (h1 : Ref V l l') (h2 : Ref V r r') : Ref V (.bin o l r) (.bin o l' r') := by
  refine ref_ctx2 (f := .bin o) (hole_binL V o) (hole_binR V o) (by simp) ?_ ?_ ?_ h1 h2
  · intro l r m z m' hs
    cases hs with
    | bin => exact Or.inr (Or.inr ⟨_, _, rfl, rfl⟩)
    | binL k => exact Or.inl ⟨_, k, rfl⟩
    | binR k => exact Or.inr (Or.inl ⟨_, k, rfl⟩)
  · intro l r m hu
    cases hu with
    | bin => exact Or.inr (Or.inr ⟨_, _, rfl, rfl⟩)
    | binL k => exact Or.inl k
    | binR k => exact Or.inr (Or.inl k)
  · intro v w v' w' m e1 e2 _
    refine ⟨fun z m' hs => ?_, fun hu => ?_⟩
    · cases hs with
      | bin _ ha => exact ⟨_, .one (.bin _ (by rw [e1, e2]; exact ha)), .refl _⟩
      | binL k => nomatch k
      | binR k => nomatch k
    · cases hu with
      | bin _ _ _ _ ha => exact ⟨_, m, .refl _ _, .bin _ _ _ _ (by rw [e1, e2]; exact ha)⟩
      | binL k => nomatch k
      | binR k => nomatch k

theorem ref_cmp (o : Cc) {l r l' r' : E} (h1 : Ref V l l') (h2 : Ref V r r') : Ref V (.cmp o l r) (.cmp o l' r') := by
  refine ref_ctx2 (f := .cmp o) (hole_cmpL V o) (hole_cmpR V o) (by simp) ?_ ?_ ?_ h1 h2
  · intro l r m z m' hs
    cases hs with
    | cmp => exact Or.inr (Or.inr ⟨_, _, rfl, rfl⟩)
    | cmpL k => exact Or.inl ⟨_, k, rfl⟩
    | cmpR k => exact Or.inr (Or.inl ⟨_, k, rfl⟩)
  · intro l r m hu
    cases hu with
    | cmpL k => exact Or.inl k
    | cmpR k => exact Or.inr (Or.inl k)
  · intro v w v' w' m e1 e2 _
    refine ⟨fun z m' hs => ?_, fun hu => ?_⟩
    · cases hs with
      | cmp => exact ⟨_, .one (.cmp _ _ _ _), by rw [e1, e2]; exact .refl _⟩
      | cmpL k => nomatch k
      | cmpR k => nomatch k
    · cases hu with
      | cmpL k => nomatch k
      | cmpR k => nomatch k

/-- conversion depends on the word only -/
def SzOk (W : Nat) (sz : Int) : Prop := sz.natAbs ≤ W

theorem wd_inj_conv {sz v w : Int} (hz : SzOk W sz) (h : wd W v = wd W w) : conv sz v = conv sz w := by
  have hp : (256 : Int) ^ sz.natAbs ∣ 2 ^ (8 * W) := by
    have : (2 : Int) ^ (8 * W) = 256 ^ sz.natAbs * 256 ^ (W - sz.natAbs) := by
      rw [← Int.pow_add, show sz.natAbs + (W - sz.natAbs) = W from Nat.add_sub_cancel' hz, Int.pow_mul]; rfl
    exact ⟨_, this⟩
  have hd : (2 : Int) ^ (8 * W) ∣ v - w := by
    have := congrArg BitVec.toInt h
    simp only [wd, BitVec.toInt_ofInt] at this
    have h2 := Int.emod_emod_of_dvd
    have e1 : (v.bmod (2 ^ (8 * W))) % (2 ^ (8 * W) : Nat) = (w.bmod (2 ^ (8 * W))) % (2 ^ (8 * W) : Nat) := by rw [this]
    rw [Int.bmod_emod, Int.bmod_emod] at e1
    have := Int.emod_emod_of_dvd
    have h3 := Int.dvd_of_emod_eq_zero (Int.emod_eq_emod_iff_emod_sub_eq_zero.mp e1)
    simpa using h3
  have hd2 : (256 : Int) ^ sz.natAbs ∣ v - w := Int.dvd_trans hp hd
  have e : v % 256 ^ sz.natAbs = w % 256 ^ sz.natAbs := Int.emod_eq_emod_iff_emod_sub_eq_zero.mpr (Int.emod_eq_zero_of_dvd hd2)
  unfold conv
  split
  · exact e
  · rw [Int.bmod_def, Int.bmod_def]
    have : ((256 ^ sz.natAbs : Nat) : Int) = 256 ^ sz.natAbs := by simp
    rw [this, e]

theorem ref_asg (sz : Int) (hz : SzOk W sz) {l r l' r' : E} (h1 : Ref V l l') (h2 : Ref V r r') : Ref V (.asg sz l r) (.asg sz l' r') := by
  refine ref_ctx2 (f := .asg sz) (hole_asgL V sz) (hole_asgR V sz) (by simp) ?_ ?_ ?_ h1 h2
  · intro l r m z m' hs
    cases hs with
    | asg => exact Or.inr (Or.inr ⟨_, _, rfl, rfl⟩)
    | asgL k => exact Or.inl ⟨_, k, rfl⟩
    | asgR k => exact Or.inr (Or.inl ⟨_, k, rfl⟩)
  · intro l r m hu
    cases hu with
    | asg => exact Or.inr (Or.inr ⟨_, _, rfl, rfl⟩)
    | asgL k => exact Or.inl k
    | asgR k => exact Or.inr (Or.inl k)
  · intro v w v' w' m e1 e2 _
    refine ⟨fun z m' hs => ?_, fun hu => ?_⟩
    · cases hs with
      | asg _ _ _ _ ha => exact ⟨_, by rw [← e1, ← e2]; exact .one (.asg _ _ _ _ (e1 ▸ ha)), by rw [wd_inj_conv hz e2]; exact .refl _⟩
      | asgL k => nomatch k
      | asgR k => nomatch k
    · cases hu with
      | asg _ _ _ _ ha => exact ⟨_, m, .refl _ _, .asg _ _ _ _ (e1 ▸ ha)⟩
      | asgL k => nomatch k
      | asgR k => nomatch k

theorem ref_asgo (o : Ar) (sz : Int) (hz : SzOk W sz) {l r l' r' : E} (h1 : Ref V l l') (h2 : Ref V r r') : Ref V (.asgo o sz l r) (.asgo o sz l' r') := by
  refine .coind (fun a b => ∃ l r l' r', Ref V l l' ∧ Ref V r r' ∧ a = .asgo o sz l r ∧ b = .asgo o sz l' r') ?_ ⟨l, r, l', r', h1, h2, rfl, rfl⟩
  rintro _ _ ⟨l, r, l', r', h1, h2, rfl, rfl⟩
  refine ⟨fun m z m' hs sf => ?_, fun m hu => ?_, fun v hv => nomatch hv⟩
  · cases hs with
    | asgo _ _ a =>
      obtain ⟨w, e, s1⟩ := h1.num m ((hole_asgoL V o sz r').safe sf)
      refine ⟨_, ((hole_asgoL V o sz r').steps s1).trans (.one (.asgo _ _ _ _ _)), Or.inr ?_⟩
      have := ref_num_eq (V := V) e.symm
      exact ref_asg sz hz this (ref_bin o (ref_deref sz this) h2)
    | asgoL k =>
      obtain ⟨y', s1, r1⟩ := h1.sim.step _ _ _ k ((hole_asgoL V o sz r').safe sf)
      exact ⟨_, (hole_asgoL V o sz r').steps s1, Or.inl ⟨_, r, y', r', r1, h2, rfl, rfl⟩⟩
    | asgoR k =>
      obtain ⟨y', s1, r1⟩ := h2.sim.step _ _ _ k ((hole_asgoR V o sz l').safe sf)
      exact ⟨_, (hole_asgoR V o sz l').steps s1, Or.inl ⟨l, _, l', y', h1, r1, rfl, rfl⟩⟩
  · cases hu with
    | asgoL k =>
      obtain ⟨y', m', s1, u1⟩ := h1.sim.ub _ k
      exact ⟨_, m', (hole_asgoL V o sz r').steps s1, (hole_asgoL V o sz r').ub u1⟩
    | asgoR k =>
      obtain ⟨y', m', s1, u1⟩ := h2.sim.ub _ k
      exact ⟨_, m', (hole_asgoR V o sz l').steps s1, (hole_asgoR V o sz l').ub u1⟩

/-- the same if the right operand is a number, and another one in the old expression -/
theorem ref_asgo_num (o : Ar) (sz : Int) (hz : SzOk W sz) {k : Int} {l l' r' : E} (h1 : Ref V l l') (hb : ∀ x y, Ref V x y → Ref V (.bin o x (.num k)) (.bin o y r')) :
    Ref V (.asgo o sz l (.num k)) (.asgo o sz l' r') := by
  refine ref_ctx (f := fun l => .asgo o sz l (.num k)) (g := fun l => .asgo o sz l r') (hole_asgoL V o sz _) (by simp) ?_ ?_ ?_ h1
  · intro e m z m' hs
    cases hs with
    | asgo => exact Or.inr ⟨_, rfl⟩
    | asgoL k => exact Or.inl ⟨_, k, rfl⟩
    | asgoR k => nomatch k
  · intro e m hu
    cases hu with
    | asgoL k => exact Or.inl k
    | asgoR k => nomatch k
  · intro v w m e _
    have he := ref_num_eq (V := V) e.symm
    refine ⟨fun z m' hs => ?_, fun hu => ?_⟩
    · cases hs with
      | asgo => exact ⟨_, .one (.asgo _ _ _ _ _), ref_asg sz hz he (hb _ _ (ref_deref sz he))⟩
      | asgoL k => nomatch k
      | asgoR k => nomatch k
    · cases hu with
      | asgoL k => nomatch k
      | asgoR k => nomatch k

/-- a right operand that is a number may be replaced by another one if the operator has no value for it -/
theorem ref_bin_none (o : Ar) {k k' : Int} {l l' r' : E} (h1 : Ref V l l') (h2 : Ref V (.num k) r') (hk : ∀ x, arith o x (wd W k) = none) :
    Ref V (.bin o l (.num k')) (.bin o l' r') := by
  have key : ∀ v m, Safe V (.bin o (.num v) r') m → False := by
    intro v m sf
    obtain ⟨w, e, s⟩ := h2.num m ((hole_binR V o _).safe sf)
    exact safe_steps sf ((hole_binR V o (.num v)).steps s) _ _ (.refl _ _) (.bin _ _ _ _ (by rw [e]; exact hk _))
  refine ref_ctx (f := fun l => .bin o l (.num k')) (g := fun l => .bin o l r') (hole_binL V o _) (by simp) ?_ ?_ ?_ h1
  · intro e m z m' hs
    cases hs with
    | bin => exact Or.inr ⟨_, rfl⟩
    | binL k => exact Or.inl ⟨_, k, rfl⟩
    | binR k => nomatch k
  · intro e m hu
    cases hu with
    | bin => exact Or.inr ⟨_, rfl⟩
    | binL k => exact Or.inl k
    | binR k => nomatch k
  · intro v w m e sf
    exact (key _ _ sf).elim

/-- prefix operators -/
theorem ref_preInc (k : IncK) (hk : k = .inc ∨ k = .dec) (sz n : Int) (hn : n = 1) (hz : SzOk W sz) {x y : E} (h : Ref V x y) :
    Ref V (.inc k sz x) (.asgo (if k = .dec then .sub else .add) sz y (.num n)) := by
  subst hn
  refine ref_ctx (f := .inc k sz) (g := fun y => .asgo (if k = .dec then .sub else .add) sz y (.num 1)) (hole_asgoL V _ sz _) (by simp) ?_ ?_ ?_ h
  · intro e m z m' hs
    cases hs with
    | incC k => exact Or.inl ⟨_, k, rfl⟩
    | _ => exact Or.inr ⟨_, rfl⟩
  · intro e m hu
    cases hu with
    | inc => exact Or.inr ⟨_, rfl⟩
    | incC k => exact Or.inl k
  · intro v w m e _
    refine ⟨fun z m' hs => ?_, fun hu => ?_⟩
    · cases hs with
      | preInc => exact ⟨_, .refl _ _, ref_asgo _ sz hz (ref_num_eq e.symm) (.refl _)⟩
      | preDec => exact ⟨_, .refl _ _, ref_asgo _ sz hz (ref_num_eq e.symm) (.refl _)⟩
      | postInc => rcases hk with hk | hk <;> cases hk
      | postDec => rcases hk with hk | hk <;> cases hk
      | incC k => nomatch k
    · cases hu with
      | inc _ _ _ _ ha =>
        refine ⟨_, m, .one (.asgo _ _ _ _ _), ?_⟩
        exact .asgR (.binL (.deref _ _ _ (e ▸ ha)))
      | incC k => nomatch k

/-- postfix operators -/
theorem ref_postInc (k : IncK) (hk : k = .pinc ∨ k = .pdec) (sz n : Int) (hn : n = 1) {x y : E} (h : Ref V x y) :
    Ref V (.inc k sz x) (.padd (k = .pdec) sz n y) := by
  subst hn
  refine ref_ctx (f := .inc k sz) (g := .padd (k = .pdec) sz 1) (hole_padd V _ sz _) (by simp) ?_ ?_ ?_ h
  · intro e m z m' hs
    cases hs with
    | incC k => exact Or.inl ⟨_, k, rfl⟩
    | _ => exact Or.inr ⟨_, rfl⟩
  · intro e m hu
    cases hu with
    | inc => exact Or.inr ⟨_, rfl⟩
    | incC k => exact Or.inl k
  · intro v w m e _
    refine ⟨fun z m' hs => ?_, fun hu => ?_⟩
    · cases hs with
      | preInc => rcases hk with hk | hk <;> cases hk
      | preDec => rcases hk with hk | hk <;> cases hk
      | postInc _ _ _ ha => exact ⟨_, by rw [← e]; exact .one (.postAdd _ _ _ _ (e ▸ ha)), by rw [e]; exact .refl _⟩
      | postDec _ _ _ ha => exact ⟨_, by rw [← e]; exact .one (.postSub _ _ _ _ (e ▸ ha)), by rw [e]; exact .refl _⟩
      | incC k => nomatch k
    · cases hu with
      | inc _ _ _ _ ha => exact ⟨_, m, .refl _ _, .padd _ _ _ _ _ (e ▸ ha)⟩
      | incC k => nomatch k

theorem ref_padd (b : Bool) (sz : Int) {n n' : Int} (hn : wd W n = wd W n') {x y : E} (h : Ref V x y) : Ref V (.padd b sz n x) (.padd b sz n' y) := by
  refine ref_ctx (f := .padd b sz n) (hole_padd V b sz n') (by simp) ?_ ?_ ?_ h
  · intro e m z m' hs
    cases hs with
    | paddC k => exact Or.inl ⟨_, k, rfl⟩
    | _ => exact Or.inr ⟨_, rfl⟩
  · intro e m hu
    cases hu with
    | padd => exact Or.inr ⟨_, rfl⟩
    | paddC k => exact Or.inl k
  · intro v w m e _
    have h1 : ∀ a, wd W (a + n) = wd W (a + n') := fun a => by
      show BitVec.ofInt _ _ = BitVec.ofInt _ _
      rw [BitVec.ofInt_add, BitVec.ofInt_add]; congr 1
    have h2 : ∀ a, wd W (a - n) = wd W (a - n') := fun a => by
      show BitVec.ofInt _ _ = BitVec.ofInt _ _
      rw [Int.sub_eq_add_neg, Int.sub_eq_add_neg, BitVec.ofInt_add, BitVec.ofInt_add, BitVec.ofInt_neg, BitVec.ofInt_neg]; congr 2
    refine ⟨fun z m' hs => ?_, fun hu => ?_⟩
    · cases hs with
      | postAdd _ _ _ _ ha => exact ⟨_, by rw [← e, h1]; exact .one (.postAdd _ _ _ _ (e ▸ ha)), by rw [e]; exact .refl _⟩
      | postSub _ _ _ _ ha => exact ⟨_, by rw [← e, h2]; exact .one (.postSub _ _ _ _ (e ▸ ha)), by rw [e]; exact .refl _⟩
      | paddC k => nomatch k
    · cases hu with
      | padd _ _ _ _ _ ha => exact ⟨_, m, .refl _ _, .padd _ _ _ _ _ (e ▸ ha)⟩
      | paddC k => nomatch k

theorem ref_land (a b : Int) {l r l' r' : E} (h1 : Ref V l l') (h2 : Ref V r r') : Ref V (.land a l r) (.land b l' r') := by
  refine ref_ctx (f := fun l => .land a l r) (g := fun l => .land b l r') (hole_land V b r') (by simp) ?_ ?_ ?_ h1
  · intro e m z m' hs
    cases hs with
    | landC k => exact Or.inl ⟨_, k, rfl⟩
    | _ => exact Or.inr ⟨_, rfl⟩
  · intro e m hu
    cases hu with
    | landC k => exact Or.inl k
  · intro v w m e _
    refine ⟨fun z m' hs => ?_, fun hu => ?_⟩
    · cases hs with
      | landF _ _ _ _ k => exact ⟨_, .one (.landF _ _ _ _ (e.trans k)), .refl _⟩
      | landT _ _ _ _ k => exact ⟨_, .one (.landT _ _ _ _ (e ▸ k)), ref_un _ h2⟩
      | landC k => nomatch k
    · cases hu with
      | landC k => nomatch k

theorem ref_lor (a b : Int) {l r l' r' : E} (h1 : Ref V l l') (h2 : Ref V r r') : Ref V (.lor a l r) (.lor b l' r') := by
  refine ref_ctx (f := fun l => .lor a l r) (g := fun l => .lor b l r') (hole_lor V b r') (by simp) ?_ ?_ ?_ h1
  · intro e m z m' hs
    cases hs with
    | lorC k => exact Or.inl ⟨_, k, rfl⟩
    | _ => exact Or.inr ⟨_, rfl⟩
  · intro e m hu
    cases hu with
    | lorC k => exact Or.inl k
  · intro v w m e _
    refine ⟨fun z m' hs => ?_, fun hu => ?_⟩
    · cases hs with
      | lorF _ _ _ _ k => exact ⟨_, .one (.lorF _ _ _ _ (e.trans k)), ref_un _ h2⟩
      | lorT _ _ _ _ k => exact ⟨_, .one (.lorT _ _ _ _ (e ▸ k)), .refl _⟩
      | lorC k => nomatch k
    · cases hu with
      | lorC k => nomatch k

theorem ref_cond (a b : Int) {c m r c' m' r' : E} (h1 : Ref V c c') (h2 : Ref V m m') (h3 : Ref V r r') : Ref V (.cond a c m r) (.cond b c' m' r') := by
  refine ref_ctx (f := fun c => .cond a c m r) (g := fun c => .cond b c m' r') (hole_cond V b m' r') (by simp) ?_ ?_ ?_ h1
  · intro e m z m' hs
    cases hs with
    | condC k => exact Or.inl ⟨_, k, rfl⟩
    | _ => exact Or.inr ⟨_, rfl⟩
  · intro e m hu
    cases hu with
    | condC k => exact Or.inl k
  · intro v w m e _
    refine ⟨fun z m' hs => ?_, fun hu => ?_⟩
    · cases hs with
      | condT _ _ _ _ _ k => exact ⟨_, .one (.condT _ _ _ _ _ (e ▸ k)), h2⟩
      | condF _ _ _ _ _ k => exact ⟨_, .one (.condF _ _ _ _ _ (e.trans k)), h3⟩
      | condC k => nomatch k
    · cases hu with
      | condC k => nomatch k

theorem ref_comma {l r l' r' : E} (h1 : Ref V l l') (h2 : Ref V r r') : Ref V (.comma l r) (.comma l' r') := by
  refine ref_ctx (f := fun l => .comma l r) (g := fun l => .comma l r') (hole_comma V r') (by simp) ?_ ?_ ?_ h1
  · intro e m z m' hs
    cases hs with
    | commaC k => exact Or.inl ⟨_, k, rfl⟩
    | _ => exact Or.inr ⟨_, rfl⟩
  · intro e m hu
    cases hu with
    | commaC k => exact Or.inl k
  · intro v w m e _
    refine ⟨fun z m' hs => ?_, fun hu => ?_⟩
    · cases hs with
      | comma => exact ⟨_, .one (.comma _ _ _), h2⟩
      | commaC k => nomatch k
    · cases hu with
      | commaC k => nomatch k

end Smlr.Trans
