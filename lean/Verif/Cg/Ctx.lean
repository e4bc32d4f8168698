import Verif.Cg.Ops3
set_option autoImplicit false
/-! Evaluation inside of a larger expression; what is left of an operand after its code has run. -/
namespace Smlr.Cg
variable {W : Nat}

theorem Steps.trans {V : Env W} {a b c : E} {m n k : Mem W} (h : Steps V a m b n) (h' : Steps V b n c k) : Steps V a m c k := by
  induction h with
  | refl => exact h'
  | step hs _ ih => exact .step hs (ih h')

theorem Steps.one {V : Env W} {a b : E} {m n : Mem W} (h : Step V a m b n) : Steps V a m b n := .step h (.refl _ _)

theorem Safe.steps {V : Env W} {a b : E} {m n : Mem W} (h : Safe V a m) (h' : Steps V a m b n) : Safe V b n :=
  fun e k hk => h e k (h'.trans hk)

/-- a place in an expression where evaluation may happen -/
structure Hole (V : Env W) (f : E → E) : Prop where
  step : ∀ {e e' : E} {m m' : Mem W}, Step V e m e' m' → Step V (f e) m (f e') m'
  ub : ∀ {e : E} {m : Mem W}, Ub V e m → Ub V (f e) m

theorem Hole.steps {V : Env W} {f : E → E} (hf : Hole V f) {e e' : E} {m m' : Mem W} (h : Steps V e m e' m') :
    Steps V (f e) m (f e') m' := by
  induction h with
  | refl => exact .refl _ _
  | step hs _ ih => exact .step (hf.step hs) ih

theorem Hole.safe {V : Env W} {f : E → E} (hf : Hole V f) {e : E} {m : Mem W} (h : Safe V (f e) m) : Safe V e m :=
  fun e' m' hs hu => h (f e') m' (hf.steps hs) (hf.ub hu)

theorem Hole.comp {V : Env W} {f g : E → E} (hf : Hole V f) (hg : Hole V g) : Hole V (fun e => f (g e)) :=
  ⟨fun h => hf.step (hg.step h), fun h => hf.ub (hg.ub h)⟩

theorem hole_deref (V : Env W) (sz : Int) : Hole V (.deref sz) := ⟨.derefC, .derefC⟩
theorem hole_un (V : Env W) (u : Un) : Hole V (.un u) := ⟨.unC, .unC⟩
theorem hole_inc (V : Env W) (k : IncK) (sz : Int) : Hole V (.inc k sz) := ⟨.incC, .incC⟩
theorem hole_padd (V : Env W) (b : Bool) (sz n : Int) : Hole V (.padd b sz n) := ⟨.paddC, .paddC⟩
theorem hole_binL (V : Env W) (o : Ar) (r : E) : Hole V (fun l => .bin o l r) := ⟨.binL, .binL⟩
theorem hole_binR (V : Env W) (o : Ar) (l : E) : Hole V (fun r => .bin o l r) := ⟨.binR, .binR⟩
theorem hole_cmpL (V : Env W) (o : Cc) (r : E) : Hole V (fun l => .cmp o l r) := ⟨.cmpL, .cmpL⟩
theorem hole_cmpR (V : Env W) (o : Cc) (l : E) : Hole V (fun r => .cmp o l r) := ⟨.cmpR, .cmpR⟩
theorem hole_asgL (V : Env W) (sz : Int) (r : E) : Hole V (fun l => .asg sz l r) := ⟨.asgL, .asgL⟩
theorem hole_asgR (V : Env W) (sz : Int) (l : E) : Hole V (fun r => .asg sz l r) := ⟨.asgR, .asgR⟩
theorem hole_asgoL (V : Env W) (o : Ar) (sz : Int) (r : E) : Hole V (fun l => .asgo o sz l r) := ⟨.asgoL, .asgoL⟩
theorem hole_asgoR (V : Env W) (o : Ar) (sz : Int) (l : E) : Hole V (fun r => .asgo o sz l r) := ⟨.asgoR, .asgoR⟩
theorem hole_land (V : Env W) (k : Int) (r : E) : Hole V (fun l => .land k l r) := ⟨.landC, .landC⟩
theorem hole_lor (V : Env W) (k : Int) (r : E) : Hole V (fun l => .lor k l r) := ⟨.lorC, .lorC⟩
theorem hole_cond (V : Env W) (k : Int) (a b : E) : Hole V (fun c => .cond k c a b) := ⟨.condC, .condC⟩
theorem hole_comma (V : Env W) (r : E) : Hole V (fun l => .comma l r) := ⟨.commaC, .commaC⟩

/-- the object of an operand may be accessed -/
def opacc (V : Env W) (c : Cls) (a : Wd W) : Prop :=
  match c with
  | .dId sz x => Acc V.A (V.G x) sz
  | .dLoc sz o => Acc V.A (V.bp + wd W o) sz
  | .dAcc sz => Acc V.A a sz
  | _ => True

/-- an expression that remains of an operand: it evaluates to the value of the operand without changing memory -/
def Ends (V : Env W) (c : Cls) (a : Wd W) (e : E) : Prop :=
  ∀ m, Safe V e m → opacc V c a ∧ ∃ w, Steps V e m (.num w) m ∧ wd W w = opv V.G V.bp m c a

theorem ends_plus {V : Env W} {c : Cls} {a : Wd W} {e : E} (h : Ends V c a e) : Ends V c a (.un .plus e) := by
  intro m hs
  obtain ⟨h1, w, h2, h3⟩ := h m ((hole_un V .plus).safe hs)
  exact ⟨h1, _, ((hole_un V .plus).steps h2).trans (.one (.un _ _ _)), by rw [← h3]; exact wd_toInt _⟩

theorem ends_acc (V : Env W) (v : Int) : Ends V .acc (wd W v) (.num v) :=
  fun _ _ => ⟨trivial, v, .refl _ _, rfl⟩

theorem acc_of_safe {V : Env W} {sz a : Int} {m : Mem W} (h : Safe V (.deref sz (.num a)) m) : Acc V.A (wd W a) sz :=
  Classical.byContradiction fun hn => h _ _ (.refl _ _) (.deref _ _ _ hn)

theorem ends_dacc (V : Env W) (sz a : Int) : Ends V (.dAcc sz) (wd W a) (.deref sz (.num a)) := by
  intro m hs
  have h := acc_of_safe hs
  exact ⟨h, _, .one (.deref _ _ _ h), rfl⟩

theorem ends_leaf (V : Env W) (e : E) (a : Wd W) (h : (cls e).isAcc = false) : Ends V (cls e) a e := by
  induction e with
  | num v => exact fun _ _ => ⟨trivial, v, .refl _ _, rfl⟩
  | glob x => exact fun m _ => ⟨trivial, _, .one (.glob x m), wd_toInt _⟩
  | loc x => exact fun m _ => ⟨trivial, _, .one (.loc x m), wd_toInt _⟩
  | un u e ih =>
    cases u <;> first | exact Bool.noConfusion h | exact ends_plus (ih h)
  | deref sz e ih =>
    simp only [cls] at h ⊢
    cases hc : cls e with
    | id x =>
      rw [hc] at ih
      intro m hs
      obtain ⟨_, w, h2, h3⟩ := ih rfl m ((hole_deref V sz).safe hs)
      have h4 := (hole_deref V sz).steps h2
      have h5 := acc_of_safe (hs.steps h4)
      have h6 := h4.trans (.one (.deref _ _ _ h5))
      rw [h3] at h5
      refine ⟨h5, _, h6, by rw [h3]; rfl⟩
    | loc x =>
      rw [hc] at ih
      intro m hs
      obtain ⟨_, w, h2, h3⟩ := ih rfl m ((hole_deref V sz).safe hs)
      have h4 := (hole_deref V sz).steps h2
      have h5 := acc_of_safe (hs.steps h4)
      have h6 := h4.trans (.one (.deref _ _ _ h5))
      rw [h3] at h5
      refine ⟨h5, _, h6, by rw [h3]; rfl⟩
    | num v => rw [hc] at h; cases h
    | dId s v => rw [hc] at h; cases h
    | dLoc s v => rw [hc] at h; cases h
    | dAcc s => rw [hc] at h; cases h
    | acc => rw [hc] at h; cases h
  | _ => exact Bool.noConfusion h

/-- the class of the object that an address designates -/
def lc (sz : Int) : Cls → Cls
  | .id x => .dId sz x
  | .loc o => .dLoc sz o
  | _ => .dAcc sz

/-- the address of the object of an operand -/
def opa (G : Int → Wd W) (bp : Wd W) (c : Cls) (a : Wd W) : Wd W :=
  match c with
  | .dId _ x => G x
  | .dLoc _ o => bp + wd W o
  | _ => a

/-- what remains of an operand that is an address -/
def AEnds (V : Env W) (c : Cls) (a : Wd W) (e : E) : Prop :=
  ∀ m, Safe V e m → ∃ w, Steps V e m (.num w) m ∧ wd W w = opa V.G V.bp c a

theorem aends_leaf (V : Env W) (sz : Int) (e : E) (a : Wd W) (h : (lc sz (cls e)).isAcc = false) : AEnds V (lc sz (cls e)) a e := by
  intro m hs
  cases hc : cls e with
  | id x =>
    obtain ⟨_, w, h2, h3⟩ := ends_leaf V e a (by rw [hc]; rfl) m hs
    rw [hc] at h3
    exact ⟨w, h2, h3⟩
  | loc x =>
    obtain ⟨_, w, h2, h3⟩ := ends_leaf V e a (by rw [hc]; rfl) m hs
    rw [hc] at h3
    exact ⟨w, h2, h3⟩
  | num v => rw [hc] at h; cases h
  | dId s v => rw [hc] at h; cases h
  | dLoc s v => rw [hc] at h; cases h
  | dAcc s => rw [hc] at h; cases h
  | acc => rw [hc] at h; cases h

theorem aends_acc (V : Env W) (c : Cls) (h : c.isAcc = true) (v : Int) : AEnds V c (wd W v) (.num v) := by
  intro m _
  refine ⟨v, .refl _ _, ?_⟩
  cases c <;> first | rfl | exact Bool.noConfusion h

theorem lc_isAcc {sz : Int} {c : Cls} (h : (lc sz c).isAcc = true) : lc sz c = .dAcc sz := by
  cases c <;> first | rfl | exact Bool.noConfusion h

/-- bytes of objects are the same in the two memories -/
def Agree (A : Wd W → Prop) (M m : Mem W) : Prop := ∀ a, A a → M a = m a

theorem agree_val {A : Wd W → Prop} {M m : Mem W} (h : Agree A M m) {a : Wd W} {sz : Int} (ha : Acc A a sz) : val M a sz = val m a sz := by
  rw [val, val, ld_congr M m a _ (fun i hi => h _ (ha i hi))]

theorem agree_upd {A : Wd W → Prop} {M m : Mem W} (h : Agree A M m) (a : Wd W) (sz : Int) (x : Wd W) :
    Agree A (upd M a sz x) (upd m a sz x) := fun b hb => st_congr _ _ _ _ _ _ (h b hb)

theorem agree_opv {V : Env W} {M m : Mem W} (h : Agree V.A M m) {c : Cls} {a : Wd W} (ha : opacc V c a) :
    opv V.G V.bp M c a = opv V.G V.bp m c a := by
  cases c with
  | dId sz x => exact congrArg (wd W) (agree_val h ha)
  | dLoc sz x => exact congrArg (wd W) (agree_val h ha)
  | dAcc sz => exact congrArg (wd W) (agree_val h ha)
  | _ => rfl

/-- such an operand evaluates to zero or one -/
theorem bool_val {V : Env W} {e e' : E} {m m' : Mem W} (h : Steps V e m e' m') : ∀ v, e' = .num v → e.isBool = true → v = 0 ∨ v = 1 := by
  induction h with
  | refl =>
    intro v hv hc
    subst hv
    simpa [E.isBool] using hc
  | step hs _ ih =>
    intro v hv hc
    apply ih v hv
    have hb : ∀ b : Bool, (E.num (b2i b)).isBool = true := by intro b; cases b <;> rfl
    cases hs with
    | un u a => cases u <;> first | exact hb _ | exact Bool.noConfusion hc
    | @unC u _ _ _ _ _ => cases u <;> first | rfl | exact Bool.noConfusion hc
    | cmp => exact hb _
    | cmpL => rfl
    | cmpR => rfl
    | _ => exact Bool.noConfusion hc

end Smlr.Cg
