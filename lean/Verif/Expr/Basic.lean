import Verif.Expr.Tree
set_option autoImplicit false
/-! Rules for the simulation of computations on the stack by computations on trees. -/
namespace Smlr.Expr

theorem bind_ok {σ α β : Type} {x : MS σ α} {f : α → MS σ β} {s s' : σ} {a : α} (h : x s = .ok (a, s')) : (x >>= f) s = f a s' := by
  show MS.bind x f s = _
  simp only [MS.bind, h]

theorem bind_error {σ α β : Type} {x : MS σ α} {f : α → MS σ β} {s : σ} {e : Err} (h : x s = .error e) : (x >>= f) s = .error e := by
  show MS.bind x f s = _
  simp only [MS.bind, h]

theorem bind_eq_ok {σ α β : Type} {x : MS σ α} {f : α → MS σ β} {s s'' : σ} {b : β} (h : (x >>= f) s = .ok (b, s'')) :
    ∃ a s', x s = .ok (a, s') ∧ f a s' = .ok (b, s'') := by
  cases hx : x s with
  | error e => rw [bind_error hx] at h; cases h
  | ok p => obtain ⟨a, s'⟩ := p; rw [bind_ok hx] at h; exact ⟨a, s', rfl, h⟩

theorem pure_eq_ok {σ α : Type} {a b : α} {s s' : σ} (h : (pure a : MS σ α) s = .ok (b, s')) : a = b ∧ s = s' := by
  have : (Except.ok (a, s) : Except Err _) = .ok (b, s') := h
  injection this with this
  injection this with h1 h2
  exact ⟨h1, h2⟩

theorem chk_eq_ok {σ α : Type} {x : Except Err α} {b : α} {s s' : σ} (h : (chk x : MS σ α) s = .ok (b, s')) : x = .ok b ∧ s = s' := by
  unfold chk at h
  cases x with
  | error e => cases h
  | ok a => injection h with h; injection h with h1 h2; exact ⟨by rw [h1], h2⟩

theorem failIf_eq_ok {σ : Type} {p : Prop} [Decidable p] {e : Err} {u : Unit} {s s' : σ} (h : (failIf p e : MS σ Unit) s = .ok (u, s')) : ¬ p ∧ s = s' := by
  obtain ⟨h1, h2⟩ := chk_eq_ok h
  refine ⟨fun hp => ?_, h2⟩
  rw [if_pos hp] at h1
  cases h1

/-- `x`, started on `st`, runs out of space or does what `y` does; `out` gives the outcome -/
def Sim {α β : Type} (x : M α) (st : St) (y : N β) (ns : NS) (out : β → NS → α × St) : Prop :=
  x st = .error .long ∨ x st = match y ns with
    | .error e => .error e
    | .ok (b, ns') => .ok (out b ns')

variable {α β γ δ : Type} {st st' : St} {ns : NS}

theorem sim_bind {x : M α} {y : N β} {out : β → NS → α × St} {f : α → M γ} {g : β → N δ} {out2 : δ → NS → γ × St}
    (h : Sim x st y ns out) (k : ∀ b ns', y ns = .ok (b, ns') → Sim (f (out b ns').1) (out b ns').2 (g b) ns' out2) :
    Sim (x >>= f) st (y >>= g) ns out2 := by
  unfold Sim at h
  rcases h with h | h
  · exact Or.inl (bind_error h)
  · cases hy : y ns with
    | error e => rw [hy] at h; right; rw [bind_error h, bind_error hy]
    | ok p =>
      obtain ⟨b, ns'⟩ := p
      rw [hy] at h
      have := k b ns' hy
      unfold Sim at this ⊢
      rw [bind_ok (a := (out b ns').1) (s' := (out b ns').2) h, bind_ok hy]
      exact this

theorem sim_step {x : M α} {f : α → M γ} {y : N δ} {out : δ → NS → γ × St} {a : α} (h : x st = .ok (a, st')) (k : Sim (f a) st' y ns out) :
    Sim (x >>= f) st y ns out := by
  unfold Sim at k ⊢
  rw [bind_ok h]; exact k

theorem sim_pure {a : α} {b : β} {out : β → NS → α × St} (h : out b ns = (a, st)) : Sim (pure a : M α) st (pure b) ns out := by
  right
  show Except.ok (a, st) = Except.ok (out b ns)
  rw [h]

theorem sim_fail {e : Err} {out : β → NS → α × St} : Sim (fail e : M α) st (fail e : N β) ns out := Or.inr rfl

theorem sim_chk {x : Except Err α} {f : α → M γ} {g : α → N δ} {out : δ → NS → γ × St} (k : ∀ a, x = .ok a → Sim (f a) st (g a) ns out) :
    Sim ((chk x : M α) >>= f) st ((chk x : N α) >>= g) ns out :=
  sim_bind (out := fun a ns' => (a, st)) (by
    right; unfold chk; cases x <;> rfl) (fun b ns' h => by
    obtain ⟨h1, h2⟩ := chk_eq_ok h
    subst h2
    exact k b h1)

theorem sim_failIf {p : Prop} [Decidable p] {e : Err} {f : Unit → M γ} {g : Unit → N δ} {out : δ → NS → γ × St} (k : ¬ p → Sim (f ()) st (g ()) ns out) :
    Sim ((failIf p e : M Unit) >>= f) st ((failIf p e : N Unit) >>= g) ns out :=
  sim_chk (fun a h => k (fun hp => by rw [if_pos hp] at h; cases h))

theorem sim_ite {p : Prop} [Decidable p] {x x' : M α} {y y' : N β} {out : β → NS → α × St} (h : p → Sim x st y ns out) (h' : ¬ p → Sim x' st y' ns out) :
    Sim (if p then x else x') st (if p then y else y') ns out := by
  by_cases hp : p
  · rw [if_pos hp, if_pos hp]; exact h hp
  · rw [if_neg hp, if_neg hp]; exact h' hp

theorem bind_pure_N (y : N β) : (y >>= pure) = y := by
  funext s
  show MS.bind y pure s = y s
  unfold MS.bind
  cases y s with
  | error e => rfl
  | ok p => rfl

theorem sim_bind' {x : M α} {y : N β} {out : β → NS → α × St} {f : α → M γ} {out2 : β → NS → γ × St}
    (h : Sim x st y ns out) (k : ∀ b ns', y ns = .ok (b, ns') → Sim (f (out b ns').1) (out b ns').2 (pure b : N β) ns' out2) :
    Sim (x >>= f) st y ns out2 := by
  rw [← bind_pure_N y]; exact sim_bind h k

/-! ### the stack -/

variable {stk X Y Z : List (Tok × V)} {p q : Int} {lab : Nat} {ws : List Warn} {x : Tok × V}

theorem getSp_eq : getSp ⟨stk, lab, ws⟩ = .ok ((stk.length : Int), ⟨stk, lab, ws⟩) := rfl

theorem getTok_at (h : stk = X ++ x :: Y) (hp : p = X.length) : getTok p ⟨stk, lab, ws⟩ = .ok (x, ⟨stk, lab, ws⟩) := by
  subst h hp
  unfold getTok
  rw [if_neg (by omega)]
  simp

theorem setTok_at {y : Tok × V} (h : stk = X ++ x :: Y) (hp : p = X.length) : setTok p y ⟨stk, lab, ws⟩ = .ok ((), ⟨X ++ y :: Y, lab, ws⟩) := by
  subst h hp
  unfold setTok
  rw [if_neg (by simp)]
  simp

theorem setKind_at {tok : Tok} (h : stk = X ++ x :: Y) (hp : p = X.length) : setKind p tok ⟨stk, lab, ws⟩ = .ok ((), ⟨X ++ (tok, x.2) :: Y, lab, ws⟩) := by
  unfold setKind
  rw [bind_ok (getTok_at h hp), setTok_at h hp]

theorem setVal_at {v : V} (h : stk = X ++ x :: Y) (hp : p = X.length) : setVal p v ⟨stk, lab, ws⟩ = .ok ((), ⟨X ++ (x.1, v) :: Y, lab, ws⟩) := by
  unfold setVal
  rw [bind_ok (getTok_at h hp), setTok_at h hp]

theorem del_at (h : stk = X ++ Z ++ Y) (hp : p = X.length) (hq : q = Z.length) : del p q ⟨stk, lab, ws⟩ = .ok ((), ⟨X ++ Y, lab, ws⟩) := by
  subst h hp hq
  unfold del
  rw [if_neg (by simp; omega)]
  have : ((X.length : Int) + (Z.length : Int)).toNat = (X ++ Z).length := by simp; omega
  rw [this, List.drop_left]
  simp

theorem sim_ins {f : Unit → M γ} {y : N δ} {out : δ → NS → γ × St} {tok : Tok} {v : V} (h : stk = X ++ Y) (hp : p = X.length)
    (k : Sim (f ()) ⟨X ++ (tok, v) :: Y, lab, ws⟩ y ns out) : Sim (ins2 p tok v >>= f) ⟨stk, lab, ws⟩ y ns out := by
  subst h hp
  by_cases hl : (X ++ Y).length ≥ stackSize
  · left
    apply bind_error
    unfold ins2
    rw [if_pos hl]
  · refine sim_step ?_ k
    unfold ins2
    rw [if_neg hl, if_neg (by simp)]
    simp

theorem sim_ins' {y : N δ} {out : δ → NS → Unit × St} {tok : Tok} {v : V} (h : stk = X ++ Y) (hp : p = X.length)
    (k : Sim (pure () : M Unit) ⟨X ++ (tok, v) :: Y, lab, ws⟩ y ns out) : Sim (ins2 p tok v) ⟨stk, lab, ws⟩ y ns out := by
  subst h hp
  by_cases hl : (X ++ Y).length ≥ stackSize
  · left
    unfold ins2
    rw [if_pos hl]
  · have : ins2 (X.length) tok v ⟨X ++ Y, lab, ws⟩ = (pure () : M Unit) ⟨X ++ (tok, v) :: Y, lab, ws⟩ := by
      unfold ins2
      rw [if_neg hl, if_neg (by simp)]
      simp only [Int.toNat_natCast, List.take_left, List.drop_left]
      rfl
    unfold Sim at k ⊢
    rw [this]; exact k

/-! ### trees -/

theorem T.post_root (t : T) : ∃ X, t.post = X ++ [t.root] := by
  cases t <;> simp only [T.post, T.root]
  · exact ⟨[], rfl⟩
  · exact ⟨[], rfl⟩
  · exact ⟨[], rfl⟩
  · exact ⟨_, rfl⟩
  · exact ⟨_, rfl⟩
  · exact ⟨_, rfl⟩
  · exact ⟨_, rfl⟩
  · exact ⟨_, rfl⟩

theorem T.post_pos (t : T) : 0 < t.post.length := by
  obtain ⟨X, h⟩ := t.post_root
  rw [h]; simp

theorem E.post_root (e : E) : ∃ X v, e.post = X ++ [(e.root, v)] := by
  cases e <;> simp only [E.post, E.root]
  · exact ⟨[], _, rfl⟩
  · exact ⟨[], _, rfl⟩
  all_goals exact ⟨_, _, rfl⟩

theorem E.post_pos (e : E) : 0 < e.post.length := by
  obtain ⟨X, v, h⟩ := e.post_root
  rw [h]; simp

/-- operators of `T.un` -/
def unTok : Tok → Bool
  | .star | .uchar | .schar | .short | .ushort | .uplus | .not | .neg | .bool | .inc | .dec | .pinc | .pdec => true
  | _ => false

/-- operators of `T.bin` -/
def binTok : Tok → Bool
  | .plus | .minus | .mul | .div | .mod | .udiv | .umod | .shl | .shr | .ushr | .and | .xor | .or
  | .lt | .gt | .le | .ge | .eq | .ne | .ult | .ugt | .ule | .uge | .padd | .psub
  | .assign | .aAdd | .aSub | .aMul | .aDiv | .aMod | .aUDiv | .aUMod | .aShl | .aShr | .aUShr | .aAnd | .aXor | .aOr => true
  | _ => false

def T.OK : T → Prop
  | .num _ _ | .ident _ | .localOfs _ => True
  | .un tok _ t => unTok tok = true ∧ t.OK
  | .bin tok _ l r => binTok tok = true ∧ l.OK ∧ r.OK
  | .logic _ _ l r | .comma l r => l.OK ∧ r.OK
  | .cond _ c m r => c.OK ∧ m.OK ∧ r.OK

theorem T.root_num {t : T} (h : t.OK) (hn : isNum t.root.1 = true) : ∃ u, t = .num u t.root.2 := by
  cases t with
  | num u v => exact ⟨u, rfl⟩
  | ident s => cases hn
  | localOfs o => cases hn
  | un tok v t => have := h.1; change isNum tok = true at hn; cases tok <;> simp_all [isNum, unTok]
  | bin tok v l r => have := h.1; change isNum tok = true at hn; cases tok <;> simp_all [isNum, binTok]
  | logic a sc l r => cases a <;> cases hn
  | comma l r => cases hn
  | cond sc c m r => cases hn

theorem T.root_star {t : T} (h : t.OK) (hn : t.root.1 = .star) : t = .un .star t.root.2 t.arg := by
  cases t with
  | num u v => cases u <;> cases hn
  | ident s => cases hn
  | localOfs o => cases hn
  | un tok v t => cases hn; rfl
  | bin tok v l r => have := h.1; change tok = .star at hn; subst hn; simp [binTok] at this
  | logic a sc l r => cases a <;> cases hn
  | comma l r => cases hn
  | cond sc c m r => cases hn

end Smlr.Expr
