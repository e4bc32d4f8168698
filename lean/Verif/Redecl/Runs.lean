import Verif.Redecl.Compat

set_option autoImplicit false
/-! `compatCheck2` over whole types: what it accepts, and what it leaves in the table. -/
namespace Smlr.Redecl

open Smlr.Declr Smlr.Declr.Spec Smlr.Redecl.Spec

mutual
/-- the types that the code accepts, the new one first -/
def acc : Ty → Ty → Bool
  | .base b, .base b' => b = b'
  | .ptr t, .ptr t' => acc t t'
  | .arr n t, .arr m t' => (n = 0 || m = 0 || n = m) && acc t t'
  | .fn ps t, .fn qs t' => pacc ps qs && acc t t'
  | _, _ => false
def pacc : Ps → Ps → Bool
  | .unknown, .unknown => true
  | .unknown, .nil => true
  | .unknown, _ => false
  | _, .unknown => true
  | .nil, .nil => true
  | .cons _ t ps, .cons _ t' qs => acc t t' && pacc' ps qs
  | _, _ => false
def pacc' : Ps → Ps → Bool
  | .nil, .nil => true
  | .dots, .dots => true
  | .cons _ t ps, .cons _ t' qs => acc t t' && pacc' ps qs
  | _, _ => false
end

mutual
/-- the new type as the code leaves it -/
def mrg : Ty → Ty → Ty
  | .ptr t, .ptr t' => .ptr (mrg t t')
  | .arr n t, .arr m t' => .arr (if n = 0 then m else n) (mrg t t')
  | .fn ps t, .fn qs t' => .fn (pmrg ps qs) (mrg t t')
  | t, _ => t
def pmrg : Ps → Ps → Ps
  | .cons x t ps, .cons _ t' qs => .cons x (mrg t t') (pmrg ps qs)
  | ps, _ => ps
end

def psE (ps : Ps) : List E := ps.enc.map .ty
def psE' (ps : Ps) : List E := ps.enc'.map .ty

section
variable (b : B) (t : Ty) (n : Nat) (ps : Ps) (x : Option Nat)
@[simp] theorem tyE_base : tyE (.base b) = [.ty (.base b)] := rfl
@[simp] theorem tyE_ptr : tyE (.ptr t) = .ty .star :: tyE t := rfl
@[simp] theorem tyE_arr : tyE (.arr n t) = .ty .lbrk :: .ty (.num n) :: .ty .rbrk :: tyE t := rfl
@[simp] theorem tyE_fn : tyE (.fn ps t) = .ty .lpar :: psE ps ++ .ty .rpar :: tyE t := by
  simp [tyE, psE, Ty.enc]
@[simp] theorem psE_unknown : psE .unknown = [] := rfl
@[simp] theorem psE_nil : psE .nil = [.ty (.ident none), .ty (.base .void)] := rfl
@[simp] theorem psE_dots : psE .dots = [.ty (.ident none), .ty .ellipsis] := rfl
@[simp] theorem psE_cons : psE (.cons x t ps) = .ty (.ident x) :: tyE t ++ psE' ps := by simp [tyE, psE, psE', Ps.enc]
@[simp] theorem psE'_unknown : psE' .unknown = [] := rfl
@[simp] theorem psE'_nil : psE' .nil = [] := rfl
@[simp] theorem psE'_dots : psE' .dots = [.ty (.ident none), .ty .ellipsis] := rfl
@[simp] theorem psE'_cons : psE' (.cons x t ps) = .ty (.ident x) :: tyE t ++ psE' ps := by simp [tyE, psE', Ps.enc']
end

/-- from one place to another -/
def Good (X Y Z O N M : List E) (c c' : Int) : Prop :=
  ∃ n, n ≤ N.length ∧ ∀ f, st X (O ++ Y) (N ++ Z) c (f + n) = st (X ++ O) (Y ++ M) Z c' f
/-- to the result 0 -/
def Bad (X Y Z O N : List E) (c : Int) : Prop :=
  ∃ n, n ≤ N.length ∧ ∃ s, ∀ f, st X (O ++ Y) (N ++ Z) c (f + n) = .ok (false, s)
/-- to the result 1 -/
def Done (X Y Z O N M : List E) (c : Int) : Prop :=
  ∃ n, n ≤ N.length ∧ ∀ f, st X (O ++ Y) (N ++ Z) c (f + n) = .ok (true, X ++ (O ++ Y ++ (M ++ Z)))

theorem Good.trans {X Y Z O1 O2 N1 N2 M1 M2 : List E} {c c1 c2 : Int}
    (h1 : Good X (O2 ++ Y) (N2 ++ Z) O1 N1 M1 c c1) (h2 : Good (X ++ O1) (Y ++ M1) Z O2 N2 M2 c1 c2) :
    Good X Y Z (O1 ++ O2) (N1 ++ N2) (M1 ++ M2) c c2 := by
  obtain ⟨n1, l1, h1⟩ := h1
  obtain ⟨n2, l2, h2⟩ := h2
  refine ⟨n2 + n1, by simp; omega, fun f => ?_⟩
  rw [List.append_assoc, List.append_assoc, ← Nat.add_assoc, h1 (f + n2), List.append_assoc, h2 f]
  simp

theorem Good.bad {X Y Z O1 O2 N1 N2 M1 : List E} {c c1 : Int}
    (h1 : Good X (O2 ++ Y) (N2 ++ Z) O1 N1 M1 c c1) (h2 : Bad (X ++ O1) (Y ++ M1) Z O2 N2 c1) :
    Bad X Y Z (O1 ++ O2) (N1 ++ N2) c := by
  obtain ⟨n1, l1, h1⟩ := h1
  obtain ⟨n2, l2, s, h2⟩ := h2
  refine ⟨n2 + n1, by simp; omega, s, fun f => ?_⟩
  rw [List.append_assoc, List.append_assoc, ← Nat.add_assoc, h1 (f + n2), List.append_assoc, h2 f]

theorem Good.done {X Y Z O1 O2 N1 N2 M1 M2 : List E} {c c1 : Int}
    (h1 : Good X (O2 ++ Y) (N2 ++ Z) O1 N1 M1 c c1) (h2 : Done (X ++ O1) (Y ++ M1) Z O2 N2 M2 c1) :
    Done X Y Z (O1 ++ O2) (N1 ++ N2) (M1 ++ M2) c := by
  obtain ⟨n1, l1, h1⟩ := h1
  obtain ⟨n2, l2, h2⟩ := h2
  refine ⟨n2 + n1, by simp; omega, fun f => ?_⟩
  rw [List.append_assoc, List.append_assoc, ← Nat.add_assoc, h1 (f + n2), List.append_assoc, h2 f]
  simp

theorem Bad.more {X Y Z O1 O2 N1 N2 : List E} {c : Int} (h : Bad X (O2 ++ Y) (N2 ++ Z) O1 N1 c) :
    Bad X Y Z (O1 ++ O2) (N1 ++ N2) c := by
  obtain ⟨n, l, s, h⟩ := h
  exact ⟨n, by simp; omega, s, fun f => by rw [List.append_assoc, List.append_assoc, h f]⟩

theorem one {X Y Z : List E} {o t : E} {c : Int} (h0 : tok0 t = tok0 o) (h1 : isIdent t = true ∨ tok1 t = tok1 o)
    (h2 : (depth c t = 0 && isBase t) = false) : Good X Y Z [o] [t] [t] c (depth c t) :=
  ⟨1, by simp, fun f => step_eq X Y Z o t c f h0 h1 h2⟩

theorem one_bad {X Y Z : List E} {o t : E} {c : Int} (h0 : tok0 t ≠ tok0 o)
    (h1 : o ≠ .ty .rpar ∨ X.getLast? ≠ some (.ty .lpar))
    (h2 : t ≠ .ty .rpar ∨ X.getLast? ≠ some (.ty .lpar) ∨ Y.head? ≠ some (.ty (.base .void)) ∧ Y ≠ []) :
    Bad X Y Z [o] [t] c :=
  ⟨1, by simp, _, fun f => step_bad X Y Z o t c f h0 h1 h2⟩

theorem last3 (A B : List E) (a b : E) : (A ++ ([a] ++ (B ++ [b]))).getLast? = some b := by
  rw [← List.append_assoc, ← List.append_assoc, List.getLast?_concat]

/-! ### the first entry of a type, and skipping -/

def headTy : Ty → E
  | .base b => .ty (.base b)
  | .ptr _ => .ty .star
  | .arr _ _ => .ty .lbrk
  | .fn _ _ => .ty .lpar

theorem tyE_head (t : Ty) : ∃ r, tyE t = headTy t :: r := by
  cases t <;> simp [headTy]

theorem headTy_ne (t : Ty) : headTy t ≠ .ty .rpar := by cases t <;> simp [headTy]

theorem headTy_void (t : Ty) (h : t.isVoid = false) : headTy t ≠ .ty (.base .void) := by
  cases t <;> simp [headTy, Ty.isVoid] at * 
  rename_i b; cases b <;> simp_all

theorem head_bad {X Y Z : List E} (N O : Ty) {c : Int} (h : tok0 (headTy N) ≠ tok0 (headTy O)) :
    Bad X Y Z (tyE O) (tyE N) c := by
  obtain ⟨r, hr⟩ := tyE_head N
  obtain ⟨q, hq⟩ := tyE_head O
  rw [hr, hq]
  exact Bad.more (O1 := [headTy O]) (N1 := [headTy N]) (one_bad h (.inl (headTy_ne _)) (.inl (headTy_ne _)))

theorem tyE_last (t : Ty) : ∃ r b, tyE t = r ++ [.ty (.base b)] := by
  induction t using Ty.rec (motive_2 := fun _ => True) with
  | base b => exact ⟨[], b, rfl⟩
  | ptr t ih => obtain ⟨r, b, h⟩ := ih; exact ⟨.ty .star :: r, b, by simp [h]⟩
  | arr n t ih => obtain ⟨r, b, h⟩ := ih; exact ⟨.ty .lbrk :: .ty (.num n) :: .ty .rbrk :: r, b, by simp [h]⟩
  | fn ps t _ ih => obtain ⟨r, b, h⟩ := ih; exact ⟨.ty .lpar :: psE ps ++ .ty .rpar :: r, b, by simp [h]⟩
  | unknown => trivial
  | nil => trivial
  | dots => trivial
  | cons => trivial

theorem skip_one (e : E) (r : List E) (c : Nat) (h : e ≠ .ty .lpar) (h' : e ≠ .ty .rpar) (hc : c ≠ 0) :
    skip (e :: r) c = (skip r c).map (· + 1) := by
  simp [skip, h, h', hc]

mutual
theorem skip_ty : (t : Ty) → ∀ (r : List E) (c : Nat), c ≠ 0 →
    skip (tyE t ++ r) c = (skip r c).map (· + (tyE t).length)
  | .base b, r, c, hc => by rw [tyE_base, List.singleton_append, skip_one _ _ _ (by simp) (by simp) hc]; rfl
  | .ptr t, r, c, hc => by
    rw [tyE_ptr, List.cons_append, skip_one _ _ _ (by simp) (by simp) hc, skip_ty t r c hc]
    cases skip r c <;> simp <;> omega
  | .arr n t, r, c, hc => by
    rw [tyE_arr, List.cons_append, skip_one _ _ _ (by simp) (by simp) hc, List.cons_append,
      skip_one _ _ _ (by simp) (by simp) hc, List.cons_append, skip_one _ _ _ (by simp) (by simp) hc, skip_ty t r c hc]
    cases skip r c <;> simp <;> omega
  | .fn ps t, r, c, hc => by
    rw [tyE_fn]
    simp only [List.cons_append, List.append_assoc, skip, reduceCtorEq, if_true, if_false]
    rw [skip_ps ps _ (c + 1) (by omega)]
    have e : skip (E.ty Ent.rpar :: (tyE t ++ r)) (c + 1) = (skip (tyE t ++ r) c).map (· + 1) := by
      simp [skip, hc]
    rw [e, skip_ty t r c hc]
    cases skip r c <;> simp <;> omega
theorem skip_ps : (ps : Ps) → ∀ (r : List E) (c : Nat), c ≠ 0 →
    skip (psE ps ++ r) c = (skip r c).map (· + (psE ps).length)
  | .unknown, r, c, hc => by cases h : skip r c <;> simp [h]
  | .nil, r, c, hc => by
    rw [psE_nil, List.cons_append, skip_one _ _ _ (by simp) (by simp) hc, List.cons_append, skip_one _ _ _ (by simp) (by simp) hc]
    cases h : skip r c <;> simp [h]
  | .dots, r, c, hc => by
    rw [psE_dots, List.cons_append, skip_one _ _ _ (by simp) (by simp) hc, List.cons_append, skip_one _ _ _ (by simp) (by simp) hc]
    cases h : skip r c <;> simp [h]
  | .cons x t ps, r, c, hc => by
    rw [psE_cons, List.cons_append, List.cons_append, skip_one _ _ _ (by simp) (by simp) hc, List.append_assoc,
      skip_ty t _ c hc, skip_ps' ps r c hc]
    cases skip r c <;> simp <;> omega
theorem skip_ps' : (ps : Ps) → ∀ (r : List E) (c : Nat), c ≠ 0 →
    skip (psE' ps ++ r) c = (skip r c).map (· + (psE' ps).length)
  | .unknown, r, c, hc => by cases h : skip r c <;> simp [h]
  | .nil, r, c, hc => by cases h : skip r c <;> simp [h]
  | .dots, r, c, hc => by
    rw [psE'_dots, List.cons_append, skip_one _ _ _ (by simp) (by simp) hc, List.cons_append, skip_one _ _ _ (by simp) (by simp) hc]
    cases h : skip r c <;> simp [h]
  | .cons x t ps, r, c, hc => by
    rw [psE'_cons, List.cons_append, List.cons_append, skip_one _ _ _ (by simp) (by simp) hc, List.append_assoc,
      skip_ty t _ c hc, skip_ps' ps r c hc]
    cases skip r c <;> simp <;> omega
end

/-- skipping the parameters `ps` -/
theorem skip_list (ps : Ps) (Z : List E) : skip (psE ps ++ .ty .rpar :: Z) 1 = some (psE ps).length := by
  rw [skip_ps ps _ 1 (by omega)]
  simp [skip]

/-! ### whole types -/

/-- what the code does with a new and an old type -/
def TyRun (N O : Ty) : Prop :=
  ∀ (X Y Z : List E) (p : E) (c : Int), Y.getLast? = some p → p ≠ .ty .lbrk → 0 ≤ c →
    (acc N O = true → (c = 0 → Done X Y Z (tyE O) (tyE N) (tyE (mrg N O)) c) ∧
      (c ≠ 0 → Good X Y Z (tyE O) (tyE N) (tyE (mrg N O)) c c)) ∧
    (acc N O = false → Bad X Y Z (tyE O) (tyE N) c)

/-- parameters and the `)` after them -/
def PsRun (ps qs : Ps) : Prop :=
  ∀ (X Y Z : List E) (p : E) (c : Int), X.getLast? = some (.ty .lpar) → Y.getLast? = some p → p ≠ .ty .lbrk → 1 ≤ c →
    (pacc ps qs = true → Good X Y Z (psE qs ++ [.ty .rpar]) (psE ps ++ [.ty .rpar]) (psE (pmrg ps qs) ++ [.ty .rpar]) c (c - 1)) ∧
    (pacc ps qs = false → Bad X Y Z (psE qs ++ [.ty .rpar]) (psE ps ++ [.ty .rpar]) c)

def PsRun' (ps qs : Ps) : Prop :=
  ∀ (X Y Z : List E) (c : Int), X.getLast? ≠ some (.ty .lpar) → 1 ≤ c →
    (pacc' ps qs = true → Good X Y Z (psE' qs ++ [.ty .rpar]) (psE' ps ++ [.ty .rpar]) (psE' (pmrg ps qs) ++ [.ty .rpar]) c (c - 1)) ∧
    (pacc' ps qs = false → Bad X Y Z (psE' qs ++ [.ty .rpar]) (psE' ps ++ [.ty .rpar]) c)

theorem run_base (b b' : B) (h : b ≠ .enum) : TyRun (.base b) (.base b') := by
  intro X Y Z p c hY hp hc
  have hd : depth c (.ty (.base b)) = c := rfl
  have hb : isBase (.ty (.base b)) = true := by cases b <;> simp_all [isBase]
  constructor
  · intro ha
    have e : b = b' := by simpa [acc] using ha
    subst e
    refine ⟨fun h0 => ?_, fun h0 => ?_⟩
    · exact ⟨1, by simp, fun f => step_end X Y Z _ _ c f rfl (.inr rfl) (by rw [hd, hb]; simp [h0])⟩
    · exact one rfl (.inr rfl) (by rw [hd, hb]; simp [h0])
  · intro ha
    have e : b ≠ b' := by simpa [acc] using ha
    by_cases h0 : tok0 (.ty (.base b)) = tok0 (.ty (.base b'))
    · refine ⟨1, by simp, _, fun f => step_bad1 X Y Z _ _ p c f hY hp h0 rfl ?_⟩
      cases b <;> cases b' <;> simp_all [tok0, tok1] <;> omega
    · exact one_bad h0 (.inl (by simp)) (.inl (by simp))

theorem run_ptr (N O : Ty) (h : TyRun N O) : TyRun (.ptr N) (.ptr O) := by
  intro X Y Z p c hY hp hc
  have g : Good X (tyE O ++ Y) (tyE N ++ Z) [.ty .star] [.ty .star] [.ty .star] c c :=
    one rfl (.inr rfl) (by simp [isBase])
  obtain ⟨h1, h2⟩ := h (X ++ [.ty .star]) (Y ++ [.ty .star]) Z (.ty .star) c (by simp) (by simp) hc
  refine ⟨fun ha => ⟨fun h0 => g.done ((h1 ha).1 h0), fun h0 => g.trans ((h1 ha).2 h0)⟩, fun ha => g.bad (h2 ha)⟩

theorem run_arr (n m : Nat) (N O : Ty) (h : TyRun N O) : TyRun (.arr n N) (.arr m O) := by
  intro X Y Z p c hY hp hc
  have g1 : ∀ Y Z, Good X Y Z [.ty .lbrk] [.ty .lbrk] [.ty .lbrk] c (c + 1) :=
    fun _ _ => one rfl (.inr rfl) (by simp [isBase])
  have g3 : ∀ X Y Z, Good X Y Z [.ty .rbrk] [.ty .rbrk] [.ty .rbrk] (c + 1) c := fun X Y Z => by
    have := one (X := X) (Y := Y) (Z := Z) (o := .ty .rbrk) (t := .ty .rbrk) (c := c + 1) rfl (.inr rfl) (by simp [isBase])
    simpa [depth] using this
  by_cases hd : n = 0 ∨ m = 0 ∨ n = m
  · have g2 : ∀ X Y Z, Good X (Y ++ [.ty .lbrk]) Z [.ty (.num m)] [.ty (.num n)] [.ty (.num (if n = 0 then m else n))] (c + 1) (c + 1) :=
      fun X Y Z => ⟨1, by simp, fun f => step_dim X Y Z n m (c + 1) f hd⟩
    have g : Good X (tyE O ++ Y) (tyE N ++ Z) [.ty .lbrk, .ty (.num m), .ty .rbrk] [.ty .lbrk, .ty (.num n), .ty .rbrk]
        [.ty .lbrk, .ty (.num (if n = 0 then m else n)), .ty .rbrk] c c :=
      Good.trans (O1 := [.ty .lbrk]) (N1 := [.ty .lbrk]) (M1 := [.ty .lbrk]) (g1 _ _)
        (Good.trans (O1 := [.ty (.num m)]) (N1 := [.ty (.num n)]) (M1 := [.ty (.num (if n = 0 then m else n))])
          (by
            have := g2 (X ++ [.ty .lbrk]) ([.ty .rbrk] ++ (tyE O ++ Y)) ([.ty .rbrk] ++ (tyE N ++ Z))
            rw [List.append_assoc] at this; exact this) (g3 _ _ _))
    obtain ⟨h1, h2⟩ := h (X ++ [.ty .lbrk, .ty (.num m), .ty .rbrk])
      (Y ++ [.ty .lbrk, .ty (.num (if n = 0 then m else n)), .ty .rbrk]) Z (.ty .rbrk) c (by simp) (by simp) hc
    have e : (decide (n = 0) || decide (m = 0) || decide (n = m)) = true := by simpa [or_assoc] using hd
    have ea : acc (.arr n N) (.arr m O) = acc N O := by rw [acc, e, Bool.true_and]
    rw [ea]
    refine ⟨fun ha => ⟨fun h0 => ?_, fun h0 => ?_⟩, fun ha => g.bad (h2 ha)⟩
    · have := g.done ((h1 ha).1 h0); simpa [mrg] using this
    · have := g.trans ((h1 ha).2 h0); simpa [mrg] using this
  · have e : (decide (n = 0) || decide (m = 0) || decide (n = m)) = false := by
      rw [Bool.eq_false_iff]; simpa [or_assoc] using hd
    refine ⟨fun ha => by rw [acc, e] at ha; simp at ha, fun _ => ?_⟩
    refine Good.bad (O1 := [.ty .lbrk]) (N1 := [.ty .lbrk]) (O2 := .ty (.num m) :: .ty .rbrk :: tyE O)
      (N2 := .ty (.num n) :: .ty .rbrk :: tyE N) (g1 _ _) ?_
    refine Bad.more (O1 := [.ty (.num m)]) (N1 := [.ty (.num n)]) (O2 := .ty .rbrk :: tyE O) (N2 := .ty .rbrk :: tyE N) ?_
    have := fun f => step_dim_bad (X ++ [.ty .lbrk]) (.ty .rbrk :: tyE O ++ Y) (.ty .rbrk :: tyE N ++ Z) n m (c + 1) f hd
    exact ⟨1, by simp, _, fun f => by simpa using this f⟩

theorem run_fn (ps qs : Ps) (N O : Ty) (hp : PsRun ps qs) (h : TyRun N O) : TyRun (.fn ps N) (.fn qs O) := by
  intro X Y Z p c hY hpn hc
  have g1 : ∀ Y Z, Good X Y Z [.ty .lpar] [.ty .lpar] [.ty .lpar] c (c + 1) :=
    fun _ _ => one rfl (.inr rfl) (by simp [isBase])
  obtain ⟨p1, p2⟩ := hp (X ++ [.ty .lpar]) ((tyE O ++ Y) ++ [.ty .lpar]) (tyE N ++ Z) (.ty .lpar) (c + 1) (by simp) (by simp) (by simp) (by omega)
  have e1 : ∀ q, tyE (.fn q O) = ([.ty .lpar] ++ (psE q ++ [.ty .rpar])) ++ tyE O := fun q => by simp
  have e2 : ∀ q, tyE (.fn q N) = ([.ty .lpar] ++ (psE q ++ [.ty .rpar])) ++ tyE N := fun q => by simp
  have e3 : tyE (mrg (.fn ps N) (.fn qs O)) = ([.ty .lpar] ++ (psE (pmrg ps qs) ++ [.ty .rpar])) ++ tyE (mrg N O) := by simp [mrg]
  rw [e1, e2, e3]
  cases hpa : pacc ps qs with
  | false =>
    refine ⟨fun ha => by simp [acc, hpa] at ha, fun _ => ?_⟩
    refine Bad.more ?_
    exact Good.bad (g1 _ _) (p2 hpa)
  | true =>
    have g := Good.trans (g1 _ _) (p1 hpa)
    rw [show c + 1 - 1 = c by omega] at g
    have ea : acc (.fn ps N) (.fn qs O) = acc N O := by rw [acc, hpa, Bool.true_and]
    rw [ea]
    obtain ⟨h1, h2⟩ := h (X ++ ([.ty .lpar] ++ (psE qs ++ [.ty .rpar])))
      (Y ++ ([.ty .lpar] ++ (psE (pmrg ps qs) ++ [.ty .rpar]))) Z (.ty .rpar) c (last3 _ _ _ _) (by simp) hc
    exact ⟨fun ha => ⟨fun h0 => g.done ((h1 ha).1 h0), fun h0 => g.trans ((h1 ha).2 h0)⟩, fun ha => g.bad (h2 ha)⟩

/-- the `)` of both -/
theorem one_rpar (X Y Z : List E) (c : Int) : Good X Y Z [.ty .rpar] [.ty .rpar] [.ty .rpar] c (c - 1) := by
  have := one (X := X) (Y := Y) (Z := Z) (o := .ty .rpar) (t := .ty .rpar) (c := c) rfl (.inr rfl) (by simp [isBase])
  simpa [depth] using this

theorem one_ident (X Y Z : List E) (x y : Option Nat) (c : Int) :
    Good X Y Z [.ty (.ident x)] [.ty (.ident y)] [.ty (.ident y)] c c :=
  one rfl (.inl rfl) (by simp [isBase])

/-- one parameter of each, and the rest -/
theorem run_cons {R S M : List E} (x y : Option Nat) (N O : Ty) (h : TyRun N O) (X Y Z : List E) (c : Int) (hc : 1 ≤ c)
    (b : Bool)
    (h1 : b = true → ∀ X Y, X.getLast? ≠ some (.ty .lpar) → Good X Y Z R S M c (c - 1))
    (h2 : b = false → ∀ X Y, X.getLast? ≠ some (.ty .lpar) → Bad X Y Z R S c) :
    ((acc N O && b) = true → Good X Y Z (.ty (.ident x) :: tyE O ++ R) (.ty (.ident y) :: tyE N ++ S)
      (.ty (.ident y) :: tyE (mrg N O) ++ M) c (c - 1)) ∧
    ((acc N O && b) = false → Bad X Y Z (.ty (.ident x) :: tyE O ++ R) (.ty (.ident y) :: tyE N ++ S) c) := by
  have hX : (X ++ ([E.ty (.ident x)] ++ tyE O)).getLast? ≠ some (.ty .lpar) := by
    obtain ⟨r, b, hr⟩ := tyE_last O
    rw [hr, last3]; simp
  have e : ∀ (y : Option Nat) (N : Ty) (S : List E), .ty (.ident y) :: tyE N ++ S = ([.ty (.ident y)] ++ tyE N) ++ S := fun _ _ _ => by simp
  rw [e, e, e]
  obtain ⟨t1, t2⟩ := h (X ++ [.ty (.ident x)]) ((R ++ Y) ++ [.ty (.ident y)]) (S ++ Z) (.ty (.ident y)) c (by simp) (by simp) (by omega)
  cases ha : acc N O with
  | false =>
    refine ⟨by simp, fun _ => Bad.more (Good.bad (one_ident _ _ _ _ _ _) (t2 ha))⟩
  | true =>
    have g := Good.trans (one_ident _ _ _ _ _ _) ((t1 ha).2 (by omega))
    refine ⟨fun hb => g.trans (h1 (by simpa using hb) _ _ hX), fun hb => g.bad (h2 (by simpa using hb) _ _ hX)⟩

end Smlr.Redecl
