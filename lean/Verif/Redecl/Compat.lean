import Verif.Redecl.Spec

set_option autoImplicit false
/-! What `compatCheck2` does with two types in the symbol table. -/
namespace Smlr.Redecl

open Smlr.Declr Smlr.Declr.Spec Smlr.Redecl.Spec

/-- `compat2` on the table `X ++ Y ++ Z` at the beginnings of `Y` (old) and `Z` (new) -/
def st (X Y Z : List E) (c : Int) (f : Nat) : Out (Bool × List E) :=
  compat2 f (X ++ (Y ++ Z)) (X.length + Y.length) X.length c

theorem at_old (X Y Z : List E) (o : E) : (X ++ (o :: Y ++ Z))[X.length]? = some o := by simp
theorem at_new (X Y Z : List E) (t : E) : (X ++ (Y ++ t :: Z))[X.length + Y.length]? = some t := by
  rw [List.getElem?_append_right (by omega), List.getElem?_append_right (by omega)]; simp
theorem at_new1 (X Y Z : List E) (o t : E) : (X ++ (o :: Y ++ t :: Z))[X.length + (Y.length + 1)]? = some t := by
  have := at_new X (o :: Y) Z t; simpa using this
theorem prev_old (X Y : List E) : prev (X ++ Y) X.length = X.getLast? := by
  rcases List.eq_nil_or_concat X with h | ⟨X', x, h⟩
  · subst h; simp [prev]
  · subst h; simp [prev]
theorem prev_new (X Y Z : List E) (p : E) :
    prev (X ++ (Y ++ [p] ++ Z)) (X.length + (Y ++ [p]).length) = some p := by
  have := prev_old (X ++ (Y ++ [p])) Z
  simp only [List.append_assoc, List.length_append] at this ⊢
  rw [this]
  rw [← List.append_assoc, List.getLast?_concat]

/-- what `rest` does in one step -/
theorem step_eq (X Y Z : List E) (o t : E) (c : Int) (f : Nat) (h0 : tok0 t = tok0 o)
    (h1 : isIdent t = true ∨ tok1 t = tok1 o) (h2 : (depth c t = 0 && isBase t) = false) :
    st X (o :: Y) (t :: Z) c (f + 1) = st (X ++ [o]) (Y ++ [t]) Z (depth c t) f := by
  have h3 : (!isIdent t && tok1 t != tok1 o) = false := by
    rcases h1 with h1 | h1 <;> simp [h1]
  have h2' := h2
  simp only [Bool.and_eq_false_imp, decide_eq_true_eq] at h2'
  unfold st
  simp only [compat2, second, List.length_cons, at_old, at_new1, if_pos h0, h3]
  simp only [List.length_append, List.length_singleton, List.append_assoc, List.cons_append, List.nil_append]
  rw [h2]
  simp only [Bool.false_eq_true, if_false]
  congr 1
  omega

theorem step_end (X Y Z : List E) (o t : E) (c : Int) (f : Nat) (h0 : tok0 t = tok0 o)
    (h1 : isIdent t = true ∨ tok1 t = tok1 o) (h2 : (depth c t = 0 && isBase t) = true) :
    st X (o :: Y) (t :: Z) c (f + 1) = .ok (true, X ++ (o :: Y ++ t :: Z)) := by
  have h3 : (!isIdent t && tok1 t != tok1 o) = false := by
    rcases h1 with h1 | h1 <;> simp [h1]
  unfold st
  simp only [compat2, second, List.length_cons, at_old, at_new1, if_pos h0, h3]
  rw [h2]
  simp

/-- a dimension -/
theorem step_dim (X Y Z : List E) (n m : Nat) (c : Int) (f : Nat) (h : n = 0 ∨ m = 0 ∨ n = m) :
    st X (.ty (.num m) :: (Y ++ [.ty .lbrk])) (.ty (.num n) :: Z) c (f + 1) =
      st (X ++ [.ty (.num m)]) (Y ++ [.ty .lbrk] ++ [.ty (.num (if n = 0 then m else n))]) Z c f := by
  have hp := prev_new X (.ty (.num m) :: Y) (.ty (.num n) :: Z) (.ty .lbrk)
  have ho := at_old X (Y ++ [.ty .lbrk]) (.ty (.num n) :: Z) (.ty (.num m))
  have ht := at_new1 X (Y ++ [.ty .lbrk]) Z (.ty (.num m)) (.ty (.num n))
  simp only [List.cons_append] at hp
  unfold st
  simp only [compat2, second, List.length_cons, ho, ht, tok0, if_true, isIdent, Bool.not_false, Bool.true_and, tok1,
    bne_iff_ne, depth, isBase, Bool.and_false, Bool.false_eq_true, if_false]
  simp only [List.length_cons, List.length_append, List.length_singleton, List.cons_append] at hp ⊢
  have hset : (X ++ E.ty (.num m) :: (Y ++ [.ty .lbrk] ++ .ty (.num n) :: Z)).set (X.length + (Y.length + 1 + 1)) (.ty (.num m)) =
      X ++ .ty (.num m) :: (Y ++ [.ty .lbrk] ++ .ty (.num m) :: Z) := by
    have e : X.length + (Y.length + 1 + 1) = (X ++ E.ty (.num m) :: (Y ++ [.ty .lbrk])).length + 0 := by simp
    rw [e, show X ++ E.ty (.num m) :: (Y ++ [.ty .lbrk] ++ .ty (.num n) :: Z) =
      (X ++ E.ty (.num m) :: (Y ++ [.ty .lbrk])) ++ .ty (.num n) :: Z by simp, List.set_append_right _ _ (by omega)]
    simp
  by_cases hnm : n = m
  · subst hnm
    simp only [ne_eq, not_true_eq_false, if_false]
    by_cases h0 : n = 0 <;> simp [h0] <;> (congr 1; omega)
  · rw [if_pos (by simpa using hnm), if_pos (by simpa using hp)]
    by_cases h0 : n = 0
    · subst h0
      simp only [if_true, hset]
      simp; congr 1; omega
    · have hm : m = 0 := by omega
      subst hm
      simp only [h0, if_false]
      simp; congr 1; omega

theorem step_dim_bad (X Y Z : List E) (n m : Nat) (c : Int) (f : Nat) (h : ¬(n = 0 ∨ m = 0 ∨ n = m)) :
    st X (.ty (.num m) :: (Y ++ [.ty .lbrk])) (.ty (.num n) :: Z) c (f + 1) =
      .ok (false, X ++ (.ty (.num m) :: (Y ++ [.ty .lbrk]) ++ .ty (.num n) :: Z)) := by
  have hp := prev_new X (.ty (.num m) :: Y) (.ty (.num n) :: Z) (.ty .lbrk)
  have ho := at_old X (Y ++ [.ty .lbrk]) (.ty (.num n) :: Z) (.ty (.num m))
  have ht := at_new1 X (Y ++ [.ty .lbrk]) Z (.ty (.num m)) (.ty (.num n))
  have hnm : n ≠ m := by omega
  have h0 : n ≠ 0 := by omega
  have hm : m ≠ 0 := by omega
  simp only [List.cons_append, List.length_cons, List.length_append, List.length_singleton] at hp
  unfold st
  simp only [compat2, second, List.length_cons, ho, ht, tok0, if_true, isIdent, Bool.not_false, Bool.true_and, tok1,
    bne_iff_ne]
  simp only [List.length_append, List.length_singleton, List.cons_append]
  rw [if_pos (by simpa using hnm), if_pos (by simpa using hp)]
  simp [h0, hm]

/-- entries of different kinds -/
theorem step_bad (X Y Z : List E) (o t : E) (c : Int) (f : Nat) (h0 : tok0 t ≠ tok0 o)
    (h1 : o ≠ .ty .rpar ∨ X.getLast? ≠ some (.ty .lpar))
    (h2 : t ≠ .ty .rpar ∨ X.getLast? ≠ some (.ty .lpar) ∨ Y.head? ≠ some (.ty (.base .void)) ∧ Y ≠ []) :
    st X (o :: Y) (t :: Z) c (f + 1) = .ok (false, X ++ (o :: Y ++ t :: Z)) := by
  unfold st
  simp only [compat2, List.length_cons, at_old, at_new1, prev_old]
  rw [if_neg h0, if_neg (by rcases h1 with h | h <;> simp [h]), if_neg]
  rintro ⟨a, b, -, d, -⟩
  rcases h2 with h | h | ⟨h, hn⟩
  · exact h a
  · exact h b
  · cases Y with
    | nil => exact hn rfl
    | cons y Y =>
      apply h
      rw [List.getElem?_append_right (by omega)] at d
      simpa using d

/-- two base types with the same token but different places -/
theorem step_bad1 (X Y Z : List E) (o t p : E) (c : Int) (f : Nat) (hY : Y.getLast? = some p) (hp : p ≠ .ty .lbrk)
    (h0 : tok0 t = tok0 o) (h1 : isIdent t = false) (h2 : tok1 t ≠ tok1 o) :
    st X (o :: Y) (t :: Z) c (f + 1) = .ok (false, X ++ (o :: Y ++ t :: Z)) := by
  obtain ⟨Y', rfl⟩ := List.getLast?_eq_some_iff.mp hY
  have hq := prev_new X (o :: Y') (t :: Z) p
  have ho := at_old X (Y' ++ [p]) (t :: Z) o
  have ht := at_new1 X (Y' ++ [p]) Z o t
  simp only [List.cons_append, List.length_cons, List.length_append, List.length_nil, Nat.zero_add] at hq
  unfold st
  simp only [compat2, second, List.length_cons, ho, ht, if_pos h0, h1, Bool.not_false, Bool.true_and, bne_iff_ne]
  simp only [List.length_append, List.length_singleton, List.cons_append]
  rw [if_pos (by simpa using h2), if_neg (by rw [hq]; simpa using hp)]

/-- `()` in the old declaration -/
theorem step_skip (X Y W Z : List E) (t : E) (c : Int) (f : Nat) (hX : X.getLast? = some (.ty .lpar))
    (ht : tok0 t ≠ 5) (hs : skip (t :: W ++ .ty .rpar :: Z) 1 = some (t :: W).length) :
    st X (.ty .rpar :: Y) (t :: W ++ .ty .rpar :: Z) c (f + 1) =
      st (X ++ [.ty .rpar]) (Y ++ (t :: W ++ [.ty .rpar])) Z (c - 1) f := by
  have hd : (X ++ (.ty .rpar :: Y ++ t :: (W ++ .ty .rpar :: Z))).drop (X.length + (Y.length + 1)) =
      t :: (W ++ .ty .rpar :: Z) := by
    rw [List.drop_append, List.drop_of_length_le (by omega), show X.length + (Y.length + 1) - X.length = (E.ty .rpar :: Y).length by simp]
    rw [List.drop_append, List.drop_of_length_le (by omega)]; simp
  have hr : (X ++ (.ty .rpar :: Y ++ t :: (W ++ .ty .rpar :: Z)))[X.length + (Y.length + 1) + (W.length + 1)]? = some (.ty .rpar) := by
    have := at_new X (.ty .rpar :: Y ++ t :: W) Z (.ty .rpar)
    simp only [List.append_assoc, List.length_append, List.length_cons, List.cons_append] at this ⊢
    rw [show X.length + (Y.length + 1) + (W.length + 1) = X.length + (Y.length + (W.length + 1) + 1) by omega]
    exact this
  have ho := at_old X Y (t :: (W ++ .ty .rpar :: Z)) (.ty .rpar)
  have hl := at_new1 X Y (W ++ .ty .rpar :: Z) (.ty .rpar) t
  simp only [List.cons_append] at ho hl hs hd hr
  unfold st
  simp only [compat2, List.length_cons, List.cons_append, ho, hl, prev_old, hX, and_self, if_true]
  rw [if_neg (by simpa [tok0] using ht), hd, hs]
  simp only [second, hr, ho, List.length_cons, isIdent, tok1, bne_self_eq_false, Bool.and_false, Bool.false_eq_true, if_false, depth, isBase]
  simp only [List.length_append, List.length_singleton, List.append_assoc, List.cons_append, List.nil_append, List.length_cons, List.length_nil]
  congr 1
  omega

/-- `(void)` redeclared as `()` -/
theorem step_void (X Y Z : List E) (o : E) (c : Int) (f : Nat) (hX : X.getLast? = some (.ty .lpar)) (ho : isIdent o = true)
    (ho0 : tok0 o = 0) :
    st X (o :: .ty (.base .void) :: .ty .rpar :: Y) (.ty .rpar :: Z) c (f + 1) =
      st (X ++ [o, .ty (.base .void), .ty .rpar]) (Y ++ [.ty .rpar]) Z (c - 1) f := by
  have hoX : o ≠ .ty .rpar := by rintro rfl; simp [isIdent] at ho
  have h2 : (X ++ (o :: .ty (.base .void) :: .ty .rpar :: Y ++ .ty .rpar :: Z))[X.length + 2]? = some (.ty .rpar) := by
    rw [List.getElem?_append_right (by omega)]; simp
  have h1 : (X ++ (o :: .ty (.base .void) :: .ty .rpar :: Y ++ .ty .rpar :: Z))[X.length + 1]? = some (.ty (.base .void)) := by
    rw [List.getElem?_append_right (by omega)]; simp
  have hl := at_new X (o :: .ty (.base .void) :: .ty .rpar :: Y) Z (.ty .rpar)
  have hi := at_old X (.ty (.base .void) :: .ty .rpar :: Y) (.ty .rpar :: Z) o
  unfold st
  simp only [compat2, hl, hi, prev_old, hX, second, h1, h2, ho]
  rw [if_neg (by rw [ho0]; decide), if_neg (by simp [hoX]), if_pos (by simp)]
  simp only [isIdent, tok1, bne_self_eq_false, Bool.and_false, Bool.false_eq_true, if_false, depth, isBase]
  simp only [List.length_append, List.length_cons, List.length_nil, List.append_assoc, List.cons_append, List.nil_append]
  congr 1; omega

end Smlr.Redecl
