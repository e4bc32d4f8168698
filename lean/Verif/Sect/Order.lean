import Verif.Sect.Spec
set_option autoImplicit false
/-! `SectDescCmp` is the order of lists of numbers, the attributes first, then the name. -/
namespace Smlr.Sect

def lex : List Nat → List Nat → Int
  | [], [] => 0
  | [], _ :: _ => -1
  | _ :: _, [] => 1
  | a :: as, b :: bs => if a = b then lex as bs else if a < b then -1 else 1

theorem lex_cases (a b : List Nat) : lex a b = -1 ∨ lex a b = 0 ∨ lex a b = 1 := by
  induction a generalizing b with
  | nil => cases b <;> simp [lex]
  | cons x a ih =>
    cases b with
    | nil => simp [lex]
    | cons y b =>
      simp only [lex]
      split
      · exact ih b
      · split <;> simp

theorem lex_swap (a b : List Nat) : lex b a = - lex a b := by
  induction a generalizing b with
  | nil => cases b <;> simp [lex]
  | cons x a ih =>
    cases b with
    | nil => simp [lex]
    | cons y b =>
      simp only [lex]
      by_cases h : x = y
      · rw [if_pos h, if_pos h.symm]
        exact ih b
      · rw [if_neg h, if_neg (Ne.symm h)]
        by_cases h2 : x < y
        · rw [if_pos h2, if_neg (by omega)]
          rfl
        · rw [if_neg h2, if_pos (by omega)]

theorem lex_trans (a b c : List Nat) (h1 : lex a b ≤ 0) (h2 : lex b c ≤ 0) : lex a c ≤ 0 := by
  induction a generalizing b c with
  | nil => cases c <;> simp [lex]
  | cons x a ih =>
    cases b with
    | nil => simp [lex] at h1
    | cons y b =>
      cases c with
      | nil => simp [lex] at h2
      | cons z c =>
        simp only [lex] at h1 h2 ⊢
        by_cases hxy : x = y
        · rw [if_pos hxy] at h1
          subst hxy
          by_cases hxz : x = z
          · rw [if_pos hxz] at h2 ⊢
            exact ih b c h1 h2
          · rw [if_neg hxz] at h2 ⊢
            exact h2
        · rw [if_neg hxy] at h1
          have hlt : x < y := by
            apply Classical.byContradiction
            intro h
            rw [if_neg h] at h1
            omega
          have hle : y ≤ z := by
            by_cases hyz : y = z
            · omega
            · rw [if_neg hyz] at h2
              apply Classical.byContradiction
              intro h
              rw [if_neg (by omega)] at h2
              omega
          rw [if_neg (by omega), if_pos (by omega)]
          decide

theorem lex_zero (a b : List Nat) : lex a b = 0 ↔ a = b := by
  induction a generalizing b with
  | nil => cases b <;> simp [lex]
  | cons x a ih =>
    cases b with
    | nil => simp [lex]
    | cons y b =>
      simp only [lex]
      by_cases h : x = y
      · simp [h, ih]
      · rw [if_neg h]
        constructor
        · split <;> intro h' <;> omega
        · intro h'
          exact absurd (List.cons.inj h').1 h

/-- the numbers compared -/
def key (d : Desc) : List Nat :=
  d.attrs.nobits.toNat :: (!d.attrs.exec).toNat :: d.attrs.write.toNat :: (d.attrs.exec && d.name ≠ str ".text").toNat ::
  (d.attrs.write && !(str ".dll_").isPrefixOf d.name).toNat :: d.name.map UInt8.toNat

/-- same sign -/
def Same (a b : Int) : Prop := (a < 0 ↔ b < 0) ∧ (a = 0 ↔ b = 0)

theorem strcmp_same (a b : Name) : Same (strcmp a b) (lex (a.map UInt8.toNat) (b.map UInt8.toNat)) := by
  induction a generalizing b with
  | nil => cases b <;> simp [strcmp, lex, Same]
  | cons x a ih =>
    cases b with
    | nil => simp [strcmp, lex, Same]
    | cons y b =>
      simp only [strcmp, List.map_cons, lex]
      by_cases h : x = y
      · rw [if_pos h, if_pos (by rw [h])]
        exact ih b
      · have h' : x.toNat ≠ y.toNat := fun e => h (UInt8.toNat_inj.1 e)
        rw [if_neg h, if_neg h']
        unfold Same
        split <;> omega

theorem strcmp_zero (a b : Name) : strcmp a b = 0 ↔ a = b := by
  rw [(strcmp_same a b).2, lex_zero]
  constructor
  · intro h
    exact (List.map_inj_right (fun _ _ h => UInt8.toNat_inj.1 h)).1 h
  · intro h
    rw [h]

theorem cmp_same (p q : Desc) : Same (cmp p q) (lex (key p) (key q)) := by
  obtain ⟨pn, pw, pe, pb⟩ := p
  obtain ⟨qn, qw, qe, qb⟩ := q
  unfold cmp key
  simp only
  by_cases hb : pb = qb
  · subst hb
    simp only [ne_eq, not_true_eq_false, if_false]
    by_cases he : pe = qe
    · subst he
      simp only [not_true_eq_false, if_false]
      by_cases hw : pw = qw
      · subst hw
        simp only [not_true_eq_false, if_false]
        simp only [lex, if_true]
        have hs := strcmp_same pn qn
        by_cases hn : pn = qn
        · subst hn
          simp only [(strcmp_zero pn pn).2 rfl, not_true_eq_false, false_and, if_false, if_true]
          exact ⟨by rw [(lex_zero _ _).2 rfl], by rw [(lex_zero _ _).2 rfl]⟩
        · have hne : ¬ strcmp pn qn = 0 := fun h => hn ((strcmp_zero _ _).1 h)
          simp only [hne, not_false_eq_true, true_and, strcmp_zero]
          have hnot : ∀ h1 : pn = str ".text", ¬ qn = str ".text" := fun h1 h2 => hn (h1.trans h2.symm)
          generalize hgt : str ".text" = T at *
          generalize hp : (str ".dll_").isPrefixOf pn = dp
          generalize hq : (str ".dll_").isPrefixOf qn = dq
          generalize hS : strcmp pn qn = S at *
          generalize hL : lex (pn.map UInt8.toNat) (qn.map UInt8.toNat) = L at *
          obtain ⟨hs1, hs2⟩ := hs
          unfold Same
          by_cases h1 : pn = T
          · have h2 := hnot h1
            cases pe <;> cases pw <;> cases dp <;> cases dq <;> simp [h1, h2] <;> omega
          · by_cases h2 : qn = T
            · cases pe <;> cases pw <;> cases dp <;> cases dq <;> simp [h1, h2] <;> omega
            · cases pe <;> cases pw <;> cases dp <;> cases dq <;> simp [h1, h2] <;> omega
      · cases pw <;> cases qw <;> simp_all [lex, Same]
    · cases pe <;> cases qe <;> simp_all [lex, Same]
  · cases pb <;> cases qb <;> simp_all [lex, Same]

theorem key_inj (p q : Desc) (h : key p = key q) : p = q := by
  obtain ⟨pn, pw, pe, pb⟩ := p
  obtain ⟨qn, qw, qe, qb⟩ := q
  unfold key at h
  injection h with h1 h
  injection h with h2 h
  injection h with h3 h
  injection h with _ h
  injection h with _ h
  have e1 : pn = qn := (List.map_inj_right (fun _ _ h => UInt8.toNat_inj.1 h)).1 h
  have e2 : pb = qb := by revert h1; cases pb <;> cases qb <;> simp
  have e3 : pe = qe := by revert h2; cases pe <;> cases qe <;> simp
  have e4 : pw = qw := by revert h3; cases pw <;> cases qw <;> simp
  rw [e1, e2, e3, e4]

end Smlr.Sect
