import Verif.Declr.Sound

set_option autoImplicit false
/-
The entries of a type determine it.
-/
namespace Smlr.Declr
open Spec

mutual
theorem enc_inj : ∀ (t t' : Ty) (r r' : List Ent), t.deep → t'.deep → t.enc ++ r = t'.enc ++ r' → t = t' ∧ r = r'
  | .base b, t', r, r', _, _, h => by
    cases t' with
    | base b' => simp [Ty.enc] at h; exact ⟨by rw [h.1], h.2⟩
    | ptr t' => simp [Ty.enc] at h
    | arr n t' => simp [Ty.enc] at h
    | fn ps t' => simp [Ty.enc] at h
  | .ptr t, t', r, r', h1, h2, h => by
    cases t' with
    | base b' => simp [Ty.enc] at h
    | ptr t' =>
      rw [Ty.deep] at h1 h2
      simp only [Ty.enc, List.cons_append, List.cons.injEq, true_and] at h
      obtain ⟨e1, e2⟩ := enc_inj t t' r r' h1 h2 h
      exact ⟨by rw [e1], e2⟩
    | arr n t' => simp [Ty.enc] at h
    | fn ps t' => simp [Ty.enc] at h
  | .arr n t, t', r, r', h1, h2, h => by
    cases t' with
    | base b' => simp [Ty.enc] at h
    | ptr t' => simp [Ty.enc] at h
    | arr n' t' =>
      rw [Ty.deep] at h1 h2
      simp only [Ty.enc, List.cons_append, List.cons.injEq, true_and, Ent.num.injEq] at h
      obtain ⟨e1, e2⟩ := enc_inj t t' r r' h1.1 h2.1 h.2
      exact ⟨by rw [e1, h.1], e2⟩
    | fn ps t' => simp [Ty.enc] at h
  | .fn ps t, t', r, r', h1, h2, h => by
    cases t' with
    | base b' => simp [Ty.enc] at h
    | ptr t' => simp [Ty.enc] at h
    | arr n' t' => simp [Ty.enc] at h
    | fn ps' t' =>
      rw [Ty.deep] at h1 h2
      simp only [Ty.enc, List.append_assoc, List.cons_append, List.cons.injEq, true_and] at h
      obtain ⟨e1, e2⟩ := ps_inj ps ps' _ _ h1.2.2.2 h2.2.2.2 h
      obtain ⟨e3, e4⟩ := enc_inj t t' r r' h1.1 h2.1 e2
      exact ⟨by rw [e1, e3], e4⟩
theorem ps_inj : ∀ (ps ps' : Ps) (r r' : List Ent), ps.deep → ps'.deep → ps.enc ++ .rpar :: r = ps'.enc ++ .rpar :: r' →
    ps = ps' ∧ r = r'
  | .unknown, ps', r, r', _, h2, h => by
    cases ps' with
    | unknown => simp [Ps.enc] at h; exact ⟨rfl, h⟩
    | nil => simp [Ps.enc] at h
    | dots => rw [Ps.deep] at h2; exact h2.elim
    | cons x t ps' => simp [Ps.enc] at h
  | .nil, ps', r, r', _, h2, h => by
    cases ps' with
    | unknown => simp [Ps.enc] at h
    | nil => simp [Ps.enc] at h; exact ⟨rfl, h⟩
    | dots => rw [Ps.deep] at h2; exact h2.elim
    | cons x t ps' =>
      rw [Ps.deep] at h2
      simp only [Ps.enc, List.cons_append, List.append_assoc, List.cons.injEq, List.nil_append] at h
      have hv := h2.2.1
      match t, hv, h with
      | .base b, hv, h =>
        simp only [Ty.enc, List.cons_append, List.cons.injEq, Ent.base.injEq] at h
        rw [← h.2.1] at hv; cases hv
      | .ptr t, _, h => simp [Ty.enc] at h
      | .arr n t, _, h => simp [Ty.enc] at h
      | .fn p t, _, h => simp [Ty.enc] at h
  | .dots, ps', r, r', h1, _, _ => by rw [Ps.deep] at h1; exact h1.elim
  | .cons x t ps, ps', r, r', h1, h2, h => by
    rw [Ps.deep] at h1
    cases ps' with
    | unknown => simp [Ps.enc] at h
    | nil =>
      simp only [Ps.enc, List.cons_append, List.append_assoc, List.cons.injEq, List.nil_append] at h
      have hv := h1.2.1
      match t, hv, h with
      | .base b, hv, h =>
        simp only [Ty.enc, List.cons_append, List.cons.injEq, Ent.base.injEq] at h
        rw [h.2.1] at hv; cases hv
      | .ptr t, _, h => simp [Ty.enc] at h
      | .arr n t, _, h => simp [Ty.enc] at h
      | .fn p t, _, h => simp [Ty.enc] at h
    | dots => rw [Ps.deep] at h2; exact h2.elim
    | cons x' t' ps' =>
      rw [Ps.deep] at h2
      simp only [Ps.enc, List.cons_append, List.append_assoc, List.cons.injEq, Ent.ident.injEq] at h
      obtain ⟨e1, e2⟩ := enc_inj t t' _ _ h1.1 h2.1 h.2
      obtain ⟨e3, e4⟩ := ps_inj' ps ps' r r' h1.2.2 h2.2.2 e2
      exact ⟨by rw [h.1, e1, e3], e4⟩
theorem ps_inj' : ∀ (ps ps' : Ps) (r r' : List Ent), ps.deep' → ps'.deep' → ps.enc' ++ .rpar :: r = ps'.enc' ++ .rpar :: r' →
    ps = ps' ∧ r = r'
  | .unknown, _, _, _, h1, _, _ => by rw [Ps.deep'] at h1; exact h1.elim
  | .nil, ps', r, r', _, h2, h => by
    cases ps' with
    | unknown => rw [Ps.deep'] at h2; exact h2.elim
    | nil => simp [Ps.enc'] at h; exact ⟨rfl, h⟩
    | dots => simp [Ps.enc'] at h
    | cons x t ps' => simp [Ps.enc'] at h
  | .dots, ps', r, r', _, h2, h => by
    cases ps' with
    | unknown => rw [Ps.deep'] at h2; exact h2.elim
    | nil => simp [Ps.enc'] at h
    | dots => simp [Ps.enc'] at h; exact ⟨rfl, h⟩
    | cons x t ps' => cases t <;> simp [Ps.enc', Ty.enc] at h
  | .cons x t ps, ps', r, r', h1, h2, h => by
    rw [Ps.deep'] at h1
    cases ps' with
    | unknown => rw [Ps.deep'] at h2; exact h2.elim
    | nil => simp [Ps.enc'] at h
    | dots => cases t <;> simp [Ps.enc', Ty.enc] at h
    | cons x' t' ps' =>
      rw [Ps.deep'] at h2
      simp only [Ps.enc', List.cons_append, List.append_assoc, List.cons.injEq, Ent.ident.injEq] at h
      obtain ⟨e1, e2⟩ := enc_inj t t' _ _ h1.1 h2.1 h.2
      obtain ⟨e3, e4⟩ := ps_inj' ps ps' r r' h1.2.2 h2.2.2 e2
      exact ⟨by rw [h.1, e1, e3], e4⟩
end

end Smlr.Declr
