import Verif.Init.Complete

/-! # Initialisers: the text determines the tree, the tree determines the meaning -/
set_option autoImplicit false

namespace Smlr.Init

theorem map_lit_inj {w : Bool} {ps qs : List (List Nat)} {r r' : List Tok} (hr : NoLit r) (hr' : NoLit r') (h : ps.map (Tok.lit w) ++ r = qs.map (Tok.lit w) ++ r') : ps = qs ∧ r = r' := by
  induction ps generalizing qs with
  | nil =>
    cases qs with
    | nil => exact ⟨rfl, by simpa using h⟩
    | cons q qs =>
      exact absurd (by rw [show r = _ from h]; rfl) (hr w q)
  | cons p ps ih =>
    cases qs with
    | nil => exact absurd (by rw [show r' = _ from h.symm]; rfl) (hr' w p)
    | cons q qs =>
      simp only [List.map_cons, List.cons_append, List.cons.injEq, Tok.lit.injEq] at h
      obtain ⟨h1, h2⟩ := ih h.2
      exact ⟨by rw [h.1.2, h1], h2⟩

theorem fin_inj {tc tc' : Bool} {x x' : List Tok} (h : fin tc x = fin tc' x') : tc = tc' ∧ x = x' := by
  cases tc <;> cases tc' <;> simp [fin, tcs] at h ⊢ <;> exact h

mutual
theorem flat_inj : ∀ (i j : Ini) (r r' : List Tok), NoLit r → NoLit r' → flat i ++ r = flat j ++ r' → i = j ∧ r = r'
  | .ex l v, j, r, r', hr, hr', h => by
    cases j <;> simp [flat] at h ⊢
    exact ⟨h.1, h.2⟩
  | .lit w p ps, j, r, r', hr, hr', h => by
    cases j with
    | ex l v => simp [flat] at h
    | br l tc => simp [flat] at h
    | lit w' p' ps' =>
      simp only [flat, List.cons_append, List.cons.injEq, Tok.lit.injEq] at h
      obtain ⟨⟨rfl, rfl⟩, h⟩ := h
      obtain ⟨h1, h2⟩ := map_lit_inj hr hr' h
      exact ⟨by rw [h1], h2⟩
  | .br l tc, j, r, r', hr, hr', h => by
    cases j with
    | ex l v => simp [flat] at h
    | lit w p ps => simp [flat] at h
    | br m tc' =>
      have : flatL l ++ fin tc r = flatL m ++ fin tc' r' := by
        simpa [flat, fin] using h
      obtain ⟨h1, h2, h3⟩ := flatL_inj l m tc tc' r r' this
      exact ⟨by rw [h1, h2], h3⟩
theorem flatL_inj : ∀ (l m : List Ini) (tc tc' : Bool) (x x' : List Tok), flatL l ++ fin tc x = flatL m ++ fin tc' x' → l = m ∧ tc = tc' ∧ x = x'
  | [], m, tc, tc', x, x', h => by
    cases m with
    | nil => exact ⟨rfl, fin_inj (by simpa [flatL] using h)⟩
    | cons j m =>
      exfalso
      cases tc <;> cases m <;> cases j <;> simp [flatL, flat, fin, tcs] at h
  | i :: l, m, tc, tc', x, x', h => by
    cases m with
    | nil =>
      exfalso
      cases tc' <;> cases l <;> cases i <;> simp [flatL, flat, fin, tcs] at h
    | cons j m =>
      rw [flatL_after, flatL_after] at h
      obtain ⟨h1, h2⟩ := flat_inj i j _ _ (noLit_after _ _ (noLit_fin _ _)) (noLit_after _ _ (noLit_fin _ _)) h
      subst h1
      have hx : ∀ (k : Ini) (n : List Ini) (t t' : Bool) (y y' : List Tok), fin t y = .comma :: (flatL (k :: n) ++ fin t' y') → False := by
        intro k n t t' y y' e
        cases t with
        | false => simp [fin, tcs] at e
        | true =>
          have e' : .rb :: y = flatL (k :: n) ++ fin t' y' := by simpa [fin, tcs] using e
          exact flatL_ne k n (fin t' y') (e' ▸ ends_rb y)
      match l, m, h2 with
      | [], [], h2 => exact ⟨rfl, fin_inj (by simpa [after] using h2)⟩
      | [], k :: n, h2 => exact absurd (by simpa [after] using h2) (hx k n tc tc' x x')
      | k :: n, [], h2 => exact absurd (by simpa [after] using h2.symm) (hx k n tc' tc x' x)
      | k :: n, k' :: n', h2 =>
        have : flatL (k :: n) ++ fin tc x = flatL (k' :: n') ++ fin tc' x' := by simpa [after] using h2
        obtain ⟨a, b⟩ := flatL_inj (k :: n) (k' :: n') tc tc' x x' this
        exact ⟨by rw [a], b⟩
end

theorem arrOf_more {f : Nat → List Ini → Option (Pl × List Ini)} {n sz j : Nat} {k : Option Bool} {o : Nat} {i : Ini} {pl : Pl} (hs : strOf k i = none) (h : arrOf f n sz k o [i] = some (pl, [])) :
    arrOf f (n + j) sz k o [i] = some (pl, []) := by
  rw [arrOf, hs] at h ⊢
  dsimp only at h ⊢
  split at h
  · cases h
  · rename_i hb
    rw [if_neg hb]
    rcases aggr_cases h with ⟨m, tc1, rfl, hm, hg, _⟩ | ⟨hnb, hg⟩
    · rw [aggr_br hm, fill_more _ _ _ j _ _ _ hg]
      rfl
    · rw [aggr_plain hnb]
      exact fill_more _ _ _ j _ _ _ hg

theorem Means.unique {W : Nat} {t : Ty} {i : Ini} {t1 t2 : Ty} {p1 p2 : Pl} (h1 : Means W t i t1 p1) (h2 : Means W t i t2 p2) : t1 = t2 ∧ p1 = p2 := by
  cases h1 with
  | known a1 a2 =>
    cases h2 with
    | known b1 b2 => rw [a2] at b2; simp at b2; exact ⟨rfl, b2⟩
    | string b => exact absurd (by rw [size, Nat.zero_mul]) a1
    | list b => exact absurd (by rw [size, Nat.zero_mul]) a1
  | string a =>
    cases h2 with
    | known b1 b2 => exact absurd (by rw [size, Nat.zero_mul]) b1
    | string b => rw [a] at b; simp at b; subst b; exact ⟨rfl, rfl⟩
    | list b => rw [a] at b; cases b
  | @list e _ n _ a a1 a2 =>
    cases h2 with
    | known b1 b2 => exact absurd (by rw [size, Nat.zero_mul]) b1
    | string b => rw [a] at b; cases b
    | @list _ _ n' _ b b1 b2 =>
      rw [sub] at a1 a2 b1 b2
      have hle : ∀ x y, arrOf (fun o l => sub W e o l) (x + 1) (size e) (kind e) 0 [i] ≠ none → arrOf (fun o l => sub W e o l) y (size e) (kind e) 0 [i] = none →
          (∃ p, arrOf (fun o l => sub W e o l) (x + 1) (size e) (kind e) 0 [i] = some (p, [])) → y ≤ x := by
        intro x y _ hy ⟨p, hx⟩
        rcases Nat.lt_or_ge x y with h | h
        · exfalso
          have := arrOf_more (j := y - (x + 1)) a hx
          rw [show x + 1 + (y - (x + 1)) = y by omega, hy] at this
          cases this
        · exact h
      have e1 := hle n n' (by rw [a1]; simp) b2 ⟨_, a1⟩
      have e2 := hle n' n (by rw [b1]; simp) a2 ⟨_, b1⟩
      have : n = n' := by omega
      subst this
      rw [a1] at b1
      simp at b1
      exact ⟨rfl, b1⟩

end Smlr.Init
