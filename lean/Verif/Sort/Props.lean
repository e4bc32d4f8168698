import Verif.Sort.Lemmas
set_option autoImplicit false
/-
Properties C06 (qsort) and C07 (bsearch).
-/
namespace Smlr.Sort
open Smlr.Mem

/-- a comparison callback that is a total preorder: the signs of `cmp a b` and `cmp b a`
are opposite, and "not after" is transitive -/
def TotalPreorder (cmp : List UInt8 → List UInt8 → Int) : Prop :=
  (∀ a b, cmp a b < 0 ↔ cmp b a > 0) ∧ (∀ a b c, cmp a b ≤ 0 → cmp b c ≤ 0 → cmp a c ≤ 0)

/-- the elements of an array of `n` elements of `esize` bytes at `base` -/
def elements (m : Mem) (base esize n : Nat) : List (List UInt8) :=
  (List.range n).map (fun i => (List.range esize).map (fun k => m (base + i * esize + k)))

/-- C06: after `qsort` the array holds a permutation of its elements, sorted with respect
to the callback, and no byte outside the array has changed. -/
theorem c06_qsort (base esize n : Nat) (cmp : List UInt8 → List UInt8 → Int) (m : Mem)
    (hcmp : TotalPreorder cmp) (hn : n < 4294967296) :
    (elements (qsort ⟨base, esize, cmp⟩ n m) base esize n).Perm (elements m base esize n) ∧
    (elements (qsort ⟨base, esize, cmp⟩ n m) base esize n).Pairwise (fun a b => cmp a b ≤ 0) ∧
    ∀ a, ¬ (base ≤ a ∧ a < base + n * esize) → qsort ⟨base, esize, cmp⟩ n m a = m a := by
  have hp : Preord cmp := ⟨hcmp.1, hcmp.2⟩
  have he : ∀ m', elements m' base esize n = (List.range n).map (elt ⟨base, esize, cmp⟩ m') := fun _ => rfl
  rw [he, he]
  obtain ⟨b1, b2, b3⟩ := build_spec ⟨base, esize, cmp⟩ hp n 0 m (by omega) (fun k _ _ => by omega)
  rw [Nat.zero_add] at b1 b2 b3
  obtain ⟨d1, d2, d3⟩ := drain_spec ⟨base, esize, cmp⟩ hp n n (build ⟨base, esize, cmp⟩ n 0 m) (Nat.le_refl _) b1
    (fun i j _ _ _ => by omega) (fun i j _ _ _ => by omega)
  refine ⟨(b2.trans d2).perm, ?_, ?_⟩
  · rw [List.pairwise_map]
    refine List.Pairwise.imp_of_mem ?_ (List.pairwise_lt_range)
    intro i j hi hj hij
    exact d1 i j (by omega) (List.mem_range.1 hj)
  · intro a ha
    show drain _ n (build _ n 0 m) a = m a
    rw [d3 a ha, b3 a ha]

/-- comparing one-byte elements by value is a total preorder -/
def cmp1 (a b : List UInt8) : Int := ((a.headD 0).toNat : Int) - (b.headD 0).toNat

example : TotalPreorder cmp1 ∧
    elements (qsort ⟨10, 1, cmp1⟩ 5 (fun a => [9, 3, 7, 3, 1][a - 10]?.getD 0)) 10 1 5 = [[1],[3],[3],[7],[9]] := by
  refine ⟨⟨fun a b => by unfold cmp1; omega, fun a b c => by unfold cmp1; omega⟩, ?_⟩
  simp only [qsort, build, drain, elements]
  decide +kernel

/-- C07: on an array whose elements are ordered relative to the key, `bsearch` returns a
pointer to an element comparing equal to the key if there is one and NULL otherwise. -/
theorem c07_bsearch (m : Mem) (key : List UInt8 → Int) (esize n base : Nat)
    (hsorted : (elements m base esize n).Pairwise
      (fun x y => (key x < 0 → key y < 0) ∧ (key y > 0 → key x > 0))) :
    match bsearch m key esize n base with
    | some p => ∃ i, i < n ∧ p = base + i * esize ∧ key ((List.range esize).map (fun k => m (p + k))) = 0
    | none => ∀ x ∈ elements m base esize n, key x ≠ 0 := by
  have key' : ∀ (n base : Nat), (∀ i j, i < j → j < n →
        (key (bytes m (base + i*esize) esize) < 0 → key (bytes m (base + j*esize) esize) < 0) ∧
        (key (bytes m (base + j*esize) esize) > 0 → key (bytes m (base + i*esize) esize) > 0)) →
      match bsearch m key esize n base with
      | some p => ∃ i, i < n ∧ p = base + i * esize ∧ key (bytes m p esize) = 0
      | none => ∀ i, i < n → key (bytes m (base + i*esize) esize) ≠ 0 := by
    intro n
    induction n using Nat.strongRecOn with
    | _ n ih =>
      intro base hs
      unfold bsearch
      by_cases h0 : n = 0
      · rw [dif_pos h0]; intro i hi; omega
      · rw [dif_neg h0]
        simp only
        generalize ht : key (bytes m (base + n/2*esize) esize) = t
        by_cases t0 : t = 0
        · rw [if_pos t0]
          exact ⟨n/2, by omega, rfl, by rw [ht, t0]⟩
        · rw [if_neg t0]
          by_cases t1 : t < 0
          · rw [if_pos t1]
            have := ih (n/2) (by omega) base (fun i j hij hj => hs i j hij (by omega))
            split
            · rename_i p hp; rw [hp] at this
              obtain ⟨i, hi, e1, e2⟩ := this
              exact ⟨i, by omega, e1, e2⟩
            · rename_i hp; rw [hp] at this
              intro i hi
              by_cases hin : i < n/2
              · exact this i hin
              · by_cases hin2 : i = n/2
                · subst hin2; rw [ht]; exact t0
                · have := (hs (n/2) i (by omega) hi).1 (by rw [ht]; exact t1)
                  omega
          · rw [if_neg t1]
            have e : ∀ i, base + n/2*esize + esize + i*esize = base + (n/2 + 1 + i)*esize := by
              intro i; rw [Nat.add_mul, Nat.add_mul, Nat.one_mul]; omega
            have := ih (n - (n/2+1)) (by omega) (base + n/2*esize + esize) (fun i j hij hj => by
              rw [e, e]; exact hs _ _ (by omega) (by omega))
            split
            · rename_i p hp; rw [hp] at this
              obtain ⟨i, hi, e1, e2⟩ := this
              exact ⟨n/2+1+i, by omega, by rw [e1, e], e2⟩
            · rename_i hp; rw [hp] at this
              intro i hi
              by_cases hin : n/2 < i
              · have h := this (i - (n/2+1)) (by omega)
                rw [e, show n/2 + 1 + (i - (n/2+1)) = i by omega] at h
                exact h
              · by_cases hin2 : i = n/2
                · subst hin2; rw [ht]; exact t0
                · have := (hs i (n/2) (by omega) (by omega)).2 (by rw [ht]; omega)
                  omega
  have := key' n base ?_
  · split
    · rename_i p hp; rw [hp] at this; exact this
    · rename_i hp; rw [hp] at this
      intro x hx
      unfold elements at hx
      obtain ⟨i, hi, rfl⟩ := List.mem_map.1 hx
      exact this i (List.mem_range.1 hi)
  · intro i j hij hj
    have hget : ∀ i, i < n → (elements m base esize n)[i]? = some (bytes m (base + i*esize) esize) := by
      intro i hi
      simp [elements, bytes, List.getElem?_map, List.getElem?_range hi]
    rw [List.pairwise_iff_getElem] at hsorted
    have hl : (elements m base esize n).length = n := by simp [elements]
    have := hsorted i j (by omega) (by omega) hij
    have gi := hget i (by omega)
    have gj := hget j hj
    rw [List.getElem?_eq_getElem (by omega)] at gi gj
    simp only [Option.some.injEq] at gi gj
    rw [gi, gj] at this
    exact this

/-- searching 7 in the sorted bytes 1 3 3 7 9 -/
example : (elements (fun a => [1, 3, 3, 7, 9][a - 10]?.getD 0) 10 1 5).Pairwise
      (fun x y => (cmp1 [7] x < 0 → cmp1 [7] y < 0) ∧ (cmp1 [7] y > 0 → cmp1 [7] x > 0)) ∧
    bsearch (fun a => [1, 3, 3, 7, 9][a - 10]?.getD 0) (cmp1 [7]) 1 5 10 = some 13 := by
  decide +kernel

end Smlr.Sort
