import Verif.Sort.Model
import Verif.Mem.Lemmas
set_option autoImplicit false
/-
Lemmas for C06: the heap algorithm on an abstract array `Nat → α`, and the
simulation of the byte-level code by it.
-/
namespace Smlr.Sort
open Smlr.Mem

/-! ### bytes and exchange -/

theorem exchange_other : ∀ (n p q : Nat) (m : Mem) (a : Nat),
    ¬ (p ≤ a ∧ a < p + n) → ¬ (q ≤ a ∧ a < q + n) → exchange n p q m a = m a := by
  intro n
  induction n with
  | zero => intro p q m a _ _; rfl
  | succ n ih =>
    intro p q m a h1 h2
    simp only [exchange]
    rw [ih _ _ _ _ (by omega) (by omega), upd_ne _ _ (by omega), upd_ne _ _ (by omega)]

theorem exchange_self : ∀ (n p : Nat) (m : Mem), exchange n p p m = m := by
  intro n
  induction n with
  | zero => intro p m; rfl
  | succ n ih =>
    intro p m
    simp only [exchange]
    rw [ih]
    funext a
    by_cases h : a = p
    · subst h; rw [upd_same]
    · rw [upd_ne _ _ h, upd_ne _ _ h]

theorem exchange_fst : ∀ (n p q : Nat) (m : Mem) (k : Nat), (p + n ≤ q ∨ q + n ≤ p) → k < n →
    exchange n p q m (p + k) = m (q + k) ∧ exchange n p q m (q + k) = m (p + k) := by
  intro n
  induction n with
  | zero => intro p q m k _ hk; omega
  | succ n ih =>
    intro p q m k hd hk
    simp only [exchange]
    cases k with
    | zero =>
      simp only [Nat.add_zero]
      rw [exchange_other _ _ _ _ _ (by omega) (by omega), exchange_other _ _ _ _ _ (by omega) (by omega),
        upd_ne _ _ (by omega), upd_same, upd_same]
      exact ⟨rfl, rfl⟩
    | succ k =>
      have := ih (p+1) (q+1) (upd (upd m p (m q)) q (m p)) k (by omega) (by omega)
      rw [show p + (k+1) = p + 1 + k by omega, show q + (k+1) = q + 1 + k by omega, this.1, this.2,
        upd_ne _ _ (by omega), upd_ne _ _ (by omega), upd_ne _ _ (by omega), upd_ne _ _ (by omega)]
      exact ⟨rfl, rfl⟩

/-- element view of the memory -/
def elt (c : Cfg) (m : Mem) (i : Nat) : List UInt8 := bytes m (c.at i) c.esize

/-- abstract swap -/
def swapF {α : Type} (f : Nat → α) (i j : Nat) : Nat → α :=
  fun k => if k = i then f j else if k = j then f i else f k

theorem bytes_congr (m m' : Mem) (p q n : Nat) (h : ∀ k, k < n → m (p + k) = m' (q + k)) :
    bytes m p n = bytes m' q n := by
  unfold bytes
  apply List.map_congr_left
  intro k hk
  exact h k (List.mem_range.1 hk)

theorem at_disj (c : Cfg) {i j : Nat} (h : i < j) : c.at i + c.esize ≤ c.at j := by
  unfold Cfg.at
  have : (i + 1) * c.esize ≤ j * c.esize := Nat.mul_le_mul_right _ h
  rw [Nat.add_mul] at this
  omega

theorem at_disj' (c : Cfg) {i j : Nat} (h : i ≠ j) :
    c.at i + c.esize ≤ c.at j ∨ c.at j + c.esize ≤ c.at i := by
  rcases Nat.lt_or_gt_of_ne h with h | h
  · exact Or.inl (at_disj c h)
  · exact Or.inr (at_disj c h)

theorem elt_exchange (c : Cfg) (m : Mem) (i j : Nat) :
    elt c (exchange c.esize (c.at i) (c.at j) m) = swapF (elt c m) i j := by
  funext k
  unfold swapF
  by_cases hij : i = j
  · subst hij
    rw [exchange_self]
    by_cases hk : k = i
    · subst hk; simp
    · simp [hk]
  · have hd := at_disj' c hij
    by_cases hk : k = i
    · subst hk
      rw [if_pos rfl]
      exact bytes_congr _ _ _ _ _ (fun l hl => (exchange_fst _ _ _ m l hd hl).1)
    · rw [if_neg hk]
      by_cases hk2 : k = j
      · subst hk2
        rw [if_pos rfl]
        exact bytes_congr _ _ _ _ _ (fun l hl => (exchange_fst _ _ _ m l hd hl).2)
      · rw [if_neg hk2]
        have d1 := at_disj' c hk
        have d2 := at_disj' c hk2
        exact bytes_congr _ _ _ _ _ (fun l hl => exchange_other _ _ _ _ _ (by omega) (by omega))

/-! ### abstract arrays -/

section
variable {α : Type} (cmp : α → α → Int)

/-- `a` does not come after `b` -/
def leC (a b : α) : Prop := cmp a b ≤ 0

structure Preord : Prop where
  anti : ∀ a b, cmp a b < 0 ↔ cmp b a > 0
  trans : ∀ a b c, cmp a b ≤ 0 → cmp b c ≤ 0 → cmp a c ≤ 0

variable {cmp}

theorem Preord.refl (h : Preord cmp) (a : α) : leC cmp a a := by
  have := h.anti a a; unfold leC; omega

theorem Preord.le_of_not (h : Preord cmp) {a b : α} (hn : ¬ leC cmp a b) : leC cmp b a := by
  have := h.anti b a; unfold leC at *; omega

theorem Preord.of_ge (h : Preord cmp) {a b : α} (hn : cmp a b ≥ 0) : leC cmp b a := by
  have := h.anti a b; unfold leC at *
  have := h.anti b a; omega

/-- rearrangements of the positions below `n` -/
inductive Swaps (n : Nat) : (Nat → α) → (Nat → α) → Prop
  | refl (f) : Swaps n f f
  | step {f g} (i j : Nat) : i < n → j < n → Swaps n (swapF f i j) g → Swaps n f g

theorem Swaps.trans {n : Nat} {f g h : Nat → α} (a : Swaps n f g) (b : Swaps n g h) : Swaps n f h := by
  induction a with
  | refl => exact b
  | step i j hi hj _ ih => exact Swaps.step i j hi hj (ih b)

theorem Swaps.mono {n k : Nat} {f g : Nat → α} (a : Swaps n f g) (hk : n ≤ k) : Swaps k f g := by
  induction a with
  | refl => exact Swaps.refl _
  | step i j hi hj _ ih => exact Swaps.step i j (by omega) (by omega) ih

theorem Swaps.above {n : Nat} {f g : Nat → α} (a : Swaps n f g) : ∀ k, n ≤ k → g k = f k := by
  induction a with
  | refl => intro k _; rfl
  | step i j hi hj _ ih =>
    intro k hk
    rw [ih k hk]
    unfold swapF
    rw [if_neg (by omega), if_neg (by omega)]

theorem Swaps.within {n : Nat} {f g : Nat → α} (a : Swaps n f g) : ∀ k, k < n → ∃ l, l < n ∧ g k = f l := by
  induction a with
  | refl => intro k hk; exact ⟨k, hk, rfl⟩
  | step i j hi hj _ ih =>
    intro k hk
    obtain ⟨l, hl, e⟩ := ih k hk
    rw [e]
    unfold swapF
    by_cases h1 : l = i
    · exact ⟨j, hj, by rw [if_pos h1]⟩
    · by_cases h2 : l = j
      · exact ⟨i, hi, by rw [if_neg h1, if_pos h2]⟩
      · exact ⟨l, hl, by rw [if_neg h1, if_neg h2]⟩

theorem perm_swapF (n i j : Nat) (hi : i < n) (hj : j < n) (f : Nat → α) :
    ((List.range n).map (swapF f i j)).Perm ((List.range n).map f) := by
  have hsz : ((List.range n).map f).toArray.size = n := by simp
  have h := Array.swap_perm (xs := ((List.range n).map f).toArray) (i := i) (j := j) (by rw [hsz]; exact hi) (by rw [hsz]; exact hj)
  have h2 := h.toList
  have e : (((List.range n).map f).toArray.swap i j (by rw [hsz]; exact hi) (by rw [hsz]; exact hj)).toList
      = (List.range n).map (swapF f i j) := by
    apply List.ext_getElem
    · simp
    · intro k h1 h2
      simp only [Array.getElem_toList, Array.getElem_swap, List.getElem_toArray, List.getElem_map, List.getElem_range, swapF]
  rw [e] at h2
  simpa using h2

theorem Swaps.perm {n : Nat} {f g : Nat → α} (a : Swaps n f g) :
    ((List.range n).map g).Perm ((List.range n).map f) := by
  induction a with
  | refl => exact List.Perm.refl _
  | step i j hi hj _ ih => exact ih.trans (perm_swapF n i j hi hj _)

/-- heap property of the first `n` positions -/
def Heap (cmp : α → α → Int) (n : Nat) (f : Nat → α) : Prop :=
  ∀ i, 0 < i → i < n → leC cmp (f i) (f ((i-1)/2))

theorem Heap.root (h : Preord cmp) {n : Nat} {f : Nat → α} (hh : Heap cmp n f) :
    ∀ i, i < n → leC cmp (f i) (f 0) := by
  intro i
  induction i using Nat.strongRecOn with
  | _ i ih =>
    intro hi
    by_cases h0 : i = 0
    · subst h0; exact h.refl _
    · exact h.trans _ _ _ (hh i (by omega) hi) (ih ((i-1)/2) (by omega) (by omega))

theorem swapF_l (f : Nat → α) (i j : Nat) : swapF f i j i = f j := by simp [swapF]
theorem swapF_r (f : Nat → α) (i j : Nat) : swapF f i j j = f i := by
  unfold swapF; split
  · rename_i h; rw [h]
  · rw [if_pos rfl]
theorem swapF_o (f : Nat → α) {i j k : Nat} (h1 : k ≠ i) (h2 : k ≠ j) : swapF f i j k = f k := by
  simp [swapF, h1, h2]

end

theorem parentOf_eq {i : Nat} (h : 0 < i) (hi : i ≤ 4294967296) : parentOf i = (i-1)/2 := by
  unfold parentOf; omega

/-- what `qsort` may touch -/
def inArr (c : Cfg) (n a : Nat) : Prop := c.base ≤ a ∧ a < c.at n

theorem at_le (c : Cfg) {i n : Nat} (h : i < n) : c.base ≤ c.at i ∧ c.at i + c.esize ≤ c.at n := by
  refine ⟨by unfold Cfg.at; omega, at_disj c h⟩

theorem exchange_frame (c : Cfg) (m : Mem) {i j n : Nat} (hi : i < n) (hj : j < n) (a : Nat) (ha : ¬ inArr c n a) :
    exchange c.esize (c.at i) (c.at j) m a = m a := by
  have h1 := at_le c hi
  have h2 := at_le c hj
  unfold inArr at ha
  exact exchange_other _ _ _ _ _ (by omega) (by omega)

theorem siftUp_spec (c : Cfg) (hp : Preord c.cmp) (n : Nat) (hn : n ≤ 4294967296) : ∀ (i : Nat) (m : Mem), i < n →
    (∀ k, 0 < k → k < n → k ≠ i → leC c.cmp (elt c m k) (elt c m ((k-1)/2))) →
    (∀ k, 0 < k → k < n → (k-1)/2 = i → 0 < i → leC c.cmp (elt c m k) (elt c m ((i-1)/2))) →
    Heap c.cmp n (elt c (siftUp c i m)) ∧ Swaps n (elt c m) (elt c (siftUp c i m)) ∧
    ∀ a, ¬ inArr c n a → siftUp c i m a = m a := by
  intro i
  induction i using Nat.strongRecOn with
  | _ i ih =>
    intro m hi hA hB
    unfold siftUp
    by_cases hc : i ≠ 0 ∧ c.fcmp m (parentOf i) i < 0
    · rw [if_pos hc]
      obtain ⟨h0, hlt⟩ := hc
      have h0' : 0 < i := by omega
      rw [parentOf_eq h0' (by omega)] at *
      have hpi : (i-1)/2 < i := by omega
      generalize hpe : (i-1)/2 = p at *
      have hex := elt_exchange c m p i
      have hle : leC c.cmp (elt c m p) (elt c m i) := Int.le_of_lt hlt
      have := ih p hpi (exchange c.esize (c.at p) (c.at i) m) (by omega) ?_ ?_
      · rw [hex] at this
        refine ⟨this.1, Swaps.step p i (by omega) hi this.2.1, ?_⟩
        intro a ha
        rw [this.2.2 a ha, exchange_frame c m (by omega) hi a ha]
      · intro k hk hkn hkp
        rw [hex]
        by_cases hki : k = i
        · subst hki; rw [hpe, swapF_l, swapF_r]; exact hle
        · rw [swapF_o _ hkp hki]
          by_cases h1 : (k-1)/2 = i
          · rw [h1, swapF_r]; exact hB k hk hkn h1 h0'
          · by_cases h2 : (k-1)/2 = p
            · rw [h2, swapF_l]
              exact hp.trans _ _ _ (h2 ▸ hA k hk hkn hki) hle
            · rw [swapF_o _ h2 h1]; exact hA k hk hkn hki
      · intro k hk hkn hkp hp0
        rw [hex, swapF_o _ (show (p-1)/2 ≠ p by omega) (show (p-1)/2 ≠ i by omega)]
        have hpp := hA p hp0 (by omega) (by omega)
        by_cases hki : k = i
        · subst hki; rw [swapF_r]; exact hpp
        · rw [swapF_o _ (show k ≠ p by omega) hki]
          exact hp.trans _ _ _ (hkp ▸ hA k hk hkn hki) hpp
    · rw [if_neg hc]
      refine ⟨?_, Swaps.refl _, fun _ _ => rfl⟩
      intro k hk hkn
      by_cases hki : k = i
      · subst hki
        rw [parentOf_eq hk (by omega)] at hc
        have : ¬ c.cmp (elt c m ((k-1)/2)) (elt c m k) < 0 := fun h => hc ⟨by omega, h⟩
        exact hp.of_ge (by omega)
      · exact hA k hk hkn hki

theorem candidate_spec (c : Cfg) (hp : Preord c.cmp) (n i : Nat) (m : Mem) (h : i < n / 2) :
    i < candidate c n i m ∧ candidate c n i m < n ∧ (candidate c n i m - 1)/2 = i ∧
    ∀ k, 0 < k → k < n → (k-1)/2 = i → leC c.cmp (elt c m k) (elt c m (candidate c n i m)) := by
  unfold candidate
  simp only
  split
  · rename_i hc
    refine ⟨by omega, by omega, by omega, ?_⟩
    intro k hk hkn hki
    have : k = 2*i+1 ∨ k = 2*i+1+1 := by omega
    rcases this with e | e
    · subst e; exact hp.of_ge (Int.le_of_lt hc.2)
    · subst e; exact hp.refl _
  · rename_i hc
    refine ⟨by omega, by omega, by omega, ?_⟩
    intro k hk hkn hki
    have : k = 2*i+1 ∨ k = 2*i+1+1 := by omega
    rcases this with e | e
    · subst e; exact hp.refl _
    · subst e
      have : ¬ c.cmp (elt c m (2*i+1+1)) (elt c m (2*i+1)) > 0 := fun h => hc ⟨hkn, h⟩
      unfold leC; omega

theorem siftDown_spec (c : Cfg) (hp : Preord c.cmp) (n : Nat) : ∀ (s i : Nat) (m : Mem), n - i ≤ s → i < n →
    (∀ k, 0 < k → k < n → (k-1)/2 ≠ i → leC c.cmp (elt c m k) (elt c m ((k-1)/2))) →
    (∀ k, 0 < k → k < n → (k-1)/2 = i → 0 < i → leC c.cmp (elt c m k) (elt c m ((i-1)/2))) →
    Heap c.cmp n (elt c (siftDown c n i m)) ∧ Swaps n (elt c m) (elt c (siftDown c n i m)) ∧
    ∀ a, ¬ inArr c n a → siftDown c n i m a = m a := by
  intro s
  induction s with
  | zero => intro i m h1 h2; omega
  | succ s ih =>
    intro i m hs hi hA hB
    unfold siftDown
    by_cases hc : i < n / 2
    · rw [if_pos hc]
      obtain ⟨h1, h2, h3, h4⟩ := candidate_spec c hp n i m hc
      generalize candidate c n i m = d at *
      by_cases hb : c.fcmp m i d ≥ 0
      · rw [if_pos hb]
        refine ⟨?_, Swaps.refl _, fun _ _ => rfl⟩
        intro k hk hkn
        by_cases hki : (k-1)/2 = i
        · rw [hki]
          exact hp.trans _ _ _ (h4 k hk hkn hki) (hp.of_ge hb)
        · exact hA k hk hkn hki
      · rw [if_neg hb]
        have hle : leC c.cmp (elt c m i) (elt c m d) := by
          have : c.fcmp m i d ≤ 0 := by omega
          exact this
        have hex := elt_exchange c m i d
        have := ih d (exchange c.esize (c.at i) (c.at d) m) (by omega) h2 ?_ ?_
        · rw [hex] at this
          refine ⟨this.1, Swaps.step i d hi h2 this.2.1, ?_⟩
          intro a ha
          rw [this.2.2 a ha, exchange_frame c m hi h2 a ha]
        · intro k hk hkn hkd
          rw [hex]
          by_cases hki : (k-1)/2 = i
          · rw [hki, swapF_l]
            by_cases hkd' : k = d
            · subst hkd'; rw [swapF_r]; exact hle
            · rw [swapF_o _ (show k ≠ i by omega) hkd']; exact h4 k hk hkn hki
          · rw [swapF_o _ hki hkd]
            by_cases hk2 : k = i
            · subst hk2; rw [swapF_l]; exact hB d (by omega) h2 h3 hk
            · have : k ≠ d := fun h => hki (h ▸ h3)
              rw [swapF_o _ hk2 this]; exact hA k hk hkn hki
        · intro k hk hkn hkd _
          rw [hex, h3, swapF_l, swapF_o _ (show k ≠ i by omega) (show k ≠ d by omega)]
          have := hA k hk hkn (by omega)
          rwa [hkd] at this
    · rw [if_neg hc]
      refine ⟨?_, Swaps.refl _, fun _ _ => rfl⟩
      intro k hk hkn
      exact hA k hk hkn (by omega)

theorem build_spec (c : Cfg) (hp : Preord c.cmp) : ∀ (e h : Nat) (m : Mem), h + e ≤ 4294967296 →
    Heap c.cmp h (elt c m) →
    Heap c.cmp (h+e) (elt c (build c e h m)) ∧ Swaps (h+e) (elt c m) (elt c (build c e h m)) ∧
    ∀ a, ¬ inArr c (h+e) a → build c e h m a = m a := by
  intro e
  induction e with
  | zero => intro h m _ hh; exact ⟨hh, Swaps.refl _, fun _ _ => rfl⟩
  | succ e ih =>
    intro h m hn hh
    obtain ⟨s1, s2, s3⟩ := siftUp_spec c hp (h+1) (by omega) h m (by omega)
      (fun k hk hkn hkh => hh k hk (by omega)) (fun k hk hkn hkh _ => by omega)
    obtain ⟨t1, t2, t3⟩ := ih (h+1) (siftUp c h m) (by omega) s1
    rw [show h + 1 + e = h + (e + 1) by omega] at t1 t2 t3
    refine ⟨t1, (s2.mono (by omega)).trans t2, ?_⟩
    intro a ha
    show build c e (h+1) (siftUp c h m) a = m a
    rw [t3 a ha, s3 a]
    intro hi
    apply ha
    refine ⟨hi.1, Nat.lt_of_lt_of_le hi.2 ?_⟩
    unfold Cfg.at
    have : (h+1) * c.esize ≤ (h + (e+1)) * c.esize := Nat.mul_le_mul_right _ (by omega)
    omega

theorem drain_spec (c : Cfg) (hp : Preord c.cmp) (N : Nat) : ∀ (n : Nat) (m : Mem), n ≤ N →
    Heap c.cmp n (elt c m) →
    (∀ i j, n ≤ i → i ≤ j → j < N → leC c.cmp (elt c m i) (elt c m j)) →
    (∀ i j, i < n → n ≤ j → j < N → leC c.cmp (elt c m i) (elt c m j)) →
    (∀ i j, i ≤ j → j < N → leC c.cmp (elt c (drain c n m) i) (elt c (drain c n m) j)) ∧
    Swaps N (elt c m) (elt c (drain c n m)) ∧
    ∀ a, ¬ inArr c N a → drain c n m a = m a := by
  intro n
  induction n with
  | zero => intro m _ _ h1 _; exact ⟨fun i j => h1 i j (by omega), Swaps.refl _, fun _ _ => rfl⟩
  | succ n ih =>
    intro m hN hh h1 h2
    have hroot := hh.root hp
    have hb : c.base = c.at 0 := by simp [Cfg.at]
    have hex := elt_exchange c m 0 n
    generalize hm1 : exchange c.esize c.base (c.at n) m = m1
    rw [← hb, hm1] at hex
    have hdown : Heap c.cmp n (elt c (siftDown c n 0 m1)) ∧ Swaps n (elt c m1) (elt c (siftDown c n 0 m1)) ∧
        ∀ a, ¬ inArr c n a → siftDown c n 0 m1 a = m1 a := by
      by_cases h0 : n = 0
      · subst h0
        have : siftDown c 0 0 m1 = m1 := by unfold siftDown; rw [if_neg (by omega)]
        rw [this]
        exact ⟨fun k _ _ => by omega, Swaps.refl _, fun _ _ => rfl⟩
      · refine siftDown_spec c hp n n 0 m1 (by omega) (by omega) ?_ (by intro k _ _ _ h; omega)
        intro k hk hkn hk0
        rw [hex, swapF_o _ (by omega) (by omega), swapF_o _ hk0 (by omega)]
        exact hh k hk (by omega)
    obtain ⟨d1, d2, d3⟩ := hdown
    have habove : ∀ k, n ≤ k → elt c (siftDown c n 0 m1) k = swapF (elt c m) 0 n k := by
      intro k hk; rw [d2.above k hk, hex]
    have hwithin : ∀ k, k < n → ∃ l, l < n + 1 ∧ elt c (siftDown c n 0 m1) k = elt c m l := by
      intro k hk
      obtain ⟨l, hl, e⟩ := d2.within k hk
      rw [e, hex]
      by_cases hl0 : l = 0
      · exact ⟨n, by omega, by rw [hl0, swapF_l]⟩
      · exact ⟨l, by omega, by rw [swapF_o _ hl0 (by omega)]⟩
    have hn' : elt c (siftDown c n 0 m1) n = elt c m 0 := by rw [habove n (Nat.le_refl _), swapF_r]
    have hgt : ∀ k, n < k → elt c (siftDown c n 0 m1) k = elt c m k := by
      intro k hk; rw [habove k (by omega), swapF_o _ (by omega) (by omega)]
    have side1 : ∀ i j, n ≤ i → i ≤ j → j < N →
        leC c.cmp (elt c (siftDown c n 0 m1) i) (elt c (siftDown c n 0 m1) j) := by
      intro i j hi hij hj
      by_cases hin : i = n
      · subst hin
        rw [hn']
        by_cases hjn : j = i
        · subst hjn; rw [hn']; exact hp.refl _
        · rw [hgt j (by omega)]; exact h2 0 j (by omega) (by omega) hj
      · rw [hgt i (by omega), hgt j (by omega)]; exact h1 i j (by omega) hij hj
    have side2 : ∀ i j, i < n → n ≤ j → j < N →
        leC c.cmp (elt c (siftDown c n 0 m1) i) (elt c (siftDown c n 0 m1) j) := by
      intro i j hi hj hjN
      obtain ⟨l, hl, e⟩ := hwithin i hi
      rw [e]
      by_cases hjn : j = n
      · subst hjn; rw [hn']; exact hroot l hl
      · rw [hgt j (by omega)]; exact h2 l j hl (by omega) hjN
    obtain ⟨r1, r2, r3⟩ := ih (siftDown c n 0 m1) (by omega) d1 side1 side2
    have hsw : Swaps N (elt c m) (elt c (siftDown c n 0 m1)) :=
        Swaps.step 0 n (by omega) (by omega) (hex ▸ d2.mono (by omega))
    refine ⟨?_, ?_, ?_⟩
    · show ∀ i j, i ≤ j → j < N → leC c.cmp (elt c (drain c n (siftDown c n 0 (exchange c.esize c.base (c.at n) m))) i)
        (elt c (drain c n (siftDown c n 0 (exchange c.esize c.base (c.at n) m))) j)
      rw [hm1]; exact r1
    · show Swaps N _ (elt c (drain c n (siftDown c n 0 (exchange c.esize c.base (c.at n) m))))
      rw [hm1]; exact hsw.trans r2
    · intro a ha
      show drain c n (siftDown c n 0 (exchange c.esize c.base (c.at n) m)) a = m a
      rw [hm1, r3 a ha, d3 a, ← hm1, hb, exchange_frame c m (by omega) (by omega) a ha]
      intro hi
      apply ha
      refine ⟨hi.1, Nat.lt_of_lt_of_le hi.2 ?_⟩
      unfold Cfg.at
      have : n * c.esize ≤ N * c.esize := Nat.mul_le_mul_right _ (by omega)
      omega

end Smlr.Sort
