import Verif.Init.Spec

/-! # Initialisers: lemmas -/
set_option autoImplicit false

namespace Smlr.Init

/-! ## bytes -/

theorem le_eq (n : Nat) (z : Int) : le n z = bytesOf n z := by
  induction n generalizing z with
  | zero => rfl
  | succ n ih =>
    rw [le, ih, bytesOf, bytesOf, List.range_succ_eq_map, List.map_cons, List.map_map]
    congr 1
    · simp [byteOf]
    · apply List.map_congr_left
      intro i _
      have : z / 256 / 256 ^ i = z / 256 ^ (i + 1) := by
        rw [Int.ediv_ediv_of_nonneg (by decide), Int.pow_succ, Int.mul_comm]
      simp [byteOf, this]

theorem cells_eq (W n : Nat) (v : V) : cells W n v = scalarBytes W n v := by
  cases v with
  | int z => simp [cells, scalarBytes, le_eq]
  | addr s z =>
    unfold cells scalarBytes
    by_cases h : n = W <;> simp [h]

@[simp] theorem bytesOf_length (n : Nat) (z : Int) : (bytesOf n z).length = n := by simp [bytesOf]

theorem scalarBytes_length {W n : Nat} {v : V} {c : List Cell} (h : scalarBytes W n v = some c) : c.length = n := by
  cases v with
  | int z => simp only [scalarBytes, Option.some.injEq] at h; simp [← h]
  | addr s z =>
    rw [scalarBytes] at h
    by_cases e : n = W
    · rw [if_pos e, Option.some.injEq] at h
      simp [← h, e]
    · rw [if_neg e] at h
      cases h

/-! ## images -/

/-- all placements lie between two offsets -/
def Within (a b : Nat) (pl : Pl) : Prop := ∀ p ∈ pl, a ≤ p.1 ∧ p.1 + p.2.length ≤ b

theorem Within.mono {a b a' b' : Nat} {pl : Pl} (h : Within a b pl) (h1 : a' ≤ a) (h2 : b ≤ b') : Within a' b' pl := by
  intro p hp
  have := h p hp
  omega

theorem Within.append {a b : Nat} {p q : Pl} (h : Within a b p) (h' : Within a b q) : Within a b (p ++ q) := by
  intro x hx
  rcases List.mem_append.mp hx with hx | hx
  · exact h x hx
  · exact h' x hx

theorem Within.nil {a b : Nat} : Within a b [] := by intro p hp; cases hp

theorem cellAt_out {a b i : Nat} {pl : Pl} (h : Within a b pl) (hi : i < a ∨ b ≤ i) : cellAt pl i = .b 0 := by
  induction pl with
  | nil => rfl
  | cons p pl ih =>
    have h1 := h p (by simp)
    rw [cellAt, if_neg (by omega)]
    exact ih fun q hq => h q (List.mem_cons_of_mem _ hq)

theorem cellAt_append_left {a b i : Nat} {p q : Pl} (h : Within a b q) (hi : i < a ∨ b ≤ i) : cellAt (p ++ q) i = cellAt p i := by
  induction p with
  | nil => rw [List.nil_append, cellAt_out h hi]; rfl
  | cons x p ih => rw [List.cons_append, cellAt, cellAt, ih]

theorem cellAt_append_right {a b i : Nat} {p q : Pl} (h : Within a b p) (hi : i < a ∨ b ≤ i) : cellAt (p ++ q) i = cellAt q i := by
  induction p with
  | nil => rfl
  | cons x p ih =>
    have h1 := h x (by simp)
    rw [List.cons_append, cellAt, if_neg (by omega)]
    exact ih fun y hy => h y (List.mem_cons_of_mem _ hy)

theorem img_add (o m n : Nat) (pl : Pl) : img o (m + n) pl = img o m pl ++ img (o + m) n pl := by
  simp only [img, List.range_add, List.map_append, List.map_map]
  congr 1
  apply List.map_congr_left
  intro i _
  simp [Nat.add_assoc]

theorem img_congr {o n : Nat} {p q : Pl} (h : ∀ i, o ≤ i → i < o + n → cellAt p i = cellAt q i) : img o n p = img o n q := by
  apply List.map_congr_left
  intro i hi
  exact h _ (by omega) (by have := List.mem_range.mp hi; omega)

theorem img_zero {o n a b : Nat} {pl : Pl} (h : Within a b pl) (hd : o + n ≤ a ∨ b ≤ o) : img o n pl = zeros n := by
  rw [zeros, List.eq_replicate_iff]
  constructor
  · simp [img]
  · intro c hc
    obtain ⟨i, hi, rfl⟩ := List.mem_map.mp hc
    have := List.mem_range.mp hi
    exact cellAt_out h (by omega)

@[simp] theorem img_length (o n : Nat) (pl : Pl) : (img o n pl).length = n := by simp [img]

/-- two neighbours -/
theorem img_two {o m n : Nat} {p q : Pl} (hp : Within o (o + m) p) (hq : Within (o + m) (o + m + n) q) :
    img o (m + n) (p ++ q) = img o m p ++ img (o + m) n q := by
  rw [img_add]
  congr 1
  · exact img_congr fun i _ h2 => cellAt_append_left hq (by omega)
  · exact img_congr fun i h1 _ => cellAt_append_right hp (by omega)

theorem img_one (o : Nat) (c : List Cell) : img o c.length [(o, c)] = c := by
  apply List.ext_getElem
  · simp
  · intro i h1 h2
    simp [img, cellAt, h2]

theorem chars_within (sz : Nat) (s : List Nat) (o : Nat) : Within o (o + s.length * sz) (chars sz o s) := by
  induction s generalizing o with
  | nil => exact Within.nil
  | cons c s ih =>
    have e : (c :: s).length * sz = sz + s.length * sz := by rw [List.length_cons, Nat.succ_mul, Nat.add_comm]
    rw [e]
    intro p hp
    rcases List.mem_cons.mp hp with rfl | hp
    · simp
    · have := ih (o + sz) p hp
      omega

theorem chars_img (sz : Nat) (s : List Nat) (o : Nat) : img o (s.length * sz) (chars sz o s) = s.flatMap fun c : Nat => le sz (c : Int) := by
  induction s generalizing o with
  | nil => simp [img]
  | cons c s ih =>
    have e : (c :: s).length * sz = sz + s.length * sz := by rw [List.length_cons, Nat.succ_mul, Nat.add_comm]
    rw [e, List.flatMap_cons, ← ih (o + sz), le_eq]
    have := img_two (o := o) (m := sz) (n := s.length * sz) (p := [(o, bytesOf sz c)]) (q := chars sz (o + sz) s)
      (by intro p hp; rw [List.mem_singleton.mp hp]; simp) (chars_within sz s (o + sz))
    rw [chars]
    rw [List.singleton_append] at this
    rw [this]
    congr 1
    have := img_one o (bytesOf sz c)
    rwa [bytesOf_length] at this

/-- zeros after the data -/
theorem img_tail {o m n : Nat} {p : Pl} (hp : Within o (o + m) p) : img o (m + n) p = img o m p ++ zeros n := by
  rw [img_add, img_zero hp (Or.inr (Nat.le_refl _))]

/-- zeros before the data -/
theorem img_head {o m n : Nat} {p : Pl} (hp : Within (o + m) (o + m + n) p) : img o (m + n) p = zeros m ++ img (o + m) n p := by
  rw [img_add, img_zero hp (Or.inl (Nat.le_refl _))]

/-! ## written initialisers -/

theorem flatL_cons (i : Ini) (l : List Ini) (h : l ≠ []) : flatL (i :: l) = flat i ++ .comma :: flatL l := by
  cases l with
  | nil => exact absurd rfl h
  | cons j r => rw [flatL]

theorem flatL_append (l m : List Ini) (hl : l ≠ []) (hm : m ≠ []) : flatL (l ++ m) = flatL l ++ .comma :: flatL m := by
  induction l with
  | nil => exact absurd rfl hl
  | cons i l ih =>
    cases l with
    | nil => rw [List.singleton_append, flatL_cons _ _ hm, flatL]
    | cons j l =>
      rw [List.cons_append, flatL_cons _ _ (by simp), ih (by simp), flatL_cons i (j :: l) (by simp)]
      simp

theorem fill_more (f : Nat → List Ini → Option (Pl × List Ini)) (sz k j o : Nat) (l : List Ini) (pl : Pl) (h : fill f sz k o l = some (pl, [])) :
    fill f sz (k + j) o l = some (pl, []) := by
  induction k generalizing o l pl with
  | zero =>
    simp only [fill, Option.some.injEq, Prod.mk.injEq] at h
    obtain ⟨rfl, rfl⟩ := h
    rw [Nat.zero_add]
    cases j <;> rfl
  | succ k ih =>
    cases l with
    | nil =>
      rw [Nat.add_right_comm, fill]
      exact h
    | cons i l =>
      rw [fill] at h
      obtain ⟨a, h1, h⟩ := Option.bind_eq_some_iff.mp h
      obtain ⟨b, h2, h⟩ := Option.bind_eq_some_iff.mp h
      simp only [Option.some.injEq, Prod.mk.injEq] at h
      obtain ⟨h3, h4⟩ := h
      rw [Nat.add_right_comm, fill, h1, Option.bind_some, ih _ _ b.1 (by rw [h2, ← h4]), Option.bind_some, h3]

end Smlr.Init
