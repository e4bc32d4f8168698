import Verif.Layout.Lemmas
set_option autoImplicit false
/-! C22: structure layout is sound. -/
namespace Smlr.Layout

theorem offsets_union (W : Nat) : ∀ (ms : Members) (x o : Nat), o ∈ ms.offsets W true x → o = 0
  | .nil, x, o, h => by simp [Members.offsets] at h
  | .cons pack t ms, x, o, h => by
    simp only [Members.offsets, if_true] at h
    rcases List.mem_cons.1 h with h | h
    · exact h
    · exact offsets_union W ms 0 o h

theorem widest_ge (W : Nat) : ∀ (ms : Members) (i p : Nat) (t : Ty), ms.list[i]? = some (p, t) → t.size W ≤ ms.widest W
  | .nil, i, p, t, h => by simp [Members.list] at h
  | .cons pack t' ms, i, p, t, h => by
    simp only [Members.list] at h; simp only [Members.widest]
    cases i with
    | zero => simp at h; rw [h.2]; exact Nat.le_max_left _ _
    | succ i => exact Nat.le_trans (widest_ge W ms i p t (by simpa using h)) (Nat.le_max_right _ _)

theorem P2_dvd {a b : Nat} (ha : P2 a) (hb : P2 b) (h : a ≤ b) : b % a = 0 := by
  rcases ha with rfl | rfl | rfl <;> rcases hb with rfl | rfl | rfl <;> first | rfl | (exfalso; omega)

theorem align_dvd (W : Nat) (hW : Word W) : ∀ (ms : Members) (i p : Nat) (t : Ty), ms.Ok W → ms.list[i]? = some (p, t) →
    P2 (min (t.align W) p) ∧ min (t.align W) p ≤ ms.align W
  | .nil, i, p, t, _, h => by simp [Members.list] at h
  | .cons pack t' ms, i, p, t, hok, h => by
    simp only [Members.list] at h; simp only [Members.align]; simp only [Members.Ok] at hok
    cases i with
    | zero =>
      simp at h; obtain ⟨rfl, rfl⟩ := h
      exact ⟨min_P2 (ty_P2 W hW _ hok.2.2.1).1 (P2_mem hok.1), Nat.le_max_left _ _⟩
    | succ i =>
      obtain ⟨h1, h2⟩ := align_dvd W hW ms i p t hok.2.2.2 (by simpa using h)
      exact ⟨h1, Nat.le_trans h2 (Nat.le_max_right _ _)⟩

/-- the placement of one member of a structure -/
theorem offsets_at (W : Nat) (hW : Word W) : ∀ (ms : Members) (x i p o : Nat) (t : Ty), ms.Ok W → ms.list[i]? = some (p, t) →
    (ms.offsets W false x)[i]? = some o → x ≤ o ∧ o % min (t.align W) p = 0 ∧ o + t.size W ≤ ms.stop W x
  | .nil, x, i, p, o, t, _, h, _ => by simp [Members.list] at h
  | .cons pack t' ms, x, i, p, o, t, hok, h, ho => by
    simp only [Members.list] at h; simp only [Members.stop]; simp only [Members.Ok] at hok
    simp only [Members.offsets, Bool.false_eq_true, if_false] at ho
    have hp := min_P2 (ty_P2 W hW _ hok.2.2.1).1 (P2_mem hok.1)
    have hge := roundUp_ge x _ hp
    cases i with
    | zero =>
      simp at h ho; obtain ⟨rfl, rfl⟩ := h; subst ho
      exact ⟨hge, roundUp_mod _ _, stop_ge W hW ms _ hok.2.2.2⟩
    | succ i =>
      obtain ⟨h1, h2, h3⟩ := offsets_at W hW ms (roundUp x (min (t'.align W) pack) + t'.size W) i p o t hok.2.2.2 (by simpa using h) (by simpa using ho)
      exact ⟨by omega, h2, h3⟩

/-- two members of a structure -/
theorem offsets_lt (W : Nat) (hW : Word W) : ∀ (ms : Members) (x i j p q o o' : Nat) (t t' : Ty), ms.Ok W → i < j →
    ms.list[i]? = some (p, t) → ms.list[j]? = some (q, t') → (ms.offsets W false x)[i]? = some o →
    (ms.offsets W false x)[j]? = some o' → o + t.size W ≤ o'
  | .nil, x, i, j, p, q, o, o', t, t', _, _, h, _, _, _ => by simp [Members.list] at h
  | .cons pack t0 ms, x, i, j, p, q, o, o', t, t', hok, hij, h, h', ho, ho' => by
    simp only [Members.list] at h h'; simp only [Members.Ok] at hok
    simp only [Members.offsets, Bool.false_eq_true, if_false] at ho ho'
    obtain ⟨j, rfl⟩ : ∃ k, j = k + 1 := ⟨j - 1, by omega⟩
    cases i with
    | zero =>
      simp at h ho; obtain ⟨rfl, rfl⟩ := h; subst ho
      exact (offsets_at W hW ms _ j q o' t' hok.2.2.2 (by simpa using h') (by simpa using ho')).1
    | succ i =>
      exact offsets_lt W hW ms _ i j p q o o' t t' hok.2.2.2 (by omega) (by simpa using h) (by simpa using h') (by simpa using ho) (by simpa using ho')

/-- the gap before a member of a structure -/
theorem offsets_gap (W : Nat) (hW : Word W) : ∀ (ms : Members) (x i p q o o' : Nat) (t t' : Ty), ms.Ok W →
    ms.list[i]? = some (p, t) → ms.list[i + 1]? = some (q, t') → (ms.offsets W false x)[i]? = some o →
    (ms.offsets W false x)[i + 1]? = some o' → o' < o + t.size W + min (t'.align W) q
  | .nil, x, i, p, q, o, o', t, t', _, h, _, _, _ => by simp [Members.list] at h
  | .cons pack t0 .nil, x, i, p, q, o, o', t, t', _, _, h', _, _ => by simp [Members.list] at h'
  | .cons pack t0 (.cons pack1 t1 ms), x, i, p, q, o, o', t, t', hok, h, h', ho, ho' => by
    have hok' := hok
    simp only [Members.Ok] at hok'
    have hp := min_P2 (ty_P2 W hW _ hok'.2.2.2.2.2.1).1 (P2_mem hok'.2.2.2.1)
    cases i with
    | zero =>
      simp [Members.list] at h h'
      simp only [Members.offsets, Bool.false_eq_true, if_false] at ho ho'
      simp at ho ho'
      obtain ⟨rfl, rfl⟩ := h; obtain ⟨rfl, rfl⟩ := h'; subst ho; subst ho'
      exact roundUp_lt _ _ hp
    | succ i =>
      simp only [Members.offsets, Bool.false_eq_true, if_false] at ho ho'
      refine offsets_gap W hW (.cons pack1 t1 ms) (roundUp x (min (t0.align W) pack) + t0.size W) i p q o o' t t'
        (by simp only [Members.Ok] at hok ⊢; exact hok.2.2.2) (by simpa [Members.list] using h) (by simpa [Members.list] using h') ?_ ?_
      · simp only [Members.offsets, Bool.false_eq_true, if_false]; simpa using ho
      · simp only [Members.offsets, Bool.false_eq_true, if_false]; simpa using ho'

theorem offsets_first (W : Nat) (hW : Word W) (u : Bool) (ms : Members) (hok : ms.Ok W) (hn : ms ≠ .nil) : (ms.offsets W u 0)[0]? = some 0 := by
  cases ms with
  | nil => exact absurd rfl hn
  | cons p t ms =>
    simp only [Members.Ok] at hok
    have hp := min_P2 (ty_P2 W hW _ hok.2.2.1).1 (P2_mem hok.1)
    cases u <;> simp [Members.offsets, roundUp_zero _ hp]

/-- **C22** which declarations are accepted, and with which size, alignment and offsets.  `W` is the word size.  The
declaration must have members, all of complete type, and the size worked out in unbounded numbers must fit the address
space: no wrap-around of the compiler's own arithmetic can make an oversized structure acceptable -/
theorem c22_accept (W : Nat) (hW : W = 2 ∨ W = 4) (u : Bool) (ms : Members) (hok : ms.Ok W) (sz al : Nat) (os : List Nat) :
    layout W u ms = .ok (sz, al, os) ↔
      (ms ≠ .nil ∧ ms.Complete ∧ sz < 2 ^ (8 * W) ∧ sz = (Ty.su u ms).size W ∧ al = ms.align W ∧ os = ms.offsets W u 0) :=
  layout_iff W hW u ms hok sz al os

/-- **C22** `sizeof` any complete type: the true size if it fits the address space, an error otherwise -/
theorem c22_sizeof (W : Nat) (hW : W = 2 ∨ W = 4) (t : Ty) (hok : t.Ok W) (hc : t.Complete) (r : Nat) :
    declSize W t 1 = .ok r ↔ (r = t.size W ∧ t.size W < 2 ^ (8 * W)) := by
  constructor
  · intro h
    have hB1 : 1 < B W := by unfold B; rcases hW with rfl | rfl <;> decide
    rcases decl_sound W hW t 1 r hok (Nat.le_refl 1) hB1 h with ⟨_, h1, h2⟩ | ⟨h1, _⟩
    · rw [Nat.one_mul] at h1; exact ⟨h1, by rw [← h1]; exact h2⟩
    · exact absurd hc h1
  · rintro ⟨rfl, h⟩
    have := decl_complete W hW t 1 hok hc (Nat.le_refl 1) (by rw [Nat.one_mul]; exact h)
    rwa [Nat.one_mul] at this

/-- **C22** every accepted declaration has a sound layout.  `o` and `t` are the offset and type of the member number `i`, `p` the packing limit it
was declared under -/
theorem c22_layout (W : Nat) (hW : W = 2 ∨ W = 4) (u : Bool) (ms : Members) (hok : ms.Ok W) (sz al : Nat) (os : List Nat)
    (h : layout W u ms = .ok (sz, al, os)) :
    os.length = ms.list.length ∧ 0 < sz ∧ sz < 2 ^ (8 * W) ∧ sz % al = 0 ∧ (al = 1 ∨ al = 2 ∨ al = 4) ∧ al ≤ W ∧ os[0]? = some 0 ∧
    (∀ i p t o, ms.list[i]? = some (p, t) → os[i]? = some o →
      o + t.size W ≤ sz ∧ (u = true → o = 0) ∧ al % min (t.align W) p = 0 ∧
      -- the member is aligned in every element of an array of the structure
      (∀ base k, base % al = 0 → (base + k * sz + o) % min (t.align W) p = 0) ∧
      -- members of a structure do not overlap, and there is no unnecessary padding
      (u = false → ∀ j q t' o', i < j → ms.list[j]? = some (q, t') → os[j]? = some o' → o + t.size W ≤ o') ∧
      (u = false → ∀ q t' o', ms.list[i + 1]? = some (q, t') → os[i + 1]? = some o' →
        o' < o + t.size W + min (t'.align W) q)) := by
  have hB1 : 1 < B W := by unfold B; rcases hW with rfl | rfl <;> decide
  obtain ⟨hn, hc, hlt, hsz, hal, hos⟩ := (layout_iff W hW u ms hok sz al os).1 h
  have hp := ms_P2 W hW ms hok
  have hpos : 1 ≤ sz := by
    rw [hsz]; exact size_pos W hW (.su u ms) (by simp only [Ty.Ok]; exact hok) (by simp only [Ty.Complete]; exact ⟨hn, hc⟩)
  have hsa : sz % al = 0 := by rw [hsz, hal]; simp only [Ty.size]; exact roundUp_mod _ _
  have hge : (if u then ms.widest W else ms.stop W 0) ≤ sz := by
    rw [hsz]; simp only [Ty.size]; exact roundUp_ge _ _ hp.1
  refine ⟨by rw [hos]; exact offsets_len W u ms 0, hpos, hlt, hsa, by rw [hal]; exact hp.1, by rw [hal]; exact hp.2,
    by rw [hos]; exact offsets_first W hW u ms hok hn, ?_⟩
  intro i p t o hi ho
  rw [hos] at ho
  obtain ⟨ha1, ha2⟩ := align_dvd W hW ms i p t hok hi
  have hdv : al % min (t.align W) p = 0 := by rw [hal]; exact P2_dvd ha1 hp.1 ha2
  have homod : o % min (t.align W) p = 0 := by
    cases u with
    | true => rw [offsets_union W ms 0 o (List.mem_of_getElem? ho)]; exact Nat.zero_mod _
    | false => exact (offsets_at W hW ms 0 i p o t hok hi ho).2.1
  refine ⟨?_, ?_, hdv, ?_, ?_, ?_⟩
  · cases u with
    | true =>
      rw [offsets_union W ms 0 o (List.mem_of_getElem? ho), Nat.zero_add]
      exact Nat.le_trans (widest_ge W ms i p t hi) hge
    | false => exact Nat.le_trans (offsets_at W hW ms 0 i p o t hok hi ho).2.2 hge
  · intro hu; subst hu; exact offsets_union W ms 0 o (List.mem_of_getElem? ho)
  · intro base k hb
    have d1 := Nat.dvd_of_mod_eq_zero hdv
    have d2 := Nat.dvd_trans d1 (Nat.dvd_of_mod_eq_zero hsa)
    have d3 := Nat.dvd_trans d1 (Nat.dvd_of_mod_eq_zero hb)
    exact Nat.mod_eq_zero_of_dvd (Nat.dvd_add (Nat.dvd_add d3 (Nat.dvd_trans d2 (Nat.dvd_mul_left _ _))) (Nat.dvd_of_mod_eq_zero homod))
  · intro hu j q t' o' hij hj ho'
    subst hu
    exact offsets_lt W hW ms 0 i j p q o o' t t' hok hij hi hj ho (by rw [hos] at ho'; exact ho')
  · intro hu q t' o' hj ho'
    subst hu
    exact offsets_gap W hW ms 0 i p q o o' t t' hok hi hj ho (by rw [hos] at ho'; exact ho')

/-! `struct { char a; int b[3]; short c; union { char x; void *y; } d; }`, the same under `#pragma pack(2)`, and a structure
whose size wraps around the compiler's 32-bit `unsigned`. -/

def ex (pack : Nat) : Members :=
  .cons pack .char (.cons pack (.arr 3 .word) (.cons pack .short (.cons pack (.su true (.cons pack .char (.cons pack .word .nil))) .nil)))

example : layout 4 false (ex 4) = .ok (24, 4, [0, 4, 16, 20]) := by rfl
example : layout 4 false (ex 2) = .ok (20, 2, [0, 2, 14, 16]) := by rfl
example : layout 2 true (ex 2) = .ok (6, 2, [0, 0, 0, 0]) := by rfl
example : (ex 4).Ok 4 := by simp [ex, Members.Ok, Ty.Ok]
example : layout 4 false (.cons 4 (.arr 0x80000000 .char) (.cons 4 (.arr 0x80000001 .char) .nil)) = .error .varSize := by rfl
example : layout 4 false (.cons 4 (.arr 0x40000001 .word) .nil) = .error .varSize := by rfl
example : layout 2 false (.cons 2 (.arr 0x7FFF .word) (.cons 2 .char .nil)) = .error .varSize := by rfl
example : layout 2 false (.cons 2 (.arr 0x7FFF .word) .nil) = .ok (0xFFFE, 2, [0]) := by rfl

end Smlr.Layout
