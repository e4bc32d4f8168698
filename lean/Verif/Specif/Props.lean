import Verif.Specif.Lemmas
set_option autoImplicit false
/-! C36: type specifiers. -/
namespace Smlr.Specif

theorem maskOf_perm {a b : List Kw} (h : a.Perm b) : maskOf a = maskOf b := by
  induction h with
  | nil => rfl
  | cons x _ ih => rw [maskOf_cons, maskOf_cons, ih]
  | swap x y l => simp only [maskOf_cons]; rw [← Nat.or_assoc, ← Nat.or_assoc, Nat.or_comm (masks y).1]
  | trans _ _ ih1 ih2 => rw [ih1, ih2]

/-- what the row's mask is turned into, checked for the whole table -/
theorem row_type : ∀ e ∈ table, e.1.all arith = true →
    (ofMask (maskOf e.1)).isSome = true ∧ (∀ W ∈ [2, 4], (ofMask (maskOf e.1)).bind (adjust W) = e.2.target W) := by
  decide +kernel

theorem row_other : ∀ e ∈ table, e.1.all arith = false → e = ([.void], .void) ∨ e = ([.float], .float) := by
  decide +kernel

theorem rows_unique : ∀ e ∈ table, ∀ e' ∈ table, maskOf e.1 = maskOf e'.1 → e.1.all arith = true → e'.1.all arith = true → e.2 = e'.2 := by
  decide +kernel

/-- **C36** a sequence of specifier keywords is accepted exactly if C allows it (for a type the target has), in whatever order, and gets
the type C assigns -/
theorem c36_declare (W : Nat) (hW : W = 2 ∨ W = 4) (ks : List Kw) (b : Base) :
    declare W ks = some b ↔ ∃ t, Names ks t ∧ t.target W = some b := by
  have hWm : W ∈ [2, 4] := by rcases hW with rfl | rfl <;> simp
  have single : ∀ k t, (k = .float ∧ t = CTy.float) ∨ (k = .void ∧ t = CTy.void) → ∀ rest,
      (∃ t', Names (k :: rest) t' ∧ t'.target W = some b) ↔ (rest = [] ∧ t.target W = some b) := by
    intro k t hk rest
    constructor
    · rintro ⟨t', ⟨row, hrow, hperm⟩, ht⟩
      have hkr : k ∈ row := hperm.mem_iff.1 (by simp)
      have : row.all arith = false := by
        rw [List.all_eq_false]
        refine ⟨k, hkr, ?_⟩
        rcases hk with ⟨rfl, -⟩ | ⟨rfl, -⟩ <;> decide
      rcases row_other _ hrow this with h | h
      · simp only [Prod.mk.injEq] at h
        obtain ⟨rfl, rfl⟩ := h
        have hk2 := List.mem_singleton.1 hkr
        rcases hk with ⟨rfl, -⟩ | ⟨rfl, rfl⟩
        · cases hk2
        · have := hperm.length_eq
          simp at this
          exact ⟨this, ht⟩
      · simp only [Prod.mk.injEq] at h
        obtain ⟨rfl, rfl⟩ := h
        have hk2 := List.mem_singleton.1 hkr
        rcases hk with ⟨rfl, rfl⟩ | ⟨rfl, -⟩
        · have := hperm.length_eq
          simp at this
          exact ⟨this, ht⟩
        · cases hk2
    · rintro ⟨rfl, ht⟩
      rcases hk with ⟨rfl, rfl⟩ | ⟨rfl, rfl⟩
      · exact ⟨.float, ⟨[.float], by decide, List.Perm.refl _⟩, ht⟩
      · exact ⟨.void, ⟨[.void], by decide, List.Perm.refl _⟩, ht⟩
  have general : ∀ k rest, arith k = true → parseBase W (k :: rest) = (match loop 0x7F 0 (k :: rest) with
    | (m, rest) => match ofMask m with
      | none => none
      | some t => (adjust W t).map fun b => (b, rest)) := by
    intro k rest hk
    cases k <;> first | rfl | (exact absurd hk (by decide))
  cases ks with
  | nil =>
    constructor
    · intro h; simp [declare, parseBase] at h
    · rintro ⟨t, ⟨row, hrow, hperm⟩, -⟩
      have : row = [] := hperm.symm.eq_nil
      subst this
      exfalso
      have key : ∀ e ∈ table, e.1 ≠ [] := by decide +kernel
      exact key _ hrow rfl
  | cons k rest =>
    by_cases hk : arith k = true
    · have hgen := general k rest hk
      obtain ⟨m, left, hl⟩ : ∃ m left, loop 0x7F 0 (k :: rest) = (m, left) := ⟨_, _, rfl⟩
      rw [hl] at hgen
      simp only at hgen
      constructor
      · intro h
        unfold declare at h
        rw [hgen] at h
        cases hm : ofMask m with
        | none => rw [hm] at h; simp at h
        | some mid =>
          rw [hm] at h
          simp only at h
          cases had : adjust W mid with
          | none => rw [had] at h; simp at h
          | some b' =>
            rw [had] at h
            cases left with
            | cons x l => simp at h
            | nil =>
              simp at h
              subst h
              obtain ⟨hmk, r, hr, hperm⟩ := (loop_rows (k :: rest) (by simp) m).1 hl
              obtain ⟨e, he, rfl⟩ := List.mem_map.1 (List.mem_filter.1 hr).1
              have harow := (List.mem_filter.1 hr).2
              refine ⟨e.2, ⟨e.1, he, hperm⟩, ?_⟩
              rw [← (row_type e he harow).2 W hWm, ← maskOf_perm hperm, ← hmk, hm]
              exact had
      · rintro ⟨t, ⟨row, hrow, hperm⟩, ht⟩
        have harow : row.all arith = true := by
          cases h : row.all arith with
          | true => rfl
          | false =>
            have hkr : k ∈ row := hperm.mem_iff.1 (by simp)
            rcases row_other _ hrow h with h | h
            · simp only [Prod.mk.injEq] at h
              rw [h.1] at hkr
              rw [List.mem_singleton.1 hkr] at hk
              cases hk
            · simp only [Prod.mk.injEq] at h
              rw [h.1] at hkr
              rw [List.mem_singleton.1 hkr] at hk
              cases hk
        have hr : row ∈ rows := List.mem_filter.2 ⟨List.mem_map.2 ⟨_, hrow, rfl⟩, harow⟩
        have hl2 := (loop_rows (k :: rest) (by simp) (maskOf (k :: rest))).2 ⟨rfl, row, hr, hperm⟩
        rw [hl] at hl2
        simp only [Prod.mk.injEq] at hl2
        obtain ⟨rfl, rfl⟩ := hl2
        unfold declare
        rw [hgen, maskOf_perm hperm]
        have h2 := (row_type _ hrow harow).2 W hWm
        rw [ht] at h2
        cases hm : ofMask (maskOf row) with
        | none => rw [hm] at h2; cases h2
        | some mid =>
          rw [hm] at h2
          simp only [Option.bind_some] at h2
          simp only [h2, Option.map_some]
    · cases k with
      | float =>
        rw [single .float .float (Or.inl ⟨rfl, rfl⟩) rest]
        cases rest with
        | nil => simp [declare, parseBase, CTy.target]
        | cons x l => simp [declare, parseBase]
      | void =>
        rw [single .void .void (Or.inr ⟨rfl, rfl⟩) rest]
        cases rest with
        | nil => simp [declare, parseBase, CTy.target]
        | cons x l => simp [declare, parseBase]
      | _ => exact absurd rfl hk

/-- **C36** the type assigned is of the kind C demands (signed, unsigned, plain, real), and wide enough -/
theorem c36_kind (W : Nat) (hW : W = 2 ∨ W = 4) (t : CTy) (b : Base) (h : t.target W = some b) :
    (b.kind W).1 = t.kind.1 ∧ t.kind.2 ≤ (b.kind W).2 := by
  rcases hW with rfl | rfl <;> cases t <;> simp only [CTy.target, Option.some.injEq, if_true, if_false, reduceCtorEq] at h <;>
    first | (subst h; decide) | (simp at h; done) | (simp at h; subst h; decide)

/-- **C36** only `long` and `unsigned long` are missing, and only on the 16-bit targets -/
theorem c36_missing (W : Nat) (hW : W = 2 ∨ W = 4) (t : CTy) : t.target W = none ↔ W = 2 ∧ (t = .long ∨ t = .ulong) := by
  rcases hW with rfl | rfl <;> cases t <;> decide

example : declare 4 [.int, .unsigned, .short] = some .ushort := by decide
example : declare 4 [.double, .long] = some .float := by decide
example : declare 2 [.long] = none := by decide
example : declare 4 [.int, .long, .int] = none := by decide
example : Names [.int, .unsigned, .short] .ushort := ⟨[.unsigned, .short, .int], by decide, by decide⟩

end Smlr.Specif
