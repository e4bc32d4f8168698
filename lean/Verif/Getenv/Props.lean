import Verif.Getenv.Model
import Verif.Getenv.Spec
set_option autoImplicit false
/-! C67: `getenv` finds the value of a name. -/
namespace Smlr.Getenv
open Spec

theorem get_append (a b : Str) (c : UInt8) : (a ++ c :: b)[a.length]? = some c := by simp

theorem value_ok (v t : Str) (h : (0 : UInt8) ∉ v) : value (v ++ 0 :: t) = some v := by
  induction v with
  | nil => rfl
  | cons c v ih =>
    have hc : c ≠ 0 := by rintro rfl; simp at h
    rw [List.cons_append, value, if_neg hc, ih (by intro x; exact h (by simp [x]))]; rfl

theorem compare_ok (k t : Str) : ∀ (pre name : Str), name.length = k.length → compare (pre ++ (k ++ t)) pre.length name = some (decide (k = name)) := by
  induction k with
  | nil =>
    intro pre name h
    have : name = [] := List.length_eq_zero_iff.1 h
    subst this
    simp [compare]
  | cons c k ih =>
    intro pre name h
    cases name with
    | nil => simp at h
    | cons d name =>
      rw [compare, List.cons_append, get_append]
      simp only
      by_cases hcd : c = d
      · subst hcd
        have := ih (pre ++ [c]) name (by simpa using h)
        rw [List.append_assoc, List.singleton_append, List.length_append, List.length_singleton] at this
        rw [if_neg (by simp), this]
        simp
      · rw [if_pos hcd]
        simp [hcd]

/-- the scanner passes over what is not `=` -/
theorem scan_skip (alloc : Bool) (name : Str) (k : Str) (hk : (0x3D : UInt8) ∉ k) (h0 : (0 : UInt8) ∉ k) : ∀ (pre t : Str) (f start : Nat),
    scan alloc (pre ++ (k ++ t)) name (k.length + f) start pre.length = scan alloc (pre ++ (k ++ t)) name f start (pre.length + k.length) := by
  induction k with
  | nil => intro pre t f start; simp
  | cons c k ih =>
    intro pre t f start
    have hc : c ≠ 0x3D := by rintro rfl; simp at hk
    have hc0 : c ≠ 0 := by rintro rfl; simp at h0
    have := ih (by intro x; exact hk (by simp [x])) (by intro x; exact h0 (by simp [x])) (pre ++ [c]) t f start
    rw [List.append_assoc, List.singleton_append, List.length_append, List.length_singleton] at this
    rw [List.length_cons, show k.length + 1 + f = k.length + f + 1 by omega, scan, List.cons_append, get_append]
    simp only
    rw [if_neg hc, if_neg hc0, this, show pre.length + 1 + k.length = pre.length + (k.length + 1) by omega]

/-- name and rest of an entry -/
theorem entry_split (e : Str) : (0x3D : UInt8) ∉ e ∨ ∃ k v, e = k ++ 0x3D :: v ∧ (0x3D : UInt8) ∉ k := by
  induction e with
  | nil => exact Or.inl (by simp)
  | cons c e ih =>
    by_cases hc : c = 0x3D
    · subst hc; exact Or.inr ⟨[], e, rfl, by simp⟩
    · rcases ih with h | ⟨k, v, h, hk⟩
      · exact Or.inl (by intro x; rcases List.mem_cons.1 x with y | y; exact hc y.symm; exact h y)
      · exact Or.inr ⟨c :: k, v, by rw [h]; rfl, by intro x; rcases List.mem_cons.1 x with y | y; exact hc y.symm; exact hk y⟩

theorem split_unique {k k' v v' : Str} (h : k ++ 0x3D :: v = k' ++ 0x3D :: v') (hk : (0x3D : UInt8) ∉ k) (hk' : (0x3D : UInt8) ∉ k') : k = k' ∧ v = v' := by
  induction k generalizing k' with
  | nil =>
    cases k' with
    | nil => exact ⟨rfl, (List.cons.inj h).2⟩
    | cons d k' => exact absurd (List.mem_cons.2 (Or.inl (List.cons.inj h).1)) hk'
  | cons c k ih =>
    cases k' with
    | nil => exact absurd (List.mem_cons.2 (Or.inl (List.cons.inj h).1.symm)) hk
    | cons d k' =>
      obtain ⟨rfl, h2⟩ := List.cons.inj h
      obtain ⟨rfl, rfl⟩ := ih h2 (fun x => hk (by simp [x])) (fun x => hk' (by simp [x]))
      exact ⟨rfl, rfl⟩

theorem gives_iff (k v name : Str) (hk : (0x3D : UInt8) ∉ k) (v' : Str) : Gives (k ++ 0x3D :: v) name v' ↔ k = name ∧ v = v' := by
  constructor
  · rintro ⟨h, hn⟩; exact split_unique h hk hn
  · rintro ⟨rfl, rfl⟩; exact ⟨rfl, hk⟩

/-- what the rest of the block says about `name` -/
def answer (alloc : Bool) (es : List Str) (name : Str) (r : Res) : Prop :=
  (∀ v, Value es name v → r = if alloc then .found v else .null) ∧ (Absent es name → r = .null)

theorem scan_ok (alloc : Bool) (name : Str) (es : List Str) : ∀ (pre tail : Str) (f : Nat), es ≠ [] → Entries es → (block es).length ≤ f →
    answer alloc es name (scan alloc (pre ++ (block es ++ tail)) name f pre.length pre.length) := by
  induction es with
  | nil => intro _ _ _ h; exact absurd rfl h
  | cons e es ih =>
    intro pre tail f _ he hf
    have hb : block (e :: es) ++ tail = e ++ 0 :: (block es ++ tail) := by simp [block]
    have hbl : (block (e :: es)).length = e.length + 1 + (block es).length := by simp [block]; omega
    rw [hbl] at hf
    rw [hb]
    obtain ⟨hne, h0⟩ := he e (by simp)
    have he' : Entries es := fun x hx => he x (by simp [hx])
    -- the entry is over, and is not the one
    have next : ∀ (g : Nat), (block es).length ≤ g → (∀ v, ¬ Gives e name v) →
        answer alloc (e :: es) name (match (pre ++ (e ++ 0 :: (block es ++ tail)))[pre.length + e.length + 1]? with
          | none => .past
          | some d => if d = 0 then .null else scan alloc (pre ++ (e ++ 0 :: (block es ++ tail))) name g (pre.length + e.length + 1) (pre.length + e.length + 1)) := by
      intro g hg hn
      have hre : pre ++ (e ++ 0 :: (block es ++ tail)) = (pre ++ e ++ [0]) ++ (block es ++ tail) := by simp
      have hlen : pre.length + e.length + 1 = (pre ++ e ++ [0]).length := by simp; omega
      rw [hre, hlen]
      cases es with
      | nil =>
        have : ((pre ++ e ++ [0]) ++ (block [] ++ tail))[(pre ++ e ++ [0]).length]? = some 0 := get_append _ tail 0
        rw [this]
        simp only [if_true]
        refine ⟨fun v hv => ?_, fun _ => rfl⟩
        cases hv with
        | here _ _ _ _ h => exact absurd h (hn v)
        | later _ _ _ _ _ h => cases h
      | cons e2 es2 =>
        obtain ⟨hne2, h02⟩ := he' e2 (by simp)
        have A := ih (pre ++ e ++ [0]) tail g (by simp) he' hg
        obtain ⟨d, r, hd⟩ : ∃ d r, e2 = d :: r := by
          cases e2 with
          | nil => exact absurd rfl hne2
          | cons d r => exact ⟨d, r, rfl⟩
        have hd0 : d ≠ 0 := by rintro rfl; rw [hd] at h02; simp at h02
        have : ((pre ++ e ++ [0]) ++ (block (e2 :: es2) ++ tail))[(pre ++ e ++ [0]).length]? = some d := by
          have : block (e2 :: es2) ++ tail = d :: (r ++ 0 :: (block es2 ++ tail)) := by simp [block, hd]
          rw [this, get_append]
        rw [this]
        simp only
        rw [if_neg hd0]
        refine ⟨fun v hv => ?_, fun ha => A.2 fun x hx => ha x (by simp [hx])⟩
        cases hv with
        | here _ _ _ _ h => exact absurd h (hn v)
        | later _ _ _ _ _ h => exact A.1 v h
    rcases entry_split e with hno | ⟨k, v, hkv, hk⟩
    · -- no `=`
      have hn : ∀ v, ¬ Gives e name v := by
        rintro v ⟨h, -⟩; exact hno (by rw [h]; simp)
      have := scan_skip alloc name e hno h0 pre (0 :: (block es ++ tail)) (f - e.length) pre.length
      rw [show e.length + (f - e.length) = f by omega] at this
      rw [this, show f - e.length = (f - e.length - 1) + 1 by omega, scan]
      have hg : (pre ++ (e ++ 0 :: (block es ++ tail)))[pre.length + e.length]? = some 0 := by
        rw [← List.append_assoc, ← List.length_append]; exact get_append _ _ _
      rw [hg]
      simp only
      rw [if_neg (by decide), if_pos trivial]
      exact next _ (by omega) hn
    · have hk0 : (0 : UInt8) ∉ k := fun x => h0 (by rw [hkv]; simp [x])
      have hv0 : (0 : UInt8) ∉ v := fun x => h0 (by rw [hkv]; simp [x])
      have hel : e.length = k.length + 1 + v.length := by rw [hkv]; simp; omega
      have hf1 : pre ++ (e ++ 0 :: (block es ++ tail)) = pre ++ (k ++ 0x3D :: (v ++ 0 :: (block es ++ tail))) := by rw [hkv]; simp
      have := scan_skip alloc name k hk hk0 pre (0x3D :: (v ++ 0 :: (block es ++ tail))) (f - k.length) pre.length
      rw [show k.length + (f - k.length) = f by omega] at this
      have key : scan alloc (pre ++ (e ++ 0 :: (block es ++ tail))) name f pre.length pre.length =
          if k = name then (if alloc then .found v else .null) else
            match (pre ++ (e ++ 0 :: (block es ++ tail)))[pre.length + e.length + 1]? with
            | none => .past
            | some d => if d = 0 then .null else scan alloc (pre ++ (e ++ 0 :: (block es ++ tail))) name (f - k.length - 1) (pre.length + e.length + 1) (pre.length + e.length + 1) := by
        rw [hf1, this, show f - k.length = (f - k.length - 1) + 1 by omega, scan]
        have hg : (pre ++ (k ++ 0x3D :: (v ++ 0 :: (block es ++ tail))))[pre.length + k.length]? = some 0x3D := by
          rw [← List.append_assoc, ← List.length_append]; exact get_append _ _ _
        have hdr : (pre ++ (k ++ 0x3D :: (v ++ 0 :: (block es ++ tail)))).drop (pre.length + k.length + 1) = v ++ 0 :: (block es ++ tail) := by
          rw [show pre ++ (k ++ 0x3D :: (v ++ 0 :: (block es ++ tail))) = (pre ++ k ++ [0x3D]) ++ (v ++ 0 :: (block es ++ tail)) by simp,
            List.drop_left' (by simp; omega)]
        have hcmp : (if pre.length + k.length - pre.length = name.length then compare (pre ++ (k ++ 0x3D :: (v ++ 0 :: (block es ++ tail)))) pre.length name else some false) =
            some (decide (k = name)) := by
          by_cases hl : k.length = name.length
          · rw [if_pos (by omega), compare_ok k _ pre name hl.symm]
          · rw [if_neg (by omega), decide_eq_false (by rintro rfl; exact hl rfl)]
        rw [hg]
        simp only
        rw [if_pos trivial, hcmp]
        simp only
        rw [hdr, value_ok v _ hv0]
        simp only
        rw [show pre.length + k.length + 1 + v.length + 1 = pre.length + e.length + 1 by omega, show f - k.length - 1 + 1 - 1 = f - k.length - 1 by omega]
        by_cases hkn : k = name
        · simp [hkn]
        · simp only [hkn, decide_false, Bool.false_eq_true, if_false]; rfl
      rw [key]
      by_cases hkn : k = name
      · rw [if_pos hkn]
        refine ⟨fun v' hv' => ?_, fun ha => ?_⟩
        · cases hv' with
          | here _ _ _ _ h => rw [hkv, gives_iff k v name hk] at h; rw [h.2]
          | later _ _ _ _ hn _ => exact absurd (by rw [hkv, gives_iff k v name hk]; exact ⟨hkn, rfl⟩) (hn v)
        · exact absurd (by rw [hkv, gives_iff k v name hk]; exact ⟨hkn, rfl⟩) (ha e (by simp) v)
      · rw [if_neg hkn]
        exact next _ (by omega) (fun v' h => by rw [hkv, gives_iff k v name hk] at h; exact hkn h.1)

/-- DOS: in every environment block, whatever follows it in memory, the value is that of the first entry with the name, if
there is memory for it, and NULL if there is no such entry; nothing is read beyond the block and what follows -/
theorem c67_dos (alloc : Bool) (es : List Str) (name tail : Str) (h : Entries es) :
    (∀ v, Value es name v → dos alloc (block es ++ tail) name = if alloc then .found v else .null) ∧
    (Absent es name → dos alloc (block es ++ tail) name = .null) := by
  cases es with
  | nil =>
    refine ⟨fun v hv => (by cases hv), fun _ => rfl⟩
  | cons e es =>
    obtain ⟨hne, h0⟩ := h e (by simp)
    have A := scan_ok alloc name (e :: es) [] tail ((block (e :: es) ++ tail).length + 1) (by simp) h (by rw [List.length_append]; omega)
    have hd : dos alloc (block (e :: es) ++ tail) name = scan alloc ([] ++ (block (e :: es) ++ tail)) name ((block (e :: es) ++ tail).length + 1) 0 0 := by
      cases e with
      | nil => exact absurd rfl hne
      | cons d r =>
        have hd0 : d ≠ 0 := by rintro rfl; simp at h0
        unfold dos
        have : (block ((d :: r) :: es) ++ tail)[0]? = some d := by simp [block]
        rw [this]
        simp only
        rw [if_neg hd0]; rfl
    rw [hd]
    exact A

theorem same_iff (p name : Str) : same p name = true ↔ ∃ t, p = name ++ t := by
  induction name generalizing p with
  | nil => simp [same]
  | cons b name ih =>
    cases p with
    | nil => simp [same]
    | cons a p =>
      rw [same]
      by_cases h : a = b
      · subst h; rw [if_neg (by simp), ih]; simp
      · rw [if_pos h]
        simp [h]

/-- Unix: the value is that of the first entry with the name, NULL if there is none, for every name without `=` -/
theorem c67_unix (es : List Str) (name : Str) (hn : (0x3D : UInt8) ∉ name) :
    (∀ v, Value es name v → unix es name = .found v) ∧ (Absent es name → unix es name = .null) := by
  classical
  have step : ∀ e es, unix (e :: es) name = if ∃ v, e = name ++ 0x3D :: v then .found (e.drop (name.length + 1)) else unix es name := by
    intro e es
    rw [unix]
    have : (e.length > name.length ∧ same e name = true ∧ e[name.length]? = some 0x3D) ↔ ∃ v, e = name ++ 0x3D :: v := by
      rw [same_iff]
      constructor
      · rintro ⟨h1, ⟨t, rfl⟩, h2⟩
        cases t with
        | nil => simp at h1
        | cons c t => rw [get_append] at h2; cases h2; exact ⟨t, rfl⟩
      · rintro ⟨v, rfl⟩
        exact ⟨by simp, ⟨_, rfl⟩, get_append _ _ _⟩
    by_cases hh : ∃ v, e = name ++ 0x3D :: v
    · rw [if_pos hh, if_pos (this.2 hh)]
    · rw [if_neg hh, if_neg (fun x => hh (this.1 x))]
  induction es with
  | nil => exact ⟨fun v hv => (by cases hv), fun _ => rfl⟩
  | cons e es ih =>
    rw [step]
    constructor
    · intro v hv
      cases hv with
      | here _ _ _ _ h =>
        rw [if_pos ⟨v, h.1⟩, h.1, show name ++ 0x3D :: v = (name ++ [0x3D]) ++ v by simp, List.drop_left' (by simp)]
      | later _ _ _ _ h h2 =>
        rw [if_neg (by rintro ⟨v', hv'⟩; exact h v' ⟨hv', hn⟩)]
        exact ih.1 v h2
    · intro ha
      rw [if_neg (by rintro ⟨v', hv'⟩; exact ha e (by simp) v' ⟨hv', hn⟩)]
      exact ih.2 fun x hx => ha x (by simp [hx])

/-- every environment either has a value for the name or has not -/
theorem c67_total (es : List Str) (name : Str) : (∃ v, Value es name v) ∨ Absent es name := by
  induction es with
  | nil => exact Or.inr (by intro e he; cases he)
  | cons e es ih =>
    by_cases h : ∃ v, Gives e name v
    · obtain ⟨v, h⟩ := h
      exact Or.inl ⟨v, .here e es name v h⟩
    · have h' : ∀ v, ¬ Gives e name v := fun v hv => h ⟨v, hv⟩
      rcases ih with ⟨v, hv⟩ | ha
      · exact Or.inl ⟨v, .later e es name v h' hv⟩
      · refine Or.inr fun x hx => ?_
        rcases List.mem_cons.1 hx with rfl | hx
        · exact h'
        · exact ha x hx

/-! ### examples -/

/-- `AB=1`, `X`, `A=2=3`, `A=4`: the value of `A` is `2=3` -/
example : Value [[0x41, 0x42, 0x3D, 0x31], [0x58], [0x41, 0x3D, 0x32, 0x3D, 0x33], [0x41, 0x3D, 0x34]] [0x41] [0x32, 0x3D, 0x33] ∧
    Entries [[0x41, 0x42, 0x3D, 0x31], [0x58], [0x41, 0x3D, 0x32, 0x3D, 0x33], [0x41, 0x3D, 0x34]] ∧
    dos true (block [[0x41, 0x42, 0x3D, 0x31], [0x58], [0x41, 0x3D, 0x32, 0x3D, 0x33], [0x41, 0x3D, 0x34]] ++ [1, 0]) [0x41] = .found [0x32, 0x3D, 0x33] ∧
    unix [[0x41, 0x42, 0x3D, 0x31], [0x58], [0x41, 0x3D, 0x32, 0x3D, 0x33], [0x41, 0x3D, 0x34]] [0x41] = .found [0x32, 0x3D, 0x33] := by
  refine ⟨.later _ _ _ _ ?_ (.later _ _ _ _ ?_ (.here _ _ _ _ ⟨rfl, by decide⟩)), ?_, by decide +kernel, by decide +kernel⟩
  · rintro v ⟨h, -⟩; cases h
  · rintro v ⟨h, -⟩; cases h
  · unfold Entries; decide

/-- a name that is not there, and an empty environment -/
example : Absent [[0x41, 0x42, 0x3D, 0x31]] [0x41] ∧ dos true (block [[0x41, 0x42, 0x3D, 0x31]]) [0x41] = .null ∧ dos true (block []) [0x41] = .null := by
  refine ⟨?_, by decide +kernel, by decide +kernel⟩
  intro e he v
  simp at he
  subst he
  rintro ⟨h, -⟩
  cases h

/-- the two differ for a name with `=` (`A=B` in `A=B=C`), which no entry can have -/
theorem c67_equals : dos true (block [[0x41, 0x3D, 0x42, 0x3D, 0x43]]) [0x41, 0x3D, 0x42] = .null ∧
    unix [[0x41, 0x3D, 0x42, 0x3D, 0x43]] [0x41, 0x3D, 0x42] = .found [0x43] := by decide +kernel

end Smlr.Getenv
