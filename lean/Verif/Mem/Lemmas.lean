import Verif.Mem.Spec
set_option autoImplicit false
namespace Smlr.Mem
open Spec

theorem upd_same (m : Mem) (a b) : upd m a b a = b := by simp [upd]
theorem upd_ne (m : Mem) {a x : Nat} (b) (h : x ≠ a) : upd m a b x = m x := by simp [upd, h]

theorem copyFwd_le (n : Nat) : ∀ (d s : Nat) (m : Mem), d ≤ s →
    ∀ a, copyFwd n d s m a = if d ≤ a ∧ a < d + n then m (s + (a - d)) else m a := by
  induction n with
  | zero => intro d s m _ a; simp only [copyFwd]; rw [if_neg (by omega)]
  | succ n ih =>
    intro d s m h a
    simp only [copyFwd]
    rw [ih (d+1) (s+1) _ (by omega)]
    by_cases h1 : d + 1 ≤ a ∧ a < d + 1 + n
    · rw [if_pos h1, if_pos (by omega), upd_ne _ _ (by omega)]
      congr 1; omega
    · rw [if_neg h1]
      by_cases h2 : a = d
      · subst h2; rw [upd_same, if_pos (by omega)]; congr 1; omega
      · rw [upd_ne _ _ h2, if_neg (by omega)]

theorem copyFwd_disj (n : Nat) : ∀ (d s : Nat) (m : Mem), s + n ≤ d →
    ∀ a, copyFwd n d s m a = if d ≤ a ∧ a < d + n then m (s + (a - d)) else m a := by
  induction n with
  | zero => intro d s m _ a; simp only [copyFwd]; rw [if_neg (by omega)]
  | succ n ih =>
    intro d s m h a
    simp only [copyFwd]
    rw [ih (d+1) (s+1) _ (by omega)]
    by_cases h1 : d + 1 ≤ a ∧ a < d + 1 + n
    · rw [if_pos h1, if_pos (by omega), upd_ne _ _ (by omega)]
      congr 1; omega
    · rw [if_neg h1]
      by_cases h2 : a = d
      · subst h2; rw [upd_same, if_pos (by omega)]; congr 1; omega
      · rw [upd_ne _ _ h2, if_neg (by omega)]

theorem copyBwd_ge (n : Nat) : ∀ (d s : Nat) (m : Mem), s ≤ d → n ≤ s →
    ∀ a, copyBwd n d s m a = if d - n ≤ a ∧ a < d then m (s - n + (a - (d - n))) else m a := by
  induction n with
  | zero => intro d s m _ _ a; simp only [copyBwd]; rw [if_neg (by omega)]
  | succ n ih =>
    intro d s m h h' a
    simp only [copyBwd]
    rw [ih (d-1) (s-1) _ (by omega) (by omega)]
    by_cases h1 : d - 1 - n ≤ a ∧ a < d - 1
    · rw [if_pos h1, if_pos (by omega), upd_ne _ _ (by omega)]
      congr 1; omega
    · rw [if_neg h1]
      by_cases h2 : a = d - 1
      · subst h2; rw [upd_same, if_pos (by omega)]; congr 1; omega
      · rw [upd_ne _ _ h2, if_neg (by omega)]

theorem fill_eq (n : Nat) : ∀ (p : Nat) (c : UInt8) (m : Mem) a,
    fill n p c m a = if p ≤ a ∧ a < p + n then c else m a := by
  induction n with
  | zero => intro p c m a; simp only [fill]; rw [if_neg (by omega)]
  | succ n ih =>
    intro p c m a
    simp only [fill]
    rw [ih]
    by_cases h1 : p + 1 ≤ a ∧ a < p + 1 + n
    · rw [if_pos h1, if_pos (by omega)]
    · rw [if_neg h1]
      by_cases h2 : a = p
      · subst h2; rw [upd_same, if_pos (by omega)]
      · rw [upd_ne _ _ h2, if_neg (by omega)]

theorem toNat_ne {a b : UInt8} (h : a ≠ b) : a.toNat ≠ b.toNat := fun e => h (UInt8.toNat_inj.1 e)

theorem cstr_congr {m m' : Mem} : ∀ (l : List UInt8) (p : Nat),
    (∀ i, i ≤ l.length → m' (p + i) = m (p + i)) → CStr m p l → CStr m' p l := by
  intro l
  induction l with
  | nil => intro p h hc; have := h 0 (by simp); simp only [Nat.add_zero] at this; simp only [CStr] at *; rw [this]; exact hc
  | cons c t ih =>
    intro p h hc
    obtain ⟨h1, h2, h3⟩ := hc
    refine ⟨h1, ?_, ih (p+1) ?_ h3⟩
    · have := h 0 (by simp); simp only [Nat.add_zero] at this; rw [this, h2]
    · intro i hi
      have := h (i+1) (by simp only [List.length_cons]; omega)
      rw [show p + 1 + i = p + (i + 1) by omega]; exact this

/-- a C string read pointwise -/
theorem cstr_get {m : Mem} : ∀ (l : List UInt8) (p : Nat), CStr m p l →
    ∀ i (h : i < l.length), m (p + i) = l[i] ∧ l[i] ≠ 0 := by
  intro l
  induction l with
  | nil => intro p _ i h; simp at h
  | cons c t ih =>
    intro p hc i h
    obtain ⟨h1, h2, h3⟩ := hc
    cases i with
    | zero => simp [h1, h2]
    | succ i =>
      have := ih (p+1) h3 i (by simp only [List.length_cons] at h; omega)
      rw [show p + (i + 1) = p + 1 + i by omega]
      simpa using this

theorem cstr_end {m : Mem} : ∀ (l : List UInt8) (p : Nat), CStr m p l → m (p + l.length) = 0 := by
  intro l
  induction l with
  | nil => intro p h; simpa [CStr] using h
  | cons c t ih =>
    intro p h
    have := ih (p+1) h.2.2
    rw [List.length_cons, show p + (t.length + 1) = p + 1 + t.length by omega]; exact this

theorem cstr_drop {m : Mem} : ∀ (a b : List UInt8) (p : Nat), CStr m p (a ++ b) → CStr m (p + a.length) b := by
  intro a
  induction a with
  | nil => intro b p h; simpa using h
  | cons c t ih =>
    intro b p h
    have := ih b (p+1) h.2.2
    rw [List.length_cons, show p + (t.length + 1) = p + 1 + t.length by omega]; exact this

theorem cstr_nz {m : Mem} {l p} (h : CStr m p l) : ∀ c ∈ l, c ≠ 0 := by
  intro c hc
  obtain ⟨i, hi, e⟩ := List.getElem_of_mem hc
  have := (cstr_get l p h i hi).2
  rwa [e] at this

theorem strEnd_eq (m : Mem) : ∀ (l : List UInt8) (p fuel : Nat), CStr m p l → l.length < fuel →
    strEnd m fuel p = some (p + l.length) := by
  intro l
  induction l with
  | nil =>
    intro p fuel h hf
    cases fuel with
    | zero => omega
    | succ f => simp only [CStr] at h; simp [strEnd, h]
  | cons c t ih =>
    intro p fuel h hf
    cases fuel with
    | zero => omega
    | succ f =>
      obtain ⟨h1, h2, h3⟩ := h
      have := ih (p+1) f h3 (by simp only [List.length_cons] at hf; omega)
      simp only [strEnd]
      rw [if_pos (by rw [h2]; exact h1), this, List.length_cons]
      congr 1; omega

theorem inSet_eq (m : Mem) (c : UInt8) : ∀ (l : List UInt8) (p fuel : Nat), CStr m p l → l.length < fuel →
    inSet m c fuel p = some (l.contains c) := by
  intro l
  induction l with
  | nil =>
    intro p fuel h hf
    cases fuel with
    | zero => omega
    | succ f => simp only [CStr] at h; simp [inSet, h]
  | cons x t ih =>
    intro p fuel h hf
    cases fuel with
    | zero => omega
    | succ f =>
      obtain ⟨h1, h2, h3⟩ := h
      have := ih (p+1) f h3 (by simp only [List.length_cons] at hf; omega)
      simp only [inSet]
      rw [if_neg (by rw [h2]; exact h1), this, h2]
      by_cases e : x = c
      · simp [e]
      · rw [if_neg e]
        have e' : (c == x) = false := by simpa using fun h => e h.symm
        rw [List.contains_cons, e', Bool.false_or]

theorem inSetZ_eq (m : Mem) (c : UInt8) : ∀ (l : List UInt8) (p fuel : Nat), CStr m p l → l.length < fuel →
    inSetZ m c fuel p = some (l.contains c || c == 0) := by
  intro l
  induction l with
  | nil =>
    intro p fuel h hf
    cases fuel with
    | zero => omega
    | succ f =>
      simp only [CStr] at h
      simp only [inSetZ, h]
      by_cases e : (0 : UInt8) = c
      · subst e; simp
      · have : c ≠ 0 := fun h => e h.symm
        simp [e, this]
  | cons x t ih =>
    intro p fuel h hf
    cases fuel with
    | zero => omega
    | succ f =>
      obtain ⟨h1, h2, h3⟩ := h
      have := ih (p+1) f h3 (by simp only [List.length_cons] at hf; omega)
      simp only [inSetZ]
      rw [h2, this, if_neg h1]
      by_cases e : x = c
      · simp [e]
      · rw [if_neg e]
        have e' : (c == x) = false := by simpa using fun h => e h.symm
        rw [List.contains_cons, e', Bool.false_or]

end Smlr.Mem
