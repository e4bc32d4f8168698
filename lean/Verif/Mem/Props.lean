import Verif.Mem.Lemmas
set_option autoImplicit false
/-
Properties C03 (copying), C04 (comparison), C05 (searching).
-/
namespace Smlr.Mem
open Spec

/-! ### C03 copying -/

/-- C03: `memmove` copies correctly whatever the overlap, and touches nothing else. -/
theorem c03_memmove (m : Mem) (d s n a : Nat) :
    (memmove m d s n).1 a = (if d ≤ a ∧ a < d + n then m (s + (a - d)) else m a) ∧
    (memmove m d s n).2 = d := by
  unfold memmove
  split
  · rename_i h
    refine ⟨?_, rfl⟩
    show copyBwd n (d + n) (s + n) m a = _
    rw [copyBwd_ge n (d+n) (s+n) m (by omega) (by omega)]
    simp
  · refine ⟨?_, rfl⟩
    show copyFwd n d s m a = _
    rw [copyFwd_le n d s m (by omega)]

/-- C03: `memcpy` does the same for non-overlapping regions. -/
theorem c03_memcpy (m : Mem) (d s n : Nat) (hdisj : d + n ≤ s ∨ s + n ≤ d) (a : Nat) :
    (memcpy m d s n).1 a = (if d ≤ a ∧ a < d + n then m (s + (a - d)) else m a) ∧
    (memcpy m d s n).2 = d := by
  refine ⟨?_, rfl⟩
  show copyFwd n d s m a = _
  rcases hdisj with h | h
  · exact copyFwd_le n d s m (by omega) a
  · exact copyFwd_disj n d s m h a

example : (10 + 3 ≤ 20 ∨ 20 + 3 ≤ 10) ∧
    (memcpy (fun a => UInt8.ofNat a) 10 20 3).1 12 = 22 := by decide +kernel

/-- C03: `memset` writes `(unsigned char)c` to exactly its range. -/
theorem c03_memset (m : Mem) (s : Nat) (c : Int) (n a : Nat) :
    ((memset m s c n).1 a).toNat =
      (if s ≤ a ∧ a < s + n then (c % 256).toNat else (m a).toNat) ∧ (memset m s c n).2 = s := by
  refine ⟨?_, rfl⟩
  show (fill n s (toChar c) m a).toNat = _
  rw [fill_eq]
  split
  · simp [toChar]; omega
  · rfl

/-- C03: `strcpy` copies string and terminator and nothing else, for disjoint operands. -/
theorem c03_strcpy (m : Mem) (d s fuel : Nat) (l : List UInt8) (h : CStr m s l) (hf : l.length < fuel)
    (hdisj : d + l.length + 1 ≤ s ∨ s + l.length + 1 ≤ d) :
    ∃ m', strcpy m fuel d s = some (m', d) ∧ CStr m' d l ∧
      ∀ a, ¬ (d ≤ a ∧ a ≤ d + l.length) → m' a = m a := by
  have key : ∀ (l : List UInt8) (d s fuel : Nat) (m : Mem), CStr m s l → l.length < fuel →
      (d + l.length + 1 ≤ s ∨ s + l.length + 1 ≤ d) →
      ∃ m', strcpyLoop fuel d s m = some m' ∧ CStr m' d l ∧
        ∀ a, ¬ (d ≤ a ∧ a ≤ d + l.length) → m' a = m a := by
    intro l
    induction l with
    | nil =>
      intro d s fuel m h hf _
      cases fuel with
      | zero => omega
      | succ f =>
        simp only [CStr] at h
        refine ⟨upd m d 0, ?_, ?_, ?_⟩
        · simp [strcpyLoop, upd_same, h]
        · simp [CStr, upd_same]
        · intro a ha; exact upd_ne _ _ (by simp only [List.length_nil] at ha; omega)
    | cons c t ih =>
      intro d s fuel m h hf hd
      simp only [List.length_cons] at hf hd
      cases fuel with
      | zero => omega
      | succ f =>
        obtain ⟨h1, h2, h3⟩ := h
        obtain ⟨m', e, hc, hu⟩ := ih (d+1) (s+1) f (upd m d c)
          (cstr_congr t (s+1) (fun i hi => upd_ne _ _ (by omega)) h3) (by omega) (by omega)
        refine ⟨m', ?_, ⟨h1, ?_, hc⟩, ?_⟩
        · simp only [strcpyLoop, upd_same, h2, if_pos h1]; exact e
        · rw [hu d (by omega), upd_same]
        · intro a ha
          simp only [List.length_cons] at ha
          rw [hu a (by omega), upd_ne _ _ (by omega)]
  obtain ⟨m', e, h1, h2⟩ := key l d s fuel m h hf hdisj
  exact ⟨m', by simp [strcpy, e], h1, h2⟩

/-- C03: `strcat` appends; everything outside the appended part is unchanged. -/
theorem c03_strcat (m : Mem) (d s fuel : Nat) (a b : List UInt8) (ha : CStr m d a) (hb : CStr m s b)
    (hfa : a.length < fuel) (hfb : b.length < fuel)
    (hdisj : d + a.length + b.length + 1 ≤ s ∨ s + b.length + 1 ≤ d) :
    ∃ m', strcat m fuel d s = some (m', d) ∧ CStr m' d (a ++ b) ∧
      ∀ x, ¬ (d + a.length ≤ x ∧ x ≤ d + a.length + b.length) → m' x = m x := by
  have hcpy := c03_strcpy m (d + a.length) s fuel b hb hfb (by omega)
  obtain ⟨m', e, hc, hu⟩ := hcpy
  have e' : strcpyLoop fuel (d + a.length) s m = some m' := by
    unfold strcpy at e
    split at e
    · simp at e
    · rename_i m2 h2
      simp only [Option.some.injEq, Prod.mk.injEq, and_true] at e
      rw [h2, e]
  refine ⟨m', ?_, ?_, hu⟩
  · simp [strcat, strEnd_eq m a d fuel ha hfa, e']
  · have app : ∀ (a : List UInt8) (d : Nat), CStr m d a →
        (∀ x, d ≤ x → x < d + a.length → m' x = m x) → CStr m' (d + a.length) b → CStr m' d (a ++ b) := by
      intro a
      induction a with
      | nil => intro d _ _ h; simpa using h
      | cons c t ih =>
        intro d h hx hb'
        simp only [List.length_cons] at hx hb'
        refine ⟨h.1, ?_, ?_⟩
        · rw [hx d (by omega) (by omega)]; exact h.2.1
        · exact ih (d+1) h.2.2 (fun x h1 h2 => hx x (by omega) (by omega))
            (by rw [show d + 1 + t.length = d + (t.length + 1) by omega]; exact hb')
    exact app a d ha (fun x h1 h2 => hu x (by omega)) hc

/-- C03: `strncpy` writes exactly `n` bytes: the string (cut at `n`) padded with NULs. -/
theorem c03_strncpy (m : Mem) (d s n : Nat) (l : List UInt8) (h : CStr m s l)
    (hdisj : d + n ≤ s ∨ s + l.length + 1 ≤ d) (a : Nat) :
    (strncpy m d s n).1 a =
      if d ≤ a ∧ a < d + n then l.getD (a - d) 0 else m a := by
  show strncpyLoop n d s m a = _
  induction n generalizing d s m l with
  | zero => simp only [strncpyLoop]; rw [if_neg (by omega)]
  | succ n ih =>
    cases l with
    | nil =>
      simp only [CStr] at h
      simp only [strncpyLoop, upd_same, h, if_true, fill_eq]
      by_cases h1 : d + 1 ≤ a ∧ a < d + 1 + n
      · rw [if_pos h1, if_pos (by omega)]; simp
      · rw [if_neg h1]
        by_cases h2 : a = d
        · subst h2; rw [upd_same, if_pos (by omega)]; simp
        · rw [upd_ne _ _ h2, if_neg (by omega)]
    | cons c t =>
      obtain ⟨h1, h2, h3⟩ := h
      simp only [List.length_cons] at hdisj
      simp only [strncpyLoop, upd_same, h2, if_neg h1]
      by_cases hs : s + 1 ≤ d ∨ d + n < s
      · rw [ih (upd m d c) (d+1) (s+1) t ?_ (by omega)]
        · by_cases e1 : d + 1 ≤ a ∧ a < d + 1 + n
          · rw [if_pos e1, if_pos (by omega), show a - d = (a - (d + 1)) + 1 by omega]; simp
          · rw [if_neg e1]
            by_cases e2 : a = d
            · subst e2; rw [upd_same, if_pos (by omega)]; simp
            · rw [upd_ne _ _ e2, if_neg (by omega)]
        · exact cstr_congr t (s+1) (fun i hi => upd_ne _ _ (by omega)) h3
      · omega

/-- C03: `strncat` appends at most `n` characters and always terminates the result. -/
theorem c03_strncat (m : Mem) (d s n fuel : Nat) (a b : List UInt8) (ha : CStr m d a) (hb : CStr m s b)
    (hfa : a.length < fuel)
    (hdisj : d + a.length + min n b.length + 1 ≤ s ∨ s + b.length + 1 ≤ d) :
    ∃ m', strncat m fuel d s n = some (m', d) ∧ CStr m' d (a ++ b.take n) ∧
      ∀ x, ¬ (d + a.length ≤ x ∧ x ≤ d + a.length + min n b.length) → m' x = m x := by
  have key : ∀ (n : Nat) (b : List UInt8) (d s : Nat) (m : Mem), CStr m s b →
      (d + min n b.length + 1 ≤ s ∨ s + b.length + 1 ≤ d) →
      CStr (strncatLoop n d s m) d (b.take n) ∧
        ∀ x, ¬ (d ≤ x ∧ x ≤ d + min n b.length) → strncatLoop n d s m x = m x := by
    intro n
    induction n with
    | zero =>
      intro b d s m _ _
      refine ⟨by simp [strncatLoop, CStr, upd_same], fun x hx => ?_⟩
      simp only [strncatLoop]; exact upd_ne _ _ (by omega)
    | succ n ih =>
      intro b d s m hb hd
      cases b with
      | nil =>
        simp only [CStr] at hb
        simp only [strncatLoop, hb, if_true]
        refine ⟨by simp [CStr, upd_same], fun x hx => ?_⟩
        exact upd_ne _ _ (by simp only [List.length_nil] at hx; omega)
      | cons c t =>
        obtain ⟨h1, h2, h3⟩ := hb
        simp only [List.length_cons] at hd
        simp only [strncatLoop, h2, if_neg h1]
        have := ih t (d+1) (s+1) (upd m d c)
          (cstr_congr t (s+1) (fun i hi => upd_ne _ _ (by omega)) h3) (by omega)
        refine ⟨⟨h1, ?_, this.1⟩, fun x hx => ?_⟩
        · rw [this.2 d (by omega), upd_same]
        · simp only [List.length_cons] at hx
          rw [this.2 x (by omega), upd_ne _ _ (by omega)]
  have := key n b (d + a.length) s m hb (by omega)
  refine ⟨_, by simp [strncat, strEnd_eq m a d fuel ha hfa], ?_, this.2⟩
  have app : ∀ (a : List UInt8) (d : Nat) (m' : Mem), CStr m d a →
      (∀ x, d ≤ x → x < d + a.length → m' x = m x) → CStr m' (d + a.length) (b.take n) →
        CStr m' d (a ++ b.take n) := by
    intro a
    induction a with
    | nil => intro d m' _ _ h; simpa using h
    | cons c t ih =>
      intro d m' h hx hb'
      simp only [List.length_cons] at hx hb'
      refine ⟨h.1, ?_, ?_⟩
      · rw [hx d (by omega) (by omega)]; exact h.2.1
      · exact ih (d+1) m' h.2.2 (fun x h1 h2 => hx x (by omega) (by omega))
          (by rw [show d + 1 + t.length = d + (t.length + 1) by omega]; exact hb')
  exact app a d _ ha (fun x h1 h2 => this.2 x (by omega)) this.1

/-- memory holding "ab" at 100 and "cde" at 200 -/
def sampleMem : Mem := fun a =>
  if a = 100 then 0x61 else if a = 101 then 0x62 else
  if a = 200 then 0x63 else if a = 201 then 0x64 else if a = 202 then 0x65 else 0

example : CStr sampleMem 100 [0x61, 0x62] ∧ CStr sampleMem 200 [0x63, 0x64, 0x65] ∧
    (100 + 2 + 3 + 1 ≤ 200 ∨ 200 + 3 + 1 ≤ 100) := by
  refine ⟨⟨by decide, by decide, by decide, by decide, ?_⟩, ⟨by decide, by decide, by decide, by decide,
    by decide, by decide, ?_⟩, by decide⟩ <;> simp [CStr, sampleMem]

/-! ### C04 comparison -/

/-- C04: `memcmp` orders by the first differing unsigned byte. -/
theorem c04_memcmp (m : Mem) (p q n : Nat) :
    (memcmp m p q n < 0 ↔ ∃ i, i < n ∧ (∀ j, j < i → m (p+j) = m (q+j)) ∧ (m (p+i)).toNat < (m (q+i)).toNat) ∧
    (memcmp m p q n = 0 ↔ ∀ i, i < n → m (p+i) = m (q+i)) ∧
    (memcmp m p q n > 0 ↔ ∃ i, i < n ∧ (∀ j, j < i → m (p+j) = m (q+j)) ∧ (m (q+i)).toNat < (m (p+i)).toNat) := by
  induction n generalizing p q with
  | zero => simp [memcmp]
  | succ n ih =>
    simp only [memcmp]
    by_cases h : m p = m q
    · rw [if_neg (by simpa using h)]
      obtain ⟨i1, i2, i3⟩ := ih (p+1) (q+1)
      have conv : ∀ R : UInt8 → UInt8 → Prop, ¬ R (m p) (m q) →
          ((∃ i, i < n ∧ (∀ j, j < i → m (p+1+j) = m (q+1+j)) ∧ R (m (p+1+i)) (m (q+1+i))) ↔
           (∃ i, i < n+1 ∧ (∀ j, j < i → m (p+j) = m (q+j)) ∧ R (m (p+i)) (m (q+i)))) := by
        intro R hR
        constructor
        · rintro ⟨i, hi, h1, h2⟩
          refine ⟨i+1, by omega, ?_, by rw [show p + (i+1) = p+1+i by omega, show q + (i+1) = q+1+i by omega]; exact h2⟩
          intro j hj
          cases j with
          | zero => simpa using h
          | succ j => rw [show p + (j+1) = p+1+j by omega, show q + (j+1) = q+1+j by omega]; exact h1 j (by omega)
        · rintro ⟨i, hi, h1, h2⟩
          cases i with
          | zero => exact absurd (by simpa using h2) hR
          | succ i =>
            refine ⟨i, by omega, fun j hj => ?_, ?_⟩
            · have := h1 (j+1) (by omega)
              rwa [show p + (j+1) = p+1+j by omega, show q + (j+1) = q+1+j by omega] at this
            · rwa [show p + (i+1) = p+1+i by omega, show q + (i+1) = q+1+i by omega] at h2
      refine ⟨?_, ?_, ?_⟩
      · rw [i1]; exact conv (fun a b => a.toNat < b.toNat) (by rw [h]; omega)
      · rw [i2]
        constructor
        · intro hh i hi
          cases i with
          | zero => simpa using h
          | succ i =>
            rw [show p + (i+1) = p+1+i by omega, show q + (i+1) = q+1+i by omega]; exact hh i (by omega)
        · intro hh i hi
          have := hh (i+1) (by omega)
          rwa [show p + (i+1) = p+1+i by omega, show q + (i+1) = q+1+i by omega] at this
      · rw [i3]; exact conv (fun a b => b.toNat < a.toNat) (by rw [h]; omega)
    · rw [if_pos h]
      have hne := toNat_ne h
      refine ⟨⟨fun hl => ⟨0, by omega, by intro j hj; omega, by simp only [Nat.add_zero]; omega⟩, ?_⟩,
        ⟨fun he => absurd he (by omega), fun hh => absurd (by simpa using hh 0 (by omega)) h⟩,
        ⟨fun hl => ⟨0, by omega, by intro j hj; omega, by simp only [Nat.add_zero]; omega⟩, ?_⟩⟩
      · rintro ⟨i, hi, h1, h2⟩
        cases i with
        | zero => simp only [Nat.add_zero] at h2; omega
        | succ i => exact absurd (by simpa using h1 0 (by omega)) h
      · rintro ⟨i, hi, h1, h2⟩
        cases i with
        | zero => simp only [Nat.add_zero] at h2; omega
        | succ i => exact absurd (by simpa using h1 0 (by omega)) h

theorem zero_lt_of_ne {c : UInt8} (h : c ≠ 0) : 0 < c.toNat := by
  have := toNat_ne h
  simp at this; omega

/-- C04: `strcmp` is the lexicographic order of unsigned characters (`<` on lists). -/
theorem c04_strcmp (m : Mem) (a b : List UInt8) (p q fuel : Nat) (ha : CStr m p a) (hb : CStr m q b)
    (hf : a.length < fuel) :
    ∃ r, strcmp m fuel p q = some r ∧ (r < 0 ↔ a < b) ∧ (r = 0 ↔ a = b) ∧ (r > 0 ↔ b < a) := by
  induction a generalizing b p q fuel with
  | nil =>
    cases fuel with
    | zero => omega
    | succ f =>
      simp only [CStr] at ha
      cases b with
      | nil =>
        simp only [CStr] at hb
        exact ⟨0, by simp [strcmp, ha, hb], by simp, by simp, by simp⟩
      | cons c t =>
        obtain ⟨h1, h2, h3⟩ := hb
        have := zero_lt_of_ne h1
        refine ⟨0 - (c.toNat : Int), ?_, ?_, ?_, ?_⟩
        · simp only [strcmp, ha, h2]; rw [if_neg (fun h => h1 h.symm)]; rfl
        · simp; omega
        · simp; omega
        · simp
  | cons x s ih =>
    cases fuel with
    | zero => omega
    | succ f =>
      obtain ⟨h1, h2, h3⟩ := ha
      cases b with
      | nil =>
        simp only [CStr] at hb
        have := zero_lt_of_ne h1
        refine ⟨(x.toNat : Int) - 0, ?_, ?_, ?_, ?_⟩
        · simp only [strcmp, h2, hb]; rw [if_neg h1]; rfl
        · simp
        · simp; omega
        · simp; omega
      | cons c t =>
        obtain ⟨g1, g2, g3⟩ := hb
        by_cases e : x = c
        · subst e
          obtain ⟨r, hr, r1, r2, r3⟩ := ih t (p+1) (q+1) f h3 g3 (by simp only [List.length_cons] at hf; omega)
          refine ⟨r, ?_, ?_, ?_, ?_⟩
          · simp only [strcmp, h2, g2]; rw [if_pos trivial, if_neg h1]; exact hr
          · rw [r1, List.cons_lt_cons_iff]; simp
          · rw [r2]; simp
          · rw [r3, List.cons_lt_cons_iff]; simp
        · have hne := toNat_ne e
          refine ⟨(x.toNat : Int) - c.toNat, ?_, ?_, ?_, ?_⟩
          · simp only [strcmp, h2, g2]; rw [if_neg e]
          · rw [List.cons_lt_cons_iff, UInt8.lt_iff_toNat_lt]; simp [e]; omega
          · simp [e]; omega
          · rw [List.cons_lt_cons_iff, UInt8.lt_iff_toNat_lt]
            have : ¬ c = x := fun h => e h.symm
            simp [this]

/-- C04: `strncmp` compares at most `n` characters of each string. -/
theorem c04_strncmp (m : Mem) (a b : List UInt8) (p q n : Nat) (ha : CStr m p a) (hb : CStr m q b) :
    (strncmp m p q n < 0 ↔ a.take n < b.take n) ∧ (strncmp m p q n = 0 ↔ a.take n = b.take n) ∧
    (strncmp m p q n > 0 ↔ b.take n < a.take n) := by
  induction n generalizing a b p q with
  | zero => simp [strncmp]
  | succ n ih =>
    cases a with
    | nil =>
      simp only [CStr] at ha
      cases b with
      | nil => simp only [CStr] at hb; simp [strncmp, ha, hb]
      | cons c t =>
        obtain ⟨h1, h2, h3⟩ := hb
        have := zero_lt_of_ne h1
        have e : strncmp m p q (n+1) = 0 - (c.toNat : Int) := by
          simp only [strncmp, ha, h2]; rw [if_pos (fun h => h1 h.symm)]; rfl
        rw [e]; simp; omega
    | cons x s =>
      obtain ⟨h1, h2, h3⟩ := ha
      cases b with
      | nil =>
        simp only [CStr] at hb
        have := zero_lt_of_ne h1
        have e : strncmp m p q (n+1) = (x.toNat : Int) - 0 := by
          simp only [strncmp, hb, h2]; rw [if_pos h1]; rfl
        rw [e]; simp; omega
      | cons c t =>
        obtain ⟨g1, g2, g3⟩ := hb
        by_cases e : x = c
        · subst e
          obtain ⟨r1, r2, r3⟩ := ih s t (p+1) (q+1) h3 g3
          have e : strncmp m p q (n+1) = strncmp m (p+1) (q+1) n := by
            simp only [strncmp, h2, g2]; rw [if_neg (by simp), if_neg h1]
          rw [e, r1, r2, r3]
          simp only [List.take_succ_cons, List.cons_lt_cons_iff]
          simp
        · have hne := toNat_ne e
          have e' : strncmp m p q (n+1) = (x.toNat : Int) - c.toNat := by
            simp only [strncmp, h2, g2]; rw [if_pos e]
          rw [e']
          have e2 : ¬ c = x := fun h => e h.symm
          simp only [List.take_succ_cons, List.cons_lt_cons_iff, UInt8.lt_iff_toNat_lt]
          simp [e, e2]; omega

end Smlr.Mem
