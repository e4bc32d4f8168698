import Verif.Mem.Props
set_option autoImplicit false
/-
Property C05 (searching).
-/
namespace Smlr.Mem
open Spec

/-- C05: `strlen` is the length. -/
theorem c05_strlen (m : Mem) (l : List UInt8) (p fuel : Nat) (h : CStr m p l) (hf : l.length < fuel) :
    strlen m fuel p = some l.length := by
  simp [strlen, strEnd_eq m l p fuel h hf]

/-- C05: `memchr` returns the first position of the byte among the first `n`, else null. -/
theorem c05_memchr (m : Mem) (s : Nat) (c : Int) (n : Nat) :
    (∀ r, memchr m s c n = some r ↔
      ∃ i, i < n ∧ r = s + i ∧ ((m r).toNat : Int) = c % 256 ∧
        ∀ j, j < i → ((m (s+j)).toNat : Int) ≠ c % 256) ∧
    (memchr m s c n = none ↔ ∀ i, i < n → ((m (s+i)).toNat : Int) ≠ c % 256) := by
  have hc : ∀ b : UInt8, b = toChar c ↔ (b.toNat : Int) = c % 256 := by
    intro b
    constructor
    · intro h; subst h; simp [toChar]; omega
    · intro h; apply UInt8.toNat_inj.1; simp [toChar]; omega
  unfold memchr
  have key : ∀ (n s : Nat),
      (∀ r, memchrLoop m (toChar c) s n = some r ↔
        ∃ i, i < n ∧ r = s + i ∧ m r = toChar c ∧ ∀ j, j < i → m (s+j) ≠ toChar c) ∧
      (memchrLoop m (toChar c) s n = none ↔ ∀ i, i < n → m (s+i) ≠ toChar c) := by
    intro n
    induction n with
    | zero => intro s; simp [memchrLoop]
    | succ n ih =>
      intro s
      simp only [memchrLoop]
      by_cases h : m s = toChar c
      · rw [if_pos h]
        refine ⟨fun r => ⟨fun e => ?_, ?_⟩, ⟨fun e => (by simp at e), fun hh => absurd h (by simpa using hh 0 (by omega))⟩⟩
        · simp only [Option.some.injEq] at e; subst e
          exact ⟨0, by omega, by omega, h, by intro j hj; omega⟩
        · rintro ⟨i, hi, e, h1, h2⟩
          cases i with
          | zero => simp [e]
          | succ i => exact absurd h (by simpa using h2 0 (by omega))
      · rw [if_neg h]
        obtain ⟨i1, i2⟩ := ih (s+1)
        refine ⟨fun r => ?_, ?_⟩
        · rw [i1 r]
          constructor
          · rintro ⟨i, hi, e, h1, h2⟩
            refine ⟨i+1, by omega, by omega, h1, fun j hj => ?_⟩
            cases j with
            | zero => simpa using h
            | succ j => rw [show s + (j+1) = s+1+j by omega]; exact h2 j (by omega)
          · rintro ⟨i, hi, e, h1, h2⟩
            cases i with
            | zero => rw [e] at h1; exact absurd (by simpa using h1) h
            | succ i =>
              refine ⟨i, by omega, by omega, h1, fun j hj => ?_⟩
              have := h2 (j+1) (by omega)
              rwa [show s + (j+1) = s+1+j by omega] at this
        · rw [i2]
          constructor
          · intro hh i hi
            cases i with
            | zero => simpa using h
            | succ i => rw [show s + (i+1) = s+1+i by omega]; exact hh i (by omega)
          · intro hh i hi
            have := hh (i+1) (by omega)
            rwa [show s + (i+1) = s+1+i by omega] at this
  have := key n s
  simpa only [hc, ne_eq] using this

/-- C05: `strchr` finds the first occurrence in the string including its terminator. -/
theorem c05_strchr (m : Mem) (l : List UInt8) (p fuel : Nat) (c : Int) (h : CStr m p l)
    (hf : l.length < fuel) :
    strchr m fuel p c =
      some (((l ++ [0]).findIdx? (fun x : UInt8 => (x.toNat : Int) = c % 256)).map (p + ·)) := by
  have hc : ∀ b : UInt8, ((b.toNat : Int) = c % 256) ↔ b = toChar c := by
    intro b
    constructor
    · intro h; apply UInt8.toNat_inj.1; simp [toChar]; omega
    · intro h; subst h; simp [toChar]; omega
  simp only [hc]
  unfold strchr
  induction l generalizing p fuel with
  | nil =>
    cases fuel with
    | zero => omega
    | succ f =>
      simp only [CStr] at h
      by_cases e : toChar c = 0
      · simp [strchrLoop, h, e, List.findIdx?_cons]
      · have : ¬ (0 = toChar c) := fun h => e h.symm
        simp [strchrLoop, h, e, List.findIdx?_cons, this]
  | cons x t ih =>
    cases fuel with
    | zero => omega
    | succ f =>
      obtain ⟨h1, h2, h3⟩ := h
      have := ih (p+1) f h3 (by simp only [List.length_cons] at hf; omega)
      simp only [strchrLoop, h2]
      rw [if_pos h1]
      by_cases e : x = toChar c
      · simp [e, List.findIdx?_cons]
      · rw [if_neg e, this, List.cons_append, List.findIdx?_cons]
        simp only [e, decide_false, Bool.false_eq_true, if_false, Option.map_map]
        congr 2
        funext i; simp only [Function.comp]; omega

/-- C05: `strrchr` finds the last occurrence in the string including its terminator. -/
theorem c05_strrchr (m : Mem) (l : List UInt8) (p fuel : Nat) (c : Int) (h : CStr m p l)
    (hf : l.length < fuel) :
    ∃ r, strrchr m fuel p c = some r ∧
      (∀ q, r = some q ↔ ∃ i, i ≤ l.length ∧ q = p + i ∧ ((m q).toNat : Int) = c % 256 ∧
        ∀ j, i < j → j ≤ l.length → ((m (p+j)).toNat : Int) ≠ c % 256) ∧
      (r = none ↔ ∀ i, i ≤ l.length → ((m (p+i)).toNat : Int) ≠ c % 256) := by
  have hc : ∀ b : UInt8, ((b.toNat : Int) = c % 256) ↔ b = toChar c := by
    intro b
    constructor
    · intro h; apply UInt8.toNat_inj.1; simp [toChar]; omega
    · intro h; subst h; simp [toChar]; omega
  simp only [hc, ne_eq]
  have key : ∀ (l : List UInt8) (p fuel : Nat) (res : Option Nat), CStr m p l → l.length < fuel →
      ∃ r, strrchrLoop m (toChar c) fuel p res = some r ∧
      ((∃ i, i ≤ l.length ∧ r = some (p + i) ∧ m (p+i) = toChar c ∧
        ∀ j, i < j → j ≤ l.length → ¬ m (p+j) = toChar c) ∨
       (r = res ∧ ∀ i, i ≤ l.length → ¬ m (p+i) = toChar c)) := by
    intro l
    induction l with
    | nil =>
      intro p fuel res h hf
      cases fuel with
      | zero => omega
      | succ f =>
        simp only [CStr] at h
        by_cases e : toChar c = 0
        · refine ⟨some p, by simp [strrchrLoop, h, e], Or.inl ⟨0, by simp, by simp, by simp [h, e], ?_⟩⟩
          intro j h1 h2; simp at h2; omega
        · refine ⟨res, by simp [strrchrLoop, h, e], Or.inr ⟨rfl, ?_⟩⟩
          intro i hi; simp at hi; subst hi; simp only [Nat.add_zero, h]; exact fun h => e h.symm
    | cons x t ih =>
      intro p fuel res h hf
      cases fuel with
      | zero => omega
      | succ f =>
        obtain ⟨h1, h2, h3⟩ := h
        obtain ⟨r, hr, hcase⟩ := ih (p+1) f (if x = toChar c then some p else res) h3
          (by simp only [List.length_cons] at hf; omega)
        refine ⟨r, ?_, ?_⟩
        · simp only [strrchrLoop, h2]; rw [if_pos h1]; exact hr
        · rcases hcase with ⟨i, hi, e, g1, g2⟩ | ⟨e, g⟩
          · refine Or.inl ⟨i+1, by simp only [List.length_cons]; omega, ?_, ?_, ?_⟩
            · rw [e]; congr 1; omega
            · rw [show p + (i+1) = p+1+i by omega]; exact g1
            · intro j hj hj2
              simp only [List.length_cons] at hj2
              cases j with
              | zero => omega
              | succ j => rw [show p + (j+1) = p+1+j by omega]; exact g2 j (by omega) (by omega)
          · by_cases ex : x = toChar c
            · rw [if_pos ex] at e
              refine Or.inl ⟨0, by omega, by simpa using e, by simpa [h2] using ex, ?_⟩
              intro j hj hj2
              simp only [List.length_cons] at hj2
              cases j with
              | zero => omega
              | succ j => rw [show p + (j+1) = p+1+j by omega]; exact g j (by omega)
            · rw [if_neg ex] at e
              refine Or.inr ⟨e, fun i hi => ?_⟩
              simp only [List.length_cons] at hi
              cases i with
              | zero => simpa [h2] using ex
              | succ i => rw [show p + (i+1) = p+1+i by omega]; exact g i (by omega)
  obtain ⟨r, hr, hcase⟩ := key l p fuel none h hf
  refine ⟨r, hr, ?_, ?_⟩
  · intro q
    rcases hcase with ⟨i, hi, e, g1, g2⟩ | ⟨e, g⟩
    · constructor
      · intro hq; rw [e] at hq; simp only [Option.some.injEq] at hq; subst hq
        exact ⟨i, hi, rfl, g1, g2⟩
      · rintro ⟨k, hk, hq, k1, k2⟩
        subst hq
        have : i = k := by
          rcases Nat.lt_trichotomy i k with hlt | heq | hgt
          · exact absurd k1 (g2 k hlt hk)
          · exact heq
          · exact absurd g1 (k2 i hgt hi)
        rw [e, this]
    · constructor
      · intro hq; rw [e] at hq; simp at hq
      · rintro ⟨k, hk, hq, k1, _⟩; subst hq; exact absurd k1 (g k hk)
  · rcases hcase with ⟨i, hi, e, g1, g2⟩ | ⟨e, g⟩
    · constructor
      · intro hq; rw [e] at hq; simp at hq
      · intro hh; exact absurd g1 (hh i hi)
    · exact ⟨fun _ => g, fun _ => e⟩

theorem strstrAt_eq (m : Mem) : ∀ (b a : List UInt8) (p q fuel : Nat), CStr m p a → CStr m q b →
    b.length < fuel →
    strstrAt m fuel p q = some (if b.isPrefixOf a then some true else if a.isPrefixOf b then some false else none) := by
  intro b
  induction b with
  | nil =>
    intro a p q fuel ha hb hf
    cases fuel with
    | zero => omega
    | succ f =>
      simp only [CStr] at hb
      simp [strstrAt, hb]
  | cons y t ih =>
    intro a p q fuel ha hb hf
    cases fuel with
    | zero => omega
    | succ f =>
      obtain ⟨g1, g2, g3⟩ := hb
      cases a with
      | nil =>
        simp only [CStr] at ha
        simp only [strstrAt, ha, g2]
        rw [if_neg (fun h => g1 h.symm), if_neg g1, if_pos trivial]
        simp
      | cons x s =>
        obtain ⟨h1, h2, h3⟩ := ha
        simp only [strstrAt, h2, g2]
        by_cases e : x = y
        · subst e
          rw [if_pos rfl, if_neg g1, ih s (p+1) (q+1) f h3 g3 (by simp only [List.length_cons] at hf; omega)]
          simp [List.isPrefixOf]
        · rw [if_neg e, if_neg g1, if_neg h1]
          have e2 : ¬ y = x := fun h => e h.symm
          simp [List.isPrefixOf, e, e2]

/-- C05: `strstr` returns the first position at which the needle occurs, or null if it
occurs nowhere. -/
theorem c05_strstr (m : Mem) (a b : List UInt8) (p q fuel : Nat) (ha : CStr m p a) (hb : CStr m q b)
    (hfa : a.length < fuel) (hfb : b.length < fuel) :
    ∃ r, strstr m fuel p q = some r ∧
      (∀ x, r = some x ↔ ∃ i, i ≤ a.length ∧ x = p + i ∧ b <+: a.drop i ∧
          ∀ j, j < i → ¬ b <+: a.drop j) ∧
      (r = none ↔ ∀ i, i ≤ a.length → ¬ b <+: a.drop i) := by
  have loop : ∀ (a : List UInt8) (p f : Nat), CStr m p a → a.length < f → b ≠ [] →
      ∃ r, strstrLoop m q fuel f p = some r ∧
      ((∃ i, i ≤ a.length ∧ r = some (p + i) ∧ b <+: a.drop i ∧ ∀ j, j < i → ¬ b <+: a.drop j) ∨
       (r = none ∧ ∀ i, i ≤ a.length → ¬ b <+: a.drop i)) := by
    intro a
    induction a with
    | nil =>
      intro p f h hf hne
      cases f with
      | zero => omega
      | succ f =>
        have hp : b.isPrefixOf [] = false := by cases b with
          | nil => exact absurd rfl hne
          | cons => rfl
        refine ⟨none, ?_, Or.inr ⟨rfl, ?_⟩⟩
        · simp [strstrLoop, strstrAt_eq m b [] p q fuel h hb hfb, hp]
        · intro i hi; simp at hi; subst hi; simp [hne]
    | cons x t ih =>
      intro p f h hf hne
      cases f with
      | zero => omega
      | succ f =>
        by_cases hp : b.isPrefixOf (x :: t) = true
        · refine ⟨some p, ?_, Or.inl ⟨0, by omega, by simp, by simpa using List.isPrefixOf_iff_prefix.1 hp, by intro j hj; omega⟩⟩
          simp [strstrLoop, strstrAt_eq m b (x::t) p q fuel h hb hfb, hp]
        · have hp' : b.isPrefixOf (x :: t) = false := eq_false_of_ne_true hp
          have hnp : ¬ b <+: x :: t := fun hh => hp (List.isPrefixOf_iff_prefix.2 hh)
          by_cases hs : (x :: t).isPrefixOf b = true
          · refine ⟨none, ?_, Or.inr ⟨rfl, ?_⟩⟩
            · simp [strstrLoop, strstrAt_eq m b (x::t) p q fuel h hb hfb, hp', hs]
            · intro i hi hpre
              have hlen : b.length ≤ (x::t).length := by
                have := hpre.length_le
                simp only [List.length_drop] at this; omega
              have hs' := List.isPrefixOf_iff_prefix.1 hs
              have := hs'.length_le
              have heq : (x :: t) = b := hs'.eq_of_length (by omega)
              exact hnp (heq ▸ List.prefix_rfl)
          · have hs' : (x :: t).isPrefixOf b = false := eq_false_of_ne_true hs
            obtain ⟨r, hr, hcase⟩ := ih (p+1) f h.2.2 (by simp only [List.length_cons] at hf; omega) hne
            refine ⟨r, ?_, ?_⟩
            · simp [strstrLoop, strstrAt_eq m b (x::t) p q fuel h hb hfb, hp', hs', hr]
            · rcases hcase with ⟨i, hi, e, g1, g2⟩ | ⟨e, g⟩
              · refine Or.inl ⟨i+1, by simp only [List.length_cons]; omega, by rw [e]; congr 1; omega, by simpa using g1, ?_⟩
                intro j hj
                cases j with
                | zero => simpa using hnp
                | succ j => simpa using g2 j (by omega)
              · refine Or.inr ⟨e, fun i hi => ?_⟩
                cases i with
                | zero => simpa using hnp
                | succ i => simpa using g i (by simp only [List.length_cons] at hi; omega)
  by_cases hne : b = []
  · subst hne
    refine ⟨some p, ?_, ?_, ?_⟩
    · simp only [CStr] at hb; simp [strstr, hb]
    · intro x
      constructor
      · intro e; simp only [Option.some.injEq] at e; subst e
        exact ⟨0, by omega, by omega, List.nil_prefix, by intro j hj; omega⟩
      · rintro ⟨i, hi, e, _, g⟩
        cases i with
        | zero => simp [e]
        | succ i => exact absurd List.nil_prefix (g 0 (by omega))
    · constructor
      · intro e; simp at e
      · intro hh; exact absurd List.nil_prefix (hh 0 (by omega))
  · obtain ⟨r, hr, hcase⟩ := loop a p fuel ha hfa hne
    refine ⟨r, ?_, ?_, ?_⟩
    · have : m q ≠ 0 := by
        cases b with
        | nil => exact absurd rfl hne
        | cons y t => rw [hb.2.1]; exact hb.1
      simp [strstr, this, hr]
    · intro x
      rcases hcase with ⟨i, hi, e, g1, g2⟩ | ⟨e, g⟩
      · constructor
        · intro hq; rw [e] at hq; simp only [Option.some.injEq] at hq; subst hq
          exact ⟨i, hi, rfl, g1, g2⟩
        · rintro ⟨k, hk, hq, k1, k2⟩
          subst hq
          have : i = k := by
            rcases Nat.lt_trichotomy i k with hlt | heq | hgt
            · exact absurd g1 (k2 i hlt)
            · exact heq
            · exact absurd k1 (g2 k hgt)
          rw [e, this]
      · constructor
        · intro hq; rw [e] at hq; simp at hq
        · rintro ⟨k, hk, hq, k1, _⟩; exact absurd k1 (g k hk)
    · rcases hcase with ⟨i, hi, e, g1, g2⟩ | ⟨e, g⟩
      · constructor
        · intro hq; rw [e] at hq; simp at hq
        · intro hh; exact absurd g1 (hh i hi)
      · exact ⟨fun _ => g, fun _ => e⟩

/-- the skipping loops of `strspn` and `strtok` stop after the maximal run of set members -/
theorem strspnLoop_eq (m : Mem) (b : List UInt8) (q ifuel : Nat) (hb : CStr m q b) (hfb : b.length < ifuel) :
    ∀ (a : List UInt8) (p fuel : Nat), CStr m p a → a.length < fuel →
    strspnLoop m q ifuel fuel p = some (p + (a.takeWhile (fun c => b.contains c)).length) := by
  have hz : b.contains 0 = false := by
    have := cstr_nz hb
    simpa using fun h => this 0 h rfl
  intro a
  induction a with
  | nil =>
    intro p fuel ha hf
    cases fuel with
    | zero => omega
    | succ f =>
      simp only [CStr] at ha
      simp only [strspnLoop, ha, inSet_eq m 0 b q ifuel hb hfb, hz]
      simp
  | cons x t ih =>
    intro p fuel ha hf
    cases fuel with
    | zero => omega
    | succ f =>
      obtain ⟨h1, h2, h3⟩ := ha
      have := ih (p+1) f h3 (by simp only [List.length_cons] at hf; omega)
      simp only [strspnLoop, h2, inSet_eq m x b q ifuel hb hfb, this]
      cases hx : b.contains x with
      | true => simp only [List.takeWhile_cons, hx, if_true, List.length_cons]; congr 1; omega
      | false => simp only [List.takeWhile_cons, hx, Bool.false_eq_true, if_false, List.length_nil]; congr 1

/-- C05: `strspn` is the length of the longest prefix of characters in the set. -/
theorem c05_strspn (m : Mem) (a b : List UInt8) (p q fuel : Nat) (ha : CStr m p a) (hb : CStr m q b)
    (hfa : a.length < fuel) (hfb : b.length < fuel) :
    strspn m fuel p q = some (a.takeWhile (fun c => b.contains c)).length := by
  simp [strspn, strspnLoop_eq m b q fuel hb hfb a p fuel ha hfa]

/-- C05: `strcspn` is the length of the longest prefix of characters not in the set. -/
theorem c05_strcspn (m : Mem) (a b : List UInt8) (p q fuel : Nat) (ha : CStr m p a) (hb : CStr m q b)
    (hfa : a.length < fuel) (hfb : b.length < fuel) :
    strcspn m fuel p q = some (a.takeWhile (fun c => !b.contains c)).length := by
  have key : ∀ (a : List UInt8) (p f : Nat), CStr m p a → a.length < f →
      strcspnLoop m q fuel f p = some (p + (a.takeWhile (fun c => !b.contains c)).length) := by
    intro a
    induction a with
    | nil =>
      intro p f ha hf
      cases f with
      | zero => omega
      | succ f =>
        simp only [CStr] at ha
        simp [strcspnLoop, ha, inSetZ_eq m 0 b q fuel hb hfb]
    | cons x t ih =>
      intro p f ha hf
      cases f with
      | zero => omega
      | succ f =>
        obtain ⟨h1, h2, h3⟩ := ha
        have := ih (p+1) f h3 (by simp only [List.length_cons] at hf; omega)
        have hx0 : (x == 0) = false := by simpa using h1
        simp only [strcspnLoop, h2, inSetZ_eq m x b q fuel hb hfb, this, hx0, Bool.or_false]
        cases hx : b.contains x with
        | true => simp only [List.takeWhile_cons, hx, Bool.not_true, Bool.false_eq_true, if_false, List.length_nil]; congr 1
        | false => simp only [List.takeWhile_cons, hx, Bool.not_false, if_true, List.length_cons]; congr 1; omega
  simp [strcspn, key a p fuel ha hfa]

/-- C05: `strpbrk` returns the first character that belongs to the set. -/
theorem c05_strpbrk (m : Mem) (a b : List UInt8) (p q fuel : Nat) (ha : CStr m p a) (hb : CStr m q b)
    (hfa : a.length < fuel) (hfb : b.length < fuel) :
    strpbrk m q fuel fuel p = some ((a.findIdx? (fun c => b.contains c)).map (p + ·)) := by
  have key : ∀ (a : List UInt8) (p f : Nat), CStr m p a → a.length < f →
      strpbrk m q fuel f p = some ((a.findIdx? (fun c => b.contains c)).map (p + ·)) := by
    intro a
    induction a with
    | nil =>
      intro p f ha hf
      cases f with
      | zero => omega
      | succ f => simp only [CStr] at ha; simp [strpbrk, ha]
    | cons x t ih =>
      intro p f ha hf
      cases f with
      | zero => omega
      | succ f =>
        obtain ⟨h1, h2, h3⟩ := ha
        have := ih (p+1) f h3 (by simp only [List.length_cons] at hf; omega)
        simp only [strpbrk, h2, inSet_eq m x b q fuel hb hfb, this]
        rw [if_neg h1, List.findIdx?_cons]
        cases hx : b.contains x with
        | true => simp
        | false =>
          simp only [Bool.false_eq_true, if_false, Option.map_map]
          congr 2
          funext i; simp only [Function.comp]; omega
  exact key a p fuel ha hfa

/-- the texts "ab" at 100 and "cde" at 200 of `sampleMem` meet the hypotheses above -/
example : CStr sampleMem 100 [0x61, 0x62] ∧ CStr sampleMem 201 [0x64, 0x65] ∧
    strpbrk sampleMem 100 9 9 200 = some none ∧ strstr sampleMem 9 200 201 = some (some 201) ∧
    strcspn sampleMem 9 200 202 = some 2 := by
  refine ⟨⟨by decide, by decide, by decide, by decide, ?_⟩, ⟨by decide, by decide, by decide, by decide, ?_⟩,
    by decide +kernel, by decide +kernel, by decide +kernel⟩ <;> simp [CStr, sampleMem]

end Smlr.Mem
