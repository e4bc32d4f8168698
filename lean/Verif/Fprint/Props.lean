import Verif.Fprint.Out

set_option autoImplicit false
/-
C44: what printf prints for the conversions e, E, f, F, g and G.
-/
namespace Smlr.Fprint
open Spec

/-- the letter of a conversion -/
def letter (upper : Bool) : Style → Nat
  | .e => if upper then 69 else 101
  | .f => if upper then 70 else 102
  | .g => if upper then 71 else 103

/-- the argument `sign` of `printff`, as `__doprint` computes it from the flags (doprint.c:280-290) -/
def signArg (f : Field) : Nat := if f.plus then 43 else if f.space then 32 else 0

/-- the number of significant digits asked for with e and g -/
def sig (p : Option Nat) : Style → Nat
  | .g => max 1 (p.getD 6)
  | _ => p.getD 6 + 1

/-! ### values of floats -/

theorem value_fval (D : Nat) (hD : 2 ^ 149 = D) (u : Nat) (hu : u < 0x7F800000) : value u = (fval u : ℚ) / D := by
  have he : u / 2 ^ 23 % 2 ^ 8 = u / 2 ^ 23 := Nat.mod_eq_of_lt (by omega)
  have hDq : (D : ℚ) = 2 ^ 149 := by rw [← hD]; push_cast; rfl
  unfold value fval
  rw [he]
  dsimp only
  generalize u / 2 ^ 23 = e
  generalize u % 2 ^ 23 = m
  rw [hDq]
  by_cases h : e = 0
  · rw [if_pos h, if_pos h, zpow_neg, div_eq_mul_inv]
    rfl
  · rw [if_neg h, if_neg h]
    obtain ⟨k, rfl⟩ : ∃ k, e = k + 1 := ⟨e - 1, by omega⟩
    rw [show ((k + 1 : Nat) : ℤ) - 150 = (k : ℤ) - (149 : Nat) by push_cast; ring, zpow_sub₀ (by norm_num), zpow_natCast, zpow_natCast,
      Nat.add_sub_cancel]
    push_cast
    ring

theorem lower_letter (upper : Bool) (st : Style) : (Ctype.tolower (letter upper st) : Int) = code st ∧
    decide (Ctype.isupper (letter upper st) ≠ 0) = upper := by
  cases upper <;> cases st <;> decide +kernel

theorem sign_ok (f : Field) (neg : Bool) : sign f neg = if (if neg = true then 45 else signArg f) ≠ 0 then [if neg = true then 45 else signArg f] else [] := by
  obtain ⟨l, p, s, a, z, w⟩ := f
  cases neg <;> cases p <;> cases s <;> rfl

theorem word_shows (upper nan : Bool) : Shows ⟨48 :: word upper nan, 3, 0, false, 0, 0, []⟩ (word upper nan) [] := by
  cases upper <;> cases nan <;> exact ⟨by decide, rfl, rfl, rfl, rfl⟩

theorem sign_len (f : Field) (neg : Bool) : (sign f neg).length ≤ 1 := by
  obtain ⟨l, p, s, a, z, w⟩ := f
  cases neg <;> cases p <;> cases s <;> simp [sign]

/-- **C44** (partial).  For every `float`, all flags, every field width and precision, `printff` prints what
the C standard prescribes, correctly rounded - except that e and g round a number with more than
`P + 2` digits before the point, `P + 1` of which are printed, up when it lies half-way between two
candidates (see `c44_tie_defect`; the full statement is this one with `true` for `false`). -/
theorem c44_print_partial (junk : List Nat) (hj : junk.length = 152) (u : Nat) (hu : u < 2 ^ 32) (f : Field) (W : Int)
    (hW : f.width = W.toNat) (prec : Int) (hP : prec < 2 ^ 31 - 100) (upper : Bool) (st : Style) :
    ∃ t, printff junk u f.left (signArg f) f.alt (f.zero && !f.left) W prec (letter upper st) = some t ∧
      Prints false f upper st (if prec < 0 then none else some prec.toNat) u t := by
  obtain ⟨l1, l2⟩ := lower_letter upper st
  have hs := sign_ok f (decide (2 ^ 31 ≤ u))
  have hsl := sign_len f (decide (2 ^ 31 ≤ u))
  have hsg : (if u ≥ 2 ^ 31 then 45 else signArg f) = if decide (2 ^ 31 ≤ u) = true then 45 else signArg f := by
    by_cases h : 2 ^ 31 ≤ u <;> simp [h]
  unfold printff
  dsimp only
  rw [l1, l2, hsg]
  generalize hsgn : (if decide (2 ^ 31 ≤ u) = true then 45 else signArg f) = sgn at *
  have hw : ∀ nan, output f.left sgn false W ⟨48 :: word upper nan, 3, 0, false, 0, 0, []⟩ =
      some (place f false (sign f (decide (2 ^ 31 ≤ u))) (word upper nan)) := by
    intro nan
    have h1 := output_ok f false sgn _ hs W hW _ _ _ (word_shows upper nan) (by
      have h2 := txt_len (word_shows upper nan)
      simp only [List.length_nil] at h2
      omega)
    have h3 : txt ⟨48 :: word upper nan, 3, 0, false, 0, 0, []⟩ (word upper nan) [] = word upper nan := by
      simp [txt]
    rw [h3] at h1
    exact h1
  by_cases h1 : u % 2 ^ 31 > 0x7F800000
  · rw [if_pos h1]
    refine ⟨_, ?_, Prints.nan h1⟩
    rw [← hw true]
    cases upper <;> rfl
  · rw [if_neg h1]
    by_cases h2 : u % 2 ^ 31 = 0x7F800000
    · rw [if_pos h2]
      refine ⟨_, ?_, Prints.inf h2⟩
      rw [← hw false]
      cases upper <;> rfl
    · rw [if_neg h2]
      obtain ⟨D, hD⟩ : ∃ D, 2 ^ 149 = D := ⟨_, rfl⟩
      obtain ⟨q, I, F, q1, q2, q3, q4⟩ := finite_ok D hD (fval (u % 2 ^ 31)) (rep_fval (by omega)) junk hj f.alt upper prec _ rfl hP st
      rw [q1, Option.bind_some, output_ok f f.zero sgn _ hs W hW q I F q2 (by omega)]
      refine ⟨_, rfl, Prints.fin (by omega) ?_⟩
      rw [value_fval D hD _ (by omega)]
      exact q4

theorem nearest_up {up up' : Prop} {x : ℚ} {n : Nat} (h : up ↔ up') (hn : Nearest up x n) : Nearest up' x n := by
  rw [propext h] at hn; exact hn

theorem sci_full {p : Nat} {x : ℚ} {n : Nat} {k : ℤ} (hx : x < 10 ^ (p + 2)) (h : Sci false p x n k) : Sci true p x n k := by
  have hup : (false = false ∧ (10 : ℚ) ^ (p + 2) ≤ x) ↔ (true = false ∧ (10 : ℚ) ^ (p + 2) ≤ x) := by
    constructor
    · intro h; exact absurd hx (not_lt.2 h.2)
    · intro h; exact absurd h.1 (by simp)
  cases h with
  | zero h => exact Sci.zero h
  | same h1 h2 h3 h4 => exact Sci.same h1 h2 (nearest_up hup h3) h4
  | carry h1 h2 h3 => exact Sci.carry h1 h2 (nearest_up hup h3)

theorem text_full {alt upper : Bool} {x : ℚ} {p : Option Nat} {st : Style} {t : List Nat} (hx : st = .f ∨ x < 10 ^ (sig p st + 1))
    (h : Text false alt upper x p st t) : Text true alt upper x p st t := by
  have e : ∀ q, max 1 q - 1 + 2 = max 1 q + 1 := by omega
  cases h with
  | f h => exact Text.f h
  | e h => exact Text.e (sci_full (hx.resolve_left (by simp)) h)
  | gf h1 h2 h3 h4 =>
    refine Text.gf (sci_full ?_ h1) h2 h3 h4
    rw [e]; exact hx.resolve_left (by simp)
  | ge h1 h2 =>
    refine Text.ge (sci_full ?_ h1) h2
    rw [e]; exact hx.resolve_left (by simp)

/-- **C44.**  With f and F, and with the other conversions for all numbers below `10 ^ (S + 1)` where `S` is
the number of significant digits asked for, the text is exactly the prescribed one: digits rounded
to nearest, ties to even. -/
theorem c44_print (junk : List Nat) (hj : junk.length = 152) (u : Nat) (hu : u < 2 ^ 32) (f : Field) (W : Int)
    (hW : f.width = W.toNat) (prec : Int) (hP : prec < 2 ^ 31 - 100) (upper : Bool) (st : Style) (p : Option Nat)
    (hp : p = if prec < 0 then none else some prec.toNat)
    (hx : st = .f ∨ 0x7F800000 ≤ u % 2 ^ 31 ∨ value (u % 2 ^ 31) < 10 ^ (sig p st + 1)) :
    ∃ t, printff junk u f.left (signArg f) f.alt (f.zero && !f.left) W prec (letter upper st) = some t ∧
      Prints true f upper st p u t := by
  obtain ⟨t, h1, h2⟩ := c44_print_partial junk hj u hu f W hW prec hP upper st
  rw [← hp] at h2
  refine ⟨t, h1, ?_⟩
  cases h2 with
  | nan h => exact Prints.nan h
  | inf h => exact Prints.inf h
  | fin h h3 =>
    refine Prints.fin h (text_full ?_ h3)
    rcases hx with h4 | h4 | h4
    · exact Or.inl h4
    · omega
    · exact Or.inr h4

/-! ### the prescribed text is unique -/

theorem nearest_unique {x : ℚ} {m n : Nat} (hm : Nearest False x m) (hn : Nearest False x n) : m = n := by
  have h1 := abs_le.1 hm.1
  have h2 := abs_le.1 hn.1
  have key : ∀ a b : Nat, a < b → Nearest False x a → Nearest False x b → False := by
    intro a b hab ha hb
    have h1 := abs_le.1 ha.1
    have h2 := abs_le.1 hb.1
    have hab' : (a : ℚ) + 1 ≤ b := by exact_mod_cast hab
    have e1 : x - a = 1 / 2 := by linarith
    have e2 : x - b = -(1 / 2) := by linarith
    have e3 : (b : ℚ) = a + 1 := by linarith
    have e3 : b = a + 1 := by exact_mod_cast e3
    have g1 := (ha.2 (by rw [e1]; norm_num)).2 (by simp)
    have g2 := (hb.2 (by rw [e2]; norm_num)).2 (by simp)
    omega
  rcases Nat.lt_trichotomy m n with h | h | h
  · exact (key m n h hm hn).elim
  · exact h
  · exact (key n m h hn hm).elim

theorem expo_unique {x : ℚ} {k k' : ℤ} (h1 : 10 ^ k ≤ x) (h2 : x < 10 ^ (k + 1)) (h1' : 10 ^ k' ≤ x) (h2' : x < 10 ^ (k' + 1)) : k = k' := by
  have a := (zpow_lt_zpow_iff_right₀ (by norm_num : (1 : ℚ) < 10)).1 (lt_of_le_of_lt h1 h2')
  have b := (zpow_lt_zpow_iff_right₀ (by norm_num : (1 : ℚ) < 10)).1 (lt_of_le_of_lt h1' h2)
  omega

theorem sci_unique {p : Nat} {x : ℚ} {n n' : Nat} {k k' : ℤ} (h : Sci true p x n k) (h' : Sci true p x n' k') : n = n' ∧ k = k' := by
  have hup : (true = false ∧ (10 : ℚ) ^ (p + 2) ≤ x) ↔ False := by simp
  have hz : ∀ k : ℤ, 10 ^ k ≤ x → x = 0 → False := by
    intro k h h0
    have : (0 : ℚ) < 10 ^ k := zpow_pos (by norm_num) k
    rw [h0] at h; linarith
  cases h with
  | zero h0 =>
    cases h' with
    | zero => exact ⟨rfl, rfl⟩
    | same h1 => exact (hz _ h1 h0).elim
    | carry h1 => exact (hz _ h1 h0).elim
  | same h1 h2 h3 h4 =>
    cases h' with
    | zero h0 => exact (hz _ h1 h0).elim
    | same g1 g2 g3 g4 =>
      have := expo_unique h1 h2 g1 g2
      subst this
      exact ⟨nearest_unique (nearest_up hup h3) (nearest_up hup g3), rfl⟩
    | carry g1 g2 g3 =>
      have := expo_unique h1 h2 g1 g2
      subst this
      have := nearest_unique (nearest_up hup h3) (nearest_up hup g3)
      omega
  | carry h1 h2 h3 =>
    cases h' with
    | zero h0 => exact (hz _ h1 h0).elim
    | same g1 g2 g3 g4 =>
      have := expo_unique h1 h2 g1 g2
      subst this
      have := nearest_unique (nearest_up hup h3) (nearest_up hup g3)
      omega
    | carry g1 g2 g3 =>
      have := expo_unique h1 h2 g1 g2
      subst this
      exact ⟨rfl, rfl⟩

/-- **C44.**  The specification leaves no choice: there is one text for every number, format and field. -/
theorem c44_unique {f : Field} {upper : Bool} {st : Style} {p : Option Nat} {u : Nat} {t t' : List Nat}
    (h : Prints true f upper st p u t) (h' : Prints true f upper st p u t') : t = t' := by
  cases h with
  | nan h1 =>
    cases h' with
    | nan => rfl
    | inf => omega
    | fin => omega
  | inf h1 =>
    cases h' with
    | nan => omega
    | inf => rfl
    | fin => omega
  | fin h1 h2 =>
    cases h' with
    | nan => omega
    | inf => omega
    | fin g1 g2 =>
      congr 1
      cases h2 with
      | f h3 =>
        cases g2 with
        | f g3 => rw [nearest_unique h3 g3]
      | e h3 =>
        cases g2 with
        | e g3 =>
          obtain ⟨e1, e2⟩ := sci_unique h3 g3
          rw [e1, e2]
      | gf h3 h4 h5 h6 =>
        cases g2 with
        | gf g3 g4 g5 g6 =>
          obtain ⟨e1, e2⟩ := sci_unique h3 g3
          subst e2
          have e3 := Int.ofNat.inj (Int.add_left_cancel (h5.trans g5.symm))
          subst e3
          rw [nearest_unique h6 g6]
        | ge g3 g4 =>
          obtain ⟨e1, e2⟩ := sci_unique h3 g3
          omega
      | ge h3 h4 =>
        cases g2 with
        | gf g3 g4 g5 g6 =>
          obtain ⟨e1, e2⟩ := sci_unique h3 g3
          omega
        | ge g3 g4 =>
          obtain ⟨e1, e2⟩ := sci_unique h3 g3
          rw [e1, e2]

/-! ### cases -/

/-- `printf("%.0e", 250.0f)` prints `3e+02`; the nearest even one of the two candidates is `2e+02`. -/
theorem c44_tie_defect : ∃ (u : Nat) (f : Field) (t : List Nat), u < 2 ^ 32 ∧
    printff (List.replicate 152 0) u f.left (signArg f) f.alt (f.zero && !f.left) (-1) 0 101 = some t ∧ f.width = (-1 : Int).toNat ∧
    ¬ Prints true f false .e (some 0) u t := by
  refine ⟨0x437A0000, ⟨false, false, false, false, false, 0⟩, [51, 101, 43, 48, 50], by decide, by decide +kernel, rfl, ?_⟩
  intro h
  have hv : value (0x437A0000 % 2 ^ 31) = 250 := by norm_num [value]
  have hn : Sci true 0 250 2 2 := by
    refine Sci.same (by norm_num) (by norm_num) ?_ (by norm_num)
    refine ⟨by norm_num [abs_le], fun _ => ⟨by simp, fun _ => rfl⟩⟩
  have hp : Prints true ⟨false, false, false, false, false, 0⟩ false .e (some 0) 0x437A0000 [50, 101, 43, 48, 50] := by
    have h1 : Text true false false (value (0x437A0000 % 2 ^ 31)) (some 0) .e [50, 101, 43, 48, 50] := by
      have h2 := Text.e (alt := false) (upper := false) (p := some 0) hn
      rw [show (some 0).getD 6 = 0 from rfl, show 2 / 10 ^ 0 = 2 from rfl, show dec 2 = [50] by rw [dec]; rfl] at h2
      rw [hv]; exact h2
    exact Prints.fin (f := ⟨false, false, false, false, false, 0⟩) (show 0x437A0000 % 2 ^ 31 < 0x7F800000 by decide) h1
  have := c44_unique h hp
  exact absurd this (by decide)

/-- `"%-+12.3f|"`-like: 0.1f with three decimals, left-justified -/
example : printff (List.replicate 152 7) 0x3DCCCCCD true 43 false false 12 3 102 =
    some ("+0.100      ".toList.map Char.toNat) := by decide +kernel
example : Prints true ⟨true, true, false, false, false, 12⟩ false .f (some 3) 0x3DCCCCCD ("+0.100      ".toList.map Char.toNat) := by
  obtain ⟨t, h1, h2⟩ := c44_print (List.replicate 152 7) rfl 0x3DCCCCCD (by decide) ⟨true, true, false, false, false, 12⟩ 12 rfl 3
    (by decide) false .f _ rfl (Or.inl rfl)
  have h3 : printff (List.replicate 152 7) 0x3DCCCCCD true 43 false false 12 3 102 = some ("+0.100      ".toList.map Char.toNat) := by
    decide +kernel
  have h4 := h1.symm.trans h3
  cases h4
  exact h2
/-- the largest `float` and the smallest one -/
example : printff (List.replicate 152 0) 0x7F7FFFFF false 0 false false (-1) (-1) 102 =
    some ("340282346638528859811704183484516925440.000000".toList.map Char.toNat) := by decide +kernel
example : printff (List.replicate 152 0) 1 false 0 false true 20 10 69 =
    some ("00001.4012984643E-45".toList.map Char.toNat) := by decide +kernel
/-- a tie, a carry, `%g` in both styles -/
example : printff (List.replicate 152 0) 0x3FC00000 false 0 true false (-1) 0 102 = some ("2.".toList.map Char.toNat) := by decide +kernel
example : printff (List.replicate 152 0) 0x411FFFFF false 0 false false (-1) 3 101 = some ("1.000e+01".toList.map Char.toNat) := by decide +kernel
example : printff (List.replicate 152 0) 0x42C80000 false 0 false false (-1) (-1) 103 = some ("100".toList.map Char.toNat) := by decide +kernel
example : printff (List.replicate 152 0) 0x501502F9 false 32 false false (-1) 5 71 = some (" 1E+10".toList.map Char.toNat) := by decide +kernel
example : printff (List.replicate 152 0) 0xFF800000 false 0 false true 6 (-1) 71 = some ("  -INF".toList.map Char.toNat) := by decide +kernel

end Smlr.Fprint
