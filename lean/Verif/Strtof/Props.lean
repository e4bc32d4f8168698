import Verif.Strtof.Lemmas
set_option autoImplicit false
/-! C65: `strtof`, `strtod` and `atof` read the number at the start of a text. -/
namespace Smlr.Strtof
open Smlr.Number

theorem signed_eq (neg : Bool) (r : Nat) : negate neg r = signed neg r := by
  cases neg <;> simp [negate, signed, Nat.add_comm]

theorem upper_digit (c : UInt8) (h : IsDigit c ∨ c = 0x2E) : upper c ≠ 0x49 ∧ upper c ≠ 0x4E ∧ ¬ Blank c ∧ c ≠ 0x2B ∧ c ≠ 0x2D := by
  revert c; exact Strtol.allBytes (by unfold IsDigit Blank; decide +kernel)

theorem upper_word (c : UInt8) (h : upper c = 0x49 ∨ upper c = 0x4E) : ¬ Blank c ∧ c ≠ 0x2B ∧ c ≠ 0x2D := by
  revert c; exact Strtol.allBytes (by unfold Blank; decide +kernel)

theorem decimal_head {ip fp ex : Str} {dot : Bool} {e : Int} (h : Decimal ip dot fp ex e) (rest : Str) (c : UInt8)
    (hc : (ip ++ fracText dot fp ++ ex ++ rest).head? = some c) : IsDigit c ∨ c = 0x2E := by
  rw [List.append_assoc, List.append_assoc] at hc
  cases hi : ip with
  | cons a ip' =>
    rw [hi] at hc
    cases hc
    exact Or.inl (h.hip c (by rw [hi]; simp))
  | nil =>
    rw [hi] at hc
    have hd : dot = true := by
      cases hdt : dot with
      | true => rfl
      | false => rcases h.hsome with x | x
                 · exact absurd hi x
                 · exact absurd (h.nodot hdt) x
    rw [hd] at hc
    cases hc
    exact Or.inr rfl

theorem word_head {w p : Str} {a : UInt8} (h : Word w (a :: p)) (rest : Str) (c : UInt8) (hc : (w ++ rest).head? = some c) : upper c = a := by
  unfold Word at h
  cases w with
  | nil => cases h
  | cons b w =>
    cases hc
    simpa using (List.cons.inj h).1

/-- for every number of digits: what is computed from the digits that are kept -/
theorem strtof_number (ws sg ip fp ex rest : Str) (dot neg : Bool) (e : Int) (hw : ∀ c ∈ ws, Blank c) (hs : Sign sg neg)
    (hf : Decimal ip dot fp ex e) (hr : Ends dot ex rest) (hb : e.natAbs ≤ 2 ^ 31 - 1) :
    ∃ r, strtof (ws ++ sg ++ (ip ++ fracText dot fp ++ ex ++ rest)) = some ⟨signed neg r, rest, r = inf⟩ ∧
      RoundedDec (posVal 10 (kept ip fp)) (e + keptExp ip fp) r := by
  have hh := decimal_head hf rest
  obtain ⟨r, r1, r2⟩ := number_ok ip fp ex rest dot e hf hr hb
  refine ⟨r, ?_, r2⟩
  unfold strtof
  rw [lead_ok ws sg _ neg hw hs (fun _ c hc => (upper_digit c (hh c hc)).2.2)]
  simp only
  rw [matches_head _ _ _ (fun c hc => (upper_digit c (hh c hc)).2.1), matches_head _ _ _ (fun c hc => (upper_digit c (hh c hc)).1), r1]
  simp only [Bool.false_eq_true, if_false, signed_eq]
  rfl

/-- A decimal number with at most 112 significant digits, after blanks and a sign, is read to its end, and its value is the
nearest `float`; `errno` becomes `ERANGE` exactly when that is infinity.  Missing: exponents from 2^31 on, numbers with
more digits (`c65_exponent`, `c65_digits`: both go wrong), hexadecimal numbers (`c65_hex`). -/
theorem c65_number_partial (ws sg ip fp ex rest : Str) (dot neg : Bool) (e : Int) (hw : ∀ c ∈ ws, Blank c) (hs : Sign sg neg)
    (hf : Decimal ip dot fp ex e) (hr : Ends dot ex rest) (hb : e.natAbs < 2 ^ 31) (hl : (significant (ip ++ fp)).length ≤ 112) :
    ∃ r, strtod (ws ++ sg ++ (ip ++ fracText dot fp ++ ex ++ rest)) = some ⟨signed neg r, rest, r = inf⟩ ∧
      atof (ws ++ sg ++ (ip ++ fracText dot fp ++ ex ++ rest)) = some (signed neg r) ∧
      RoundedDec (posVal 10 ((ip ++ fp).map digitVal)) (e - fp.length) r := by
  obtain ⟨r, r1, r2⟩ := strtof_number ws sg ip fp ex rest dot neg e hw hs hf hr (by omega)
  refine ⟨r, r1, by unfold atof strtod; rw [r1]; rfl, ?_⟩
  have hk : posVal 10 (kept ip fp) = posVal 10 ((ip ++ fp).map digitVal) := by
    unfold kept
    rw [List.take_of_length_le (by unfold maxDigits; exact hl)]
    exact posVal_dropZeros _ _
  have hx : e + keptExp ip fp = e - fp.length := by
    have := significant_prefix ip fp
    unfold keptExp maxDigits
    omega
  rw [hk, hx] at r2
  exact r2

/-- `inf` and `infinity` in any case: infinity, and the longer word is taken where it stands -/
theorem c65_inf (ws sg w rest : Str) (neg : Bool) (hw : ∀ c ∈ ws, Blank c) (hs : Sign sg neg) (hi : Word w [0x49, 0x4E, 0x46]) :
    (¬ Word (rest.take 5) [0x49, 0x4E, 0x49, 0x54, 0x59] → strtod (ws ++ sg ++ (w ++ rest)) = some ⟨signed neg inf, rest, false⟩) ∧
    ∀ w' rest', rest = w' ++ rest' → Word w' [0x49, 0x4E, 0x49, 0x54, 0x59] → strtod (ws ++ sg ++ (w ++ rest)) = some ⟨signed neg inf, rest', false⟩ := by
  have hh := word_head hi rest
  have hl : w.length = 3 := by rw [← List.length_map, hi]; rfl
  have hd : (w ++ rest).drop 3 = rest := by rw [← hl, List.drop_left' rfl]
  have key : strtod (ws ++ sg ++ (w ++ rest)) =
      some ⟨signed neg inf, if matches_ rest [0x49, 0x4E, 0x49, 0x54, 0x59] then rest.drop 5 else rest, false⟩ := by
    unfold strtod strtof
    rw [lead_ok ws sg _ neg hw hs (fun _ c hc => upper_word c (Or.inl (hh c hc)))]
    simp only
    rw [matches_head _ _ _ (fun c hc => by rw [hh c hc]; decide), matches_append w _ rest hi, hd]
    simp only [Bool.false_eq_true, if_false, if_true, signed_eq]
    rfl
  constructor
  · intro hn
    have : matches_ rest [0x49, 0x4E, 0x49, 0x54, 0x59] = false := by
      cases hm : matches_ rest [0x49, 0x4E, 0x49, 0x54, 0x59] with
      | false => rfl
      | true => exact absurd ((matches_iff _ _).1 hm) hn
    rw [key, this]; rfl
  · intro w' rest' hr hw'
    have hl' : w'.length = 5 := by rw [← List.length_map, hw']; rfl
    rw [key, hr, matches_append w' _ rest' hw', if_pos rfl, ← hl', List.drop_left' rfl]

/-- `nan` in any case is not a number; missing: a parenthesis after it, which is not read (`c65_paren`) -/
theorem c65_nan_partial (ws sg w rest : Str) (neg : Bool) (hw : ∀ c ∈ ws, Blank c) (hs : Sign sg neg) (hi : Word w [0x4E, 0x41, 0x4E]) :
    ∃ r, strtod (ws ++ sg ++ (w ++ rest)) = some ⟨r, rest, false⟩ ∧ isNan r := by
  have hh := word_head hi rest
  have hl : w.length = 3 := by rw [← List.length_map, hi]; rfl
  refine ⟨signed neg 0x7FC00000, ?_, by cases neg <;> (unfold isNan inf; decide)⟩
  unfold strtod strtof
  rw [lead_ok ws sg _ neg hw hs (fun _ c hc => upper_word c (Or.inr (hh c hc)))]
  simp only
  rw [matches_append w _ rest hi, if_pos rfl, ← hl, List.drop_left' rfl, signed_eq]

/-- without a number the result is 0 and nothing is read, not even blanks and sign -/
theorem c65_none (ws sg t : Str) (neg : Bool) (hw : ∀ c ∈ ws, Blank c) (hs : Sign sg neg) (ht : Nothing t)
    (hsg : sg = [] → ∀ c, t.head? = some c → ¬ Blank c ∧ c ≠ 0x2B ∧ c ≠ 0x2D) :
    strtod (ws ++ sg ++ t) = some ⟨0, ws ++ sg ++ t, false⟩ := by
  unfold strtod strtof
  rw [lead_ok ws sg t neg hw hs hsg]
  simp only
  have m1 : matches_ t [0x4E, 0x41, 0x4E] = false := by
    cases hm : matches_ t [0x4E, 0x41, 0x4E] with
    | false => rfl
    | true => exact absurd ((matches_iff _ _).1 hm) ht.nan
  have m2 : matches_ t [0x49, 0x4E, 0x46] = false := by
    cases hm : matches_ t [0x49, 0x4E, 0x46] with
    | false => rfl
    | true => exact absurd ((matches_iff _ _).1 hm) ht.inf
  rw [m1, m2, number_none t ht]
  rfl

/-- whatever the text, nothing is written past a buffer -/
theorem c65_safe (s : Str) : strtod s ≠ none := by
  unfold strtod strtof
  obtain ⟨neg, t⟩ := Strtol.sign (Strtol.skipSpace s)
  simp only
  have := number_safe t
  split
  · simp
  · split
    · simp
    · cases h : number t with
      | none => simp
      | some r rest => simp
      | overrun => exact absurd h this

/-! ### examples and witnesses -/

/-- ` -12.5e1x`: a number that ends before the `x` -/
example : Decimal [0x31, 0x32] true [0x35] [0x65, 0x31] 1 ∧ Ends true [0x65, 0x31] [0x78] ∧ Sign [0x2D] true ∧ Blank 0x20 := by
  refine ⟨⟨?_, ?_, by simp, by simp, .plain 0x65 [0x31] (Or.inl rfl) (by simp) ?_⟩, ⟨?_, by simp, by simp⟩, .minus, by unfold Blank; decide⟩
  all_goals intro c hc; simp at hc
  · rcases hc with rfl | rfl <;> (unfold IsDigit; decide)
  · subst hc; unfold IsDigit; decide
  · subst hc; unfold IsDigit; decide
  · subst hc; unfold IsDigit; decide

example : strtod [0x20, 0x2D, 0x31, 0x32, 0x2E, 0x35, 0x65, 0x31, 0x78] = some ⟨0xC2FA0000, [0x78], false⟩ := by decide +kernel

/-- `.5e+`: the exponent has no digits, so that the number ends before the `e` -/
example : Ends true [] [0x65, 0x2B] := by
  refine ⟨?_, by simp, fun _ => ?_⟩
  · intro c hc; cases hc; unfold IsDigit; decide
  · rintro ⟨ex, e, r, h0, h, h2⟩
    cases h with
    | none => exact h0 rfl
    | plain x s _ hne hs =>
      cases s with
      | nil => exact hne rfl
      | cons d s =>
        have := hs d (by simp)
        rw [List.cons_append, List.cons_append] at h2
        have hd := (List.cons.inj (List.cons.inj h2).2).1
        rw [← hd] at this
        revert this; unfold IsDigit; decide
    | plus x s _ hne hs =>
      cases s with
      | nil => exact hne rfl
      | cons d s => have := congrArg List.length h2; simp at this
    | minus x s _ hne hs => have := (List.cons.inj (List.cons.inj h2).2).1; revert this; decide

example : strtod [0x2E, 0x35, 0x65, 0x2B] = some ⟨0x3F000000, [0x65, 0x2B], false⟩ := by decide +kernel

/-- `iNfx`, `+Nan` -/
example : Word [0x69, 0x4E, 0x66] [0x49, 0x4E, 0x46] ∧ strtod [0x69, 0x4E, 0x66, 0x78] = some ⟨inf, [0x78], false⟩ ∧
    Word [0x4E, 0x61, 0x6E] [0x4E, 0x41, 0x4E] ∧ strtod [0x2B, 0x4E, 0x61, 0x6E] = some ⟨0x7FC00000, [], false⟩ := by unfold Word; decide +kernel

/-- ` +.e5` is no number -/
example : Nothing [0x2E, 0x65, 0x35] ∧ strtod [0x20, 0x2B, 0x2E, 0x65, 0x35] = some ⟨0, [0x20, 0x2B, 0x2E, 0x65, 0x35], false⟩ := by
  refine ⟨⟨?_, ?_, by unfold Word; decide, by unfold Word; decide⟩, by decide +kernel⟩
  · intro c hc; cases hc; unfold IsDigit; decide
  · intro c r hc; cases hc; unfold IsDigit; decide

/-- `1e39` is infinity, with `ERANGE` -/
example : strtod [0x31, 0x65, 0x33, 0x39] = some ⟨inf, [], true⟩ := by decide +kernel

/-- `1e2147483648` and `0e2147483648` are taken for no numbers at all: 0, nothing read, no `ERANGE` -/
theorem c65_exponent : ∃ ex, ExpText ex (2 ^ 31) ∧ Decimal [0x31] false [] ex (2 ^ 31) ∧ Ends false ex [] ∧
    strtod (0x31 :: ex) = some ⟨0, 0x31 :: ex, false⟩ ∧ RoundedDec 1 (2 ^ 31) inf ∧ strtod (0x30 :: ex) = some ⟨0, 0x30 :: ex, false⟩ := by
  have hd : AllDigits [0x32, 0x31, 0x34, 0x37, 0x34, 0x38, 0x33, 0x36, 0x34, 0x38] := by
    intro c hc; simp at hc
    rcases hc with rfl | rfl | rfl | rfl | rfl | rfl | rfl | rfl | rfl | rfl <;> (unfold IsDigit; decide)
  have hx : ExpText [0x65, 0x32, 0x31, 0x34, 0x37, 0x34, 0x38, 0x33, 0x36, 0x34, 0x38] (2 ^ 31) := .plain 0x65 _ (Or.inl rfl) (by simp) hd
  refine ⟨_, hx, ⟨?_, ?_, by simp, by simp, hx⟩, ⟨by simp, by simp, by simp⟩, by decide +kernel, ?_, by decide +kernel⟩
  · intro c hc; simp at hc; subst hc; unfold IsDigit; decide
  · intro c hc; cases hc
  · obtain ⟨r, r1, r2⟩ := d2f_ok [1] (by simp) (by simp) (Or.inl (by simp)) (2 ^ 31)
    rw [d2f_up [1] _ (by decide) (by simp) (by simp)] at r1
    cases r1
    exact r2

/-- 1 with 112 zeroes after the dot becomes 0.1 -/
theorem c65_digits : strtod (0x31 :: 0x2E :: List.replicate 112 0x30) = some ⟨0x3DCCCCCD, [], false⟩ ∧ ¬ RoundedDec (10 ^ 112) (-112) 0x3DCCCCCD ∧
    strtod (0x31 :: 0x2E :: List.replicate 111 0x30) = some ⟨0x3F800000, [], false⟩ := by
  refine ⟨by decide +kernel, fun h => ?_, by decide +kernel⟩
  have := h.near (by decide) 0x3F800000 (by decide)
  revert this
  decide +kernel

/-- of `0x10`, 16 in C99, only the `0` is read -/
theorem c65_hex : strtod [0x30, 0x78, 0x31, 0x30] = some ⟨0, [0x78, 0x31, 0x30], false⟩ := by decide +kernel

/-- of `nan(1)` only the word is read -/
theorem c65_paren : strtod [0x6E, 0x61, 0x6E, 0x28, 0x31, 0x29] = some ⟨0x7FC00000, [0x28, 0x31, 0x29], false⟩ := by decide +kernel

end Smlr.Strtof
