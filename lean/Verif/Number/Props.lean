import Verif.Number.Flt
set_option autoImplicit false
/-! Properties C16, C17, C18: number literals. -/
namespace Smlr.Number

/-- C16: a decimal, octal or hexadecimal literal with any suffix, followed by something that does not continue it, is read
whole; its token has exactly the literal's value and the type C assigns, for 16-bit and 32-bit `int`; a literal that no
type can hold is rejected, however many digits it has -/
theorem c16_int (word : Nat) (hw : word = 2 ∨ word = 4) (text : Str) (k : Kind) (ds : List Nat) (hi : IntText text k ds)
    (suf : Str) (u l : Bool) (hsuf : Suffix suf u l) (rest : Str) (hr : ∀ c, rest.head? = some c → ¬ Continues c) :
    (∀ t, litType (8 * word) k u l (posVal k.base ds) = some t →
      getNumber true word (text ++ suf ++ rest) = .ok (t, posVal k.base ds, rest)) ∧
    (litType (8 * word) k u l (posVal k.base ds) = none → ∃ e, getNumber true word (text ++ suf ++ rest) = .error e) :=
  getNumber_int word hw text k ds hi suf u l hsuf rest hr

-- `0xFfu` followed by `)`: 255, unsigned
example : getNumber true 2 [0x30, 0x78, 0x46, 0x66, 0x75, 0x29] = .ok (.uint, 255, [0x29]) := by
  refine (c16_int 2 (Or.inl rfl) [0x30, 0x78, 0x46, 0x66] .hex [15, 15] ?_ [0x75] true false (.u _ (Or.inl rfl)) [0x29] ?_).1 .uint rfl
  · exact .hex _ _ _ (Or.inl rfl) (by simp) (.cons _ _ _ _ (by unfold HexDigit; decide) (.cons _ _ _ _ (by unfold HexDigit; decide) .nil))
  · intro c hc; cases hc
    unfold Continues HexDigit
    simp only [show (0x29 : UInt8).toNat = 0x29 by rfl, not_or, not_exists]
    exact ⟨fun d => by omega, by decide⟩
-- 32768 does not fit the 16-bit decimal type, 0100000 is an unsigned
example : litType 16 .dec false false 32768 = none ∧ litType 16 .oct false false 32768 = some .uint := by decide

/-- C16, octal: a literal with a leading zero, a digit 8 or 9, and neither dot nor exponent is rejected, unless the
offending digit is beyond the first 112 significant ones, where the literal is rejected as too big -/
theorem c16_octal_digit (word : Nat) (hw : word = 2 ∨ word = 4) (s : Str) (hs : AllDigits s) (h8 : ∃ c ∈ s, 8 ≤ digitVal c)
    (rest : Str) (hr : ∀ c, rest.head? = some c → ¬ Continues c) : ∃ e, getNumber true word (0x30 :: s ++ rest) = .error e :=
  octal_bad word hw s hs h8 rest hr

example : ∃ e, getNumber true 4 ([0x30, 0x31, 0x39] ++ [0x3B]) = .error e := ⟨_, rfl⟩

/-- C17: a floating literal of at most 112 significant digits (leading zeroes not counted), with any exponent and suffix,
is read whole and denotes the single-precision number nearest to its value, ties to even, infinity on overflow; it is
rejected only when its exponent and length together exceed 2^31 - 1 -/
theorem c17_float (word : Nat) (ip fp ex suf rest : Str) (dot : Bool) (e : Int) (hf : FloatText ip dot fp ex e)
    (hs : FloatSuffix suf) (hr : AfterFloat ex suf rest) (hl : (significant (ip ++ fp)).length ≤ 112) :
    (∃ r, getNumber true word (ip ++ fracText dot fp ++ ex ++ suf ++ rest) = .ok (.float, r, rest) ∧
      RoundedDec (posVal 10 ((ip ++ fp).map digitVal)) (e - fp.length) r) ∨
    (getNumber true word (ip ++ fracText dot fp ++ ex ++ suf ++ rest) = .error .tooBig ∧
      2 ^ 31 - 1 < e.natAbs + ip.length + fp.length) := by
  rcases getNumber_float word ip fp ex suf rest dot e hf hs hr with ⟨r, h1, h2⟩ | h
  · refine Or.inl ⟨r, h1, ?_⟩
    have hk : posVal 10 (kept ip fp) = posVal 10 ((ip ++ fp).map digitVal) := by
      unfold kept
      rw [List.take_of_length_le (by unfold maxDigits; exact hl)]
      exact posVal_dropZeros _ _
    have hx : e + keptExp ip fp = e - fp.length := by
      have := significant_prefix ip fp
      unfold keptExp maxDigits
      omega
    rw [hk, hx] at h2
    exact h2
  · exact Or.inr h

-- `.5e1f`: 5 = 0x40A00000
example : FloatText [] true [0x35] [0x65, 0x31] 1 ∧ getNumber true 4 ([0x2E, 0x35, 0x65, 0x31, 0x66] ++ [0x3B]) = .ok (.float, 0x40A00000, [0x3B]) := by
  refine ⟨⟨by simp [AllDigits], ?_, by simp, by simp, ?_, by simp⟩, by decide +kernel⟩
  · intro c hc
    have : c = 0x35 := by simpa using hc
    subst this; unfold IsDigit; decide
  · refine .plain 0x65 [0x31] (Or.inl rfl) (by simp) ?_
    intro c hc
    have : c = 0x31 := by simpa using hc
    subst this; unfold IsDigit; decide

/-- C18, partial.  The full claim: the digits beyond the 112th are treated as zeroes, in any literal.  Proved: for literals
without a fraction (with an exponent or just a trailing dot), however long.  Missing: literals with more than 112
significant digits some of which are in the fraction, for which the claim is false, see `c18_defect` -/
theorem c18_partial (word : Nat) (ip ex suf rest : Str) (dot : Bool) (e : Int) (hf : FloatText ip dot [] ex e)
    (hs : FloatSuffix suf) (hr : AfterFloat ex suf rest) :
    (∃ r, getNumber true word (ip ++ fracText dot [] ++ ex ++ suf ++ rest) = .ok (.float, r, rest) ∧
      RoundedDec (posVal 10 ((significant ip).take 112 ++ List.replicate ((significant ip).length - 112) 0)) e r) ∨
    (getNumber true word (ip ++ fracText dot [] ++ ex ++ suf ++ rest) = .error .tooBig ∧
      2 ^ 31 - 1 < e.natAbs + ip.length) := by
  rcases getNumber_float word ip [] ex suf rest dot e hf hs hr with ⟨r, h1, h2⟩ | h
  · refine Or.inl ⟨r, h1, ?_⟩
    rw [posVal_zeros]
    apply roundedDec_shift
    have hx : e + keptExp ip [] = e + (((significant ip).length - 112 : Nat) : Int) := by
      unfold keptExp maxDigits; simp
    have hk : kept ip [] = (significant ip).take 112 := by unfold kept; rw [List.append_nil]; rfl
    rw [hk, hx] at h2
    exact h2
  · exact Or.inr h

-- 1 followed by 119 zeroes and a dot: infinity
example : getNumber true 4 (0x31 :: List.replicate 119 0x30 ++ [0x2E]) = .ok (.float, inf, []) := by decide +kernel

/-- C18: the full claim is false.  `1.` followed by 112 zeroes is read as 0.1 (0x3DCCCCCD) instead of 1: the zero that no
longer fits still lowers the exponent -/
theorem c18_defect : getNumber true 4 (0x31 :: 0x2E :: List.replicate 112 0x30) = .ok (.float, 0x3DCCCCCD, []) ∧
    ¬ RoundedDec (10 ^ 112) (-112) 0x3DCCCCCD ∧ getNumber true 4 (0x31 :: 0x2E :: List.replicate 111 0x30) = .ok (.float, 0x3F800000, []) := by
  refine ⟨by decide +kernel, fun h => ?_, by decide +kernel⟩
  have := h.near (by decide) 0x3F800000 (by decide)
  revert this
  decide +kernel

end Smlr.Number
