import Verif.Strtol.Lemmas
set_option autoImplicit false
/-
Properties C01 (strtol), C02 (strtoul) and C41 (atoi).
The hypothesis on the length says the string fits the 32-bit address space.
-/
namespace Smlr.Strtol

theorem splitSign_length (l : List UInt8) : (Spec.splitSign l).2.length ≤ l.length := by
  unfold Spec.splitSign; split <;> simp

theorem finishLong_eq (neg : Bool) (v : Nat) :
    let e : Int := if neg then -(v : Int) else v
    finishLong neg (v % 2^32) (decide (v ≥ 2^32)) =
      (Spec.clamp e, decide (Spec.clamp e ≠ e)) := by
  by_cases hv : v ≥ 2^32
  · cases neg <;> simp [finishLong, hv, toLong, Spec.clamp] <;> omega
  · have hm : v % 2^32 = v := by omega
    rw [hm]
    cases neg
    · by_cases hw : v > (2^32 - 1) / 2 + 0
      · simp [finishLong, hv, hw, toLong, Spec.clamp]; omega
      · simp [finishLong, hv, hw, toLong, Spec.clamp]; omega
    · by_cases hw : v > (2^32 - 1) / 2 + 1
      · simp [finishLong, hv, hw, toLong, Spec.clamp]; omega
      · simp [finishLong, hv, hw, toLong, Spec.clamp]; omega

theorem finishULong_eq (neg : Bool) (v : Nat) :
    let e : Int := if neg then -(v : Int) else v
    finishULong neg (v % 2^32) (decide (v ≥ 2^32)) =
      (if v ≥ 2^32 then 2^32 - 1 else (e % 2^32).toNat, decide (v ≥ 2^32)) := by
  by_cases hv : v ≥ 2^32
  · simp [finishULong, hv]
  · cases neg <;> simp [finishULong, hv] <;> omega

/-- C01: `strtol` returns the clamped exact value of the longest valid prefix, sets
ERANGE exactly when clamping changed the value, and places `endptr` just past the
digits (at the start if there are none). -/
theorem c01_strtol (s : List UInt8) (base : Nat) (hbase : base = 0 ∨ (2 ≤ base ∧ base ≤ 36))
    (hs : s.length < 2^32) :
    let x := Spec.subject s base
    strtol s base =
      { value := Spec.clamp (Spec.exact x)
        erange := decide (Spec.clamp (Spec.exact x) ≠ Spec.exact x)
        endpos := Spec.endOf x } := by
  have hlen1 := dropWhile_length_le Spec.isWs s
  have hlen2 := splitSign_length (s.dropWhile Spec.isWs)
  have hpl := prefix_loop base (by omega) (Spec.splitSign (s.dropWhile Spec.isWs)).2 (by omega)
  simp only at hpl
  obtain ⟨h1, h2, h3⟩ := hpl
  have h3 := h3 s (by omega)
  have hf := finishLong_eq (Spec.splitSign (s.dropWhile Spec.isWs)).1
    (Spec.value (Spec.splitBase base (Spec.splitSign (s.dropWhile Spec.isWs)).2).1
      ((Spec.splitBase base (Spec.splitSign (s.dropWhile Spec.isWs)).2).2.takeWhile
        (Spec.isDigitIn (Spec.splitBase base (Spec.splitSign (s.dropWhile Spec.isWs)).2).1)))
  rw [← h1, ← h2] at hf
  unfold strtol
  simp only [skipSpace_eq, sign_eq, hf, h3]
  rfl

/-- "  -0x1Fz" in base 0 -/
example : strtol [0x20,0x20,0x2D,0x30,0x78,0x31,0x46,0x7A] 0 = ⟨-31, false, 7⟩ := by decide +kernel
/-- "0xg": only the "0" is consumed -/
example : strtol [0x30,0x78,0x67] 16 = ⟨0, false, 1⟩ := by decide +kernel

/-- C02: `strtoul` returns the value of the longest valid prefix, negated modulo 2^32
after a minus sign, or ULONG_MAX with ERANGE exactly when the magnitude needs more than
32 bits; `endptr` as in C01. -/
theorem c02_strtoul (s : List UInt8) (base : Nat) (hbase : base = 0 ∨ (2 ≤ base ∧ base ≤ 36))
    (hs : s.length < 2^32) :
    let x := Spec.subject s base
    let mag := Spec.value x.base x.digits
    strtoul s base =
      { value := if mag ≥ 2^32 then 2^32 - 1 else (Spec.exact x % 2^32).toNat
        erange := decide (mag ≥ 2^32)
        endpos := Spec.endOf x } := by
  have hlen1 := dropWhile_length_le Spec.isWs s
  have hlen2 := splitSign_length (s.dropWhile Spec.isWs)
  have hpl := prefix_loop base (by omega) (Spec.splitSign (s.dropWhile Spec.isWs)).2 (by omega)
  simp only at hpl
  obtain ⟨h1, h2, h3⟩ := hpl
  have h3 := h3 s (by omega)
  have hf := finishULong_eq (Spec.splitSign (s.dropWhile Spec.isWs)).1
    (Spec.value (Spec.splitBase base (Spec.splitSign (s.dropWhile Spec.isWs)).2).1
      ((Spec.splitBase base (Spec.splitSign (s.dropWhile Spec.isWs)).2).2.takeWhile
        (Spec.isDigitIn (Spec.splitBase base (Spec.splitSign (s.dropWhile Spec.isWs)).2).1)))
  rw [← h1, ← h2] at hf
  unfold strtoul
  simp only [skipSpace_eq, sign_eq, hf, h3]
  rw [h2]
  rfl

/-- "-1" gives ULONG_MAX without ERANGE -/
example : strtoul [0x2D,0x31] 10 = ⟨0xFFFFFFFF, false, 2⟩ := by decide +kernel

theorem isDigit10 (ch : UInt8) : Spec.isDigitIn 10 ch = true ↔ (48 ≤ ch.toNat ∧ ch.toNat ≤ 57) := by
  revert ch; exact allBytes (by decide +kernel)

theorem digit10 (ch : UInt8) : (48 ≤ ch.toNat ∧ ch.toNat ≤ 57) →
    (Spec.digit? ch).getD 0 = ch.toNat - 48 := by
  revert ch; exact allBytes (by decide +kernel)

theorem valFrom_mono (v : Nat) (ds : List UInt8) : v ≤ valFrom 10 v ds := by
  induction ds generalizing v with
  | nil => exact Nat.le_refl _
  | cons c ds ihd => rw [valFrom_cons]; exact Nat.le_trans (by omega) (ihd _)

theorem atoiLoop_eq (l : List UInt8) : ∀ n, n < 2^32 →
    atoiLoop l n =
       if valFrom 10 n (l.takeWhile (Spec.isDigitIn 10)) < 2^32 then
         some (valFrom 10 n (l.takeWhile (Spec.isDigitIn 10))) else none := by
  induction l with
  | nil =>
    intro n hn
    rw [List.takeWhile_nil, show valFrom 10 n [] = n from rfl, if_pos hn]; rfl
  | cons ch t ih =>
    intro n hn
    unfold atoiLoop
    by_cases h : (48 ≤ ch.toNat ∧ ch.toNat ≤ 57)
    · rw [if_pos ((isdigit_iff ch).2 h)]
      rw [List.takeWhile_cons, if_pos ((isDigit10 ch).2 h), valFrom_cons, digit10 ch h]
      have hm := valFrom_mono (n * 10 + (ch.toNat - 48)) (t.takeWhile (Spec.isDigitIn 10))
      by_cases h1 : n > (2^32 - 1) / 10
      · rw [if_pos h1, if_neg]
        intro hlt
        have := Nat.lt_of_le_of_lt hm hlt
        omega
      · rw [if_neg h1]
        simp only
        by_cases h2 : ((n * 10 % 2^32 : Nat) : Int) > 2^32 - 1 - ((ch.toNat : Int) - 0x30)
        · rw [if_pos h2, if_neg]
          intro hlt
          have := Nat.lt_of_le_of_lt hm hlt
          omega
        · rw [if_neg h2, ih _ (Nat.mod_lt _ (by decide))]
          have : (((n * 10 % 2^32 : Nat) : Int) + ((ch.toNat : Int) - 0x30)).toNat % 2^32
              = n * 10 + (ch.toNat - 48) := by
            clear hm ih
            have e : n * 10 % 2^32 = n * 10 := Nat.mod_eq_of_lt (by omega)
            rw [e] at h2 ⊢
            have e2 : (((n * 10 : Nat) : Int) + ((ch.toNat : Int) - 0x30)).toNat
              = n * 10 + (ch.toNat - 48) := by omega
            rw [e2]
            exact Nat.mod_eq_of_lt (by omega)
          rw [this]
    · rw [if_neg (fun hh => h ((isdigit_iff ch).1 hh))]
      rw [List.takeWhile_cons, if_neg (fun hh => h ((isDigit10 ch).1 hh)),
        show valFrom 10 n [] = n from rfl, if_pos hn]

theorem atoiFinish (neg : Bool) (v : Nat) :
    (match (if v < 2^32 then some v else none : Option Nat) with
      | none => 0
      | some n =>
        if n > (2^32 - 1) / 2 + neg.toNat then 0
        else toLong (if neg then (2^32 - n) % 2^32 else n)) =
    (let e : Int := if neg then -(v : Int) else v
     if Spec.clamp e = e then e else 0) := by
  by_cases hv : v < 2^32
  · simp only [hv, if_true]
    cases neg
    · by_cases hw : v > (2^32 - 1) / 2 + 0
      · simp [hw, Spec.clamp]; omega
      · simp [hw, toLong, Spec.clamp]; omega
    · by_cases hw : v > (2^32 - 1) / 2 + 1
      · simp [hw, Spec.clamp]; omega
      · simp [hw, toLong, Spec.clamp]; omega
  · simp only [hv, if_false]
    cases neg <;> simp [Spec.clamp] <;> omega

/-- C41: `atoi` returns the decimal number at the start of the string whenever it is
representable in `int`, and 0 otherwise. -/
theorem c41_atoi (s : List UInt8) :
    let x := Spec.subject s 10
    atoi s = if Spec.clamp (Spec.exact x) = Spec.exact x then Spec.exact x else 0 := by
  have h := atoiFinish (Spec.splitSign (s.dropWhile Spec.isWs)).1
    (Spec.value 10 ((Spec.splitSign (s.dropWhile Spec.isWs)).2.takeWhile (Spec.isDigitIn 10)))
  unfold atoi
  simp only [skipSpace_eq, sign_eq]
  rw [atoiLoop_eq _ 0 (by decide)]
  exact h

/-- "\t-2147483648x" -/
example : atoi [9,0x2D,0x32,0x31,0x34,0x37,0x34,0x38,0x33,0x36,0x34,0x38,0x78] = -2147483648 := by
  decide +kernel

end Smlr.Strtol
