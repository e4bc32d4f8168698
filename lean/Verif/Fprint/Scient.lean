import Verif.Fprint.Main

set_option autoImplicit false
/- the conversion `e` -/
namespace Smlr.Fprint
open Spec

/-- more digits, all of them zeroes -/
theorem nearest_lift {up : Prop} {v : ℚ} {X : ℤ} {fcnt fz M A B : Nat} (hB : 0 < B) (h : Nearest up ((A : ℚ) / B) M)
    (hv : v * 10 ^ ((fcnt : ℤ) - X) = (A : ℚ) / B) (hz : fz = 0 ∨ A % B = 0) :
    Nearest up (v * 10 ^ (((fcnt + fz : Nat) : ℤ) - X)) (M * 10 ^ fz) := by
  rcases hz with h0 | h0
  · subst h0
    rw [Nat.pow_zero, Nat.mul_one, Nat.add_zero, hv]
    exact h
  · have hB' : (B : ℚ) ≠ 0 := by exact_mod_cast (by omega : B ≠ 0)
    have e2 : (A : ℚ) / B = ((A / B : Nat) : ℚ) := by
      rw [div_eq_iff hB']
      have := Nat.div_add_mod A B
      rw [h0, Nat.add_zero, Nat.mul_comm] at this
      exact_mod_cast this.symm
    rw [e2] at h
    have e3 : M = A / B := nearest_nat h
    have e4 : v * 10 ^ (((fcnt + fz : Nat) : ℤ) - X) = ((M * 10 ^ fz : Nat) : ℚ) := by
      have e5 : (10 : ℚ) ^ (((fcnt + fz : Nat) : ℤ) - X) = 10 ^ ((fcnt : ℤ) - X) * 10 ^ fz := by
        rw [← zpow_natCast (10 : ℚ) fz, ← zpow_add₀ (by norm_num)]
        congr 1; push_cast; ring
      rw [e5, ← mul_assoc, hv, e2, ← e3]
      push_cast; ring
    rw [e4]; exact nearest_self _ _

/-- what `scient` yields -/
structure Sd (P : Nat) (v : ℚ) (r : List Nat × Int × Nat × Nat) (n : Nat) : Prop where
  len : r.1.length = 152
  fc : r.2.2.1 + r.2.2.2 = P
  le : r.2.2.1 ≤ 149
  lt : n < 10 ^ (r.2.2.1 + 1)
  txt : (ds r.1).take (1 + r.2.2.1) = pad (1 + r.2.2.1) n
  sci : Sci false P v (n * 10 ^ r.2.2.2) r.2.1
  lo : -45 ≤ r.2.1
  hi : r.2.1 ≤ 39

/-- rounding and the exponent, doprint.c:183-192 -/
def finE (P fcnt : Nat) (buf : List Nat) (rem : Bool) (pow10 : Int) : List Nat × Int × Nat × Nat :=
  (roundEven (1 + fcnt) rem buf,
    if (roundEven (1 + fcnt) rem buf).getD 0 0 ≠ 48 then pow10 + 1 else pow10, fcnt, P - fcnt)

theorem finE_ok (P fcnt : Nat) (hP : fcnt ≤ P) (hf : fcnt ≤ 149) (buf : List Nat) (rem : Bool) (X : Int) (v : ℚ) (A B Q : Nat) (hB : 0 < B)
    (hl : buf.length = 152) (hb : buf.take (fcnt + 3) = pad (fcnt + 3) Q) (hQ : Q < 10 ^ (fcnt + 2)) (hA : 10 * A / B = Q)
    (hr : ¬ (10 ^ (P + 2) ≤ v) → (rem = true ↔ 10 * A % B ≠ 0)) (hu : 10 ^ (P + 2) ≤ v → rem = true)
    (hv : v * 10 ^ ((fcnt : ℤ) - X) = (A : ℚ) / B) (hz : P - fcnt = 0 ∨ A % B = 0)
    (h1 : 10 ^ X ≤ v) (h2 : v < 10 ^ (X + 1)) (h3 : -45 ≤ X) (h4 : X ≤ 38) :
    ∃ n, Sd P v (finE P fcnt buf rem X) n := by
  have hnear : Nearest (10 ^ (P + 2) ≤ v) ((A : ℚ) / B) (rnd Q rem) := by
    rw [← hA]; exact near _ rem A B hB hr hu
  have hn2 := nearest_lift hB hnear hv hz
  rw [show fcnt + (P - fcnt) = P by omega] at hn2
  have hup : (false = false ∧ 10 ^ (P + 2) ≤ v) = (10 ^ (P + 2) ≤ v) := by simp
  rw [← hup] at hn2
  have hpf : 10 ^ (fcnt + 1) * 10 ^ (P - fcnt) = 10 ^ (P + 1) := by rw [← Nat.pow_add]; congr 1; omega
  have hpf0 : 10 ^ fcnt * 10 ^ (P - fcnt) = 10 ^ P := by rw [← Nat.pow_add]; congr 1; omega
  obtain ⟨s1, s2⟩ := rounded (1 + fcnt) (by omega) buf Q rem hl (by omega) (by rw [show 1 + fcnt + 2 = fcnt + 3 by omega]; exact hb)
    (by rw [show 1 + fcnt + 1 = fcnt + 2 by omega]; exact hQ)
  unfold finE
  generalize roundEven (1 + fcnt) rem buf = b at *
  rw [show 1 + fcnt = fcnt + 1 by omega] at s2
  rcases s2 with ⟨g1, g2, g3⟩ | ⟨g1, g2, g3⟩
  · refine ⟨rnd Q rem, s1, ?_, hf, g1, ?_, ?_, ?_, ?_⟩
    · show fcnt + (P - fcnt) = P; omega
    · show (ds b).take (1 + fcnt) = pad (1 + fcnt) _
      rw [show 1 + fcnt = fcnt + 1 by omega]; exact g3
    · show Sci false P v (rnd Q rem * 10 ^ (P - fcnt)) (if b.getD 0 0 ≠ 48 then X + 1 else X)
      rw [if_neg (fun h => h g2)]
      refine Sci.same h1 h2 hn2 ?_
      rw [← hpf]
      exact Nat.mul_lt_mul_of_pos_right g1 (pow_pos10 _)
    · show -45 ≤ (if b.getD 0 0 ≠ 48 then X + 1 else X); split <;> omega
    · show (if b.getD 0 0 ≠ 48 then X + 1 else X) ≤ 39; split <;> omega
  · refine ⟨10 ^ fcnt, s1, ?_, hf, Nat.pow_lt_pow_right (by omega) (by show fcnt < fcnt + 1; omega), ?_, ?_, ?_, ?_⟩
    · show fcnt + (P - fcnt) = P; omega
    · show (ds b).take (1 + fcnt) = pad (1 + fcnt) _
      have e := congrArg (List.take (fcnt + 1)) g3
      rw [List.take_take, show min (fcnt + 1) (fcnt + 1 + 1) = fcnt + 1 by omega] at e
      rw [show 1 + fcnt = fcnt + 1 by omega, e]
      rw [pad_add (fcnt + 1) 1, show 10 ^ (fcnt + 1) / 10 ^ 1 = 10 ^ fcnt by
        rw [Nat.pow_succ, Nat.pow_one]; exact Nat.mul_div_cancel _ (by omega)]
      rw [List.take_append_of_le_length (by rw [pad_len]), List.take_of_length_le (by rw [pad_len])]
    · show Sci false P v (10 ^ fcnt * 10 ^ (P - fcnt)) (if b.getD 0 0 ≠ 48 then X + 1 else X)
      rw [if_pos g2, hpf0]
      rw [g1, hpf] at hn2
      exact Sci.carry h1 h2 hn2
    · show -45 ≤ (if b.getD 0 0 ≠ 48 then X + 1 else X); split <;> omega
    · show (if b.getD 0 0 ≠ 48 then X + 1 else X) ≤ 39; split <;> omega

theorem finE_zero (P fcnt : Nat) (hP : fcnt ≤ P) (hf : fcnt ≤ 149) (buf : List Nat)
    (hl : buf.length = 152) (hb : buf.take (fcnt + 3) = pad (fcnt + 3) 0) : Sd P 0 (finE P fcnt buf false 0) 0 := by
  obtain ⟨s1, s2⟩ := rounded (1 + fcnt) (by omega) buf 0 false hl (by omega) (by rw [show 1 + fcnt + 2 = fcnt + 3 by omega]; exact hb)
    (pow_pos10 _)
  have hr : rnd 0 false = 0 := rfl
  rw [hr] at s2
  have hp := pow_pos10 (1 + fcnt)
  unfold finE
  generalize roundEven (1 + fcnt) false buf = b at *
  rcases s2 with ⟨g1, g2, g3⟩ | ⟨g1, g2, g3⟩
  · refine ⟨s1, ?_, hf, pow_pos10 _, g3, ?_, ?_, ?_⟩
    · show fcnt + (P - fcnt) = P; omega
    · show Sci false P 0 (0 * 10 ^ (P - fcnt)) (if b.getD 0 0 ≠ 48 then 0 + 1 else 0)
      rw [if_neg (fun h => h g2), Nat.zero_mul]
      exact Sci.zero rfl
    · show -45 ≤ (if b.getD 0 0 ≠ 48 then 0 + 1 else 0); split <;> omega
    · show (if b.getD 0 0 ≠ 48 then 0 + 1 else 0) ≤ 39; split <;> omega
  · omega

theorem scient_eq (x : Nat) (buf : List Nat) (h0 : buf.take 1 = [48]) (P : Nat) (hP : P + 2 < 2 ^ 31) (b : List Nat) (c rem fcnt : Nat) (hf : min P 149 = fcnt)
    (hi : cvtdif x (buf.drop 1) (fcnt + 2) = some (b, c + 1, rem)) :
    scient x buf P =
      if b.getD 0 0 = 48 then
        (cvtdff x (48 :: b) 1 (fcnt + 2) true).bind fun r =>
        some (finE P fcnt r.1 r.2.2 (-(r.2.1 : Int) - (if r.1.getD 1 0 ≠ 48 then 1 else 0)))
      else if c + 1 ≥ fcnt + 2 then some (finE P fcnt (48 :: b) (rem ≠ 0) (((c + 1 : Nat) : Int) - 1))
      else
        (cvtdff x (48 :: b) (1 + (c + 1)) (fcnt + 2 - (c + 1)) false).bind fun r =>
        some (finE P fcnt r.1 r.2.2 (((c + 1 : Nat) : Int) - 1)) := by
  have hrq : (if P + 2 < maxDigs then P + 2 else maxDigs) = fcnt + 2 := by unfold maxDigs; split <;> omega
  unfold scient
  rw [int, if_pos hP, Option.bind_some, hrq, h0]
  dsimp only
  rw [hi]
  rfl

/-- `q = a / b` in the rationals -/
theorem div_bounds (x D : Nat) (hD : 0 < D) (e : Nat) : (x * 10 ^ e < D → (x : ℚ) / D < 10 ^ (-(e : ℤ))) ∧
    (D ≤ x * 10 ^ e → (10 : ℚ) ^ (-(e : ℤ)) ≤ (x : ℚ) / D) ∧ (10 ^ e ≤ x / D → (10 : ℚ) ^ (e : ℤ) ≤ (x : ℚ) / D) ∧
    (x / D < 10 ^ e → (x : ℚ) / D < 10 ^ (e : ℤ)) := by
  have hD' : (0 : ℚ) < D := by exact_mod_cast hD
  have hp : (0 : ℚ) < 10 ^ e := by positivity
  rw [zpow_neg, zpow_natCast]
  refine ⟨?_, ?_, ?_, ?_⟩
  · intro h
    have h : (x : ℚ) * 10 ^ e < D := by exact_mod_cast h
    rw [div_lt_iff₀ hD', inv_mul_eq_div, lt_div_iff₀ hp]; exact h
  · intro h
    have h : (D : ℚ) ≤ x * 10 ^ e := by exact_mod_cast h
    rw [le_div_iff₀ hD', inv_mul_eq_div, div_le_iff₀ hp]; exact h
  · intro h
    have h := (Nat.le_div_iff_mul_le hD).1 h
    have h : (10 : ℚ) ^ e * D ≤ x := by exact_mod_cast h
    rw [le_div_iff₀ hD']; exact h
  · intro h
    have h := (Nat.div_lt_iff_lt_mul hD).1 h
    have h : (x : ℚ) < 10 ^ e * D := by exact_mod_cast h
    rw [div_lt_iff₀ hD']; exact h

theorem scale_up (x D : Nat) (t : Nat) (z : ℤ) (hz : z = t) : (x : ℚ) / D * 10 ^ z = ((x * 10 ^ t : Nat) : ℚ) / D := by
  subst hz; rw [zpow_natCast]; push_cast; ring

theorem scale_down (x D : Nat) (t : Nat) (z : ℤ) (hz : z = -(t : ℤ)) : (x : ℚ) / D * 10 ^ z = (x : ℚ) / ((D * 10 ^ t : Nat) : ℚ) := by
  subst hz; rw [zpow_neg, zpow_natCast]; push_cast
  rw [div_mul_eq_div_div, div_eq_mul_inv ((x : ℚ) / D)]

theorem scient_ok (D : Nat) (hD : 2 ^ 149 = D) (x : Nat) (hx : Rep x) (buf : List Nat) (hb : buf.length = 152) (h0 : buf.take 1 = [48])
    (P : Nat) (hP : P + 2 < 2 ^ 31) : ∃ r n, scient x buf P = some r ∧ Sd P ((x : ℚ) / D) r n := by
  have hD0 : 0 < D := by rw [← hD]; exact Nat.pow_pos (by omega)
  generalize hf : min P 149 = fcnt
  obtain ⟨b, c, rem, r1, r2, r3, r4, r5, r6, r7, r8⟩ := ipart D hD x hx buf hb (fcnt + 2) (by omega) (by omega)
  obtain ⟨a, n, g1, g2⟩ := chunksF_ok hx
  rw [hD] at g2
  rw [scient_eq x buf h0 P hP b c rem fcnt hf r1]
  have hb0 : b.getD 0 0 = 48 + x / D / 10 ^ c % 10 := by
    rw [← getD_take b (min (c + 1) (fcnt + 2)) 0 (by omega), r4, getD_take _ _ _ (by omega), pad_head]; rfl
  have hl : (48 :: b).length = 152 := by rw [List.length_cons, r2]
  by_cases hN : x / D = 0
  · -- nothing before the point
    have hxD : x % D = x := Nat.mod_eq_of_lt ((Nat.div_eq_zero_iff_lt hD0).1 hN)
    have hc0 : c = 0 := by
      rcases r6 with h | h
      · exact h
      · have := pow_pos10 c; omega
    rw [hN, Nat.zero_div] at hb0
    rw [if_pos hb0]
    by_cases hx0 : x = 0
    · have q1 := cvtdff_zero D hD x (48 :: b) 1 (fcnt + 2) (by omega) a n g1 g2 (by rw [hxD]; exact hx0)
      have hl2 : (pad (fcnt + 2) 0).length = fcnt + 2 := pad_len _ _
      have ht := over_take (48 :: b) 1 (pad (fcnt + 2) 0) (by omega)
      have hol := over_len (48 :: b) 1 (pad (fcnt + 2) 0) (by omega)
      rw [q1, Option.bind_some]
      dsimp only
      generalize over (48 :: b) 1 (pad (fcnt + 2) 0) = B at *
      have hbt : B.take (fcnt + 3) = pad (fcnt + 3) 0 := by
        rw [hl2, show 1 + (fcnt + 2) = fcnt + 3 by omega] at ht
        rw [ht, pad_small (k := fcnt + 2) (pow_pos10 _)]; rfl
      have hB1 : B.getD 1 0 = 48 := by
        rw [← getD_take B (fcnt + 3) 1 (by omega), hbt, pad_get _ _ _ (by omega), Nat.zero_div]
      rw [if_neg (fun h => h hB1)]
      refine ⟨_, 0, rfl, ?_⟩
      have := finE_zero P fcnt (by omega) (by omega) B (by omega) hbt
      rw [hx0]
      simpa using this
    · obtain ⟨f, w, q1, q2, q3, q4, q5⟩ := cvtdff_skip D hD x (48 :: b) 1 (fcnt + 2) (by omega) (by omega) a n g1 g2 (by rw [hxD]; exact hx0)
      rw [hxD] at q1 q3 q4 q5
      have hl2 : (pad (fcnt + 2) (x * 10 ^ (w + (fcnt + 2)) / D)).length = fcnt + 2 := pad_len _ _
      have ht := over_take (48 :: b) 1 (pad (fcnt + 2) (x * 10 ^ (w + (fcnt + 2)) / D)) (by omega)
      have hol := over_len (48 :: b) 1 (pad (fcnt + 2) (x * 10 ^ (w + (fcnt + 2)) / D)) (by omega)
      rw [q1, Option.bind_some]
      dsimp only
      generalize over (48 :: b) 1 (pad (fcnt + 2) (x * 10 ^ (w + (fcnt + 2)) / D)) = B at *
      have hQ1 : x * 10 ^ (w + (fcnt + 2)) / D < 10 ^ (fcnt + 2) := by
        rw [Nat.div_lt_iff_lt_mul hD0, Nat.pow_add, ← Nat.mul_assoc, Nat.mul_comm]
        exact Nat.mul_lt_mul_of_pos_left q3 (pow_pos10 _)
      have hQ2 : 10 ^ (fcnt + 1) ≤ x * 10 ^ (w + (fcnt + 2)) / D := by
        rw [Nat.le_div_iff_mul_le hD0, show w + (fcnt + 2) = w + 1 + (fcnt + 1) by omega, Nat.pow_add _ (w + 1) (fcnt + 1), ← Nat.mul_assoc,
          Nat.mul_comm (10 ^ (fcnt + 1))]
        exact Nat.mul_le_mul_right _ q4
      have hbt : B.take (fcnt + 3) = pad (fcnt + 3) (x * 10 ^ (w + (fcnt + 2)) / D) := by
        rw [hl2, show 1 + (fcnt + 2) = fcnt + 3 by omega] at ht
        rw [ht, pad_small hQ1]; rfl
      have hB1 : B.getD 1 0 ≠ 48 := by
        rw [← getD_take B (fcnt + 3) 1 (by omega), hbt, pad_get _ _ _ (by omega), show fcnt + 3 - 1 - 1 = fcnt + 1 by omega]
        have h1 : 1 ≤ x * 10 ^ (w + (fcnt + 2)) / D / 10 ^ (fcnt + 1) := by
          rw [Nat.le_div_iff_mul_le (pow_pos10 _), Nat.one_mul]; exact hQ2
        have h2 : x * 10 ^ (w + (fcnt + 2)) / D / 10 ^ (fcnt + 1) < 10 := by
          rw [Nat.div_lt_iff_lt_mul (pow_pos10 _)]
          rw [Nat.pow_succ _ (fcnt + 1), Nat.mul_comm _ 10] at hQ1; exact hQ1
        omega
      rw [if_pos hB1]
      have e10 : 10 * (x * 10 ^ (w + (fcnt + 1))) = x * 10 ^ (w + (fcnt + 2)) := by
        rw [show w + (fcnt + 2) = w + (fcnt + 1) + 1 by omega, Nat.pow_succ _ (w + (fcnt + 1)), Nat.mul_comm 10, Nat.mul_assoc]
      have hlt1 : ¬ ((10 : ℚ) ^ (P + 2) ≤ (x : ℚ) / D) := by
        have h1 := (div_bounds x D hD0 0).2.2.2 (by rw [hN]; exact pow_pos10 _)
        have h2 : (1 : ℚ) ≤ 10 ^ (P + 2) := one_le_pow₀ (by norm_num)
        intro h
        have := lt_of_le_of_lt h h1
        norm_num at this
        linarith
      have key := finE_ok P fcnt (by omega) (by omega) B f (-(w : ℤ) - 1) ((x : ℚ) / D) (x * 10 ^ (w + (fcnt + 1))) D
        (x * 10 ^ (w + (fcnt + 2)) / D) hD0 (by omega) hbt hQ1 (by rw [e10]) (fun _ => by rw [e10]; exact q5) (fun h => absurd h hlt1)
        (scale_up x D _ _ (by push_cast; ring))
        (by
          rcases Nat.eq_zero_or_pos (P - fcnt) with h | h
          · exact Or.inl h
          · right
            exact rep_exp hD hx (Or.inl rfl) _ (by omega))
        (by have := (div_bounds x D hD0 (w + 1)).2.1 q4
            rw [show -(w : ℤ) - 1 = -((w + 1 : Nat) : ℤ) by push_cast; ring]; exact this)
        (by have := (div_bounds x D hD0 w).1 q3
            rw [show -(w : ℤ) - 1 + 1 = -(w : ℤ) by ring]; exact this)
        (by omega) (by omega)
      obtain ⟨n, key⟩ := key
      exact ⟨_, n, rfl, key⟩
  · -- digits before the point
    have hge : 10 ^ c ≤ x / D := by
      rcases r6 with h | h
      · subst h; rw [Nat.pow_zero]; exact Nat.one_le_iff_ne_zero.2 hN
      · exact h
    have hb1 : b.getD 0 0 ≠ 48 := by
      have h1 : 1 ≤ x / D / 10 ^ c := by rw [Nat.le_div_iff_mul_le (pow_pos10 _), Nat.one_mul]; exact hge
      have h2 : x / D / 10 ^ c < 10 := by
        rw [Nat.div_lt_iff_lt_mul (pow_pos10 _)]
        rw [Nat.pow_succ, Nat.mul_comm] at r5; exact r5
      omega
    rw [if_neg hb1]
    have hX1 : (10 : ℚ) ^ (c : ℤ) ≤ (x : ℚ) / D := (div_bounds x D hD0 c).2.2.1 hge
    have hX2 : (x : ℚ) / D < (10 : ℚ) ^ ((c : ℤ) + 1) := by
      have := (div_bounds x D hD0 (c + 1)).2.2.2 r5
      exact_mod_cast this
    have hcX : ((c + 1 : Nat) : ℤ) - 1 = c := by push_cast; ring
    rw [hcX]
    by_cases hcr : c + 1 ≥ fcnt + 2
    · rw [if_pos hcr]
      have hfP : fcnt = P := by omega
      have hQ : 10 * x / (D * 10 ^ (c - fcnt)) = x / D / 10 ^ (c + 1 - (fcnt + 2)) := by
        rw [Nat.div_div_eq_div_mul, show c - fcnt = (c + 1 - (fcnt + 2)) + 1 by omega, Nat.pow_succ, ← Nat.mul_assoc,
          Nat.mul_comm _ 10, Nat.mul_div_mul_left _ _ (by omega)]
      have hmod : 10 * x % (D * 10 ^ (c - fcnt)) = 10 * (x % (D * 10 ^ (c + 1 - (fcnt + 2)))) := by
        rw [show c - fcnt = (c + 1 - (fcnt + 2)) + 1 by omega, Nat.pow_succ, ← Nat.mul_assoc,
          Nat.mul_comm _ 10, Nat.mul_mod_mul_left]
      have hbt : (48 :: b).take (fcnt + 3) = pad (fcnt + 3) (x / D / 10 ^ (c + 1 - (fcnt + 2))) ∧
          x / D / 10 ^ (c + 1 - (fcnt + 2)) < 10 ^ (fcnt + 2) := by
        have hlt : x / D / 10 ^ (c + 1 - (fcnt + 2)) < 10 ^ (fcnt + 2) := by
          rw [Nat.div_lt_iff_lt_mul (pow_pos10 _), ← Nat.pow_add, show fcnt + 2 + (c + 1 - (fcnt + 2)) = c + 1 by omega]
          exact r5
        refine ⟨?_, hlt⟩
        rw [show min (c + 1) (fcnt + 2) = fcnt + 2 by omega] at r4
        rw [List.take_succ_cons, r4, pad_small hlt]
        have : pad (c + 1) (x / D) = pad (fcnt + 2 + (c + 1 - (fcnt + 2))) (x / D) := by congr 1; omega
        rw [this, pad_add, List.take_append_of_le_length (by rw [pad_len]), List.take_of_length_le (by rw [pad_len])]
      have key := finE_ok P fcnt (by omega) (by omega) (48 :: b) (rem ≠ 0) c ((x : ℚ) / D) x (D * 10 ^ (c - fcnt))
        (x / D / 10 ^ (c + 1 - (fcnt + 2))) (Nat.mul_pos hD0 (pow_pos10 _)) hl hbt.1 hbt.2 hQ
        (by
          intro h
          have hc : c + 1 = fcnt + 2 := by
            rcases Nat.lt_or_ge (fcnt + 2) (c + 1) with h1 | h1
            · refine absurd ?_ h
              have h2 : (10 : ℚ) ^ (P + 2) ≤ 10 ^ (c : ℤ) := by
                rw [zpow_natCast]; exact pow_le_pow_right₀ (by norm_num) (by omega)
              exact le_trans h2 hX1
            · omega
          rw [decide_eq_true_iff, r7 (by omega), hmod, hc, Nat.sub_self, Nat.pow_zero, Nat.mul_one]
          omega)
        (by
          intro h
          have hc : fcnt + 2 < c + 1 := by
            by_contra h1
            have h2 : (10 : ℚ) ^ ((c : ℤ) + 1) ≤ 10 ^ (P + 2) := by
              rw [show (c : ℤ) + 1 = ((c + 1 : Nat) : ℤ) by push_cast; ring, zpow_natCast]
              exact pow_le_pow_right₀ (by norm_num) (by omega)
            exact absurd (lt_of_lt_of_le hX2 (le_trans h2 h)) (lt_irrefl _)
          rw [decide_eq_true_iff]
          exact r8 hc)
        (scale_down x D _ _ (by omega)) (Or.inl (by omega)) hX1 hX2 (by omega) (by omega)
      obtain ⟨n, key⟩ := key
      exact ⟨_, n, rfl, key⟩
    · rw [if_neg hcr]
      generalize ht : fcnt + 2 - (c + 1) = t
      rw [show min (c + 1) (fcnt + 2) = c + 1 by omega, List.take_of_length_le (l := pad _ _) (by rw [pad_len]; omega)] at r4
      obtain ⟨f, q1, q2⟩ := cvtdff_plain D hD x (48 :: b) (1 + (c + 1)) t (by omega) a n g1 g2
      obtain ⟨j1, j2⟩ := joined D hD0 x c t r5
      have hl2 : (pad t (x % D * 10 ^ t / D)).length = t := pad_len _ _
      have ho := over_take (48 :: b) (1 + (c + 1)) (pad t (x % D * 10 ^ t / D)) (by omega)
      have hol := over_len (48 :: b) (1 + (c + 1)) (pad t (x % D * 10 ^ t / D)) (by omega)
      have e1 : (48 :: b).take (1 + (c + 1)) = [48] ++ pad (c + 1) (x / D) := by
        rw [Nat.add_comm 1, ← r4]; rfl
      rw [hl2, e1, j1] at ho
      rw [q1, Option.bind_some]
      dsimp only
      generalize over (48 :: b) (1 + (c + 1)) (pad t (x % D * 10 ^ t / D)) = B at *
      have e10 : 10 * (x * 10 ^ (t - 1)) = x * 10 ^ t := by
        obtain ⟨s, rfl⟩ : ∃ s, t = s + 1 := ⟨t - 1, by omega⟩
        rw [Nat.add_sub_cancel, Nat.pow_succ, Nat.mul_comm 10, Nat.mul_assoc]
      have hlt1 : ¬ ((10 : ℚ) ^ (P + 2) ≤ (x : ℚ) / D) := by
        intro h
        have h2 : (10 : ℚ) ^ ((c : ℤ) + 1) ≤ 10 ^ (P + 2) := by
          rw [show (c : ℤ) + 1 = ((c + 1 : Nat) : ℤ) by push_cast; ring, zpow_natCast]
          exact pow_le_pow_right₀ (by norm_num) (by omega)
        exact absurd (lt_of_lt_of_le hX2 (le_trans h2 h)) (lt_irrefl _)
      have key := finE_ok P fcnt (by omega) (by omega) B f c ((x : ℚ) / D) (x * 10 ^ (t - 1)) D
        (x * 10 ^ t / D) hD0 (by omega)
        (by rw [show fcnt + 3 = 1 + (c + 1) + t by omega, ho]; congr 1; omega)
        (by rw [show fcnt + 2 = c + 1 + t by omega]; exact j2)
        (by rw [e10]) (fun _ => by rw [e10, q2, ← (floor_split x D t hD0).2.2]) (fun h => absurd h hlt1)
        (scale_up x D _ _ (by omega))
        (by
          rcases Nat.eq_zero_or_pos (P - fcnt) with h | h
          · exact Or.inl h
          · right
            exact rep_exp hD hx r6 _ (by omega))
        hX1 hX2 (by omega) (by omega)
      obtain ⟨n, key⟩ := key
      exact ⟨_, n, rfl, key⟩

end Smlr.Fprint
