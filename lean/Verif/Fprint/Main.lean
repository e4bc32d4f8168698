import Verif.Fprint.Round

set_option autoImplicit false
/- the digits printed -/
namespace Smlr.Fprint
open Spec

theorem over_len (buf : List Nat) (q : Nat) (l : List Nat) (h : q + l.length ≤ buf.length) : (over buf q l).length = buf.length := by
  simp only [over, List.length_append, List.length_take, List.length_drop]; omega

theorem over_take (buf : List Nat) (q : Nat) (l : List Nat) (h : q + l.length ≤ buf.length) :
    (over buf q l).take (q + l.length) = buf.take q ++ l := by
  unfold over
  rw [List.take_append_of_le_length (by simp; omega)]
  rw [List.take_of_length_le (by simp)]

/-- the integral part -/
theorem ipart (D : Nat) (hD : 2 ^ 149 = D) (x : Nat) (hx : Rep x) (buf : List Nat) (hb : buf.length = 152) (size : Nat) (h1 : 0 < size)
    (h2 : size ≤ 151) :
    ∃ b c rem, cvtdif x (buf.drop 1) size = some (b, c + 1, rem) ∧ b.length = 151 ∧ c ≤ 38 ∧
      b.take (min (c + 1) size) = (pad (c + 1) (x / D)).take size ∧
      x / D < 10 ^ (c + 1) ∧ (c = 0 ∨ 10 ^ c ≤ x / D) ∧
      (c + 1 ≤ size → (rem ≠ 0 ↔ x % D ≠ 0)) ∧ (size < c + 1 → rem ≠ 0) := by
  obtain ⟨a, e, g1, g2⟩ := chunksI_ok hx
  have hN : x / 2 ^ 149 < 10 ^ 39 := by
    have : x / 2 ^ 149 < 2 ^ 128 := by
      rw [Nat.div_lt_iff_lt_mul (Nat.pow_pos (by omega)), ← Nat.pow_add]; exact hx.lt
    exact Nat.lt_of_lt_of_le this (by decide +kernel)
  obtain ⟨b, c, rem, r1, r2, r3, r4, r5, r6, r7⟩ := cvtdif_ok x (buf.drop 1) size h1 (by rw [List.length_drop]; omega) a e g1 g2
    (Nat.lt_of_lt_of_le hN (by decide +kernel))
  rw [hD] at r3 r4 r5 r6 hN
  refine ⟨b, c, rem, r1, by rw [r2, List.length_drop, hb], ?_, r3, r4, r5, r6, r7⟩
  rcases r5 with h | h
  · omega
  · have h3 : 10 ^ c < 10 ^ 39 := Nat.lt_of_le_of_lt h hN
    have := (Nat.pow_lt_pow_iff_right (show 1 < 10 by omega)).1 h3
    omega

theorem rep_exp {D : Nat} (hD : 2 ^ 149 = D) {x : Nat} (hx : Rep x) {c : Nat} (h : c = 0 ∨ 10 ^ c ≤ x / D) (t : Nat) (ht : 149 ≤ t + c) :
    x * 10 ^ t % D = 0 := by
  obtain ⟨m, k, h1, h2⟩ := hx.bits
  rw [← hD]
  apply exact_div h1
  rcases h with h | h
  · omega
  · have h3 : 10 ^ c * D ≤ x := (Nat.le_div_iff_mul_le (by rw [← hD]; exact Nat.pow_pos (by omega))).1 h
    have h4 : 2 ^ c ≤ 10 ^ c := Nat.pow_le_pow_left (by omega) c
    have h5 : 2 ^ (c + 149) ≤ m * 2 ^ k := by
      rw [← h1, Nat.pow_add, hD]
      exact Nat.le_trans (Nat.mul_le_mul_right _ h4) h3
    have h6 : m * 2 ^ k < 2 ^ (24 + k) := by
      rw [Nat.pow_add]; exact Nat.mul_lt_mul_of_pos_right h2 (Nat.pow_pos (by omega))
    have h7 := (Nat.pow_lt_pow_iff_right (show 1 < 2 by omega)).1 (Nat.lt_of_le_of_lt h5 h6)
    omega

/-- `0`, then `N` in `c + 1` digits, then `t` digits of the fraction -/
theorem joined (D : Nat) (hD0 : 0 < D) (x c t : Nat) (hN : x / D < 10 ^ (c + 1)) :
    [48] ++ pad (c + 1) (x / D) ++ pad t (x % D * 10 ^ t / D) = pad (c + 2 + t) (x * 10 ^ t / D) ∧
      x * 10 ^ t / D < 10 ^ (c + 1 + t) := by
  obtain ⟨f1, f2, -⟩ := floor_split x D t hD0
  have hp : 0 < 10 ^ t := Nat.pow_pos (by omega)
  constructor
  · rw [f1, pad_add (c + 2) t, Nat.mul_comm (x / D), Nat.mul_add_div hp, Nat.div_eq_of_lt f2]
    show _ = pad (c + 1 + 1) (x / D) ++ _
    rw [pad_small hN]
    rw [show pad t (10 ^ t * (x / D) + x % D * 10 ^ t / D) = pad t (x % D * 10 ^ t / D) from
      pad_congr (by rw [Nat.mul_add_mod])]
    rfl
  · rw [f1, Nat.pow_add]
    calc x / D * 10 ^ t + x % D * 10 ^ t / D < x / D * 10 ^ t + 10 ^ t := by omega
      _ = (x / D + 1) * 10 ^ t := by rw [Nat.add_mul, Nat.one_mul]
      _ ≤ 10 ^ (c + 1) * 10 ^ t := Nat.mul_le_mul_right _ hN

/-- the digits of a buffer -/
def ds (b : List Nat) : List Nat := b.drop (if b.getD 0 0 = 48 then 1 else 0)

/-- the buffer of `p` holds the digits `I` and `F` -/
structure Shows (p : Parts) (I F : List Nat) : Prop where
  len : p.icnt + p.fcnt ≤ (ds p.buf).length
  icnt : p.icnt = I.length
  fcnt : p.fcnt = F.length
  iz : p.iz = 0
  txt : (ds p.buf).take (p.icnt + p.fcnt) = I ++ F

theorem rounded (k : Nat) (hk : 1 ≤ k) (b : List Nat) (Q : Nat) (rem : Bool) (hl : b.length = 152) (hk2 : k ≤ 150)
    (hb : b.take (k + 2) = pad (k + 2) Q) (hQ : Q < 10 ^ (k + 1)) :
    (roundEven k rem b).length = 152 ∧
    ((rnd Q rem < 10 ^ k ∧ (roundEven k rem b).getD 0 0 = 48 ∧ (ds (roundEven k rem b)).take k = pad k (rnd Q rem)) ∨
      (rnd Q rem = 10 ^ k ∧ (roundEven k rem b).getD 0 0 ≠ 48 ∧ (ds (roundEven k rem b)).take (k + 1) = pad (k + 1) (10 ^ k))) := by
  obtain ⟨r1, r2⟩ := roundEven_ok k hk b Q rem (by omega) hb hQ
  generalize roundEven k rem b = b' at *
  have hle : rnd Q rem ≤ 10 ^ k := by
    have := (rnd_le Q rem).2
    rw [Nat.pow_succ] at hQ
    omega
  generalize rnd Q rem = M at *
  have hp : 0 < 10 ^ k := Nat.pow_pos (by omega)
  have h0 : b'.getD 0 0 = 48 + M / 10 ^ k % 10 := by
    rw [← getD_take b' (k + 1) 0 (by omega), r2, pad_head]; rfl
  refine ⟨by omega, ?_⟩
  rcases Nat.lt_or_ge M (10 ^ k) with h | h
  · left
    rw [Nat.div_eq_of_lt h] at h0
    refine ⟨h, h0, ?_⟩
    rw [ds, if_pos h0, List.take_drop, Nat.add_comm 1 k, r2, pad_small h]
    rfl
  · right
    have hM : M = 10 ^ k := by omega
    rw [hM, Nat.div_self hp] at h0
    refine ⟨hM, by omega, ?_⟩
    rw [ds, if_neg (by omega), List.drop_zero, r2, hM]

theorem pow_pos10 (n : Nat) : 0 < 10 ^ n := Nat.pow_pos (by omega)

theorem ds_len {b : List Nat} (h : b.length = 152) : 151 ≤ (ds b).length ∧ (b.getD 0 0 ≠ 48 → (ds b).length = 152) := by
  unfold ds
  constructor
  · rw [List.length_drop]; split <;> omega
  · intro h1; rw [if_neg h1, List.length_drop]; omega

/-- the conversion `f` -/
theorem fixed_ok (D : Nat) (hD : 2 ^ 149 = D) (x : Nat) (hx : Rep x) (buf : List Nat) (hb : buf.length = 152) (h0 : buf.take 1 = [48])
    (alt : Bool) (P : Nat) (hP : P + 1 < 2 ^ 31) :
    ∃ p M, fixed x buf alt P = some p ∧ Shows p (dec (M / 10 ^ p.fcnt)) (pad p.fcnt M) ∧ p.icnt ≤ 40 ∧ p.fcnt + p.fz = P ∧
      p.dot = (decide (P ≠ 0) || alt) ∧ p.exp = [] ∧ Nearest False ((x : ℚ) / D * 10 ^ P) (M * 10 ^ p.fz) := by
  have hD0 : 0 < D := by rw [← hD]; exact Nat.pow_pos (by omega)
  obtain ⟨b, c, rem, r1, r2, r3, r4, r5, r6, -, -⟩ := ipart D hD x hx buf hb 151 (by omega) (by omega)
  obtain ⟨a, n, g1, g2⟩ := chunksF_ok hx
  rw [hD] at g2
  rw [show min (c + 1) 151 = c + 1 by omega, List.take_of_length_le (l := pad _ _) (by rw [pad_len]; omega)] at r4
  generalize hf : min P (149 - c) = fcnt
  obtain ⟨f, q1, q2⟩ := cvtdff_plain D hD x (buf.take 1 ++ b) (1 + (c + 1)) (fcnt + 1) (by
    simp only [List.length_append, List.length_take]; omega) a n g1 g2
  obtain ⟨j1, j2⟩ := joined D hD0 x c (fcnt + 1) r5
  have hl1 : (buf.take 1 ++ b).length = 152 := by simp only [List.length_append, List.length_take]; omega
  have hl2 : (pad (fcnt + 1) (x % D * 10 ^ (fcnt + 1) / D)).length = fcnt + 1 := pad_len _ _
  have ht := over_take (buf.take 1 ++ b) (1 + (c + 1)) (pad (fcnt + 1) (x % D * 10 ^ (fcnt + 1) / D)) (by omega)
  have hol := over_len (buf.take 1 ++ b) (1 + (c + 1)) (pad (fcnt + 1) (x % D * 10 ^ (fcnt + 1) / D)) (by omega)
  rw [hl2, h0] at ht
  have e1 : ([48] ++ b).take (1 + (c + 1)) = [48] ++ pad (c + 1) (x / D) := by
    rw [Nat.add_comm 1, ← r4]; rfl
  rw [e1, j1] at ht
  rw [h0] at hol hl1 q1
  generalize over ([48] ++ b) (1 + (c + 1)) (pad (fcnt + 1) (x % D * 10 ^ (fcnt + 1) / D)) = B at *
  obtain ⟨s1, s2⟩ := rounded (c + 1 + fcnt) (by omega) B (x * 10 ^ (fcnt + 1) / D) f (by omega) (by omega)
    (by rw [show c + 1 + fcnt + 2 = 1 + (c + 1) + (fcnt + 1) by omega, ht]; congr 1; omega)
    (by rw [show c + 1 + fcnt + 1 = c + 1 + (fcnt + 1) by omega]; exact j2)
  have hnear : Nearest False (((x * 10 ^ fcnt : Nat) : ℚ) / D) (rnd (x * 10 ^ (fcnt + 1) / D) f) := by
    have e : x * 10 ^ (fcnt + 1) = 10 * (x * 10 ^ fcnt) := by rw [Nat.pow_succ, ← Nat.mul_assoc, Nat.mul_comm]
    rw [e]
    refine near False f _ D hD0 (fun _ => ?_) (fun h => h.elim)
    rw [q2, ← (floor_split x D (fcnt + 1) hD0).2.2, e]
  have hlow : x / D * 10 ^ fcnt ≤ rnd (x * 10 ^ (fcnt + 1) / D) f := by
    refine Nat.le_trans ?_ (rnd_le _ _).1
    rw [Nat.div_div_eq_div_mul, Nat.pow_succ, ← Nat.mul_assoc, Nat.mul_comm D, Nat.mul_comm _ 10,
      Nat.mul_div_mul_left _ _ (by omega), (floor_split x D fcnt hD0).1]
    exact Nat.le_add_right _ _
  generalize hM : rnd (x * 10 ^ (fcnt + 1) / D) f = M at *
  have hlow2 : x / D ≤ M / 10 ^ fcnt := (Nat.le_div_iff_mul_le (pow_pos10 _)).2 hlow
  have hfix : fixed x buf alt P = some ⟨roundEven (c + 1 + fcnt) f B,
      if (roundEven (c + 1 + fcnt) f B).getD 0 0 ≠ 48 then c + 1 + 1 else c + 1, 0, decide (P ≠ 0) || alt, fcnt, P - fcnt, []⟩ := by
    have hfc : (if P + 1 < maxDigs - (c + 1) then P + 1 else maxDigs - (c + 1)) - 1 = fcnt := by
      unfold maxDigs; split <;> omega
    have hne : ¬ (c + 1 ≥ maxDigs) := by unfold maxDigs; omega
    unfold fixed
    rw [show maxDigs = 151 from rfl, r1, Option.bind_some]
    dsimp only
    rw [show (151 : Nat) = maxDigs from rfl, if_neg hne, int, if_pos hP, Option.bind_some]
    rw [hfc, h0, q1, Option.bind_some]
  have hexact : P - fcnt = 0 ∨ x * 10 ^ fcnt % D = 0 := by
    rcases Nat.eq_zero_or_pos (P - fcnt) with h | h
    · exact Or.inl h
    · right
      exact rep_exp hD hx r6 fcnt (by omega)
  have hq : Nearest False ((x : ℚ) / D * 10 ^ P) (M * 10 ^ (P - fcnt)) := by
    have e0 : (((x * 10 ^ fcnt : Nat) : ℚ) / D) = (x : ℚ) / D * 10 ^ fcnt := by push_cast; ring
    rcases hexact with h | h
    · rw [h, Nat.pow_zero, Nat.mul_one, show P = fcnt by omega, ← e0]; exact hnear
    · have hD' : (D : ℚ) ≠ 0 := by exact_mod_cast (by omega : D ≠ 0)
      have e2 : ((x * 10 ^ fcnt : Nat) : ℚ) / D = ((x * 10 ^ fcnt / D : Nat) : ℚ) := by
        rw [div_eq_iff hD']
        have := Nat.div_add_mod (x * 10 ^ fcnt) D
        rw [h, Nat.add_zero, Nat.mul_comm] at this
        exact_mod_cast this.symm
      have e3 : M = x * 10 ^ fcnt / D := nearest_nat (e2 ▸ hnear)
      have e4 : (x : ℚ) / D * 10 ^ P = ((M * 10 ^ (P - fcnt) : Nat) : ℚ) := by
        rw [show (10 : ℚ) ^ P = 10 ^ fcnt * 10 ^ (P - fcnt) by rw [← pow_add]; congr 1; omega, ← mul_assoc, ← e0, e2, ← e3]
        push_cast; ring
      rw [e4]; exact nearest_self _ _
  obtain ⟨d1, d2⟩ := ds_len s1
  refine ⟨_, M, hfix, ?_, ?_, ?_, rfl, rfl, hq⟩
  · rcases s2 with ⟨h1, h2, h3⟩ | ⟨h1, h2, h3⟩
    · have hdec : dec (M / 10 ^ fcnt) = pad (c + 1) (M / 10 ^ fcnt) := by
        apply dec_pad
        · rw [Nat.div_lt_iff_lt_mul (pow_pos10 _), ← Nat.pow_add]; exact h1
        · rcases r6 with h | h
          · exact Or.inl h
          · exact Or.inr (Nat.le_trans h hlow2)
      have hi : (if (roundEven (c + 1 + fcnt) f B).getD 0 0 ≠ 48 then c + 1 + 1 else c + 1) = c + 1 := if_neg (fun h => h h2)
      rw [hi]
      refine ⟨?_, ?_, ?_, rfl, ?_⟩
      · exact Nat.le_trans (show c + 1 + fcnt ≤ 151 by omega) d1
      · show c + 1 = _; rw [hdec, pad_len]
      · show fcnt = _; rw [pad_len]
      · show List.take (c + 1 + fcnt) _ = _; rw [h3, hdec, pad_add]
    · have hpw : 10 ^ (c + 1 + fcnt) / 10 ^ fcnt = 10 ^ (c + 1) := by rw [Nat.pow_add, Nat.mul_div_cancel _ (pow_pos10 _)]
      have hdec : dec (M / 10 ^ fcnt) = pad (c + 1 + 1) (M / 10 ^ fcnt) := by
        rw [h1, hpw]
        apply dec_pad
        · exact Nat.pow_lt_pow_right (by omega) (by omega)
        · exact Or.inr (Nat.le_refl _)
      have hi : (if (roundEven (c + 1 + fcnt) f B).getD 0 0 ≠ 48 then c + 1 + 1 else c + 1) = c + 1 + 1 := if_pos h2
      rw [hi]
      refine ⟨?_, ?_, ?_, rfl, ?_⟩
      · exact Nat.le_trans (show c + 1 + 1 + fcnt ≤ 152 by omega) (Nat.le_of_eq (d2 h2).symm)
      · show c + 1 + 1 = _; rw [hdec, pad_len]
      · show fcnt = _; rw [pad_len]
      · show List.take (c + 1 + 1 + fcnt) _ = _
        rw [show c + 1 + 1 + fcnt = c + 1 + fcnt + 1 by omega, h3, hdec, h1, ← pad_add]
        congr 1; omega
  · show (if (roundEven (c + 1 + fcnt) f B).getD 0 0 ≠ 48 then c + 1 + 1 else c + 1) ≤ 40
    split
    · exact (show c + 1 + 1 ≤ 40 by omega)
    · exact (show c + 1 ≤ 40 by omega)
  · show fcnt + (P - fcnt) = P; omega

end Smlr.Fprint
