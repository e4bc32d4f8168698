import Verif.Number.Chain
import Verif.Number.Round
set_option autoImplicit false
namespace Smlr.Number

/-- the conversion holds the integral part of `V / P`, and knows whether something was lost -/
structure Rep (c : Cv) (V P n : Nat) : Prop where
  bytes : Bytes c.ch
  len : c.ch.length = n
  val : val c.ch = V / P
  inexact : c.inexact = decide (V % P ≠ 0)
  pos : 0 < P

theorem mod_mul_ne (V P d : Nat) : (V % (P * d) ≠ 0) ↔ (V % P ≠ 0 ∨ V / P % d ≠ 0) := by
  rw [Nat.mod_mul]
  rcases Nat.eq_zero_or_pos P with h | h
  · subst h; simp
  · rcases Nat.eq_zero_or_pos (V / P % d) with h2 | h2
    · rw [h2]; simp
    · have : 0 < P * (V / P % d) := Nat.mul_pos h h2
      omega

theorem div_rep {c : Cv} {V P n : Nat} (h : Rep c V P n) (d : Nat) (hd : 0 < d) (e : Int) :
    Rep (c.div d e) V (P * d) n ∧ (c.div d e).binExp = c.binExp + e ∧ (c.div d e).last = decide (V % P ≠ 0) ∧ (c.div d e).rem = V / P % d := by
  obtain ⟨h1, h2, h3, h4⟩ := chainDiv_ok c.ch d hd
  unfold Cv.div
  simp only
  rw [h.val] at h2 h3
  refine ⟨⟨h4 h.bytes, by rw [← h.len]; exact h1, ?_, ?_, Nat.mul_pos h.pos hd⟩, trivial, h.inexact, h3⟩
  · rw [← Nat.div_div_eq_div_mul]; exact h2
  · simp only [h3, h.inexact]
    have := mod_mul_ne V P d
    by_cases q1 : V % P = 0 <;> by_cases q2 : V / P % d = 0 <;> by_cases q3 : V % (P * d) = 0 <;> simp_all

theorem iter_div {c : Cv} {V P n : Nat} (h : Rep c V P n) (d : Nat) (hd : 0 < d) (e : Int) : ∀ j,
    Rep (iter (Cv.div d e) j c) V (P * d ^ j) n ∧ (iter (Cv.div d e) j c).binExp = c.binExp + j * e ∧
    (1 ≤ j → (iter (Cv.div d e) j c).last = decide (V % (P * d ^ (j - 1)) ≠ 0) ∧ (iter (Cv.div d e) j c).rem = V / (P * d ^ (j - 1)) % d) := by
  intro j
  induction j with
  | zero => exact ⟨by simpa [iter] using h, by simp [iter], by simp⟩
  | succ j ih =>
    obtain ⟨i1, i2, i3⟩ := ih
    obtain ⟨q1, q2, q3, q4⟩ := div_rep i1 d hd e
    rw [iter_succ]
    refine ⟨?_, ?_, fun _ => ?_⟩
    · rw [Nat.pow_succ, ← Nat.mul_assoc]; exact q1
    · rw [q2, i2]; push_cast; rw [Int.add_mul]; omega
    · rw [show j + 1 - 1 = j by omega]; exact ⟨q3, q4⟩

theorem iter_add {α : Type} (f : α → α) (m n : Nat) (a : α) : iter f n (iter f m a) = iter f (m + n) a := by
  induction m generalizing a with
  | zero => simp [iter]
  | succ m ih => rw [iter, ih, show m + 1 + n = (m + n) + 1 by omega]; rfl

theorem val_take {l : List Nat} (h : Bytes l) (m : Nat) (hv : val l < 256 ^ m) : val (l.take m) = val l := by
  induction l generalizing m with
  | nil => simp [val]
  | cons b l ih =>
    cases m with
    | zero => simp only [Nat.pow_zero] at hv; have : val (b :: l) = 0 := by omega
              rw [this]; rfl
    | succ m =>
      simp only [List.take_succ_cons, val] at hv ⊢
      rw [ih (fun x hx => h x (by simp [hx])) m (by rw [Nat.pow_succ] at hv; omega)]

theorem foldr_val (l : List Nat) : l.foldr (fun b acc => acc * 256 + b) 0 = val l := by
  induction l with
  | nil => rfl
  | cons b l ih => simp only [List.foldr_cons, val, ih]; omega

theorem collect_ok {l : List Nat} (h : Bytes l) (t : Nat) (hv : val l < 2 ^ (t + 1)) : collect (some t) l = val l := by
  unfold collect
  simp only
  rw [foldr_val, val_take h]
  refine Nat.lt_of_lt_of_le hv ?_
  rw [show 256 = 2 ^ 8 by rfl, ← Nat.pow_mul]
  exact Nat.pow_le_pow_right (by omega) (by omega)

theorem headD_parity (l : List Nat) : l.headD 0 % 2 = val l % 2 := by
  cases l with
  | nil => rfl
  | cons b l => simp only [List.headD_cons, val]; omega

/-- what `pack` gives -/
theorem pack_ok (v k : Nat) (hv : v < 2 ^ 24) (hk : 2 ^ 23 ≤ v ∨ k = 0) : pack v ((k : Int) - 149) = min inf (k * 2 ^ 23 + v) := by
  have hinf : inf = 255 * 2 ^ 23 := rfl
  unfold pack
  by_cases h : v < 2 ^ 23
  · have h1 : v / 2 ^ 23 % 2 = 0 := by omega
    have hk0 : k = 0 := by omega
    simp only [h1, if_true]
    rw [if_neg (by omega), if_neg (by omega)]
    simp only [Int.toNat_zero]; omega
  · have h1 : v / 2 ^ 23 % 2 = 1 := by omega
    have h0 : ¬ (v / 2 ^ 23 % 2 = 0) := by omega
    simp only [h1, h0, if_true, if_false]
    by_cases h2 : k ≥ 254
    · rw [if_pos (by omega)]; omega
    · rw [if_neg (by omega)]; omega

theorem msb_some {l : List Nat} (h : Bytes l) (t : Nat) (h1 : 2 ^ t ≤ val l) (h2 : val l < 2 ^ (t + 1)) : msb l = some t := by
  rcases msb_ok h with ⟨-, h0⟩ | ⟨t', e, h3, h4⟩
  · have : 0 < 2 ^ t := Nat.pow_pos (by omega)
    omega
  · rw [e]
    congr 1
    have q1 : t' < t + 1 := (Nat.pow_lt_pow_iff_right (by omega)).1 (Nat.lt_of_le_of_lt h3 h2)
    have q2 : t < t' + 1 := (Nat.pow_lt_pow_iff_right (by omega)).1 (Nat.lt_of_le_of_lt h1 h4)
    omega

/-- the round after rounding up -/
theorem norm_again (c : Cv) (hb : Bytes c.ch) (k : Nat) (hk : c.binExp = (k : Int) - 149) (h0 : 0 < val c.ch) (h1 : val c.ch ≤ 2 ^ 24)
    (hn : 2 ^ 23 ≤ val c.ch ∨ k = 0) (fuel : Nat) :
    ∃ t c', roundLoop (fuel + 1) c = some (t, c') ∧ pack (collect t c'.ch) c'.binExp = min inf (k * 2 ^ 23 + val c.ch) := by
  unfold roundLoop
  rcases msb_ok hb with ⟨-, hz⟩ | ⟨t, e, h3, h4⟩
  · omega
  · by_cases h2 : val c.ch = 2 ^ 24
    · have et : t = 24 := by
        have := msb_some hb 24 (by omega) (by omega)
        rw [this] at e; simpa using e.symm
      subst et
      obtain ⟨d1, d2, d3, d4⟩ := chainDiv_ok c.ch 2 (by omega)
      have hN : norm c = (some 23, { ch := (chainDiv c.ch 2).1, binExp := c.binExp + 1, inexact := c.inexact || (chainDiv c.ch 2).2 ≠ 0, last := c.inexact, rem := (chainDiv c.ch 2).2 }) := by
        unfold norm
        simp only [e]
        rw [show (24 : Nat) - 23 = 1 by rfl]
        simp only [iter, Cv.div]
        rw [show ((-149 : Int) - (c.binExp + 1)).toNat = 0 by omega]
        rfl
      rw [hN]
      simp only
      have hr : (chainDiv c.ch 2).2 = 0 := by rw [d3, h2]; omega
      rw [if_neg (by simp [hr])]
      refine ⟨_, _, rfl, ?_⟩
      simp only
      rw [collect_ok (d4 hb) 23 (by rw [d2, h2]; decide), d2, h2, hk]
      have := pack_ok (2 ^ 23) (k + 1) (by omega) (by omega)
      rw [show (k : Int) - 149 + 1 = ((k + 1 : Nat) : Int) - 149 by omega]
      rw [show 2 ^ 24 / 2 = 2 ^ 23 by omega, this, show (k + 1) * 2 ^ 23 + 2 ^ 23 = k * 2 ^ 23 + 2 ^ 24 by omega]
    · have ht : t ≤ 23 := by
        by_contra hc
        have : 2 ^ 24 ≤ 2 ^ t := Nat.pow_le_pow_right (by omega) (by omega)
        omega
      have hN : norm c = (some t, { c with rem := 0 }) := by
        unfold norm
        simp only [e]
        rw [show t - 23 = 0 by omega]
        simp only [iter]
        rw [show ((-149 : Int) - c.binExp).toNat = 0 by omega, Nat.min_eq_left ht]
        rfl
      rw [hN]
      simp only
      rw [if_neg (by simp)]
      refine ⟨_, _, rfl, ?_⟩
      simp only
      rw [collect_ok hb t h4, hk, pack_ok _ _ (by omega) hn]

/-- rounding is right -/
theorem finish_ok {c : Cv} {V P n : Nat} (h : Rep c V P n) (h23 : 2 ^ 23 ≤ V / P) (hx : V / P < 2 ^ 24 → V % P = 0)
    (hn : 4 ≤ n ∨ (V / P < 2 ^ 24 ∧ -149 ≤ c.binExp)) (num den : Nat) (hden : 0 < den)
    (hrel : ∀ j k : Nat, (k : Int) = c.binExp + j + 149 → V * 2 ^ k * den = num * (P * 2 ^ j)) :
    ∃ r, finish c = .ok r ∧ Rounded num den r := by
  unfold finish roundLoop
  have h0 : Rep { c with rem := 0 } V P n := ⟨h.bytes, h.len, h.val, h.inexact, h.pos⟩
  rcases msb_ok h.bytes with ⟨-, hz⟩ | ⟨t, e, h3, h4⟩
  · rw [h.val] at hz; omega
  rw [h.val] at h3 h4
  have ht : 23 ≤ t := by
    by_contra hc
    have : 2 ^ (t + 1) ≤ 2 ^ 23 := Nat.pow_le_pow_right (by omega) (by omega)
    omega
  obtain ⟨j2, hj2⟩ : ∃ j2, j2 = (-149 - (c.binExp + (t - 23 : Nat))).toNat := ⟨_, rfl⟩
  have hN : norm c = (some 23, iter (Cv.div 2 1) (t - 23 + j2) { c with rem := 0 }) := by
    unfold norm
    simp only [e]
    obtain ⟨-, q2, -⟩ := iter_div h0 2 (by omega) 1 (t - 23)
    rw [q2]
    simp only [Int.mul_one]
    rw [← hj2, iter_add, Nat.min_eq_right ht]
  obtain ⟨j, hj⟩ : ∃ j, j = t - 23 + j2 := ⟨_, rfl⟩
  rw [← hj] at hN
  obtain ⟨r1, r2, r3⟩ := iter_div h0 2 (by omega) 1 j
  rw [hN]
  simp only
  generalize hc' : iter (Cv.div 2 1) j { c with rem := 0 } = c' at *
  obtain ⟨k, hk⟩ : ∃ k : Nat, (k : Int) = c.binExp + j + 149 := ⟨(c.binExp + j + 149).toNat, by omega⟩
  have hbe : c'.binExp = (k : Int) - 149 := by rw [r2]; simp only; omega
  have hrel' := hrel j k hk
  have hQ : 0 < P * 2 ^ j := r1.pos
  have hqd := Nat.div_add_mod V (P * 2 ^ j)
  have hqm := Nat.mod_lt V hQ
  obtain ⟨q, hq⟩ : ∃ q, q = V / (P * 2 ^ j) := ⟨_, rfl⟩
  have hdd : q = V / P / 2 ^ j := by rw [hq, Nat.div_div_eq_div_mul]
  have hq24 : q < 2 ^ 24 := by
    rw [hdd, Nat.div_lt_iff_lt_mul (Nat.pow_pos (by omega))]
    refine Nat.lt_of_lt_of_le h4 ?_
    rw [← Nat.pow_add]; exact Nat.pow_le_pow_right (by omega) (by omega)
  have hqk : 2 ^ 23 ≤ q ∨ k = 0 := by
    rcases Nat.eq_zero_or_pos j2 with hz | hz
    · left
      rw [hdd, Nat.le_div_iff_mul_le (Nat.pow_pos (by omega)), ← Nat.pow_add]
      refine Nat.le_trans (Nat.pow_le_pow_right (by omega) ?_) h3
      omega
    · right; omega
  have hval : val c'.ch = q := by rw [hq]; exact r1.val
  rw [← hq] at hqd
  -- cancel the divisor
  have lo : q * 2 ^ k * den ≤ num := by
    refine Nat.le_of_mul_le_mul_right (c := P * 2 ^ j) ?_ hQ
    rw [← hrel']
    have : (P * 2 ^ j) * q * (2 ^ k * den) ≤ V * (2 ^ k * den) := Nat.mul_le_mul_right _ (by omega)
    calc q * 2 ^ k * den * (P * 2 ^ j) = (P * 2 ^ j) * q * (2 ^ k * den) := by ring
      _ ≤ V * (2 ^ k * den) := this
      _ = V * 2 ^ k * den := by ring
  have hpk : 0 < 2 ^ k * den := Nat.mul_pos (Nat.pow_pos (by omega)) hden
  have hi : num < (q + 1) * 2 ^ k * den := by
    refine Nat.lt_of_mul_lt_mul_right (a := P * 2 ^ j) ?_
    rw [← hrel']
    have : V * (2 ^ k * den) < ((P * 2 ^ j) * (q + 1)) * (2 ^ k * den) := by
      refine Nat.mul_lt_mul_of_pos_right ?_ hpk
      rw [Nat.mul_succ]; omega
    calc V * 2 ^ k * den = V * (2 ^ k * den) := by ring
      _ < ((P * 2 ^ j) * (q + 1)) * (2 ^ k * den) := this
      _ = _ := by ring
  have cmp : ∀ R : Nat → Nat → Prop, (∀ a b c, 0 < c → (R (a * c) (b * c) ↔ R a b)) → (R ((2 * q + 1) * 2 ^ k * den) (2 * num) ↔ R ((2 * q + 1) * (P * 2 ^ j)) (2 * V)) := by
    intro R hR
    rw [← hR _ _ (P * 2 ^ j) hQ, ← hR ((2 * q + 1) * (P * 2 ^ j)) _ (2 ^ k * den) hpk]
    rw [show (2 * q + 1) * 2 ^ k * den * (P * 2 ^ j) = (2 * q + 1) * (P * 2 ^ j) * (2 ^ k * den) by ring]
    rw [show 2 * num * (P * 2 ^ j) = 2 * (num * (P * 2 ^ j)) by ring, ← hrel', show 2 * (V * 2 ^ k * den) = 2 * V * (2 ^ k * den) by ring]
  have clt := cmp (· < ·) (fun a b c hc => ⟨fun h => Nat.lt_of_mul_lt_mul_right h, fun h => Nat.mul_lt_mul_of_pos_right h hc⟩)
  have ceq := cmp (· = ·) (fun a b c hc => ⟨fun h => Nat.eq_of_mul_eq_mul_right hc h, fun h => by rw [h]⟩)
  obtain ⟨up, hup⟩ : ∃ up, up = if (2 * q + 1) * 2 ^ k * den < 2 * num ∨ ((2 * q + 1) * 2 ^ k * den = 2 * num ∧ q % 2 = 1) then 1 else 0 := ⟨_, rfl⟩
  have hR := round_ok num den k q hden hq24 hqk lo hi up hup
  -- the code's decision
  have hdec : (c'.rem ≠ 0 ∧ (c'.last ∨ c'.ch.headD 0 % 2 = 1)) ↔ ((2 * q + 1) * 2 ^ k * den < 2 * num ∨ ((2 * q + 1) * 2 ^ k * den = 2 * num ∧ q % 2 = 1)) := by
    rw [clt, ceq, headD_parity, hval]
    rcases Nat.eq_zero_or_pos j with hj0 | hj0
    · have hrem : c'.rem = 0 := by rw [← hc', hj0]; rfl
      have hsmall : V / P < 2 ^ 24 := by rw [hj0, Nat.pow_zero, Nat.div_one] at hdd; omega
      have hex := hx hsmall
      rw [hj0, Nat.pow_zero, Nat.mul_one] at hqd ⊢
      rw [hex] at hqd
      have : (2 * q + 1) * P = 2 * V + P := by rw [← hqd]; ring
      have hP := h.pos
      rw [hrem, this]
      constructor
      · rintro ⟨h, -⟩; exact absurd rfl h
      · rintro (h | h) <;> omega
    · obtain ⟨s1, s2⟩ := r3 hj0
      have e2 : P * 2 ^ j = (P * 2 ^ (j - 1)) * 2 := by rw [Nat.mul_assoc, ← Nat.pow_succ]; congr 2; omega
      obtain ⟨H, hH⟩ : ∃ H, H = P * 2 ^ (j - 1) := ⟨_, rfl⟩
      rw [← hH] at e2 s1 s2
      rw [e2] at hqd hqm ⊢
      have hHp : 0 < H := by omega
      have m1 := Nat.mod_mul (a := H) (b := 2) (x := V)
      have m2 := Nat.mod_lt V hHp
      have hb : V / H % 2 = 0 ∨ V / H % 2 = 1 := by omega
      rw [s1, s2]
      rw [m1] at hqd
      have : (2 * q + 1) * (H * 2) = 2 * (H * 2 * q) + 2 * H := by ring
      rw [this]
      simp only [decide_eq_true_eq]
      rcases hb with hb | hb
      · rw [hb] at hqd ⊢
        simp only [Nat.mul_zero, Nat.add_zero] at hqd
        constructor
        · rintro ⟨h, -⟩; exact absurd rfl h
        · rintro (h | h) <;> omega
      · rw [hb] at hqd ⊢
        simp only [Nat.mul_one] at hqd
        omega
  by_cases hcase : c'.rem ≠ 0 ∧ (c'.last ∨ c'.ch.headD 0 % 2 = 1)
  · rw [if_pos hcase]
    rw [if_pos (hdec.1 hcase)] at hup
    subst hup
    have hn4 : 4 ≤ n := by
      rcases hn with hn | ⟨hn, hn2⟩
      · exact hn
      · exfalso
        have hj0 : j = 0 := by
          have : t = 23 := by
            by_contra hc
            have : 2 ^ 24 ≤ 2 ^ t := Nat.pow_le_pow_right (by omega) (by omega)
            omega
          omega
        apply hcase.1
        rw [← hc', hj0]; rfl
    have hlen : c'.ch.length = n := r1.len
    have h256 : 256 ^ 4 ≤ 256 ^ c'.ch.length := Nat.pow_le_pow_right (by omega) (by omega)
    have hv1 : val (mulAdd c'.ch 1 1) = q + 1 := by
      rw [mulAdd_val' _ _ _ (by omega), hval]; omega
    obtain ⟨t', c'', e1, e2⟩ := norm_again { c' with ch := mulAdd c'.ch 1 1 } (mulAdd_bytes _ _ _) k hbe (by simp only; omega) (by simp only; omega) (by simp only; omega) 1
    rw [e1]
    refine ⟨_, rfl, ?_⟩
    simp only at e2
    rw [e2, hv1, ← Nat.add_assoc]
    exact hR
  · rw [if_neg hcase]
    rw [if_neg (fun h => hcase (hdec.2 h))] at hup
    subst hup
    refine ⟨_, rfl, ?_⟩
    rw [collect_ok r1.bytes 23 (by omega), hval, hbe, pack_ok q k hq24 hqk]
    rw [Nat.add_zero] at hR
    exact hR

end Smlr.Number
