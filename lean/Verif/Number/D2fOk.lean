import Verif.Number.D2f
set_option autoImplicit false
namespace Smlr.Number

theorem pow_cube_le {a b : Nat} (h : a ^ 3 ≤ b ^ 3) : a ≤ b := (Nat.pow_le_pow_iff_left (by omega)).1 h

theorem ten_cube (m : Nat) : 10 ^ (3 * m) ≤ 2 ^ (10 * m) := by
  rw [Nat.pow_mul, Nat.pow_mul]
  exact Nat.pow_le_pow_left (by decide) m

theorem ten_le (m : Nat) : 10 ^ m ≤ 2 ^ ((10 * m + 2) / 3) := by
  apply pow_cube_le
  rw [← Nat.pow_mul, ← Nat.pow_mul, Nat.mul_comm m 3]
  exact Nat.le_trans (ten_cube m) (Nat.pow_le_pow_right (by omega) (by omega))

theorem posVal_foldl (ds : List Nat) (hd : ∀ d ∈ ds, d ≤ 9) : ∀ a, a * 10 ^ ds.length ≤ ds.foldl (fun a d => a * 10 + d) a ∧
    ds.foldl (fun a d => a * 10 + d) a < (a + 1) * 10 ^ ds.length := by
  induction ds with
  | nil => intro a; simp
  | cons d ds ih =>
    intro a
    have h9 := hd d (by simp)
    obtain ⟨h1, h2⟩ := ih (fun x hx => hd x (by simp [hx])) (a * 10 + d)
    simp only [List.foldl_cons, List.length_cons]
    have e : 10 ^ (ds.length + 1) = 10 * 10 ^ ds.length := by rw [Nat.pow_succ, Nat.mul_comm]
    rw [e, ← Nat.mul_assoc, ← Nat.mul_assoc]
    refine ⟨Nat.le_trans (Nat.mul_le_mul_right _ (by omega)) h1, Nat.lt_of_lt_of_le h2 (Nat.mul_le_mul_right _ (by omega))⟩

theorem posVal_lt (ds : List Nat) (hd : ∀ d ∈ ds, d ≤ 9) : posVal 10 ds < 10 ^ ds.length := by
  have := (posVal_foldl ds hd 0).2
  rw [Nat.zero_add, Nat.one_mul] at this
  exact this

theorem posVal_ge (ds : List Nat) (hd : ∀ d ∈ ds, d ≤ 9) (h0 : ds.headD 0 ≠ 0) : 10 ^ (ds.length - 1) ≤ posVal 10 ds := by
  cases ds with
  | nil => simp at h0
  | cons d ds =>
    simp only [List.headD_cons] at h0
    have := (posVal_foldl ds (fun x hx => hd x (by simp [hx])) d).1
    simp only [posVal, List.foldl_cons, List.length_cons, Nat.add_sub_cancel, Nat.zero_mul, Nat.zero_add]
    refine Nat.le_trans ?_ this
    exact Nat.le_mul_of_pos_left _ (by omega)

/-- the quotient has at least 25 bits -/
theorem enough_bits (cnt K sh : Nat) (hc : 1 ≤ cnt) (hsh : (10 * (1 + K) + 2) / 3 + 25 - (10 * cnt + 2) / 3 ≤ sh) :
    2 ^ 24 * 10 ^ K ≤ 10 ^ (cnt - 1) * 2 ^ sh := by
  rcases Nat.le_total (cnt - 1) K with h | h
  · obtain ⟨a, rfl⟩ : ∃ a, K = (cnt - 1) + a := ⟨K - (cnt - 1), by omega⟩
    rw [Nat.pow_add, ← Nat.mul_assoc, Nat.mul_comm (2 ^ 24), Nat.mul_assoc]
    apply Nat.mul_le_mul_left
    apply pow_cube_le
    rw [Nat.mul_pow, ← Nat.pow_mul, ← Nat.pow_mul, ← Nat.pow_mul, Nat.mul_comm a 3]
    refine Nat.le_trans (Nat.mul_le_mul_left _ (ten_cube a)) ?_
    rw [← Nat.pow_add]
    exact Nat.pow_le_pow_right (by omega) (by omega)
  · obtain ⟨j, hj⟩ : ∃ j, cnt - 1 = K + j := ⟨cnt - 1 - K, by omega⟩
    rw [hj, Nat.pow_add, Nat.mul_comm (2 ^ 24), Nat.mul_assoc]
    apply Nat.mul_le_mul_left
    have key : ∀ i s, 2 ^ 24 ≤ 10 ^ i * 2 ^ s → s ≤ sh → i ≤ j → 2 ^ 24 ≤ 10 ^ j * 2 ^ sh := by
      intro i s h1 h2 h3
      exact Nat.le_trans h1 (Nat.mul_le_mul (Nat.pow_le_pow_right (by omega) h3) (Nat.pow_le_pow_right (by omega) h2))
    by_cases h8 : 8 ≤ j
    · exact key 8 0 (by decide) (by omega) h8
    · have : j = 0 ∨ j = 1 ∨ j = 2 ∨ j = 3 ∨ j = 4 ∨ j = 5 ∨ j = 6 ∨ j = 7 := by omega
      rcases this with rfl | rfl | rfl | rfl | rfl | rfl | rfl | rfl
      · exact key 0 24 (by decide) (by omega) (by omega)
      · exact key 1 21 (by decide) (by omega) (by omega)
      · exact key 2 18 (by decide) (by omega) (by omega)
      · exact key 3 15 (by decide) (by omega) (by omega)
      · exact key 4 11 (by decide) (by omega) (by omega)
      · exact key 5 8 (by decide) (by omega) (by omega)
      · exact key 6 5 (by decide) (by omega) (by omega)
      · exact key 7 1 (by decide) (by omega) (by omega)

theorem val_replicate (n : Nat) : val (List.replicate n 0) = 0 := by
  induction n with
  | zero => rfl
  | succ n ih => rw [List.replicate_succ, val, ih]

theorem numerator_ok (ds : List Nat) (hd : ∀ d ∈ ds, d ≤ 9) (e n : Nat) (h : 10 ^ (ds.length + e) ≤ 256 ^ n) :
    val (numerator ds e n) = posVal 10 ds * 10 ^ e ∧ (numerator ds e n).length = n ∧ Bytes (numerator ds e n) := by
  unfold numerator
  have hz : Bytes (List.replicate n 0) := by intro x hx; rw [(List.mem_replicate.1 hx).2]; omega
  have hp : 0 < 10 ^ e := Nat.pow_pos (by omega)
  have hle : 10 ^ ds.length ≤ 256 ^ n := by
    refine Nat.le_trans ?_ h
    exact Nat.pow_le_pow_right (by omega) (by omega)
  obtain ⟨h1, h2, h3⟩ := foldl_mul ds hd (List.replicate n 0) hz (by rw [val_replicate, List.length_replicate]; omega)
  rw [val_replicate] at h1
  rw [List.length_replicate] at h2
  have h4 : posVal 10 ds < 10 ^ ds.length := posVal_lt ds hd
  obtain ⟨g1, g2, g3⟩ := iter_mul 10 (by omega) _ h3 e (by
    rw [h1, h2]
    have : posVal 10 ds * 10 ^ e < 10 ^ ds.length * 10 ^ e := Nat.mul_lt_mul_of_pos_right h4 hp
    rw [← Nat.pow_add] at this
    exact Nat.lt_of_lt_of_le this h)
  rw [h1] at g1
  rw [h2] at g2
  exact ⟨g1, g2, g3⟩

theorem rounded_zero (den : Nat) (hd : 0 < den) : Rounded 0 den 0 := by
  have h0 : fval 0 = 0 := rfl
  refine ⟨?_, by decide, ?_, fun _ _ _ _ _ => rfl⟩
  · constructor
    · intro h; exact absurd h (by decide)
    · intro h
      have : 0 < (2 ^ 25 - 1) * 2 ^ 252 * den := Nat.mul_pos (by decide) hd
      omega
  · intro _ s _; rw [h0]; simp

theorem rounded_inf (num den : Nat) (h : (2 ^ 25 - 1) * 2 ^ 252 * den ≤ num) : Rounded num den inf :=
  ⟨⟨fun _ => h, fun _ => rfl⟩, Nat.le_refl _, fun h => absurd rfl h, fun h => absurd rfl h⟩

/-- `d2f` rounds correctly -/
theorem d2f_ok (ds : List Nat) (hd : ∀ d ∈ ds, d ≤ 9) (h1 : ds.length ≤ 112) (hl : ds.headD 0 ≠ 0 ∨ ds = [0]) (x : Int) :
    ∃ r, d2f ds x = .ok r ∧ RoundedDec (posVal 10 ds) x r := by
  unfold d2f RoundedDec
  simp only
  have hdp : 0 < 10 ^ (-x).toNat := Nat.pow_pos (by omega)
  by_cases h0 : ds.length = 1 ∧ ds.headD 0 = 0
  · rw [if_pos h0]
    refine ⟨0, rfl, ?_⟩
    have : ds = [0] := by
      rcases hl with hl | hl
      · exact absurd h0.2 hl
      · exact hl
    subst this
    have : posVal 10 [0] = 0 := rfl
    rw [this, Nat.zero_mul, Nat.zero_mul]
    exact rounded_zero _ hdp
  rw [if_neg h0]
  have hl' : ds.headD 0 ≠ 0 := by
    rcases hl with hl | hl
    · exact hl
    · subst hl; exact absurd ⟨rfl, rfl⟩ h0
  have hc1 : 1 ≤ ds.length := by
    cases ds with
    | nil => simp at hl'
    | cons d ds => simp
  have hlt := posVal_lt ds hd
  have hge := posVal_ge ds hd hl'
  generalize hD : posVal 10 ds = D at *
  generalize hcnt : ds.length = cnt at *
  have hDpos : 0 < D := Nat.lt_of_lt_of_le (Nat.pow_pos (by omega)) hge
  by_cases hmin : x < -46 - ((cnt : Int) - 1)
  · rw [if_pos hmin]
    refine ⟨0, rfl, ?_⟩
    rw [show x.toNat = 0 by omega, Nat.pow_zero, Nat.mul_one]
    have hk : 46 + cnt ≤ (-x).toNat := by omega
    have hsm : 2 * (D * 2 ^ 149) < 10 ^ (-x).toNat := by
      refine Nat.lt_of_lt_of_le ?_ (Nat.pow_le_pow_right (by omega) hk)
      rw [Nat.pow_add, show 2 * (D * 2 ^ 149) = 2 ^ 150 * D by rw [Nat.pow_succ 2 149]; ring]
      refine Nat.lt_of_lt_of_le (Nat.mul_lt_mul_of_pos_left hlt (by decide)) (Nat.mul_le_mul_right _ (by decide))
    have := round_ok (D * 2 ^ 149) (10 ^ (-x).toNat) 0 0 hdp (by omega) (Or.inr rfl) (by simp) (by omega) 0 (by
      rw [if_neg]
      omega)
    exact this
  rw [if_neg hmin]
  by_cases hmax : x > 38 - ((cnt : Int) - 1)
  · rw [if_pos hmax]
    refine ⟨inf, rfl, rounded_inf _ _ ?_⟩
    have hb : 10 ^ 39 * 10 ^ (-x).toNat ≤ D * 10 ^ x.toNat := by
      refine Nat.le_trans ?_ (Nat.mul_le_mul_right _ hge)
      rw [← Nat.pow_add, ← Nat.pow_add]
      exact Nat.pow_le_pow_right (by omega) (by omega)
    calc (2 ^ 25 - 1) * 2 ^ 252 * 10 ^ (-x).toNat ≤ 10 ^ 39 * 2 ^ 149 * 10 ^ (-x).toNat := Nat.mul_le_mul_right _ (by decide)
      _ = 10 ^ 39 * 10 ^ (-x).toNat * 2 ^ 149 := by ring
      _ ≤ D * 10 ^ x.toNat * 2 ^ 149 := Nat.mul_le_mul_right _ hb
  rw [if_neg hmax]
  have hp8 : ∀ n, 256 ^ n = 2 ^ (8 * n) := fun n => by rw [Nat.pow_mul]
  by_cases hx0 : x < 0
  · -- a fraction
    obtain ⟨K, hK⟩ : ∃ K, K = (-x).toNat := ⟨_, rfl⟩
    have hx' : x.toNat = 0 := by omega
    have hKx : (K : Int) = -x := by omega
    rw [← hK, hx', Nat.pow_zero, Nat.mul_one]
    rw [if_neg (show ¬ x ≥ 0 by omega), if_pos hx0]
    obtain ⟨t1, ht1⟩ : ∃ t1, t1 = ((cnt + 0) * 10 + 2) / 3 := ⟨_, rfl⟩
    obtain ⟨nb, hnb⟩ : ∃ nb, nb = max t1 (((1 + K) * 10 + 2) / 3 + 25) := ⟨_, rfl⟩
    rw [← ht1, ← hnb]
    replace ht1 : t1 = (cnt * 10 + 2) / 3 := ht1
    rw [if_neg (show ¬ (nb + 7) / 8 > bufSize by unfold bufSize; omega)]
    have hfit : 10 ^ cnt ≤ 2 ^ t1 := by
      rw [ht1, Nat.mul_comm cnt 10]; exact ten_le cnt
    have hnb8 : 2 ^ nb ≤ 256 ^ ((nb + 7) / 8) := by rw [hp8]; exact Nat.pow_le_pow_right (by omega) (by omega)
    obtain ⟨n1, n2, n3⟩ := numerator_ok ds hd 0 ((nb + 7) / 8) (by
      rw [hcnt, Nat.add_zero]
      exact Nat.le_trans hfit (Nat.le_trans (Nat.pow_le_pow_right (by omega) (by omega)) hnb8))
    rw [hD, Nat.pow_zero, Nat.mul_one] at n1
    have hV : D * 2 ^ (nb - t1) < 256 ^ ((nb + 7) / 8) := by
      refine Nat.lt_of_lt_of_le ?_ hnb8
      calc D * 2 ^ (nb - t1) < 2 ^ t1 * 2 ^ (nb - t1) := Nat.mul_lt_mul_of_pos_right (by omega) (Nat.pow_pos (by omega))
        _ = 2 ^ nb := by rw [← Nat.pow_add]; congr 1; omega
    obtain ⟨m1, m2, m3⟩ := iter_mul 2 (by omega) (numerator ds 0 ((nb + 7) / 8)) n3 (nb - t1) (by rw [n1, n2]; exact hV)
    rw [n1] at m1
    rw [n2] at m2
    unfold divide
    simp only
    obtain ⟨r1, r2, -⟩ := iter_div (c := { ch := iter (fun ch => mulAdd ch 2 0) (nb - t1) (numerator ds 0 ((nb + 7) / 8)), binExp := -((nb - t1 : Nat) : Int), inexact := false, last := false, rem := 0 })
      (V := D * 2 ^ (nb - t1)) (P := 1) (n := (nb + 7) / 8) ⟨m3, m2, by rw [m1, Nat.div_one], by simp [Nat.mod_one], by omega⟩ 10 (by omega) 0 K
    rw [Nat.one_mul] at r1
    generalize hc' : iter (Cv.div 10 0) K ({ ch := iter (fun ch => mulAdd ch 2 0) (nb - t1) (numerator ds 0 ((nb + 7) / 8)), binExp := -((nb - t1 : Nat) : Int), inexact := false, last := false, rem := 0 } : Cv) = c' at *
    simp only [Int.mul_zero, Int.add_zero] at r2
    have hq : 2 ^ 24 ≤ D * 2 ^ (nb - t1) / 10 ^ K := by
      rw [Nat.le_div_iff_mul_le (Nat.pow_pos (by omega))]
      exact Nat.le_trans (enough_bits cnt K (nb - t1) hc1 (by rw [Nat.mul_comm 10 (1 + K), Nat.mul_comm 10 cnt]; omega)) (Nat.mul_le_mul_right _ hge)
    have hsu : shiftUp c' = c' := by
      unfold shiftUp
      rcases msb_ok r1.bytes with ⟨e, -⟩ | ⟨t, e, h3, h4⟩
      · rw [e]
      · rw [e]
        have : 24 < t + 1 := (Nat.pow_lt_pow_iff_right (a := 2) (by omega)).1 (Nat.lt_of_le_of_lt (by rw [r1.val]; exact hq) h4)
        simp only
        rw [show 23 - t = 0 by omega]
        simp [iter]
    rw [hsu]
    refine finish_ok r1 (Nat.le_trans (by decide) hq) (fun h => by omega) (Or.inl (by omega)) (D * 2 ^ 149) (10 ^ K) (Nat.pow_pos (by omega)) ?_
    intro j k hk
    rw [r2] at hk
    have : nb - t1 + k = j + 149 := by omega
    calc D * 2 ^ (nb - t1) * 2 ^ k * 10 ^ K = D * 2 ^ (nb - t1 + k) * 10 ^ K := by rw [Nat.pow_add]; ring
      _ = D * 2 ^ 149 * (10 ^ K * 2 ^ j) := by rw [this, Nat.pow_add]; ring
  · -- an integer
    obtain ⟨e, he⟩ : ∃ e : Nat, e = x.toNat := ⟨_, rfl⟩
    have hKx : (-x).toNat = 0 := by omega
    have hex : (e : Int) = x := by omega
    rw [← he, hKx, Nat.pow_zero]
    rw [if_pos (show x ≥ 0 by omega), if_neg hx0]
    obtain ⟨t1, ht1⟩ : ∃ t1, t1 = ((cnt + e) * 10 + 2) / 3 := ⟨_, rfl⟩
    rw [← ht1]
    obtain ⟨n, hn⟩ : ∃ n, n = (max t1 24 + 7) / 8 := ⟨_, rfl⟩
    rw [← hn]
    rw [if_neg (show ¬ n > bufSize by unfold bufSize; omega)]
    have hfit : 10 ^ (cnt + e) ≤ 256 ^ n := by
      refine Nat.le_trans (ten_le (cnt + e)) ?_
      rw [hp8, Nat.mul_comm 10, ← ht1]
      exact Nat.pow_le_pow_right (by omega) (by omega)
    obtain ⟨n1, n2, n3⟩ := numerator_ok ds hd e n (by rw [hcnt]; exact hfit)
    rw [hD] at n1
    have hVlt : D * 10 ^ e < 10 ^ (cnt + e) := by
      rw [Nat.pow_add]; exact Nat.mul_lt_mul_of_pos_right hlt (Nat.pow_pos (by omega))
    have hVpos : 0 < D * 10 ^ e := Nat.mul_pos hDpos (Nat.pow_pos (by omega))
    generalize hV : D * 10 ^ e = V at *
    unfold shiftUp
    simp only
    rcases msb_ok n3 with ⟨-, h0⟩ | ⟨t, et, h3, h4⟩
    · omega
    rw [et]
    rw [n1] at h3 h4
    simp only
    have h256 : 256 ^ 3 ≤ 256 ^ n := Nat.pow_le_pow_right (by omega) (by omega)
    have hup : V * 2 ^ (23 - t) < 256 ^ n := by
      by_cases ht : t ≤ 23
      · have : V * 2 ^ (23 - t) < 2 ^ (t + 1) * 2 ^ (23 - t) := Nat.mul_lt_mul_of_pos_right h4 (Nat.pow_pos (by omega))
        rw [← Nat.pow_add, show t + 1 + (23 - t) = 24 by omega] at this
        omega
      · rw [show 23 - t = 0 by omega, Nat.pow_zero, Nat.mul_one]
        exact Nat.lt_of_lt_of_le hVlt hfit
    obtain ⟨m1, m2, m3⟩ := iter_mul 2 (by omega) (numerator ds e n) n3 (23 - t) (by rw [n1, n2]; exact hup)
    rw [n1] at m1
    rw [n2] at m2
    have h23 : 2 ^ 23 ≤ V * 2 ^ (23 - t) := by
      calc 2 ^ 23 ≤ 2 ^ (t + (23 - t)) := Nat.pow_le_pow_right (by omega) (by omega)
        _ = 2 ^ t * 2 ^ (23 - t) := Nat.pow_add ..
        _ ≤ V * 2 ^ (23 - t) := Nat.mul_le_mul_right _ h3
    refine finish_ok (V := V * 2 ^ (23 - t)) (P := 1) (n := n) ⟨m3, m2, by rw [Nat.div_one]; exact m1, by simp [Nat.mod_one], by omega⟩
      (by rw [Nat.div_one]; exact h23) (fun _ => Nat.mod_one _) ?_ (V * 2 ^ 149) 1 (by omega) ?_
    · by_cases h4n : 4 ≤ n
      · exact Or.inl h4n
      · right
        refine ⟨?_, by simp only; omega⟩
        rw [Nat.div_one]
        have hcn : cnt + e ≤ 7 := by omega
        have hV24 : V < 2 ^ 24 := by
          refine Nat.lt_of_lt_of_le hVlt (Nat.le_trans (Nat.pow_le_pow_right (by omega) hcn) (by decide))
        by_cases ht : t ≤ 23
        · have : V * 2 ^ (23 - t) < 2 ^ (t + 1) * 2 ^ (23 - t) := Nat.mul_lt_mul_of_pos_right h4 (Nat.pow_pos (by omega))
          rw [← Nat.pow_add, show t + 1 + (23 - t) = 24 by omega] at this
          exact this
        · rw [show 23 - t = 0 by omega, Nat.pow_zero, Nat.mul_one]; exact hV24
    · intro j k hk
      simp only at hk
      have : 23 - t + k = j + 149 := by omega
      calc V * 2 ^ (23 - t) * 2 ^ k * 1 = V * 2 ^ (23 - t + k) := by rw [Nat.pow_add]; ring
        _ = V * 2 ^ 149 * (1 * 2 ^ j) := by rw [this, Nat.pow_add]; ring

end Smlr.Number
