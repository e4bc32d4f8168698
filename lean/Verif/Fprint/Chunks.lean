import Verif.Fprint.DigF

set_option autoImplicit false
/- the 16-bit chunks that `__cvtdif` and `__cvtdff` take the digits from -/
namespace Smlr.Fprint
open Spec

/-- values of finite non-negative `float`s: at most 24 significant bits -/
structure Rep (x : Nat) : Prop where
  lt : x < 2 ^ 277
  bits : ∃ m k, x = m * 2 ^ k ∧ m < 2 ^ 24

theorem rep_fval {u : Nat} (h : u < 0x7F800000) : Rep (fval u) := by
  have h1 : u / 2 ^ 23 < 255 := by omega
  have h2 : u % 2 ^ 23 < 2 ^ 23 := Nat.mod_lt _ (by omega)
  unfold fval
  generalize u / 2 ^ 23 = e at *
  generalize u % 2 ^ 23 = m at *
  split
  · exact ⟨Nat.lt_of_lt_of_le h2 (Nat.pow_le_pow_right (by omega) (by omega)), m, 0, by omega, by omega⟩
  · refine ⟨?_, 2 ^ 23 + m, e - 1, rfl, by omega⟩
    calc (2 ^ 23 + m) * 2 ^ (e - 1) < 2 ^ 24 * 2 ^ (e - 1) := Nat.mul_lt_mul_of_pos_right (by omega) (Nat.pow_pos (by omega))
      _ = 2 ^ (24 + (e - 1)) := by rw [← Nat.pow_add]
      _ ≤ 2 ^ 277 := Nat.pow_le_pow_right (by omega) (by omega)

theorem log2_bounds {x : Nat} (h : x ≠ 0) : 2 ^ Nat.log2 x ≤ x ∧ x < 2 ^ (Nat.log2 x + 1) :=
  ⟨Nat.log2_self_le h, Nat.lt_log2_self⟩

/-- the exponent of the last significant bit -/
theorem low_bit {x m k L : Nat} (hx : x = m * 2 ^ k) (hm : m < 2 ^ 24) (hL : 2 ^ L ≤ x) : L < k + 24 := by
  rcases Nat.lt_or_ge L (k + 24) with h | h
  · exact h
  · have h1 : 2 ^ (k + 24) ≤ 2 ^ L := Nat.pow_le_pow_right (by omega) h
    have h2 : m * 2 ^ k < 2 ^ 24 * 2 ^ k := Nat.mul_lt_mul_of_pos_right hm (Nat.pow_pos (by omega))
    rw [Nat.pow_add] at h1
    rw [Nat.mul_comm (2 ^ 24)] at h2
    omega

/-- a number with enough zero bits at the end -/
theorem multiple {x m k s : Nat} (hx : x = m * 2 ^ k) (hs : s ≤ k) : ∃ z, x = z * 2 ^ s :=
  ⟨m * 2 ^ (k - s), by rw [hx, Nat.mul_assoc, ← Nat.pow_add, Nat.sub_add_cancel hs]⟩

theorem lt_of_mul_pow {z s L : Nat} (h : z * 2 ^ s < 2 ^ (L + s)) : z < 2 ^ L := by
  rw [Nat.pow_add] at h
  exact Nat.lt_of_mul_lt_mul_right h

theorem cinv_of {a : List Nat} {e N : Nat} (hl : a.length = 8) (hc : Chunk a) (hv : lval a = N) (he : 1 ≤ e) (he' : e ≤ 128)
    (hlt : N < 2 ^ e) (hlo : e ≤ 16 ∨ 2 ^ (e - 1) ≤ N) : CInv a ((e - 1) / 16) N := by
  have hpow : ∀ n, (65536 : Nat) ^ n = 2 ^ (16 * n) := fun n => by rw [Nat.pow_mul]
  have ht : (e - 1) / 16 < a.length := by omega
  have hz : lval (a.drop ((e - 1) / 16 + 1)) = 0 := by
    have h1 := lval_split a ((e - 1) / 16 + 1) ht
    rw [hv, hpow] at h1
    have h2 : 2 ^ e ≤ 2 ^ (16 * ((e - 1) / 16 + 1)) := Nat.pow_le_pow_right (by omega) (by omega)
    rcases Nat.eq_zero_or_pos (lval (a.drop ((e - 1) / 16 + 1))) with h | h
    · exact h
    · have h3 := Nat.mul_le_mul_left (2 ^ (16 * ((e - 1) / 16 + 1))) h
      omega
  refine ⟨ht, hc, hv, hz, ?_⟩
  rcases hlo with h | h
  · left; omega
  · by_cases h0 : (e - 1) / 16 = 0
    · exact Or.inl h0
    · right
      intro hz'
      rw [getD_lt ht] at hz'
      have h1 := lval_split a ((e - 1) / 16) (by omega)
      rw [List.drop_eq_getElem_cons ht, lval, hz', hz, hv] at h1
      have h2 := lval_lt (a := a.take ((e - 1) / 16)) (fun c hc' => hc c (List.mem_of_mem_take hc'))
      rw [List.length_take, Nat.min_eq_left (by omega), hpow] at h2
      have h3 : 2 ^ (16 * ((e - 1) / 16)) ≤ 2 ^ (e - 1) := Nat.pow_le_pow_right (by omega) (by omega)
      omega

theorem chunk_zero (n : Nat) : Chunk (List.replicate n 0) := by
  intro c hc
  rw [(List.mem_replicate.1 hc).2]
  omega

theorem hi_lt (u : Nat) : hi u < 65536 := Nat.mod_lt _ (by omega)
theorem lo_lt (u : Nat) : lo u < 65536 := Nat.mod_lt _ (by omega)
theorem hi_lo {u : Nat} (h : u < 2 ^ 32) : lo u + 65536 * hi u = u := by
  unfold hi lo; omega

theorem ldexp_pos {x n : Nat} (h : x * 2 ^ n < 2 ^ (128 + 149)) : ldexp x (n : Int) = some (x * 2 ^ n) := by
  rw [ldexp, if_pos (by omega), Int.toNat_natCast, if_pos h]

theorem ldexp_neg {z n : Nat} (h : 0 < n) : ldexp (z * 2 ^ n) (-(n : Int)) = some z := by
  rw [ldexp, if_neg (by omega), Int.neg_neg, Int.toNat_natCast, Nat.mul_mod_left, if_pos rfl,
    Nat.mul_div_cancel _ (Nat.pow_pos (by omega))]

theorem lval_c0 (p q r s : Nat) : lval [p, q, r, s, 0, 0, 0, 0] = ((r + 65536 * s) * 2 ^ 32 + (p + 65536 * q)) * 2 ^ (32 * 0) := by
  simp only [lval]; omega
theorem lval_c1 (p q r s : Nat) : lval [0, 0, p, q, r, s, 0, 0] = ((r + 65536 * s) * 2 ^ 32 + (p + 65536 * q)) * 2 ^ (32 * 1) := by
  simp only [lval]; omega
theorem lval_c2 (p q r s : Nat) : lval [0, 0, 0, 0, p, q, r, s] = ((r + 65536 * s) * 2 ^ 32 + (p + 65536 * q)) * 2 ^ (32 * 2) := by
  simp only [lval]; omega
theorem bval_c0 (p q r s : Nat) : bval [s, r, q, p, 0, 0, 0, 0, 0, 0, 0, 0] 12 = ((s * 65536 + r) * 2 ^ 32 + (q * 65536 + p)) * 2 ^ (128 - 32 * 0) := by
  simp only [bval, List.getD_cons_zero, List.getD_cons_succ]; omega
theorem bval_c1 (p q r s : Nat) : bval [0, 0, s, r, q, p, 0, 0, 0, 0, 0, 0] 12 = ((s * 65536 + r) * 2 ^ 32 + (q * 65536 + p)) * 2 ^ (128 - 32 * 1) := by
  simp only [bval, List.getD_cons_zero, List.getD_cons_succ]; omega
theorem bval_c2 (p q r s : Nat) : bval [0, 0, 0, 0, s, r, q, p, 0, 0, 0, 0] 12 = ((s * 65536 + r) * 2 ^ 32 + (q * 65536 + p)) * 2 ^ (128 - 32 * 2) := by
  simp only [bval, List.getD_cons_zero, List.getD_cons_succ]; omega
theorem bval_c3 (p q r s : Nat) : bval [0, 0, 0, 0, 0, 0, s, r, q, p, 0, 0] 12 = ((s * 65536 + r) * 2 ^ 32 + (q * 65536 + p)) * 2 ^ (128 - 32 * 3) := by
  simp only [bval, List.getD_cons_zero, List.getD_cons_succ]; omega
theorem bval_c4 (p q r s : Nat) : bval [0, 0, 0, 0, 0, 0, 0, 0, s, r, q, p] 12 = ((s * 65536 + r) * 2 ^ 32 + (q * 65536 + p)) * 2 ^ (128 - 32 * 4) := by
  simp only [bval, List.getD_cons_zero, List.getD_cons_succ]; omega
theorem bval_s (r s : Nat) : bval [s, r, 0, 0, 0, 0, 0, 0, 0, 0, 0, 0] 12 = (s * 65536 + r) * 2 ^ 160 := by
  simp only [bval, List.getD_cons_zero, List.getD_cons_succ]; omega

/-- the two groups of 32 bits -/
theorem split64_ok {x z : Nat} {n : Int} (h : ldexp x n = some (z * 2 ^ 117)) (hz : z < 2 ^ 64) :
    split64 x n = some (z / 2 ^ 32, z % 2 ^ 32) := by
  have hp117 : (2 : Nat) ^ 149 = 2 ^ 117 * 2 ^ 32 := by rw [← Nat.pow_add]
  have hq1 : z * 2 ^ 117 / 2 ^ 149 = z / 2 ^ 32 := by
    rw [hp117, Nat.mul_comm z, Nat.mul_div_mul_left _ _ (Nat.pow_pos (by omega))]
  have hq2 : modfF (z * 2 ^ 117) * 2 ^ 32 = z % 2 ^ 32 * 2 ^ 149 := by
    rw [modfF, hp117, Nat.mul_comm z, Nat.mul_mod_mul_left, Nat.mul_comm (2 ^ 117) (z % 2 ^ 32), Nat.mul_assoc]
  have hr : z % 2 ^ 32 < 2 ^ 32 := Nat.mod_lt _ (by omega)
  have hdv : z / 2 ^ 32 < 2 ^ 32 := by omega
  have g2 : toUlong (z * 2 ^ 117) = some (z / 2 ^ 32) := by rw [toUlong, hq1, if_pos hdv]
  have g3 : ldexp (modfF (z * 2 ^ 117)) 32 = some (z % 2 ^ 32 * 2 ^ 149) := by
    have := ldexp_pos (x := modfF (z * 2 ^ 117)) (n := 32) (by
      rw [hq2, Nat.pow_add]
      exact Nat.mul_lt_mul_of_pos_right (Nat.lt_of_lt_of_le hr (Nat.pow_le_pow_right (by omega) (by omega))) (Nat.pow_pos (by omega)))
    rw [hq2] at this
    exact this
  have g4 : toUlong (z % 2 ^ 32 * 2 ^ 149) = some (z % 2 ^ 32) := by
    rw [toUlong, Nat.mul_div_cancel _ (Nat.pow_pos (by omega)), if_pos hr]
  rw [split64, h, Option.bind_some, g2, Option.bind_some, g3, Option.bind_some, g4, Option.bind_some]

theorem chunksI_ok {x : Nat} (hx : Rep x) : ∃ a e, chunksI x = some (a, e) ∧ CInv a ((e - 1) / 16) (x / 2 ^ 149) := by
  obtain ⟨m, k, hmk, hm⟩ := hx.bits
  by_cases h32 : x < 2 ^ (32 + 149)
  · -- 32 bits
    have hN : x / 2 ^ 149 < 2 ^ 32 := by
      rw [Nat.div_lt_iff_lt_mul (Nat.pow_pos (by omega)), ← Nat.pow_add]; exact h32
    have he : frexpE x ≤ 32 := by
      unfold frexpE
      by_cases h0 : x = 0
      · rw [if_pos h0]; omega
      · rw [if_neg h0]
        have h1 := (log2_bounds h0).1
        have h2 : Nat.log2 x < 32 + 149 := by
          rcases Nat.lt_or_ge (Nat.log2 x) (32 + 149) with h | h
          · exact h
          · have := Nat.pow_le_pow_right (show 0 < 2 by omega) h
            omega
        omega
    refine ⟨[lo (x / 2 ^ 149), hi (x / 2 ^ 149), 0, 0, 0, 0, 0, 0], if frexpE x ≤ 0 then 1 else (frexpE x).toNat, ?_, ?_⟩
    · rw [chunksI, if_pos he, toUlong, if_pos hN]
      rfl
    · have hval : lval [lo (x / 2 ^ 149), hi (x / 2 ^ 149), 0, 0, 0, 0, 0, 0] = x / 2 ^ 149 := by
        simp only [lval, Nat.mul_zero, Nat.add_zero]
        exact hi_lo hN
      have hch : Chunk [lo (x / 2 ^ 149), hi (x / 2 ^ 149), 0, 0, 0, 0, 0, 0] := by
        intro c hc
        have h1 := hi_lt (x / 2 ^ 149)
        have h2 := lo_lt (x / 2 ^ 149)
        simp only [List.mem_cons, List.not_mem_nil, or_false] at hc
        rcases hc with h | h | h | h | h | h | h | h <;> omega
      by_cases h0 : frexpE x ≤ 0
      · rw [if_pos h0]
        refine cinv_of rfl hch hval (by omega) (by omega) ?_ (by omega)
        have : x / 2 ^ 149 = 0 := by
          apply Nat.div_eq_of_lt
          unfold frexpE at h0
          by_cases hx0 : x = 0
          · rw [hx0]; exact Nat.pow_pos (by omega)
          · rw [if_neg hx0] at h0
            exact Nat.lt_of_lt_of_le (log2_bounds hx0).2 (Nat.pow_le_pow_right (by omega) (by omega))
        rw [this]; omega
      · rw [if_neg h0]
        have hx0 : x ≠ 0 := by
          rintro rfl
          simp [frexpE] at h0
        have hfe : frexpE x = (Nat.log2 x : Int) + 1 - 149 := by rw [frexpE, if_neg hx0]
        obtain ⟨n, hn⟩ : ∃ n, Nat.log2 x = n + 149 := ⟨Nat.log2 x - 149, by omega⟩
        obtain ⟨b1, b2⟩ := log2_bounds hx0
        rw [hn] at b1 b2
        have hen : (frexpE x).toNat = n + 1 := by omega
        rw [hen]
        refine cinv_of rfl hch hval (by omega) (by omega) ?_ ?_
        · rw [Nat.div_lt_iff_lt_mul (Nat.pow_pos (by omega)), ← Nat.pow_add]
          rw [show n + 1 + 149 = n + 149 + 1 by omega]; exact b2
        · right
          rw [Nat.le_div_iff_mul_le (Nat.pow_pos (by omega)), ← Nat.pow_add]
          exact b1
  · -- more bits
    have hx0 : x ≠ 0 := by
      rintro rfl
      exact h32 (Nat.pow_pos (by omega))
    have hfe : frexpE x = (Nat.log2 x : Int) + 1 - 149 := by rw [frexpE, if_neg hx0]
    obtain ⟨b1, b2⟩ := log2_bounds hx0
    have hL : 181 ≤ Nat.log2 x := by
      rcases Nat.lt_or_ge (Nat.log2 x) 181 with h | h
      · exact absurd (Nat.lt_of_lt_of_le b2 (Nat.pow_le_pow_right (by omega) (show Nat.log2 x + 1 ≤ 32 + 149 by omega))) h32
      · exact h
    have hL2 : Nat.log2 x < 277 := by
      rcases Nat.lt_or_ge (Nat.log2 x) 277 with h | h
      · exact h
      · have := Nat.pow_le_pow_right (show 0 < 2 by omega) h
        have := hx.lt
        omega
    obtain ⟨n, hn⟩ : ∃ n, Nat.log2 x = n + 149 := ⟨Nat.log2 x - 149, by omega⟩
    have hen : (frexpE x).toNat = n + 1 := by omega
    have hk := low_bit hmk hm b1
    -- `c`: two, three or four groups of 32 bits
    obtain ⟨c, hc⟩ : ∃ c, (n + 1 + 31) / 32 = c + 2 := ⟨(n + 1 + 31) / 32 - 2, by omega⟩
    have hc2 : c ≤ 2 := by omega
    have hcn : 32 * c + 32 < n + 1 ∧ n + 1 ≤ 32 * c + 64 := by omega
    obtain ⟨z, hz⟩ := multiple (s := 32 * c + 149) hmk (by omega)
    have hz64 : z < 2 ^ 64 := by
      apply lt_of_mul_pow (s := 32 * c + 149)
      rw [← hz]
      exact Nat.lt_of_lt_of_le b2 (Nat.pow_le_pow_right (by omega) (by omega))
    have hN : x / 2 ^ 149 = z * 2 ^ (32 * c) := by
      rw [hz, Nat.pow_add, ← Nat.mul_assoc, Nat.mul_div_cancel _ (Nat.pow_pos (by omega))]
    have hx1 : x = z * 2 ^ 117 * 2 ^ (32 * c + 32) := by
      rw [hz, show 32 * c + 149 = 117 + (32 * c + 32) by omega, Nat.pow_add, Nat.mul_assoc]
    have hr : z % 2 ^ 32 < 2 ^ 32 := Nat.mod_lt _ (by omega)
    have hdv : z / 2 ^ 32 < 2 ^ 32 := by omega
    have g1 : ldexp x (32 - (((n + 1 + 31) / 32 * 32 : Nat) : Int)) = some (z * 2 ^ 117) := by
      rw [hc, show (32 : Int) - (((c + 2) * 32 : Nat) : Int) = -((32 * c + 32 : Nat) : Int) by omega]
      conv => lhs; rw [hx1]
      exact ldexp_neg (by omega)
    have g5 := split64_ok g1 hz64
    have hzz : z = z / 2 ^ 32 * 2 ^ 32 + z % 2 ^ 32 := by omega
    have l1 := hi_lo hdv
    have l2 := hi_lo hr
    have c1 := hi_lt (z / 2 ^ 32)
    have c2 := lo_lt (z / 2 ^ 32)
    have c3 := hi_lt (z % 2 ^ 32)
    have c4 := lo_lt (z % 2 ^ 32)
    have hblo : n + 1 ≤ 16 ∨ 2 ^ (n + 1 - 1) ≤ x / 2 ^ 149 := by
      right
      rw [Nat.le_div_iff_mul_le (Nat.pow_pos (by omega)), ← Nat.pow_add, show n + 1 - 1 + 149 = Nat.log2 x by omega]
      exact b1
    have hbhi : x / 2 ^ 149 < 2 ^ (n + 1) := by
      rw [Nat.div_lt_iff_lt_mul (Nat.pow_pos (by omega)), ← Nat.pow_add, show n + 1 + 149 = Nat.log2 x + 1 by omega]
      exact b2
    have hgt : ¬ frexpE x ≤ 32 := by omega
    have fin : ∀ a, put4 (List.replicate 8 0) ((n + 1 + 31) / 32 * 32 / 16 - 1) ((n + 1 + 31) / 32 * 32 / 16 - 1 - 1)
        ((n + 1 + 31) / 32 * 32 / 16 - 1 - 2) ((n + 1 + 31) / 32 * 32 / 16 - 1 - 3) (z / 2 ^ 32, z % 2 ^ 32) = some a →
        chunksI x = some (a, n + 1) := by
      intro a ha
      rw [chunksI, if_neg hgt]
      show (split64 x (32 - ((((frexpE x).toNat + 31) / 32 * 32 : Nat) : Int))).bind _ = _
      rw [hen, g5, Option.bind_some, ha, Option.bind_some]
    rw [hc] at fin
    have hcc : c = 0 ∨ c = 1 ∨ c = 2 := by omega
    generalize z / 2 ^ 32 = A at *
    generalize z % 2 ^ 32 = B at *
    rcases hcc with rfl | rfl | rfl
    · refine ⟨[lo B, hi B, lo A, hi A, 0, 0, 0, 0], n + 1, fin _ rfl, cinv_of rfl ?_ ?_ (by omega) (by omega) hbhi hblo⟩
      · intro c hc
        simp only [List.mem_cons, List.not_mem_nil, or_false] at hc
        rcases hc with h | h | h | h | h | h | h | h <;> omega
      · rw [hN, lval_c0, l1, l2, ← hzz]
    · refine ⟨[0, 0, lo B, hi B, lo A, hi A, 0, 0], n + 1, fin _ rfl, cinv_of rfl ?_ ?_ (by omega) (by omega) hbhi hblo⟩
      · intro c hc
        simp only [List.mem_cons, List.not_mem_nil, or_false] at hc
        rcases hc with h | h | h | h | h | h | h | h <;> omega
      · rw [hN, lval_c1, l1, l2, ← hzz]
    · refine ⟨[0, 0, 0, 0, lo B, hi B, lo A, hi A], n + 1, fin _ rfl, cinv_of rfl ?_ ?_ (by omega) (by omega) hbhi hblo⟩
      · intro c hc
        simp only [List.mem_cons, List.not_mem_nil, or_false] at hc
        rcases hc with h | h | h | h | h | h | h | h <;> omega
      · rw [hN, lval_c2, l1, l2, ← hzz]

theorem hi_lo' {u : Nat} (h : u < 2 ^ 32) : hi u * 65536 + lo u = u := by
  unfold hi lo; omega

theorem mod_bits {x m k s : Nat} (hx : x = m * 2 ^ k) (hm : m < 2 ^ 24) : ∃ m', x % 2 ^ s = m' * 2 ^ k ∧ m' < 2 ^ 24 := by
  rcases Nat.le_total k s with h | h
  · refine ⟨m % 2 ^ (s - k), ?_, Nat.lt_of_le_of_lt (Nat.mod_le _ _) hm⟩
    conv => lhs; rw [hx, show s = k + (s - k) by omega, Nat.pow_add, Nat.mul_comm m, Nat.mul_mod_mul_left]
    rw [Nat.mul_comm]
  · obtain ⟨z, hz⟩ := multiple hx h
    exact ⟨0, by rw [hz, Nat.mul_mod_left]; omega, by omega⟩

theorem chunksF_ok {x : Nat} (hx : Rep x) : ∃ a n, chunksF (modfF x) = some (a, n) ∧ FInv a n (x % 2 ^ 149) := by
  obtain ⟨m0, k, hmk0, hm0⟩ := hx.bits
  obtain ⟨m, hmk, hm⟩ := mod_bits (s := 149) hmk0 hm0
  have hF : x % 2 ^ 149 < 2 ^ 149 := Nat.mod_lt _ (Nat.pow_pos (by omega))
  rw [modfF]
  generalize x % 2 ^ 149 = F at *
  have hp117 : (2 : Nat) ^ 149 = 2 ^ 117 * 2 ^ 32 := by rw [← Nat.pow_add]
  by_cases h8 : -frexpE F ≤ 32 - 24
  · have hk : F = 0 ∨ 117 ≤ k := by
      by_cases h0 : F = 0
      · exact Or.inl h0
      · right
        have hL := low_bit hmk hm (log2_bounds h0).1
        rw [frexpE, if_neg h0] at h8
        omega
    obtain ⟨z, hz⟩ : ∃ z, F = z * 2 ^ 117 := by
      rcases hk with h | h
      · exact ⟨0, by omega⟩
      · exact multiple hmk h
    have hz32 : z < 2 ^ 32 := by
      apply lt_of_mul_pow (s := 117)
      rw [← hz, ← show (149 : Nat) = 32 + 117 from rfl]
      exact hF
    have e1 : F * 2 ^ 32 = z * 2 ^ 149 := by rw [hz, hp117, Nat.mul_assoc]
    have g1 : ldexp F 32 = some (z * 2 ^ 149) := by
      have := ldexp_pos (x := F) (n := 32) (by
        rw [e1, Nat.pow_add]
        exact Nat.mul_lt_mul_of_pos_right (Nat.lt_of_lt_of_le hz32 (Nat.pow_le_pow_right (by omega) (by omega))) (Nat.pow_pos (by omega)))
      rw [e1] at this
      exact this
    have g2 : toUlong (z * 2 ^ 149) = some z := by
      rw [toUlong, Nat.mul_div_cancel _ (Nat.pow_pos (by omega)), if_pos hz32]
    refine ⟨[hi z, lo z, 0, 0, 0, 0, 0, 0, 0, 0, 0, 0], 2, ?_, rfl, ?_, by omega, ?_, ?_⟩
    · rw [chunksF, if_pos h8, g1, Option.bind_some, g2]; rfl
    · intro c hc
      have h1 := hi_lt z
      have h2 := lo_lt z
      simp only [List.mem_cons, List.not_mem_nil, or_false] at hc
      rcases hc with h | h | h | h | h | h | h | h | h | h | h | h <;> omega
    · intro i hi'
      have : ∀ l : List Nat, (∀ c ∈ l, c = 0) → ∀ j, l.getD j 0 = 0 := by
        intro l hl j
        rcases Nat.lt_or_ge j l.length with h | h
        · rw [getD_lt h]; exact hl _ (List.getElem_mem _)
        · rw [List.getD_eq_getElem?_getD, List.getElem?_eq_none h]; rfl
      obtain ⟨j, rfl⟩ : ∃ j, i = j + 2 := ⟨i - 2, by omega⟩
      exact this [0, 0, 0, 0, 0, 0, 0, 0, 0, 0] (by simp) j
    · have h1 := hi_lo' hz32
      have h2 : F * 2 ^ 43 = z * 2 ^ 160 := by rw [hz, Nat.mul_assoc, ← Nat.pow_add]
      rw [h2, bval_s, h1]
  · have h0 : F ≠ 0 := by
      rintro rfl
      simp [frexpE] at h8
    obtain ⟨b1, b2⟩ := log2_bounds h0
    have hfe : frexpE F = (Nat.log2 F : Int) + 1 - 149 := by rw [frexpE, if_neg h0]
    have hL : Nat.log2 F < 149 := by
      rcases Nat.lt_or_ge (Nat.log2 F) 149 with h | h
      · exact h
      · have := Nat.pow_le_pow_right (show 0 < 2 by omega) h
        omega
    have hk := low_bit hmk hm b1
    obtain ⟨e, he⟩ : ∃ e, (-frexpE F).toNat = e := ⟨_, rfl⟩
    obtain ⟨c, hc⟩ : ∃ c, e / 32 = c := ⟨_, rfl⟩
    have hce : 32 * c ≤ e ∧ e < 32 * c + 32 := by omega
    have hLe : Nat.log2 F + 1 + e = 149 := by omega
    have hc4 : c ≤ 4 := by omega
    -- 64 bits from bit 32 c on
    obtain ⟨z, hz⟩ : ∃ z, F * 2 ^ (64 + 32 * c) = z * 2 ^ 149 := by
      apply multiple (m := m) (k := k + (64 + 32 * c))
      · rw [hmk, Nat.mul_assoc, ← Nat.pow_add]
      · omega
    have hz64 : z < 2 ^ 64 := by
      apply lt_of_mul_pow (s := 149)
      rw [← hz]
      calc F * 2 ^ (64 + 32 * c) < 2 ^ (Nat.log2 F + 1) * 2 ^ (64 + 32 * c) := Nat.mul_lt_mul_of_pos_right b2 (Nat.pow_pos (by omega))
        _ = 2 ^ (Nat.log2 F + 1 + (64 + 32 * c)) := by rw [← Nat.pow_add]
        _ ≤ _ := Nat.pow_le_pow_right (by omega) (by omega)
    have hx1 : F * 2 ^ (32 + 32 * c) = z * 2 ^ 117 := by
      have h1 : F * 2 ^ (32 + 32 * c) * 2 ^ 32 = z * 2 ^ 117 * 2 ^ 32 := by
        rw [Nat.mul_assoc, ← Nat.pow_add, Nat.mul_assoc, ← hp117, ← hz]
        congr 2
        omega
      exact Nat.eq_of_mul_eq_mul_right (Nat.pow_pos (by omega)) h1
    have hr : z % 2 ^ 32 < 2 ^ 32 := Nat.mod_lt _ (by omega)
    have hdv : z / 2 ^ 32 < 2 ^ 32 := by omega
    have g1 : ldexp F (32 + ((e / 32 * 32 : Nat) : Int)) = some (z * 2 ^ 117) := by
      rw [hc, show (32 : Int) + ((c * 32 : Nat) : Int) = ((32 + 32 * c : Nat) : Int) by omega, ldexp_pos, hx1]
      rw [hx1]
      calc z * 2 ^ 117 < 2 ^ 64 * 2 ^ 117 := Nat.mul_lt_mul_of_pos_right hz64 (Nat.pow_pos (by omega))
        _ = 2 ^ (64 + 117) := by rw [← Nat.pow_add]
        _ ≤ _ := Nat.pow_le_pow_right (by omega) (by omega)
    have g5 := split64_ok g1 hz64
    have hval : F * 2 ^ 43 = z * 2 ^ (128 - 32 * c) := by
      have h1 : F * 2 ^ 43 * 2 ^ (21 + 32 * c) = z * 2 ^ (128 - 32 * c) * 2 ^ (21 + 32 * c) := by
        rw [Nat.mul_assoc, ← Nat.pow_add, Nat.mul_assoc, ← Nat.pow_add, show 43 + (21 + 32 * c) = 64 + 32 * c by omega, hz]
        congr 2
        omega
      exact Nat.eq_of_mul_eq_mul_right (Nat.pow_pos (by omega)) h1
    have hzz : z = z / 2 ^ 32 * 2 ^ 32 + z % 2 ^ 32 := by omega
    have l1 := hi_lo' hdv
    have l2 := hi_lo' hr
    have c1 := hi_lt (z / 2 ^ 32)
    have c2 := lo_lt (z / 2 ^ 32)
    have c3 := hi_lt (z % 2 ^ 32)
    have c4 := lo_lt (z % 2 ^ 32)
    rw [chunksF, if_neg h8]
    have hcc : c = 0 ∨ c = 1 ∨ c = 2 ∨ c = 3 ∨ c = 4 := by omega
    have hz0 : ∀ l : List Nat, (∀ c ∈ l, c = 0) → ∀ j, l.getD j 0 = 0 := by
      intro l hl j
      rcases Nat.lt_or_ge j l.length with h | h
      · rw [getD_lt h]; exact hl _ (List.getElem_mem _)
      · rw [List.getD_eq_getElem?_getD, List.getElem?_eq_none h]; rfl
    have fin : ∀ a, put4 (List.replicate 12 0) (c * 32 / 16) (c * 32 / 16 + 1) (c * 32 / 16 + 2) (c * 32 / 16 + 3) (z / 2 ^ 32, z % 2 ^ 32) = some a →
        (split64 F (32 + (((-frexpE F).toNat / 32 * 32 : Nat) : Int))).bind (fun uv =>
          (put4 (List.replicate 12 0) ((-frexpE F).toNat / 32 * 32 / 16) ((-frexpE F).toNat / 32 * 32 / 16 + 1)
            ((-frexpE F).toNat / 32 * 32 / 16 + 2) ((-frexpE F).toNat / 32 * 32 / 16 + 3) uv).bind fun a =>
          some (a, (-frexpE F).toNat / 32 * 32 / 16 + 3 + 1)) = some (a, c * 32 / 16 + 3 + 1) := by
      intro a ha
      rw [he, g5, Option.bind_some, hc, ha, Option.bind_some]
    generalize z / 2 ^ 32 = A at *
    generalize z % 2 ^ 32 = B at *
    have hch : ∀ l : List Nat, (∀ c ∈ l, c = 0 ∨ c = hi A ∨ c = lo A ∨ c = hi B ∨ c = lo B) → Chunk l := by
      intro l hl c hc
      rcases hl c hc with h | h | h | h | h <;> omega
    rcases hcc with rfl | rfl | rfl | rfl | rfl
    · refine ⟨[hi A, lo A, hi B, lo B, 0, 0, 0, 0, 0, 0, 0, 0], 4, fin _ rfl, rfl, hch _ (by simp), by omega, ?_, ?_⟩
      · intro i hi'
        obtain ⟨j, rfl⟩ : ∃ j, i = j + 4 := ⟨i - 4, by omega⟩
        exact hz0 [0, 0, 0, 0, 0, 0, 0, 0] (by simp) j
      · rw [hval, bval_c0, l1, l2, ← hzz]
    · refine ⟨[0, 0, hi A, lo A, hi B, lo B, 0, 0, 0, 0, 0, 0], 6, fin _ rfl, rfl, hch _ (by simp), by omega, ?_, ?_⟩
      · intro i hi'
        obtain ⟨j, rfl⟩ : ∃ j, i = j + 6 := ⟨i - 6, by omega⟩
        exact hz0 [0, 0, 0, 0, 0, 0] (by simp) j
      · rw [hval, bval_c1, l1, l2, ← hzz]
    · refine ⟨[0, 0, 0, 0, hi A, lo A, hi B, lo B, 0, 0, 0, 0], 8, fin _ rfl, rfl, hch _ (by simp), by omega, ?_, ?_⟩
      · intro i hi'
        obtain ⟨j, rfl⟩ : ∃ j, i = j + 8 := ⟨i - 8, by omega⟩
        exact hz0 [0, 0, 0, 0] (by simp) j
      · rw [hval, bval_c2, l1, l2, ← hzz]
    · refine ⟨[0, 0, 0, 0, 0, 0, hi A, lo A, hi B, lo B, 0, 0], 10, fin _ rfl, rfl, hch _ (by simp), by omega, ?_, ?_⟩
      · intro i hi'
        obtain ⟨j, rfl⟩ : ∃ j, i = j + 10 := ⟨i - 10, by omega⟩
        exact hz0 [0, 0] (by simp) j
      · rw [hval, bval_c3, l1, l2, ← hzz]
    · refine ⟨[0, 0, 0, 0, 0, 0, 0, 0, hi A, lo A, hi B, lo B], 12, fin _ rfl, rfl, hch _ (by simp), by omega, ?_, ?_⟩
      · intro i hi'
        obtain ⟨j, rfl⟩ : ∃ j, i = j + 12 := ⟨i - 12, by omega⟩
        exact hz0 [] (by simp) j
      · rw [hval, bval_c4, l1, l2, ← hzz]

end Smlr.Fprint
