import Verif.Fprint.DigI

set_option autoImplicit false
/- the digits of the fractional part: the loops of `__cvtdff` -/
namespace Smlr.Fprint
open Spec

/-- the number with the first `n` chunks, the most significant one first -/
def bval (a : List Nat) : Nat → Nat
  | 0 => 0
  | n + 1 => bval a n * 65536 + a.getD n 0

theorem bval_congr {a b : List Nat} {n : Nat} (h : ∀ i, i < n → a.getD i 0 = b.getD i 0) : bval a n = bval b n := by
  induction n with
  | zero => rfl
  | succ n ih => rw [bval, bval, ih (fun i hi => h i (by omega)), h n (by omega)]

theorem chunk_getD {a : List Nat} (h : Chunk a) (i : Nat) : a.getD i 0 < 65536 := by
  rcases Nat.lt_or_ge i a.length with hi | hi
  · rw [getD_lt hi]; exact h _ (List.getElem_mem _)
  · rw [List.getD_eq_getElem?_getD, List.getElem?_eq_none hi]; simp

theorem bval_lt {a : List Nat} (h : Chunk a) (n : Nat) : bval a n < 65536 ^ n := by
  induction n with
  | zero => simp [bval]
  | succ n ih =>
    have := chunk_getD h n
    rw [bval, Nat.pow_succ]
    omega

theorem bval_ext {a : List Nat} {n : Nat} (h : ∀ i, n ≤ i → a.getD i 0 = 0) (d : Nat) : bval a (n + d) = bval a n * 65536 ^ d := by
  induction d with
  | zero => simp
  | succ d ih => rw [← Nat.add_assoc, bval, ih, h _ (by omega), Nat.pow_succ, Nat.add_zero, Nat.mul_assoc]

theorem mul_aux {A B C Q R r c : Nat} (e3 : A + B = C + Q * 65536) (e4 : 65536 * Q + R = r + c) :
    A + (B + R) = C + c + r := by omega

theorem mulLoop_ok : ∀ (n : Nat) (a : List Nat) (r : Nat), n ≤ a.length → Chunk a → r < 10 →
    ∃ a' r', mulLoop n a r = some (a', r') ∧ a'.length = a.length ∧ Chunk a' ∧ (∀ i, n ≤ i → a'.getD i 0 = a.getD i 0) ∧
      r' < 10 ∧ r' * 65536 ^ n + bval a' n = 10 * bval a n + r := by
  intro n
  induction n with
  | zero =>
    intro a r _ hc hr
    exact ⟨a, r, rfl, rfl, hc, fun _ _ => rfl, hr, by simp [bval]⟩
  | succ n ih =>
    intro a r hn hc hr
    have hlt : n < a.length := by omega
    have hcn : a[n] < 65536 := hc _ (List.getElem_mem _)
    have hr1 : (r + a[n] * 10) % 2 ^ 32 = r + a[n] * 10 := by rw [Nat.mod_eq_of_lt]; omega
    obtain ⟨a', r', h1, h2, h3, h4, h5, h6⟩ := ih (a.set n ((r + a[n] * 10) % 65536)) ((r + a[n] * 10) / 65536)
      (by simp; omega) (chunk_set hc n (Nat.mod_lt _ (by omega))) (by omega)
    refine ⟨a', r', ?_, by simpa using h2, h3, ?_, h5, ?_⟩
    · rw [mulLoop, List.getElem?_eq_getElem hlt]
      simp only [hr1]
      exact h1
    · intro i hi
      rw [h4 i (by omega), getD_set, if_neg (by omega)]
    · have e1 : bval (a.set n ((r + a[n] * 10) % 65536)) n = bval a n := by
        apply bval_congr
        intro i hi
        rw [getD_set, if_neg (by omega)]
      have e2 : a'.getD n 0 = (r + a[n] * 10) % 65536 := by
        rw [h4 n (by omega), getD_set, if_pos ⟨rfl, hlt⟩]
      rw [e1] at h6
      rw [bval, bval, e2, getD_lt hlt, Nat.pow_succ, ← Nat.mul_assoc]
      have e3 : (r' * 65536 ^ n + bval a' n) * 65536 = (10 * bval a n + (r + a[n] * 10) / 65536) * 65536 := by rw [h6]
      rw [Nat.add_mul, Nat.add_mul] at e3
      have e4 := Nat.div_add_mod (r + a[n] * 10) 65536
      have e5 : 10 * (bval a n * 65536 + a[n]) = 10 * bval a n * 65536 + a[n] * 10 := by
        rw [Nat.mul_add, Nat.mul_assoc, Nat.mul_comm a[n]]
      rw [e5]
      exact mul_aux e3 e4

theorem trim_ok : ∀ (n : Nat) (a : List Nat), n ≤ a.length → (∀ i, n ≤ i → a.getD i 0 = 0) →
    ∃ n', trim n a = some n' ∧ n' ≤ n ∧ (∀ i, n' ≤ i → a.getD i 0 = 0) ∧ (n' = 0 ∨ a.getD (n' - 1) 0 ≠ 0) := by
  intro n
  induction n with
  | zero => intro a _ hz; exact ⟨0, rfl, by omega, hz, Or.inl rfl⟩
  | succ n ih =>
    intro a hn hz
    have hlt : n < a.length := by omega
    rw [trim, List.getElem?_eq_getElem hlt]
    simp only []
    by_cases h0 : a[n] = 0
    · obtain ⟨n', h1, h2, h3, h4⟩ := ih a (by omega) (by
        intro i hi
        rcases Nat.eq_or_lt_of_le hi with h | h
        · subst h; rw [getD_lt hlt, h0]
        · exact hz i h)
      exact ⟨n', by rw [if_pos h0, h1], by omega, h3, h4⟩
    · exact ⟨n + 1, by rw [if_neg h0], by omega, hz, Or.inr (by rw [Nat.add_sub_cancel, getD_lt hlt]; exact h0)⟩

/-- the chunks of the fraction `F / 2^149`; `n` of them are in use -/
structure FInv (a : List Nat) (n F : Nat) : Prop where
  len : a.length = 12
  ch : Chunk a
  le : n ≤ 12
  zero : ∀ i, n ≤ i → a.getD i 0 = 0
  val : bval a 12 = F * 2 ^ 43

theorem finv_val {a : List Nat} {n F : Nat} (h : FInv a n F) : bval a n * 65536 ^ (12 - n) = F * 2 ^ 43 := by
  rw [← bval_ext h.zero, show n + (12 - n) = 12 by have := h.le; omega, h.val]

theorem finv_trim {a : List Nat} {n F : Nat} (h : FInv a n F) :
    ∃ n', trim n a = some n' ∧ FInv a n' F ∧ (n' ≠ 0 ↔ F ≠ 0) := by
  obtain ⟨n', h1, h2, h3, h4⟩ := trim_ok n a (by rw [h.len]; exact h.le) h.zero
  have hi : FInv a n' F := ⟨h.len, h.ch, by have := h.le; omega, h3, h.val⟩
  refine ⟨n', h1, hi, ?_⟩
  have hv := finv_val hi
  constructor
  · intro hn hF
    have h5 := h4.resolve_left hn
    obtain ⟨m, rfl⟩ := Nat.exists_eq_succ_of_ne_zero hn
    rw [hF, Nat.zero_mul] at hv
    rcases Nat.mul_eq_zero.1 hv with h6 | h6
    · rw [bval] at h6
      simp only [Nat.succ_eq_add_one, Nat.add_sub_cancel] at h5
      omega
    · exact absurd h6 (Nat.ne_of_gt (Nat.pow_pos (by omega)))
  · intro hF hn
    rw [hn, bval, Nat.zero_mul] at hv
    rcases Nat.mul_eq_zero.1 hv.symm with h6 | h6
    · exact hF h6
    · exact absurd h6 (Nat.ne_of_gt (Nat.pow_pos (by omega)))

/-- one multiplication -/
theorem finv_mul {a : List Nat} {n F : Nat} (h : FInv a n F) :
    ∃ a', mulLoop n a 0 = some (a', F * 10 / 2 ^ 149) ∧ FInv a' n (F * 10 % 2 ^ 149) := by
  obtain ⟨a', r, h1, h2, h3, h4, h5, h6⟩ := mulLoop_ok n a 0 (by rw [h.len]; exact h.le) h.ch (by omega)
  have hz : ∀ i, n ≤ i → a'.getD i 0 = 0 := fun i hi => by rw [h4 i hi, h.zero i hi]
  have e1 : r * 65536 ^ 12 + bval a' 12 = F * 10 * 2 ^ 43 := by
    have hle := h.le
    have e2 : 65536 ^ 12 = 65536 ^ n * 65536 ^ (12 - n) := by rw [← Nat.pow_add]; congr 1; omega
    have e3 : bval a' 12 = bval a' n * 65536 ^ (12 - n) := by
      rw [← bval_ext hz]; congr 1; omega
    rw [e2, e3, ← Nat.mul_assoc, ← Nat.add_mul, h6, Nat.add_zero, Nat.mul_assoc, finv_val h]
    rw [Nat.mul_comm F 10, Nat.mul_assoc]
  have e4 : (65536 : Nat) ^ 12 = 2 ^ 149 * 2 ^ 43 := by decide +kernel
  have hb := bval_lt h3 12
  rw [e4] at e1 hb
  have hpos : 0 < 2 ^ 43 := by omega
  have hpos2 : 0 < 2 ^ 149 * 2 ^ 43 := by rw [← e4]; exact Nat.pow_pos (by omega)
  generalize hP : 2 ^ 149 = P at *
  generalize hT : (2 : Nat) ^ 43 = T at *
  have q1 : F * 10 * T / (P * T) = r := by
    rw [← e1, Nat.mul_comm r, Nat.mul_add_div hpos2, Nat.div_eq_of_lt hb, Nat.add_zero]
  have q2 : F * 10 * T % (P * T) = bval a' 12 := by
    rw [← e1, Nat.mul_comm r, Nat.mul_add_mod, Nat.mod_eq_of_lt hb]
  rw [Nat.mul_div_mul_right _ _ hpos] at q1
  rw [Nat.mul_mod_mul_right] at q2
  exact ⟨a', by rw [h1, q1], by rw [h2, h.len], h3, h.le, hz, by rw [hT]; exact q2.symm⟩

/-- writing one element -/
theorem put_ok {b : List Nat} {q v : Nat} (h : q < b.length) : put b q v = some (b.set q v) := by rw [put, if_pos h]

/-- `k` elements from `q` on are replaced -/
def over (b : List Nat) (q : Nat) (l : List Nat) : List Nat := b.take q ++ l ++ b.drop (q + l.length)

theorem over_nil (b : List Nat) (q : Nat) : over b q [] = b := by simp [over]

theorem over_cons (b : List Nat) (q v : Nat) (l : List Nat) (h : q < b.length) : over (b.set q v) (q + 1) l = over b q (v :: l) := by
  unfold over
  rw [take_one (by simpa using h), List.take_set_of_le (by omega), List.drop_set_of_lt (by omega)]
  simp only [List.getElem_set_self, List.length_cons, List.append_assoc, List.singleton_append]
  rw [show q + 1 + l.length = q + (l.length + 1) by omega]

/-- the digits of a fraction, one by one -/
theorem digits_step (F D k : Nat) (hD : 0 < D) (hF : F < D) :
    pad (k + 1) (F * 10 ^ (k + 1) / D) = (F * 10 / D + 48) :: pad k (F * 10 % D * 10 ^ k / D) := by
  have hp : 0 < 10 ^ k := Nat.pow_pos (by omega)
  have e1 : F * 10 ^ (k + 1) / D = F * 10 / D * 10 ^ k + F * 10 % D * 10 ^ k / D := by
    have h1 := Nat.div_add_mod (F * 10) D
    have h2 : F * 10 ^ (k + 1) = D * (F * 10 / D * 10 ^ k) + F * 10 % D * 10 ^ k := by
      rw [← Nat.mul_assoc, ← Nat.add_mul, h1, Nat.pow_succ, Nat.mul_comm (10 ^ k), Nat.mul_assoc]
    rw [h2, Nat.mul_add_div hD]
  have hlt : F * 10 % D * 10 ^ k / D < 10 ^ k := by
    rw [Nat.div_lt_iff_lt_mul hD, Nat.mul_comm]
    exact Nat.mul_lt_mul_of_pos_left (Nat.mod_lt _ hD) hp
  have h10 : F * 10 / D < 10 := by
    rw [Nat.div_lt_iff_lt_mul hD]; omega
  rw [pad_head, e1]
  have e2 : (F * 10 / D * 10 ^ k + F * 10 % D * 10 ^ k / D) / 10 ^ k = F * 10 / D := by
    rw [Nat.mul_comm, Nat.mul_add_div hp, Nat.div_eq_of_lt hlt, Nat.add_zero]
  rw [e2, Nat.mod_eq_of_lt h10, Nat.add_comm 48]
  congr 1
  apply pad_congr
  rw [Nat.mul_comm, Nat.mul_add_mod]

theorem rest_step (F D k : Nat) : F * 10 % D * 10 ^ k % D = F * 10 ^ (k + 1) % D := by
  rw [Nat.mod_mul_mod, Nat.pow_succ, Nat.mul_comm (10 ^ k), Nat.mul_assoc]

theorem fracLoop_plain (D : Nat) (hD : 2 ^ 149 = D) : ∀ (size fuel : Nat) (a : List Nat) (n F z : Nat) (buf : List Nat) (q : Nat),
    size < fuel → FInv a n F → (n ≠ 0 ↔ F ≠ 0) → F < D → q + size ≤ buf.length →
    ∃ n', fracLoop fuel size a n false z buf q = some (over buf q (pad size (F * 10 ^ size / D)), z, n') ∧
      (n' ≠ 0 ↔ F * 10 ^ size % D ≠ 0) := by
  have hD0 : 0 < D := by rw [← hD]; exact Nat.pow_pos (by omega)
  intro size
  induction size with
  | zero =>
    intro fuel a n F z buf q hf _ hn hF _
    obtain ⟨fuel, rfl⟩ := Nat.exists_eq_succ_of_ne_zero (show fuel ≠ 0 by omega)
    refine ⟨n, by rw [Nat.succ_eq_add_one, fracLoop]; simp [pad, over_nil], ?_⟩
    rw [hn, Nat.pow_zero, Nat.mul_one, Nat.mod_eq_of_lt hF]
  | succ size ih =>
    intro fuel a n F z buf q hf h hn hF hq
    obtain ⟨fuel, rfl⟩ := Nat.exists_eq_succ_of_ne_zero (show fuel ≠ 0 by omega)
    obtain ⟨a', h1, h2⟩ := finv_mul h
    obtain ⟨n', h3, h4, h5⟩ := finv_trim h2
    rw [hD] at h1 h2 h4 h5
    obtain ⟨n2, h6, h7⟩ := ih fuel a' n' (F * 10 % D) z (buf.set q (F * 10 / D + 48)) (q + 1) (by omega) h4 h5
      (Nat.mod_lt _ hD0) (by simp; omega)
    refine ⟨n2, ?_, by rw [h7, rest_step]⟩
    rw [Nat.succ_eq_add_one, fracLoop, h1]
    simp only [h3]
    rw [if_neg (by simp), put_ok (by omega)]
    simp only []
    rw [h6, over_cons _ _ _ _ (by omega), digits_step F D size hD0 hF]

theorem fracLoop_skip (D : Nat) (hD : 2 ^ 149 = D) (size : Nat) (buf : List Nat) (q : Nat) (hs : 0 < size)
    (hq : q + size ≤ buf.length) : ∀ (t fuel : Nat) (a : List Nat) (n F z : Nat),
    t + size < fuel → FInv a n F → (n ≠ 0 ↔ F ≠ 0) → F < D → D ≤ F * 10 ^ (t + 1) →
    ∃ n' w, fracLoop fuel size a n true z buf q = some (over buf q (pad size (F * 10 ^ (w + size) / D)), z + w, n') ∧
      w ≤ t ∧ F * 10 ^ w < D ∧ D ≤ F * 10 ^ (w + 1) ∧ (n' ≠ 0 ↔ F * 10 ^ (w + size) % D ≠ 0) := by
  have hD0 : 0 < D := by rw [← hD]; exact Nat.pow_pos (by omega)
  obtain ⟨size, rfl⟩ := Nat.exists_eq_succ_of_ne_zero (show size ≠ 0 by omega)
  simp only [Nat.succ_eq_add_one] at *
  intro t
  induction t with
  | zero =>
    intro fuel a n F z hf h hn hF hle
    obtain ⟨fuel, rfl⟩ := Nat.exists_eq_succ_of_ne_zero (show fuel ≠ 0 by omega)
    obtain ⟨a', h1, h2⟩ := finv_mul h
    obtain ⟨n', h3, h4, h5⟩ := finv_trim h2
    rw [hD] at h1 h2 h4 h5
    have hne : F * 10 / D ≠ 0 := by
      have : 1 ≤ F * 10 / D := (Nat.le_div_iff_mul_le hD0).2 (by simpa using hle)
      omega
    obtain ⟨n2, h6, h7⟩ := fracLoop_plain D hD size fuel a' n' (F * 10 % D) z (buf.set q (F * 10 / D + 48)) (q + 1) (by omega) h4 h5
      (Nat.mod_lt _ hD0) (by simp; omega)
    refine ⟨n2, 0, ?_, by omega, by simpa using hF, hle, by rw [h7, rest_step, Nat.zero_add]⟩
    rw [Nat.succ_eq_add_one, fracLoop, h1]
    simp only [h3]
    rw [if_neg (by simp only [hne, and_false]; simp), put_ok (by omega)]
    simp only []
    rw [h6, over_cons _ _ _ _ (by omega), Nat.zero_add, digits_step F D size hD0 hF]
    rfl
  | succ t ih =>
    intro fuel a n F z hf h hn hF hle
    obtain ⟨fuel, rfl⟩ := Nat.exists_eq_succ_of_ne_zero (show fuel ≠ 0 by omega)
    obtain ⟨a', h1, h2⟩ := finv_mul h
    obtain ⟨n', h3, h4, h5⟩ := finv_trim h2
    rw [hD] at h1 h2 h4 h5
    by_cases hne : F * 10 / D = 0
    · have hlt : F * 10 < D := by
        rcases Nat.lt_or_ge (F * 10) D with h | h
        · exact h
        · have := (Nat.le_div_iff_mul_le hD0).2 (show 1 * D ≤ F * 10 by omega)
          omega
      have hF1 : F * 10 % D = F * 10 := Nat.mod_eq_of_lt hlt
      have hp : ∀ k, F * 10 * 10 ^ k = F * 10 ^ (k + 1) := fun k => by rw [Nat.pow_succ, Nat.mul_comm (10 ^ k), Nat.mul_assoc]
      obtain ⟨n2, w, h6, h7, h8, h9, h10⟩ := ih fuel a' n' (F * 10 % D) (z + 1) (by omega) h4 h5 (Nat.mod_lt _ hD0)
        (by rw [hF1, hp]; exact hle)
      rw [hF1] at h6 h8 h9 h10
      rw [hp] at h6 h8 h9 h10
      refine ⟨n2, w + 1, ?_, by omega, h8, h9, ?_⟩
      · rw [Nat.succ_eq_add_one, fracLoop, h1]
        simp only [h3]
        rw [if_pos ⟨trivial, hne⟩, h6, show w + (size + 1) + 1 = w + 1 + (size + 1) by omega, show z + 1 + w = z + (w + 1) by omega]
      · rw [h10, show w + (size + 1) + 1 = w + 1 + (size + 1) by omega]
    · obtain ⟨n2, h6, h7⟩ := fracLoop_plain D hD size fuel a' n' (F * 10 % D) z (buf.set q (F * 10 / D + 48)) (q + 1) (by omega) h4 h5
        (Nat.mod_lt _ hD0) (by simp; omega)
      refine ⟨n2, 0, ?_, by omega, by simpa using hF, ?_, by rw [h7, rest_step, Nat.zero_add]⟩
      · rw [Nat.succ_eq_add_one, fracLoop, h1]
        simp only [h3]
        rw [if_neg (by simp only [hne, and_false]; simp), put_ok (by omega)]
        simp only []
        rw [h6, over_cons _ _ _ _ (by omega), Nat.zero_add, digits_step F D size hD0 hF]
        rfl
      · rw [Nat.zero_add, Nat.pow_one]
        exact (Nat.div_pos_iff.1 (Nat.pos_of_ne_zero hne)).2

theorem zeroLoop_ok : ∀ (size : Nat) (buf : List Nat) (q : Nat), q + size ≤ buf.length →
    zeroLoop size buf q = some (over buf q (pad size 0)) := by
  intro size
  induction size with
  | zero => intro buf q _; simp [zeroLoop, pad, over_nil]
  | succ size ih =>
    intro buf q h
    rw [zeroLoop, put_ok (by omega), Option.bind_some, ih _ _ (by simp; omega), over_cons _ _ _ _ (by omega), pad_head]
    simp

/-- `__cvtdff` writes the digits of the fractional part `F / 2^149` -/
theorem cvtdff_plain (D : Nat) (hD : 2 ^ 149 = D) (x : Nat) (buf : List Nat) (q size : Nat) (hq : q + size ≤ buf.length)
    (a : List Nat) (n : Nat) (hch : chunksF (modfF x) = some (a, n)) (hinv : FInv a n (x % D)) :
    ∃ f, cvtdff x buf q size false = some (over buf q (pad size (x % D * 10 ^ size / D)), 0, f) ∧
      (f = true ↔ x % D * 10 ^ size % D ≠ 0) := by
  have hD0 : 0 < D := by rw [← hD]; exact Nat.pow_pos (by omega)
  obtain ⟨n', h1, h2, h3⟩ := finv_trim hinv
  rw [cvtdff, hch]
  simp only [Option.bind_some, h1]
  by_cases hn : n' = 0
  · have hF : x % D = 0 := Classical.byContradiction fun h => h3.2 h hn
    rw [if_pos hn, zeroLoop_ok _ _ _ hq, hF]
    exact ⟨false, by simp, by simp⟩
  · obtain ⟨m, h4, h5⟩ := fracLoop_plain D hD size (size + 64) a n' (x % D) 0 buf q (by omega) h2 h3 (Nat.mod_lt _ hD0) hq
    rw [if_neg hn, h4]
    exact ⟨decide (m ≠ 0), by simp, by rw [decide_eq_true_iff, h5]⟩

theorem cvtdff_skip (D : Nat) (hD : 2 ^ 149 = D) (x : Nat) (buf : List Nat) (q size : Nat) (hs : 0 < size) (hq : q + size ≤ buf.length)
    (a : List Nat) (n : Nat) (hch : chunksF (modfF x) = some (a, n)) (hinv : FInv a n (x % D)) (hx : x % D ≠ 0) :
    ∃ f w, cvtdff x buf q size true = some (over buf q (pad size (x % D * 10 ^ (w + size) / D)), w, f) ∧ w ≤ 44 ∧
      x % D * 10 ^ w < D ∧ D ≤ x % D * 10 ^ (w + 1) ∧ (f = true ↔ x % D * 10 ^ (w + size) % D ≠ 0) := by
  have hD0 : 0 < D := by rw [← hD]; exact Nat.pow_pos (by omega)
  obtain ⟨n', h1, h2, h3⟩ := finv_trim hinv
  have hn := h3.2 hx
  have h45 : D ≤ 1 * 10 ^ (44 + 1) := by rw [← hD]; decide +kernel
  obtain ⟨m, w, h4, h5, h6, h7, h8⟩ := fracLoop_skip D hD size buf q hs hq 44 (size + 64) a n' (x % D) 0 (by omega) h2 h3 (Nat.mod_lt _ hD0)
    (Nat.le_trans h45 (Nat.mul_le_mul_right _ (by omega)))
  refine ⟨decide (m ≠ 0), w, ?_, h5, h6, h7, by rw [decide_eq_true_iff, h8]⟩
  rw [cvtdff, hch]
  simp only [Option.bind_some, h1]
  rw [if_neg hn, h4]
  simp

theorem cvtdff_zero (D : Nat) (hD : 2 ^ 149 = D) (x : Nat) (buf : List Nat) (q size : Nat) (hq : q + size ≤ buf.length)
    (a : List Nat) (n : Nat) (hch : chunksF (modfF x) = some (a, n)) (hinv : FInv a n (x % D)) (hx : x % D = 0) :
    cvtdff x buf q size true = some (over buf q (pad size 0), 0, false) := by
  obtain ⟨n', h1, h2, h3⟩ := finv_trim hinv
  have hn : n' = 0 := Classical.byContradiction fun h => h3.1 h hx
  rw [cvtdff, hch]
  simp only [Option.bind_some, h1]
  rw [if_pos hn, zeroLoop_ok _ _ _ hq]
  rfl

end Smlr.Fprint
