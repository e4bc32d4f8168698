import Verif.Number.Spec
import Mathlib.Tactic.Ring
set_option autoImplicit false
namespace Smlr.Number

/-- number represented by a chain of bytes -/
def val : List Nat → Nat
  | [] => 0
  | b :: l => b + 256 * val l

def Bytes (l : List Nat) : Prop := ∀ b ∈ l, b < 256

theorem val_lt {l : List Nat} (h : Bytes l) : val l < 256 ^ l.length := by
  induction l with
  | nil => simp [val]
  | cons b l ih =>
    have h1 := ih (fun x hx => h x (by simp [hx]))
    have h2 := h b (by simp)
    rw [List.length_cons, Nat.pow_succ]
    simp only [val]
    omega

theorem mulAdd_len (l : List Nat) : ∀ m c, (mulAdd l m c).length = l.length := by
  induction l with
  | nil => intros; rfl
  | cons b l ih => intro m c; simp [mulAdd, ih]

theorem mulAdd_bytes (l : List Nat) : ∀ m c, Bytes (mulAdd l m c) := by
  induction l with
  | nil => intro m c x hx; simp [mulAdd] at hx
  | cons b l ih =>
    intro m c x hx
    simp only [mulAdd, List.mem_cons] at hx
    rcases hx with rfl | hx
    · exact Nat.mod_lt _ (by omega)
    · exact ih _ _ x hx

theorem mulAdd_val (l : List Nat) : ∀ m c, val (mulAdd l m c) = (val l * m + c) % 256 ^ l.length := by
  induction l with
  | nil => intro m c; simp [val, mulAdd, Nat.mod_one]
  | cons b l ih =>
    intro m c
    simp only [mulAdd, val, ih, List.length_cons]
    rw [Nat.pow_succ, Nat.mul_comm (256 ^ l.length) 256, Nat.mod_mul]
    have e : (b + 256 * val l) * m + c = (c + b * m) + 256 * (val l * m) := by ring
    rw [e, Nat.add_mul_mod_self_left, Nat.add_mul_div_left _ _ (by omega : 0 < 256), Nat.add_comm ((c + b * m) / 256)]

theorem mulAdd_val' (l : List Nat) (m c : Nat) (h : val l * m + c < 256 ^ l.length) : val (mulAdd l m c) = val l * m + c := by
  rw [mulAdd_val, Nat.mod_eq_of_lt h]

theorem chainDiv_ok (l : List Nat) (d : Nat) (hd : 0 < d) :
    (chainDiv l d).1.length = l.length ∧ val (chainDiv l d).1 = val l / d ∧ (chainDiv l d).2 = val l % d ∧ (Bytes l → Bytes (chainDiv l d).1) := by
  induction l with
  | nil => refine ⟨rfl, by simp [chainDiv, val], by simp [chainDiv, val], fun _ x hx => by simp [chainDiv] at hx⟩
  | cons b l ih =>
    obtain ⟨h1, h2, h3, h4⟩ := ih
    simp only [chainDiv, List.length_cons, val]
    have hv := Nat.div_add_mod (val l) d
    have hm := Nat.mod_lt (val l) hd
    rw [h1, h2, h3]
    have e : b + 256 * val l = (val l % d * 256 + b) + d * (256 * (val l / d)) := by
      have : 256 * val l = 256 * (d * (val l / d) + val l % d) := by rw [hv]
      rw [this]; ring
    refine ⟨rfl, ?_, ?_, ?_⟩
    · rw [e, Nat.add_mul_div_left _ _ hd]
    · rw [e, Nat.add_mul_mod_self_left]
    · intro hb x hx
      simp only [List.mem_cons] at hx
      rcases hx with rfl | hx
      · have := hb b (by simp)
        rw [Nat.div_lt_iff_lt_mul hd]
        have : (val l % d + 1) * 256 ≤ d * 256 := Nat.mul_le_mul_right _ hm
        omega
      · exact h4 (fun y hy => hb y (by simp [hy])) x hx

theorem topBit_ok : ∀ b, b < 256 → b ≠ 0 → 2 ^ topBit 7 b ≤ b ∧ b < 2 ^ (topBit 7 b + 1) := by decide +kernel

theorem msb_ok {l : List Nat} (h : Bytes l) :
    (msb l = none ∧ val l = 0) ∨ ∃ t, msb l = some t ∧ 2 ^ t ≤ val l ∧ val l < 2 ^ (t + 1) := by
  induction l with
  | nil => left; exact ⟨rfl, rfl⟩
  | cons b l ih =>
    have hb := h b (by simp)
    rcases ih (fun x hx => h x (by simp [hx])) with ⟨h1, h2⟩ | ⟨t, h1, h2, h3⟩
    · simp only [msb, h1, val, h2]
      by_cases h0 : b = 0
      · left; simp [h0]
      · right
        refine ⟨topBit 7 b, by simp [h0], ?_⟩
        simpa using topBit_ok b hb h0
    · right
      refine ⟨t + 8, by simp [msb, h1], ?_, ?_⟩
      · simp only [val]
        have : 2 ^ (t + 8) = 256 * 2 ^ t := by rw [Nat.pow_add]; omega
        omega
      · simp only [val]
        have : 2 ^ (t + 8 + 1) = 256 * 2 ^ (t + 1) := by rw [show t + 8 + 1 = (t + 1) + 8 by omega, Nat.pow_add]; omega
        omega

theorem iter_succ {α : Type} (f : α → α) (n : Nat) (a : α) : iter f (n + 1) a = f (iter f n a) := by
  induction n generalizing a with
  | zero => rfl
  | succ n ih => rw [iter, ih (f a)]; rfl

theorem iter_mul (m : Nat) (hm : 1 ≤ m) (ch : List Nat) (hb : Bytes ch) : ∀ n, val ch * m ^ n < 256 ^ ch.length →
    val (iter (fun ch => mulAdd ch m 0) n ch) = val ch * m ^ n ∧ (iter (fun ch => mulAdd ch m 0) n ch).length = ch.length ∧
      Bytes (iter (fun ch => mulAdd ch m 0) n ch) := by
  intro n
  induction n with
  | zero => intro _; exact ⟨by simp [iter], rfl, hb⟩
  | succ n ih =>
    intro h
    have h' : val ch * m ^ n < 256 ^ ch.length := by
      refine Nat.lt_of_le_of_lt (Nat.mul_le_mul_left _ ?_) h
      exact Nat.pow_le_pow_right hm (by omega)
    obtain ⟨h1, h2, h3⟩ := ih h'
    rw [iter_succ]
    refine ⟨?_, by rw [mulAdd_len, h2], mulAdd_bytes _ _ _⟩
    rw [mulAdd_val', h1, Nat.add_zero, Nat.pow_succ, Nat.mul_assoc]
    rw [h1, h2, Nat.add_zero, Nat.mul_assoc, ← Nat.pow_succ]; exact h

theorem foldl_mul (ds : List Nat) (hd : ∀ d ∈ ds, d ≤ 9) : ∀ (ch : List Nat), Bytes ch → (val ch + 1) * 10 ^ ds.length ≤ 256 ^ ch.length →
    val (ds.foldl (fun ch d => mulAdd ch 10 d) ch) = ds.foldl (fun a d => a * 10 + d) (val ch) ∧
    (ds.foldl (fun ch d => mulAdd ch 10 d) ch).length = ch.length ∧ Bytes (ds.foldl (fun ch d => mulAdd ch 10 d) ch) := by
  induction ds with
  | nil => intro ch hb _; exact ⟨rfl, rfl, hb⟩
  | cons d ds ih =>
    intro ch hb h
    have h9 := hd d (by simp)
    rw [List.length_cons, Nat.pow_succ, Nat.mul_comm (10 ^ ds.length) 10, ← Nat.mul_assoc] at h
    have hp : 0 < 10 ^ ds.length := Nat.pow_pos (by omega)
    have hlt : val ch * 10 + d < 256 ^ ch.length := by
      have : (val ch + 1) * 10 * 1 ≤ (val ch + 1) * 10 * 10 ^ ds.length := Nat.mul_le_mul_left _ hp
      omega
    have e := mulAdd_val' ch 10 d hlt
    obtain ⟨i1, i2, i3⟩ := ih (fun x hx => hd x (by simp [hx])) (mulAdd ch 10 d) (mulAdd_bytes _ _ _) (by
      rw [e, mulAdd_len]
      refine Nat.le_trans (Nat.mul_le_mul_right _ ?_) h
      omega)
    simp only [List.foldl_cons]
    rw [i1, i2, e, mulAdd_len]
    exact ⟨rfl, rfl, i3⟩

end Smlr.Number
