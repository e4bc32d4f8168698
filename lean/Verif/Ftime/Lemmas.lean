import Verif.Ftime.Spec
import Verif.Time.Lemmas
import Mathlib.Data.Nat.Digits.Lemmas
import Mathlib.Tactic.SplitIfs
set_option autoImplicit false
namespace Smlr.Ftime
open Smlr.Time (Tm isleap u32 sub32)
open Smlr.Time.Spec (leap yearLen)
open Smlr.Printf (Str)
open Smlr.Printf.Spec (chr digits lower)
open Spec

theorem puts_nil (b : Buf) : puts [] b = b := rfl

theorem puts_cons (c : UInt8) (s : Str) (b : Buf) : puts (c :: s) b = puts s (putc c b) := rfl

theorem puts_append (s t : Str) (b : Buf) : puts (s ++ t) b = puts t (puts s b) := by
  unfold puts
  rw [List.foldl_append]

theorem puts_one (c : UInt8) (b : Buf) : puts [c] b = putc c b := rfl

theorem lower_digit : ∀ d, d < 10 → lower d = UInt8.ofNat (0x30 + d) := by decide

/-- the digits of a number that has at most `room` -/
theorem digs_eq (room n : Nat) (hr : 0 < room) (h : n < 10 ^ room) : digs room n = some (digits lower 10 1 n) := by
  induction room generalizing n with
  | zero => omega
  | succ room ih =>
    unfold digs
    split
    · rename_i h0
      have h1 : n < 10 := by omega
      congr 1
      rw [Nat.mod_eq_of_lt h1, ← lower_digit n h1]
      unfold digits
      by_cases hz : n = 0
      · subst hz; rfl
      · rw [Nat.digits_of_lt 10 n hz h1]
        rfl
    · rename_i h0
      have hn : 10 ≤ n := by omega
      have hroom : 0 < room := by
        rcases Nat.eq_zero_or_pos room with rfl | h'
        · simp at h; omega
        · exact h'
      rw [ih (n / 10) hroom (by rw [Nat.div_lt_iff_lt_mul (by omega)]; rwa [Nat.pow_succ] at h)]
      rw [Option.map_some, ← lower_digit _ (Nat.mod_lt _ (by omega))]
      congr 1
      unfold digits
      have e : Nat.digits 10 n = (n % 10) :: Nat.digits 10 (n / 10) := Nat.digits_def' (by omega) (by omega)
      rw [e]
      have l1 : (Nat.digits 10 (n / 10)).length ≠ 0 := by
        rw [Ne, List.length_eq_zero_iff, Nat.digits_eq_nil_iff_eq_zero]; omega
      simp only [List.reverse_cons, List.map_append, List.map_cons, List.map_nil, List.length_append, List.length_map, List.length_reverse, List.length_cons, List.length_nil]
      rw [show 1 - (Nat.digits 10 (n / 10)).length = 0 by omega, show 1 - ((Nat.digits 10 (n / 10)).length + (0 + 1)) = 0 by omega]
      simp

theorem u32_of (n : Nat) (h : n < 2 ^ 32) : u32 (n : Int) = n := by
  unfold u32; omega

theorem digits_pad (w n : Nat) : List.replicate (w - (digits lower 10 1 n).length) 0x30 ++ digits lower 10 1 n = digits lower 10 (max 1 w) n := by
  unfold digits
  have hc : chr '0' = 0x30 := by decide
  simp only [hc, List.length_append, List.length_replicate]
  rw [← List.append_assoc, List.replicate_append_replicate]
  congr 2
  omega

theorem putn_dec (n w : Nat) (h : n < 2 ^ 32) (b : Buf) : putn (n : Int) w 0x30 b = some (puts (dec w n) b) := by
  unfold putn
  rw [u32_of n h, digs_eq 10 n (by omega) (by omega), Option.map_some]
  congr 1
  rw [← puts_append, digits_pad]
  rfl

theorem putn_of (x : Int) (n w : Nat) (hx : x = n) (h : n < 2 ^ 32) (b : Buf) : putn x w 0x30 b = some (puts (dec w n) b) := by
  subst hx; exact putn_dec n w h b

theorem i32_of {x : Int} (h : -2 ^ 31 ≤ x ∧ x < 2 ^ 31) : i32 x = some x := if_pos h

theorem dec_len (n : Nat) (h : n < 10) : (digits lower 10 1 n).length = 1 := by
  have : ∀ m, m < 10 → (digits lower 10 1 m).length = 1 := by
    intro m hm
    unfold digits
    by_cases hz : m = 0
    · subst hz; rfl
    · rw [Nat.digits_of_lt 10 m hz hm]; rfl
  exact this n h

theorem putn_e (t : Tm) (h : Normal t) (b : Buf) : putn t.mday 2 0x20 b = some (puts (ee t) b) := by
  have hm := h.mday
  obtain ⟨n, hn⟩ : ∃ n : Nat, t.mday = n := ⟨t.mday.toNat, by omega⟩
  unfold putn ee
  rw [hn] at hm ⊢
  rw [u32_of n (by omega), digs_eq 10 n (by omega) (by omega), Option.map_some]
  congr 1
  rw [← puts_append]
  have hs : chr ' ' = 0x20 := by decide
  rw [Int.toNat_natCast]
  split
  · rename_i h1
    rw [dec_len n h1, hs]
    rfl
  · rename_i h1
    have : 2 ≤ (digits lower 10 1 n).length := by
      unfold digits
      rw [Nat.digits_def' (by omega) (by omega)]
      have : (Nat.digits 10 (n / 10)).length ≠ 0 := by
        rw [Ne, List.length_eq_zero_iff, Nat.digits_eq_nil_iff_eq_zero]; omega
      simp
      omega
    rw [show 2 - (digits lower 10 1 n).length = 0 by omega]
    rfl

/-! ### weeks -/

theorem leap_year (y : Nat) : isleap y ≠ 0 ↔ yearLen y = 366 := by
  rw [Time.isleap_eq]
  unfold yearLen
  split <;> simp

theorem len_year (y : Nat) : yearLen y = 365 ∨ yearLen y = 366 := by
  unfold yearLen
  split <;> simp

theorem week_ok (t : Tm) (h : Normal t) (hd : t.yday < yearLen (year t)) :
    week t = some ((isoYear t : Int), (isoWeek t : Int) - 1) := by
  obtain ⟨w, hw⟩ : ∃ n : Nat, t.wday = n := ⟨t.wday.toNat, by have := h.wday; omega⟩
  obtain ⟨d, hd'⟩ : ∃ n : Nat, t.yday = n := ⟨t.yday.toNat, by have := h.yday; omega⟩
  obtain ⟨y, hy⟩ : ∃ n : Nat, t.year + 1900 = n := ⟨(t.year + 1900).toNat, by have := h.year; omega⟩
  have hY : year t = y := by unfold year; omega
  have h1 := h.wday
  have h2 := h.yday
  have h3 := h.year
  rw [hw] at h1; rw [hd'] at h2; rw [hy] at h3
  have iso : isoDay t = (w + 6) % 7 := by unfold isoDay; rw [hw]; simp
  have hd2 : d < yearLen y := by rw [hY, hd'] at hd; omega
  unfold week isoYear isoWeek thursday
  rw [hY, hd', iso]
  rw [hy, hw]
  have tm1 : ((d : Int).tmod 7) = (d % 7 : Nat) := by rw [Int.tmod_eq_emod_of_nonneg (by omega)]; omega
  rw [i32_of (by omega), Option.bind_some, i32_of (by omega), Option.bind_some, tm1, i32_of (by omega), Option.bind_some]
  obtain ⟨j, hj⟩ : ∃ j : Nat, (6 + w + 7 - d % 7) % 7 = j := ⟨_, rfl⟩
  have tm2 : ((6 + (w : Int) - (d % 7 : Nat)).tmod 7) = j := by rw [Int.tmod_eq_emod_of_nonneg (by omega)]; omega
  dsimp only
  rw [tm2, i32_of (by omega), Option.bind_some]
  have tm3 : ((d : Int) + j).tdiv 7 = ((d + j) / 7 : Nat) := by rw [Int.tdiv_eq_ediv_of_nonneg (by omega)]; omega
  have tm4 : (7 - (j : Int)).tmod 7 = ((7 - j) % 7 : Nat) := by rw [Int.tmod_eq_emod_of_nonneg (by omega)]; omega
  rw [tm3, tm4]
  have u1 : u32 ((y : Int)) = y := u32_of y (by omega)
  have u2 : u32 ((y : Int) - 1) = y - 1 := by unfold u32; omega
  have q1 := leap_year y
  have q2 := leap_year (y - 1)
  have q3 := len_year y
  have q4 := len_year (y - 1)
  rw [u1, i32_of (x := (y : Int) - 1) (by omega), i32_of (x := (y : Int) + 1) (by omega), Option.map_some, Option.map_some, u2]
  generalize hL : yearLen y = L at *
  generalize hM : yearLen (y - 1) = M at *
  generalize isleap y = p at *
  generalize isleap (y - 1) = q at *
  simp only [q1, q2]
  have hj6 : j < 7 := by omega
  clear q1 q2 tm1 tm2 tm3 tm4 u1 u2 iso hw hd' hy hY h hL hM
  have key : ∀ (k : Nat), k = (d + j) / 7 → ∃ r, d + j = 7 * k + r ∧ r = (w + 6) % 7 := by
    intro k hk; exact ⟨(d + j) % 7, by omega, by omega⟩
  obtain ⟨r, hr1, hr2⟩ := key _ rfl
  rw [← hr2]
  generalize (d + j) / 7 = k at *
  have hr : r < 7 := by omega
  clear hj hr2
  split_ifs <;> simp only [Option.some.injEq, Prod.mk.injEq, true_and] <;> omega

end Smlr.Ftime
