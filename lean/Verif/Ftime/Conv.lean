import Verif.Ftime.Lemmas
set_option autoImplicit false
namespace Smlr.Ftime
open Smlr.Time (Tm isleap u32 sub32)
open Smlr.Time.Spec (leap yearLen)
open Smlr.Printf (Str)
open Smlr.Printf.Spec (chr digits lower)
open Spec

theorem count7 (k : Nat) (hk : k < 7) (n : Nat) : ((List.range n).filter fun ago => ago % 7 = k).length = (n + 6 - k) / 7 := by
  induction n with
  | zero => simp; omega
  | succ n ih =>
    rw [List.range_succ, List.filter_append, List.length_append, ih]
    by_cases h : n % 7 = k
    · simp [h]; omega
    · simp [h]; omega

theorem weekFrom_eq (t : Tm) (k : Nat) (hk : k < 7) : weekFrom t k = (t.yday.toNat + 7 - k) / 7 := by
  unfold weekFrom
  rw [count7 k hk]

variable {t : Tm}

theorem nat_of {x : Int} (h : 0 ≤ x) : x = (x.toNat : Int) := by omega

theorem name_ok (tab : List String) (i : Int) (h0 : 0 ≤ i) (h1 : i < tab.length) : name tab i = txt (tab.getD i.toNat "") := by
  unfold name
  rw [if_neg (by omega)]
  rfl

theorem abbr_day : ∀ n, n < 7 → txt (dayAbbr.getD n "") = (txt (days.getD n "")).take 3 := by decide +kernel

theorem abbr_month : ∀ n, n < 12 → txt (monthAbbr.getD n "") = (txt (months.getD n "")).take 3 := by decide +kernel

theorem fmt_a (f : Nat) (h : Normal t) (b : Buf) : doformat (f + 1) 0x61 t b = some (puts ((dayName t).take 3) b) := by
  have h1 := h.wday
  show some (puts (name dayAbbr t.wday) b) = _
  rw [name_ok dayAbbr _ h1.1 (by show _ < (7 : Int); omega), abbr_day _ (by omega)]
  rfl

theorem fmt_A (f : Nat) (h : Normal t) (b : Buf) : doformat (f + 1) 0x41 t b = some (puts (dayName t) b) := by
  have h1 := h.wday
  show some (puts (name dayFull t.wday) b) = _
  rw [name_ok dayFull _ h1.1 (by show _ < (7 : Int); omega)]
  rfl

theorem fmt_b (f : Nat) (h : Normal t) (b : Buf) : doformat (f + 1) 0x62 t b = some (puts ((monthName t).take 3) b) := by
  have h1 := h.mon
  show some (puts (name monthAbbr t.mon) b) = _
  rw [name_ok monthAbbr _ h1.1 (by show _ < (12 : Int); omega), abbr_month _ (by omega)]
  rfl

theorem fmt_h (f : Nat) (h : Normal t) (b : Buf) : doformat (f + 1) 0x68 t b = some (puts ((monthName t).take 3) b) :=
  fmt_b f h b

theorem fmt_B (f : Nat) (h : Normal t) (b : Buf) : doformat (f + 1) 0x42 t b = some (puts (monthName t) b) := by
  have h1 := h.mon
  show some (puts (name monthFull t.mon) b) = _
  rw [name_ok monthFull _ h1.1 (by show _ < (12 : Int); omega)]
  rfl

theorem fmt_C (f : Nat) (h : Normal t) (b : Buf) : doformat (f + 1) 0x43 t b = some (puts (dec 2 (year t / 100)) b) := by
  show (i32 (t.year + 1900)).bind _ = _
  have := h.year
  rw [i32_of (by omega), Option.bind_some]
  have e : (t.year + 1900).tdiv 100 = ((year t / 100 : Nat) : Int) := by
    rw [Int.tdiv_eq_ediv_of_nonneg (by omega)]; unfold year; omega
  exact putn_of _ _ _ e (by unfold year; omega) b

theorem fmt_y (f : Nat) (h : Normal t) (b : Buf) : doformat (f + 1) 0x79 t b = some (puts (yy t) b) := by
  show (i32 (t.year + 1900)).bind _ = _
  have := h.year
  rw [i32_of (by omega), Option.bind_some]
  have e : (t.year + 1900).tmod 100 = ((year t % 100 : Nat) : Int) := by
    rw [Int.tmod_eq_emod_of_nonneg (by omega)]; unfold year; omega
  exact putn_of _ _ _ e (by unfold year; omega) b

theorem fmt_Y (f : Nat) (h : Normal t) (b : Buf) : doformat (f + 1) 0x59 t b = some (puts (yyyy t) b) := by
  show (i32 (t.year + 1900)).bind _ = _
  have := h.year
  rw [i32_of (by omega), Option.bind_some]
  exact putn_of _ _ _ (nat_of (by omega)) (by omega) b

theorem fmt_d (f : Nat) (h : Normal t) (b : Buf) : doformat (f + 1) 0x64 t b = some (puts (dd t) b) :=
  putn_of _ _ _ (nat_of (by have := h.mday; omega)) (by have := h.mday; omega) b

theorem fmt_e (f : Nat) (h : Normal t) (b : Buf) : doformat (f + 1) 0x65 t b = some (puts (ee t) b) := putn_e t h b

theorem fmt_H (f : Nat) (h : Normal t) (b : Buf) : doformat (f + 1) 0x48 t b = some (puts (hh t) b) :=
  putn_of _ _ _ (nat_of h.hour.1) (by have := h.hour; omega) b

theorem fmt_M (f : Nat) (h : Normal t) (b : Buf) : doformat (f + 1) 0x4D t b = some (puts (mi t) b) :=
  putn_of _ _ _ (nat_of h.min.1) (by have := h.min; omega) b

theorem fmt_S (f : Nat) (h : Normal t) (b : Buf) : doformat (f + 1) 0x53 t b = some (puts (ss t) b) :=
  putn_of _ _ _ (nat_of h.sec.1) (by have := h.sec; omega) b

theorem fmt_w (f : Nat) (h : Normal t) (b : Buf) : doformat (f + 1) 0x77 t b = some (puts (dec 1 t.wday.toNat) b) :=
  putn_of _ _ _ (nat_of h.wday.1) (by have := h.wday; omega) b

theorem fmt_m (f : Nat) (h : Normal t) (b : Buf) : doformat (f + 1) 0x6D t b = some (puts (mm t) b) := by
  show (i32 (t.mon + 1)).bind _ = _
  have := h.mon
  rw [i32_of (by omega), Option.bind_some]
  exact putn_of _ _ _ (by omega) (by omega) b

theorem fmt_j (f : Nat) (h : Normal t) (b : Buf) : doformat (f + 1) 0x6A t b = some (puts (dec 3 (t.yday.toNat + 1)) b) := by
  show (i32 (t.yday + 1)).bind _ = _
  have := h.yday
  rw [i32_of (by omega), Option.bind_some]
  exact putn_of _ _ _ (by omega) (by omega) b

theorem fmt_I (f : Nat) (h : Normal t) (b : Buf) : doformat (f + 1) 0x49 t b = some (puts (dec 2 (hour12 t)) b) := by
  have := h.hour
  have e : (t.hour.tmod 12) = t.hour % 12 := Int.tmod_eq_emod_of_nonneg this.1
  refine putn_of _ _ _ ?_ (by unfold hour12; omega) b
  rw [e]
  unfold hour12
  split <;> omega

theorem fmt_p (f : Nat) (b : Buf) : doformat (f + 1) 0x70 t b = some (puts (ampm t) b) := by
  show some (puts (if t.hour ≥ 12 then lit "PM" else lit "AM") b) = _
  unfold ampm
  by_cases h : t.hour < 12
  · rw [if_pos h, if_neg (by omega)]; rfl
  · rw [if_neg h, if_pos (by omega)]; rfl

theorem fmt_u (f : Nat) (h : Normal t) (b : Buf) : doformat (f + 1) 0x75 t b = some (puts (dec 1 (isoDay t + 1)) b) := by
  have := h.wday
  refine putn_of _ _ _ ?_ (by unfold isoDay; omega) b
  unfold isoDay
  split <;> omega

theorem fmt_U (f : Nat) (h : Normal t) (b : Buf) : doformat (f + 1) 0x55 t b = some (puts (dec 2 (weekFrom t t.wday.toNat)) b) := by
  show (i32 (t.yday + 7)).bind _ = _
  have := h.yday
  have := h.wday
  rw [weekFrom_eq _ _ (by omega), i32_of (by omega), Option.bind_some, i32_of (by omega), Option.bind_some]
  refine putn_of _ _ _ ?_ (by omega) b
  rw [Int.tdiv_eq_ediv_of_nonneg (by omega)]
  omega

theorem fmt_W (f : Nat) (h : Normal t) (b : Buf) : doformat (f + 1) 0x57 t b = some (puts (dec 2 (weekFrom t (isoDay t))) b) := by
  show (i32 (t.yday + 7)).bind _ = _
  have := h.yday
  have := h.wday
  have e : (if t.wday ≠ 0 then t.wday - 1 else 6) = (isoDay t : Int) := by
    unfold isoDay; split <;> omega
  have hi : isoDay t < 7 := by unfold isoDay; omega
  rw [weekFrom_eq _ _ hi, i32_of (by omega), Option.bind_some, e, i32_of (by omega), Option.bind_some]
  refine putn_of _ _ _ ?_ (by omega) b
  rw [Int.tdiv_eq_ediv_of_nonneg (by omega)]
  omega

theorem iso_bound (h : Normal t) (hd : t.yday < yearLen (year t)) : isoYear t < 2 ^ 32 ∧ 1 ≤ isoWeek t ∧ isoWeek t < 100 := by
  have := h.year
  have := h.yday
  have l1 := len_year (year t)
  have l2 := len_year (year t - 1)
  have hi : isoDay t < 7 := by unfold isoDay; omega
  have hy : year t < 2 ^ 31 := by unfold year; omega
  unfold isoYear isoWeek thursday
  dsimp only
  split_ifs <;> dsimp only <;> omega

theorem fmt_g (f : Nat) (h : Normal t) (hd : t.yday < yearLen (year t)) (b : Buf) : doformat (f + 1) 0x67 t b = some (puts (dec 2 (isoYear t % 100)) b) := by
  show (week t).bind _ = _
  rw [week_ok t h hd, Option.bind_some]
  exact putn_of _ _ _ (by rw [Int.tmod_eq_emod_of_nonneg (by omega)]; omega) (by omega) b

theorem fmt_G (f : Nat) (h : Normal t) (hd : t.yday < yearLen (year t)) (b : Buf) : doformat (f + 1) 0x47 t b = some (puts (dec 1 (isoYear t)) b) := by
  show (week t).bind _ = _
  rw [week_ok t h hd, Option.bind_some]
  exact putn_of _ _ _ rfl (iso_bound h hd).1 b

theorem fmt_V (f : Nat) (h : Normal t) (hd : t.yday < yearLen (year t)) (b : Buf) : doformat (f + 1) 0x56 t b = some (puts (dec 2 (isoWeek t)) b) := by
  show (week t).bind _ = _
  have := iso_bound h hd
  rw [week_ok t h hd, Option.bind_some]
  exact putn_of _ _ _ (by omega) (by omega) b

theorem txt_one (c : Char) (b : Buf) : puts (txt (String.singleton c)) b = putc (chr c) b := by
  simp [txt, puts]

theorem fmt_D (f : Nat) (h : Normal t) (b : Buf) : doformat (f + 2) 0x44 t b = some (puts (mm t ++ txt "/" ++ dd t ++ txt "/" ++ yy t) b) := by
  show (doformat (f + 1) 0x6D t b).bind (fun b => (doformat (f + 1) 0x64 t (putc 0x2F b)).bind fun b => doformat (f + 1) 0x79 t (putc 0x2F b)) = _
  rw [fmt_m f h, Option.bind_some, fmt_d f h, Option.bind_some, fmt_y f h, puts_append, puts_append, puts_append, puts_append]
  rfl

theorem fmt_F (f : Nat) (h : Normal t) (b : Buf) : doformat (f + 2) 0x46 t b = some (puts (yyyy t ++ txt "-" ++ mm t ++ txt "-" ++ dd t) b) := by
  show (doformat (f + 1) 0x59 t b).bind (fun b => (doformat (f + 1) 0x6D t (putc 0x2D b)).bind fun b => doformat (f + 1) 0x64 t (putc 0x2D b)) = _
  rw [fmt_Y f h, Option.bind_some, fmt_m f h, Option.bind_some, fmt_d f h, puts_append, puts_append, puts_append, puts_append]
  rfl

theorem fmt_T (f : Nat) (h : Normal t) (b : Buf) : doformat (f + 2) 0x54 t b = some (puts (hh t ++ txt ":" ++ mi t ++ txt ":" ++ ss t) b) := by
  show (doformat (f + 1) 0x48 t b).bind (fun b => (doformat (f + 1) 0x4D t (putc 0x3A b)).bind fun b => doformat (f + 1) 0x53 t (putc 0x3A b)) = _
  rw [fmt_H f h, Option.bind_some, fmt_M f h, Option.bind_some, fmt_S f h, puts_append, puts_append, puts_append, puts_append]
  rfl

theorem fmt_R (f : Nat) (h : Normal t) (b : Buf) : doformat (f + 2) 0x52 t b = some (puts (hh t ++ txt ":" ++ mi t) b) := by
  show (doformat (f + 1) 0x48 t b).bind (fun b => doformat (f + 1) 0x4D t (putc 0x3A b)) = _
  rw [fmt_H f h, Option.bind_some, fmt_M f h, puts_append, puts_append]
  rfl

theorem fmt_r (f : Nat) (h : Normal t) (b : Buf) : doformat (f + 2) 0x72 t b = some (puts (dec 2 (hour12 t) ++ txt ":" ++ mi t ++ txt ":" ++ ss t ++ txt " " ++ ampm t) b) := by
  show (doformat (f + 1) 0x49 t b).bind (fun b => (doformat (f + 1) 0x4D t (putc 0x3A b)).bind fun b => (doformat (f + 1) 0x53 t (putc 0x3A b)).bind fun b => doformat (f + 1) 0x70 t (putc 0x20 b)) = _
  rw [fmt_I f h, Option.bind_some, fmt_M f h, Option.bind_some, fmt_S f h, Option.bind_some, fmt_p f, puts_append, puts_append, puts_append, puts_append, puts_append, puts_append]
  rfl

theorem fmt_c (f : Nat) (h : Normal t) (b : Buf) : doformat (f + 3) 0x63 t b =
    some (puts ((dayName t).take 3 ++ txt " " ++ (monthName t).take 3 ++ txt " " ++ ee t ++ txt " " ++ hh t ++ txt ":" ++ mi t ++ txt ":" ++ ss t ++ txt " " ++ yyyy t) b) := by
  show (doformat (f + 2) 0x61 t b).bind (fun b => (doformat (f + 2) 0x62 t (putc 0x20 b)).bind fun b => (doformat (f + 2) 0x65 t (putc 0x20 b)).bind fun b =>
    (doformat (f + 2) 0x54 t (putc 0x20 b)).bind fun b => doformat (f + 2) 0x59 t (putc 0x20 b)) = _
  rw [fmt_a (f + 1) h, Option.bind_some, fmt_b (f + 1) h, Option.bind_some, fmt_e (f + 1) h, Option.bind_some, fmt_T f h, Option.bind_some, fmt_Y (f + 1) h]
  simp only [puts_append]
  rfl

/-- every conversion specifier but `%` -/
theorem doformat_ok {c : Char} {s : Str} (hc : Conv t c s) (hp : c ≠ '%') (h : Normal t) (b : Buf) : doformat 3 (chr c) t b = some (puts s b) := by
  cases hc with
  | a => exact fmt_a 2 h b
  | A => exact fmt_A 2 h b
  | b => exact fmt_b 2 h b
  | h => exact fmt_h 2 h b
  | B => exact fmt_B 2 h b
  | c => exact fmt_c 0 h b
  | C => exact fmt_C 2 h b
  | d => exact fmt_d 2 h b
  | D => exact fmt_D 1 h b
  | x => exact fmt_D 1 h b
  | e => exact fmt_e 2 h b
  | F => exact fmt_F 1 h b
  | g hd => exact fmt_g 2 h hd b
  | G hd => exact fmt_G 2 h hd b
  | V hd => exact fmt_V 2 h hd b
  | H => exact fmt_H 2 h b
  | I => exact fmt_I 2 h b
  | j => exact fmt_j 2 h b
  | m => exact fmt_m 2 h b
  | M => exact fmt_M 2 h b
  | n => rfl
  | p => exact fmt_p 2 b
  | r => exact fmt_r 1 h b
  | R => exact fmt_R 1 h b
  | S => exact fmt_S 2 h b
  | t => rfl
  | T => exact fmt_T 1 h b
  | X => exact fmt_T 1 h b
  | u => exact fmt_u 2 h b
  | U => exact fmt_U 2 h b
  | w => exact fmt_w 2 h b
  | W => exact fmt_W 2 h b
  | y => exact fmt_y 2 h b
  | Y => exact fmt_Y 2 h b
  | z => rfl
  | Z => rfl
  | pct => exact absurd rfl hp

/-- the letters are none of `%`, `E`, `O` -/
theorem conv_plain {c : Char} {s : Str} (hc : Conv t c s) (hp : c ≠ '%') : chr c ≠ 0x25 ∧ chr c ≠ 0x45 ∧ chr c ≠ 0x4F := by
  cases hc <;> first | exact absurd rfl hp | decide

/-- the loop writes what the format is replaced by, and a NUL -/
theorem helper_ok (h : Normal t) {fmt o : Str} (hf : Fmt t fmt o) (b : Buf) : helper t fmt b = some (true, puts (o ++ [0]) b) := by
  induction hf generalizing b with
  | nil => rfl
  | char hc _ ih =>
    unfold helper
    rw [if_pos (show _ ≠ (0x25 : UInt8) from hc), ih]
    rfl
  | @conv c s r o hc _ ih =>
    by_cases hp : c = '%'
    · subst hp
      have hs : s = txt "%" := by cases hc; rfl
      subst hs
      unfold helper
      rw [if_neg (by decide)]
      simp only []
      rw [if_pos (by decide), ih]
      rfl
    · obtain ⟨p1, p2, p3⟩ := conv_plain hc hp
      unfold helper
      rw [if_neg (by decide)]
      simp only []
      rw [if_neg p1, if_neg (by simp [p2, p3]), doformat_ok hc hp h, Option.bind_some, ih, List.append_assoc, puts_append s (o ++ [0])]
  | @alt m c cs s r o hm hcs hc _ ih =>
    have hp : c ≠ '%' := by
      rintro rfl
      revert hm hcs
      unfold alts
      simp only [List.mem_cons, Prod.mk.injEq, List.not_mem_nil, or_false]
      rintro (⟨rfl, rfl⟩ | ⟨rfl, rfl⟩) <;> decide
    have hm' : chr m ≠ 0x25 ∧ (chr m = 0x45 ∨ chr m = 0x4F) := by
      revert hm
      unfold alts
      simp only [List.mem_cons, Prod.mk.injEq, List.not_mem_nil, or_false]
      rintro (⟨rfl, rfl⟩ | ⟨rfl, rfl⟩) <;> decide
    unfold helper
    rw [if_neg (by decide)]
    simp only []
    rw [if_neg hm'.1, if_pos hm'.2]
    rw [doformat_ok hc hp h, Option.bind_some, ih, List.append_assoc, puts_append s (o ++ [0])]

/-! ### the buffer -/

theorem puts_state (s : Str) (b : Buf) (h : b.size + s.length < 2 ^ 32) (hb : b.out.length = min b.size b.maxsize) :
    (puts s b).size = b.size + s.length ∧ (puts s b).maxsize = b.maxsize ∧ (puts s b).out = b.out ++ s.take (b.maxsize - b.size) := by
  induction s generalizing b with
  | nil => simp [puts_nil]
  | cons c s ih =>
    rw [List.length_cons] at h
    have e : (putc c b).size = b.size + 1 := by show (b.size + 1) % 2 ^ 32 = _; omega
    rw [puts_cons]
    have hm : (putc c b).maxsize = b.maxsize := rfl
    by_cases hs : b.size < b.maxsize
    · have ho : (putc c b).out = b.out ++ [c] := if_pos hs
      have := ih (putc c b) (by rw [e]; omega) (by rw [e, ho, hm, List.length_append]; simp; omega)
      rw [this.1, this.2.1, this.2.2, e, ho, hm, List.length_cons]
      refine ⟨by omega, rfl, ?_⟩
      rw [show b.maxsize - b.size = (b.maxsize - (b.size + 1)) + 1 by omega, List.take_succ_cons, List.append_assoc]
      rfl
    · have ho : (putc c b).out = b.out := if_neg hs
      have := ih (putc c b) (by rw [e]; omega) (by rw [e, ho, hm]; omega)
      rw [this.1, this.2.1, this.2.2, e, ho, hm, List.length_cons]
      refine ⟨by omega, rfl, ?_⟩
      rw [show b.maxsize - b.size = 0 by omega, show b.maxsize - (b.size + 1) = 0 by omega]
      rfl

theorem puts_size (s : Str) (b : Buf) (hb : b.size < 2 ^ 32) : (puts s b).size = (b.size + s.length) % 2 ^ 32 ∧ (puts s b).maxsize = b.maxsize ∧ b.out.length ≤ (puts s b).out.length := by
  induction s generalizing b with
  | nil => exact ⟨by rw [puts_nil, List.length_nil]; omega, rfl, Nat.le_refl _⟩
  | cons c s ih =>
    rw [puts_cons]
    have e : (putc c b).size = (b.size + 1) % 2 ^ 32 := rfl
    have := ih (putc c b) (by rw [e]; omega)
    refine ⟨by rw [this.1, e, List.length_cons]; omega, this.2.1, Nat.le_trans ?_ this.2.2⟩
    show _ ≤ (if b.size < b.maxsize then b.out ++ [c] else b.out).length
    split <;> simp

end Smlr.Ftime
