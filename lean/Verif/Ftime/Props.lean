import Verif.Ftime.Conv
import Verif.Time.Props
import Verif.Printf.Props
set_option autoImplicit false
/-! C52: dates and times as text. -/
namespace Smlr.Ftime
open Smlr.Time (Tm isleap u32 sub32)
open Smlr.Time.Spec (leap yearLen Civil)
open Smlr.Printf (Str)
open Smlr.Printf.Spec (chr digits lower)
open Spec

/-- `strftime` replaces the conversion specifiers of a format as C says.  (Missing: texts of 4 GiB and more, for which see `c52_defect`.)  If the text and a NUL fit into the buffer they are stored there and the length of the text is the result; otherwise the result is 0.  Nothing is stored outside the buffer. -/
theorem c52_strftime_partial (t : Tm) (h : Normal t) (fmt o : Str) (hf : Fmt t fmt o) (maxsize : Nat) (hl : o.length + 1 < 2 ^ 32) :
    strftime maxsize fmt t = some (if o.length + 1 ≤ maxsize then (o.length, o ++ [0]) else (0, (o ++ [0]).take maxsize)) := by
  have hlen : (o ++ [(0 : UInt8)]).length = o.length + 1 := by simp
  obtain ⟨p1, p2, p3⟩ := puts_state (o ++ [0]) ⟨maxsize, 0, []⟩ (by rw [hlen]; show 0 + _ < _; omega) (by show 0 = min 0 maxsize; omega)
  unfold strftime
  rw [helper_ok h hf, Option.bind_some]
  dsimp only
  rw [p1, p2, p3, hlen]
  dsimp only
  rw [Nat.zero_add, Nat.sub_zero, List.nil_append, if_neg (by rw [List.length_take]; omega), if_neg (by simp)]
  by_cases hm : o.length + 1 ≤ maxsize
  · rw [if_pos hm, if_pos hm, List.take_of_length_le (by rw [hlen]; exact hm)]
    rw [show sub32 (o.length + 1) 1 = o.length by unfold sub32; omega]
  · rw [if_neg hm, if_neg hm]

private theorem years_days (n : Nat) : n * 365 ≤ Time.Spec.daysBeforeYear n := by
  induction n with
  | zero => exact Nat.zero_le _
  | succ n ih =>
    rw [Time.year_succ, Nat.succ_mul]
    rcases len_year (1970 + n) with h | h <;> rw [h]
    · exact Nat.add_le_add_right ih 365
    · exact Nat.add_le_add ih (by decide)

/-- Every time up to the end of 2105 that `gmtime` breaks down is a valid date whose members are in their normal ranges, so that `c52_strftime_partial` applies to every format; the ISO 8601 week is defined for it as well. -/
theorem c52_gmtime (s : Nat) (hs : s < 49673 * 86400) : ∃ c : Civil, c.valid ∧ c.seconds = s ∧ Time.gmtime s = some (some c.tm) ∧ Normal c.tm ∧ c.tm.yday < yearLen (year c.tm) := by
  obtain ⟨c, hc, h1, h2⟩ := Time.c12_gmtime s hs
  obtain ⟨v1, v2, v3, v4, v5, v6⟩ := hc
  have hml : ∀ y m, Time.Spec.monthLen y m ≤ 31 := by
    intro y m; unfold Time.Spec.monthLen; split <;> (try split) <;> omega
  have hm := hml (1970 + c.y) c.m
  have hyr : c.y < 200000 := by
    have := years_days c.y
    have h3 : c.days * 86400 + c.h * 3600 + c.min * 60 + c.s = s := h1
    unfold Civil.days at h3
    omega
  have hyd : c.yday < yearLen (1970 + c.y) := by
    unfold Civil.yday
    have h12 : ∀ m, m < 12 → Time.Spec.daysBeforeMonth (1970 + c.y) m + Time.Spec.monthLen (1970 + c.y) m ≤ yearLen (1970 + c.y) := by
      intro m hm
      rw [← Time.month_12, ← Time.month_succ]
      have mono : ∀ a b, a ≤ b → Time.Spec.daysBeforeMonth (1970 + c.y) a ≤ Time.Spec.daysBeforeMonth (1970 + c.y) b := by
        intro a b hab
        induction hab with
        | refl => exact Nat.le_refl _
        | step _ ih => rw [Time.month_succ]; omega
      exact mono _ _ (by omega)
    have := h12 c.m v1
    omega
  have hY : year c.tm = 1970 + c.y := by unfold year Civil.tm; dsimp only; omega
  refine ⟨c, ⟨v1, v2, v3, v4, v5, v6⟩, h1, h2, ?_, by rw [hY]; exact Int.ofNat_lt.mpr hyd⟩
  have hl := len_year (1970 + c.y)
  constructor <;> unfold Civil.tm <;> dsimp only
  · omega
  · omega
  · omega
  · omega
  · omega
  · omega
  · unfold Civil.wday; omega
  · omega

/-- Formats whose text is 4 GiB or longer, which a format of a few hundred megabytes can have: the count of characters wraps around, and characters are stored outside the buffer. -/
theorem c52_defect (t : Tm) (h : Normal t) (fmt o : Str) (hf : Fmt t fmt o) (maxsize : Nat) (h0 : 0 < maxsize) (hm : maxsize < 2 ^ 32) (hl : 2 ^ 32 ≤ o.length) :
    strftime maxsize fmt t = none := by
  unfold strftime
  rw [helper_ok h hf, Option.bind_some]
  dsimp only
  refine if_pos ?_
  -- up to the character before the count wraps around, the buffer is filled
  obtain ⟨s, c, c', r, hs, hlen⟩ : ∃ (s : Str) (c c' : UInt8) (r : Str), o ++ [0] = s ++ c :: c' :: r ∧ s.length = 2 ^ 32 - 1 := by
    have hlen : (o ++ [(0 : UInt8)]).length = o.length + 1 := by simp
    have hd : ((o ++ [(0 : UInt8)]).drop (2 ^ 32 - 1)).length = o.length + 1 - (2 ^ 32 - 1) := by rw [List.length_drop, hlen]
    generalize hq : (o ++ [(0 : UInt8)]).drop (2 ^ 32 - 1) = q at hd
    match q, hd with
    | [], hd => rw [List.length_nil] at hd; omega
    | [_], hd => rw [List.length_singleton] at hd; omega
    | c :: c' :: r, _ =>
      refine ⟨(o ++ [0]).take (2 ^ 32 - 1), c, c', r, ?_, ?_⟩
      · rw [← hq, List.take_append_drop]
      · rw [List.length_take, hlen]; omega
  rw [hs, puts_append, puts_cons, puts_cons]
  obtain ⟨p1, p2, p3⟩ := puts_state s ⟨maxsize, 0, []⟩ (by rw [hlen]; show 0 + _ < _; omega) (by show 0 = min 0 maxsize; omega)
  generalize puts s ⟨maxsize, 0, []⟩ = b at p1 p2 p3
  dsimp only at p1 p2 p3
  have hb : b.out.length = maxsize := by rw [p3, List.nil_append, List.length_take]; omega
  have e1 : (putc c b).size = 0 := by show (b.size + 1) % 2 ^ 32 = 0; omega
  have o1 : maxsize ≤ (putc c b).out.length := by
    show _ ≤ (if b.size < b.maxsize then b.out ++ [c] else b.out).length
    split
    · rw [List.length_append]; omega
    · omega
  have o2 : (putc c' (putc c b)).out = (putc c b).out ++ [c'] := if_pos (by rw [e1]; show 0 < b.maxsize; omega)
  have e2 : (putc c' (putc c b)).size < 2 ^ 32 := Nat.mod_lt _ (by omega)
  have := (puts_size r _ e2).2.2
  rw [o2, List.length_append, List.length_singleton] at this
  omega

/-- There are such formats: `%c` many times. -/
example (t : Tm) (n : Nat) : ∃ o, Fmt t (List.replicate n [chr '%', chr 'T']).flatten o ∧ n ≤ o.length := by
  induction n with
  | zero => exact ⟨[], .nil, Nat.le_refl _⟩
  | succ n ih =>
    obtain ⟨o, h1, h2⟩ := ih
    exact ⟨_, by rw [List.replicate_succ, List.flatten_cons]; exact .conv .T h1, by simp [txt]; omega⟩

open Smlr.Printf.Spec (Item text convOut justify intText intParts signedArg) in
private theorem conv_d (x : Int) (h0 : 0 ≤ x) (h1 : x < 2 ^ 31) (w : Nat) (p : Option Nat) (vl : List Printf.Arg) :
    convOut [] false w p .none .d (.int (BitVec.ofInt 32 x) :: vl) = some (justify false w (digits lower 10 (p.getD 1) x.toNat), vl) := by
  have e : signedArg .none (BitVec.ofInt 32 x) = x := by
    show (BitVec.ofInt 32 x).toInt = x
    rw [BitVec.toInt_ofInt, Int.bmod_eq_of_le] <;> omega
  show some (intText [] false w p .none .d (BitVec.ofInt 32 x), vl) = _
  have hx : ¬ x < 0 := by omega
  unfold intText intParts
  simp only [e, hx, if_false, List.not_mem_nil, false_and, List.nil_append, show x.natAbs = x.toNat by omega]

open Smlr.Printf.Spec (Item text convOut justify) in
private def items : List Item :=
  [.conv [] .none (.num [3]) .none .s, .lit 0x20, .conv [] .none (.num [3]) .none .s, .conv [] (.num [3]) .none .none .d, .lit 0x20,
   .conv [] .none (.num [2]) .none .d, .lit 0x3A, .conv [] .none (.num [2]) .none .d, .lit 0x3A, .conv [] .none (.num [2]) .none .d, .lit 0x20,
   .conv [] .none .none .none .d, .lit 0x0A]

private theorem items_text : (items.map Printf.Spec.Item.text).flatten = lit "%.3s %.3s%3d %.2d:%.2d:%.2d %d\n" := by decide +kernel

open Smlr.Printf.Spec (justify) in
private theorem mday_text (t : Tm) (h : Normal t) : justify false 3 (digits lower 10 1 t.mday.toNat) = txt " " ++ ee t := by
  have := h.mday
  unfold ee
  obtain ⟨n, hn⟩ : ∃ n, t.mday.toNat = n := ⟨_, rfl⟩
  rw [hn]
  have h1 : 1 ≤ n ∧ n ≤ 31 := by omega
  have key : ∀ n, n < 32 → justify false 3 (digits lower 10 1 n) = txt " " ++ (if n < 10 then chr ' ' :: dec 1 n else dec 1 n) := by decide +kernel
  exact key n (by omega)

private theorem day_take : ∀ n, n < 7 → (List.drop (3 * n) (lit "SunMonTueWedThuFriSat")).take 3 = (txt (days.getD n "")).take 3 := by decide +kernel

private theorem month_take : ∀ n, n < 12 → (List.drop (3 * n) (lit "JanFebMarAprMayJunJulAugSepOctNovDec")).take 3 = (txt (months.getD n "")).take 3 := by decide +kernel

open Smlr.Printf.Spec (justify) in
private theorem justify_zero (s : Str) : justify false 0 s = s := by
  unfold justify
  rw [Nat.zero_sub]
  rfl

open Smlr.Printf.Spec (Item text convOut justify) in
private theorem asctime_text (t : Tm) (h : Normal t) :
    text items [.str (some ((lit "SunMonTueWedThuFriSat").drop (3 * t.wday.toNat))), .str (some ((lit "JanFebMarAprMayJunJulAugSepOctNovDec").drop (3 * t.mon.toNat))),
     .int (BitVec.ofInt 32 t.mday), .int (BitVec.ofInt 32 t.hour), .int (BitVec.ofInt 32 t.min), .int (BitVec.ofInt 32 t.sec), .int (BitVec.ofInt 32 (1900 + t.year))] =
    some ((dayName t).take 3 ++ txt " " ++ (monthName t).take 3 ++ txt " " ++ ee t ++ txt " " ++ hh t ++ txt ":" ++ mi t ++ txt ":" ++ ss t ++ txt " " ++ yyyy t ++ txt "\n") := by
  have h1 := h.wday; have h2 := h.mon; have h3 := h.mday; have h4 := h.hour; have h5 := h.min; have h6 := h.sec; have h7 := h.year
  have s1 : ∀ (s : Str) (vl : List Printf.Arg), s.length < 2 ^ 31 → (Item.conv [] .none (.num [3]) .none .s).out (.str (some s) :: vl) = some (s.take 3, vl) := by
    intro s vl hs
    show (if s.length < 2 ^ 31 then some (justify false 0 (s.take 3), vl) else none) = _
    rw [if_pos hs, justify_zero]
  have d2 : ∀ (x : Int) (vl : List Printf.Arg), 0 ≤ x → x < 2 ^ 31 → (Item.conv [] .none (.num [2]) .none .d).out (.int (BitVec.ofInt 32 x) :: vl) = some (dec 2 x.toNat, vl) := by
    intro x vl a b
    have := conv_d x a b 0 (some 2) vl
    rw [justify_zero] at this
    exact this
  have d0 : ∀ (x : Int) (vl : List Printf.Arg), 0 ≤ x → x < 2 ^ 31 → (Item.conv [] .none .none .none .d).out (.int (BitVec.ofInt 32 x) :: vl) = some (dec 1 x.toNat, vl) := by
    intro x vl a b
    have := conv_d x a b 0 none vl
    rw [justify_zero] at this
    exact this
  have d3 : ∀ (vl : List Printf.Arg), (Item.conv [] (.num [3]) .none .none .d).out (.int (BitVec.ofInt 32 t.mday) :: vl) = some (txt " " ++ ee t, vl) := by
    intro vl
    have := conv_d t.mday (by omega) (by omega) 3 none vl
    rw [show (none : Option Nat).getD 1 = 1 from rfl, mday_text t h] at this
    exact this
  have li : ∀ (c : UInt8) (vl : List Printf.Arg), (Item.lit c).out vl = some ([c], vl) := fun _ _ => rfl
  have l1 : ((lit "SunMonTueWedThuFriSat").drop (3 * t.wday.toNat)).length < 2 ^ 31 := by
    rw [List.length_drop]; exact Nat.lt_of_le_of_lt (Nat.sub_le _ _) (by decide)
  have l2 : ((lit "JanFebMarAprMayJunJulAugSepOctNovDec").drop (3 * t.mon.toNat)).length < 2 ^ 31 := by
    rw [List.length_drop]; exact Nat.lt_of_le_of_lt (Nat.sub_le _ _) (by decide)
  have nil : text [] [] = some [] := rfl
  unfold items
  simp only [text, s1 _ _ l1, s1 _ _ l2, d3, d2 t.hour _ (by omega) (by omega), d2 t.min _ (by omega) (by omega), d2 t.sec _ (by omega) (by omega),
    d0 (1900 + t.year) _ (by omega) (by omega), li, Option.bind_some, Option.map_some]
  rw [day_take _ (by omega), month_take _ (by omega), show (1900 + t.year) = t.year + 1900 by omega]
  unfold hh mi ss yyyy year dayName monthName
  simp [txt]
  decide

private theorem dec_length (k n : Nat) (hk : 1 ≤ k) (h : n < 10 ^ k) : (dec k n).length = k := by
  unfold dec digits
  have : (Nat.digits 10 n).length ≤ k := by
    rw [Nat.digits_length_le_iff (by omega)]
    exact h
  simp
  omega

private theorem ee_length (t : Tm) (h : Normal t) : (ee t).length = 2 := by
  have := h.mday
  have key : ∀ n, 1 ≤ n → n < 32 → (if n < 10 then chr ' ' :: dec 1 n else dec 1 n).length = 2 := by decide +kernel
  exact key _ (by omega) (by omega)

private theorem day_length : ∀ n, n < 7 → ((txt (days.getD n "")).take 3).length = 3 := by decide +kernel

private theorem month_length : ∀ n, n < 12 → ((txt (months.getD n "")).take 3).length = 3 := by decide +kernel

/-- `asctime` makes the text of 24 characters, a line end and a NUL that C describes, if the year has at most four digits; it uses nothing outside its tables and its buffer. -/
theorem c52_asctime (t : Tm) (h : Normal t) (hy : t.year + 1900 ≤ 9999) :
    asctime t = some ((dayName t).take 3 ++ txt " " ++ (monthName t).take 3 ++ txt " " ++ ee t ++ txt " " ++ hh t ++ txt ":" ++ mi t ++ txt ":" ++ ss t ++ txt " " ++ yyyy t ++ txt "\n" ++ [0]) := by
  have h1 := h.wday; have h2 := h.mon; have h4 := h.hour; have h5 := h.min; have h6 := h.sec; have h7 := h.year
  have hp := Printf.c11_printf_partial ⟨some (2 ^ 31 - 2), true⟩ items _ _ (by
      intro i hi
      unfold items at hi
      simp only [List.mem_cons, List.not_mem_nil, or_false] at hi
      rcases hi with rfl | rfl | rfl | rfl | rfl | rfl | rfl | rfl | rfl | rfl | rfl | rfl | rfl <;> (constructor <;> decide)) ?_ (asctime_text t h)
  · unfold asctime
    rw [if_neg (by omega), i32_of (by omega), Option.bind_some, ← items_text, hp, Option.bind_some]
    generalize hT : ((dayName t).take 3 ++ txt " " ++ (monthName t).take 3 ++ txt " " ++ ee t ++ txt " " ++ hh t ++ txt ":" ++ mi t ++ txt ":" ++ ss t ++ txt " " ++ yyyy t ++ txt "\n") = T
    have hl : T.length ≤ 25 := by
      rw [← hT]
      have y4 : (yyyy t).length ≤ 4 := by
        have : ∀ n, n < 10000 → (dec 1 n).length ≤ 4 := by
          intro n hn
          unfold dec digits
          have : (Nat.digits 10 n).length ≤ 4 := by
            rw [Nat.digits_length_le_iff (by omega)]; exact hn
          simp
          omega
        exact this _ (by unfold year; omega)
      have t1 : (txt " ").length = 1 ∧ (txt ":").length = 1 ∧ (txt "\n").length = 1 := by decide
      have a1 : ((dayName t).take 3).length = 3 := day_length _ (by omega)
      have a2 : ((monthName t).take 3).length = 3 := month_length _ (by omega)
      have a3 : (hh t).length = 2 := dec_length 2 _ (by omega) (by omega)
      have a4 : (mi t).length = 2 := dec_length 2 _ (by omega) (by omega)
      have a5 : (ss t).length = 2 := dec_length 2 _ (by omega) (by omega)
      simp only [List.length_append, a1, a2, a3, a4, a5, ee_length t h, t1]
      omega
    have hr : (Printf.Spec.result ⟨some (2 ^ 31 - 2), true⟩ T).1 = T := List.take_of_length_le (by omega)
    rw [hr, if_neg (by omega)]
  · unfold items
    simp [Printf.Spec.fine]

/-- `ctime`, where local time is UTC: for every time up to the end of 2105 the text of its date. -/
theorem c52_ctime (s : Nat) (hs : s < 49673 * 86400) : ∃ c : Civil, c.valid ∧ c.seconds = s ∧
    ctime s = some ((dayName c.tm).take 3 ++ txt " " ++ (monthName c.tm).take 3 ++ txt " " ++ ee c.tm ++ txt " " ++ hh c.tm ++ txt ":" ++ mi c.tm ++ txt ":" ++ ss c.tm ++ txt " " ++ yyyy c.tm ++ txt "\n" ++ [0]) := by
  obtain ⟨c, h1, h2, h3, h4, h5⟩ := c52_gmtime s hs
  refine ⟨c, h1, h2, ?_⟩
  unfold ctime
  rw [h3, Option.bind_some, Option.bind_some, c52_asctime c.tm h4]
  have : 365 * c.y ≤ 49673 := by
    have a := years_days c.y
    have b : c.days * 86400 + c.h * 3600 + c.min * 60 + c.s = s := h2
    unfold Civil.days at b
    omega
  show (70 + (c.y : Int)) + 1900 ≤ 9999
  omega

/-- From 2106 on, `localtime` gives a null pointer, which `ctime` passes on to `asctime`: that has no defined behaviour. -/
theorem c52_ctime_defect (s : Nat) (hs : 49673 * 86400 ≤ s) : ctime s = none := by
  unfold ctime
  rw [Time.c12_gmtime_null s hs]
  rfl

/-! ### cases -/

/-- Saturday 2 January 1999 is in week 53 of 1998, Tuesday 30 December 1997 in week 1 of 1998 (the cases of the standard) -/
private def sat : Tm := ⟨0, 0, 0, 2, 0, 99, 6, 1, 0⟩
private def tue : Tm := ⟨5, 4, 3, 30, 11, 97, 2, 363, 0⟩

example : strftime 80 (lit "%a %Ey-%m-%e: %G-W%V-%u %U %W 100%%") sat = some (35, lit "Sat 99-01- 2: 1998-W53-6 00 00 100%" ++ [0]) := by decide +kernel
example : strftime 80 (lit "%c|%r|%D|%j|%C|%g-%V") tue = some (58, lit "Tue Dec 30 03:04:05 1997|03:04:05 AM|12/30/97|364|19|98-01" ++ [0]) := by decide +kernel
example : strftime 10 (lit "%F") tue = some (0, lit "1997-12-30") := by decide +kernel
example : strftime 11 (lit "%F") tue = some (10, lit "1997-12-30" ++ [0]) := by decide +kernel
example : asctime tue = some (lit "Tue Dec 30 03:04:05 1997\n" ++ [0]) := by decide +kernel
example : ctime 1000000000 = some (lit "Sun Sep  9 01:46:40 2001\n" ++ [0]) := by decide +kernel

/-- the hypotheses hold of them -/
example : Normal sat ∧ sat.yday < yearLen (year sat) ∧ isoYear sat = 1998 ∧ isoWeek sat = 53 ∧ Fmt sat (lit "%G-W%OV") (lit "1998-W53") :=
  ⟨⟨by decide, by decide, by decide, by decide, by decide, by decide, by decide, by decide⟩, by decide, by decide, by decide,
   .conv (s := lit "1998") (by have := Conv.G (t := sat) (by decide); rwa [show dec 1 (isoYear sat) = lit "1998" by decide +kernel] at this)
     (.char (by decide) (.char (by decide) (.alt (m := 'O') (c := 'V') (cs := ['d', 'e', 'H', 'I', 'm', 'M', 'S', 'u', 'U', 'V', 'w', 'W', 'y']) (s := lit "53") (by decide) (by decide)
       (by have := Conv.V (t := sat) (by decide); rwa [show dec 2 (isoWeek sat) = lit "53" by decide +kernel] at this) .nil)))⟩

end Smlr.Ftime
