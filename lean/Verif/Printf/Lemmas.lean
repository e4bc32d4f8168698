import Verif.Printf.Spec
import Mathlib.Data.Nat.Digits.Lemmas
set_option autoImplicit false
namespace Smlr.Printf
open Spec

/-! ### output -/

theorem putAll_append (k : Sink) (s t : Str) (st : St) : putAll k (s ++ t) st = putAll k t (putAll k s st) := by
  induction s generalizing st with
  | nil => rfl
  | cons c s ih => exact ih _

theorem rep_eq (k : Sink) (c : UInt8) (n : Nat) (st : St) : rep k c n st = putAll k (List.replicate n c) st := by
  induction n generalizing st with
  | zero => rfl
  | succ n ih => rw [List.replicate_succ]; exact ih _

theorem putc_eq (k : Sink) (c : UInt8) (st : St) : putc k st c = putAll k [c] st := rfl

/-- state after the text `t` has been put -/
def after (k : Sink) (t : Str) : St :=
  match k.cap with
  | none => ⟨t, BitVec.ofNat 32 t.length, false⟩
  | some n =>
    if k.isStr = true ∨ t.length ≤ n then ⟨t.take n, BitVec.ofNat 32 t.length, false⟩ else ⟨t.take n, BitVec.ofNat 32 n, true⟩

theorem putc_after (k : Sink) (t : Str) (c : UInt8) : putc k (after k t) c = after k (t ++ [c]) := by
  have hadd : ∀ n : Nat, BitVec.ofNat 32 n + 1 = BitVec.ofNat 32 (n + 1) := by
    intro n; rw [BitVec.ofNat_add]; rfl
  have hl : (t ++ [c]).length = t.length + 1 := by simp
  obtain ⟨cap, s⟩ := k
  cases cap with
  | none =>
    unfold putc after Sink.accepts
    simp only [Bool.false_eq_true, if_false, if_true, hadd, hl]
  | some n =>
    have htake : ¬ t.length < n → (t ++ [c]).take n = t.take n := by
      intro h
      rw [List.take_append]; simp [show n - t.length = 0 by omega]
    by_cases h2 : t.length < n
    · have e1 : after ⟨some n, s⟩ t = ⟨t, BitVec.ofNat 32 t.length, false⟩ := by
        unfold after; simp only; rw [if_pos (Or.inr (by omega)), List.take_of_length_le (by omega)]
      have e2 : after ⟨some n, s⟩ (t ++ [c]) = ⟨t ++ [c], BitVec.ofNat 32 (t.length + 1), false⟩ := by
        unfold after; simp only; rw [if_pos (Or.inr (by omega)), List.take_of_length_le (by omega), hl]
      rw [e1, e2]
      unfold putc Sink.accepts
      simp only [h2, decide_true, Bool.false_eq_true, if_false, if_true, hadd]
    · have e0 := htake h2
      cases s with
      | true =>
        have e1 : after ⟨some n, true⟩ t = ⟨t.take n, BitVec.ofNat 32 t.length, false⟩ := by
          unfold after; simp only; simp
        have e2 : after ⟨some n, true⟩ (t ++ [c]) = ⟨t.take n, BitVec.ofNat 32 (t.length + 1), false⟩ := by
          unfold after; simp only; simp only [true_or, if_true]; rw [e0, hl]
        rw [e1, e2]
        unfold putc Sink.accepts
        have : ¬ (t.take n).length < n := by rw [List.length_take]; omega
        simp only [this, decide_false, Bool.false_eq_true, if_false, if_true, hadd]
      | false =>
        have e2 : after ⟨some n, false⟩ (t ++ [c]) = ⟨t.take n, BitVec.ofNat 32 n, true⟩ := by
          unfold after; simp only; rw [if_neg (by simp; omega), e0]
        rw [e2]
        by_cases h3 : t.length = n
        · have e1 : after ⟨some n, false⟩ t = ⟨t.take n, BitVec.ofNat 32 t.length, false⟩ := by
            unfold after; simp only; rw [if_pos (Or.inr (by omega))]
          rw [e1]
          unfold putc Sink.accepts
          have : ¬ (t.take n).length < n := by rw [List.length_take]; omega
          simp only [this, decide_false, Bool.false_eq_true, if_false, h3]
        · have e1 : after ⟨some n, false⟩ t = ⟨t.take n, BitVec.ofNat 32 n, true⟩ := by
            unfold after; simp only; rw [if_neg (by simp; omega)]
          rw [e1]
          unfold putc
          simp

theorem putAll_after (k : Sink) (s t : Str) : putAll k s (after k t) = after k (t ++ s) := by
  induction s generalizing t with
  | nil => simp [putAll]
  | cons c s ih => unfold putAll; rw [putc_after, ih]; simp

/-! ### flags -/

def isFlag (c : UInt8) : Prop := c = 0x2D ∨ c = 0x2B ∨ c = 0x20 ∨ c = 0x23 ∨ c = 0x30

def setFlag (f : Flags) : Flag → Flags
  | .minus => { f with ljust := true, lzeroes := false }
  | .plus => { f with sign := 0x2B }
  | .space => if f.sign = 0 then { f with sign := 0x20 } else f
  | .hash => { f with alt := true }
  | .zero => if f.ljust then f else { f with lzeroes := true }

theorem parseFlags_ok (c : UInt8) (rest : Str) (hc : ¬ isFlag c) : ∀ (fs : List Flag) (f : Flags),
    parseFlags (fs.map Flag.text ++ c :: rest) f = some (fs.foldl setFlag f, c, rest) := by
  intro fs
  induction fs with
  | nil =>
    intro f
    unfold isFlag at hc
    push Not at hc
    obtain ⟨h1, h2, h3, h4, h5⟩ := hc
    simp only [List.map_nil, List.nil_append, List.foldl_nil]
    unfold parseFlags
    rw [if_neg h1, if_neg h2, if_neg h3, if_neg h4, if_neg h5]
  | cons x fs ih =>
    intro f
    rw [List.foldl_cons, ← ih]
    cases x <;> rfl

theorem setFlag_sign (f : Flags) (x : Flag) : (setFlag f x).sign =
    match x with | .plus => 0x2B | .space => if f.sign = 0 then 0x20 else f.sign | _ => f.sign := by
  cases x <;> simp only [setFlag] <;> split <;> rfl

theorem setFlag_ljust (f : Flags) (x : Flag) : (setFlag f x).ljust = (f.ljust || decide (x = .minus)) := by
  cases x <;> simp [setFlag] <;> split <;> rfl

theorem setFlag_alt (f : Flags) (x : Flag) : (setFlag f x).alt = (f.alt || decide (x = .hash)) := by
  cases x <;> simp [setFlag] <;> split <;> rfl

theorem setFlag_lz (f : Flags) (x : Flag) : (setFlag f x).lzeroes =
    match x with | .minus => false | .zero => f.lzeroes || !f.ljust | _ => f.lzeroes := by
  cases x <;> simp only [setFlag]
  · split <;> rfl
  · cases h : f.ljust <;> simp

theorem fold_ljust (fs : List Flag) (f : Flags) : (fs.foldl setFlag f).ljust = (f.ljust || decide (.minus ∈ fs)) := by
  induction fs generalizing f with
  | nil => simp
  | cons x fs ih => rw [List.foldl_cons, ih, setFlag_ljust]; cases x <;> simp

theorem fold_alt (fs : List Flag) (f : Flags) : (fs.foldl setFlag f).alt = (f.alt || decide (.hash ∈ fs)) := by
  induction fs generalizing f with
  | nil => simp
  | cons x fs ih => rw [List.foldl_cons, ih, setFlag_alt]; cases x <;> simp

theorem fold_sign (fs : List Flag) (f : Flags) :
    (fs.foldl setFlag f).sign = (if .plus ∈ fs then 0x2B else if f.sign = 0 then (if .space ∈ fs then 0x20 else 0) else f.sign) := by
  induction fs generalizing f with
  | nil =>
    simp only [List.foldl_nil, List.not_mem_nil, if_false]
    split
    · assumption
    · rfl
  | cons x fs ih =>
    rw [List.foldl_cons, ih, setFlag_sign]
    cases x <;> simp
    by_cases h : f.sign = 0
    · simp [h]
    · simp [h]

theorem fold_lz (fs : List Flag) (f : Flags) (hf : f.ljust = true → f.lzeroes = false) :
    (fs.foldl setFlag f).lzeroes = ((f.lzeroes || (decide (.zero ∈ fs) && !f.ljust)) && !decide (.minus ∈ fs)) := by
  induction fs generalizing f with
  | nil => simp
  | cons x fs ih =>
    have hf' : (setFlag f x).ljust = true → (setFlag f x).lzeroes = false := by
      rw [setFlag_ljust, setFlag_lz]
      cases x <;> simp <;> cases h1 : f.ljust <;> simp_all
    rw [List.foldl_cons, ih _ hf', setFlag_lz, setFlag_ljust]
    cases x <;> simp
    cases h1 : f.ljust <;> simp [h1] at hf ⊢

theorem flags_eq (fs : List Flag) :
    (fs.foldl setFlag {}).ljust = decide (.minus ∈ fs) ∧
    (fs.foldl setFlag {}).sign = (if .plus ∈ fs then 0x2B else if .space ∈ fs then 0x20 else 0) ∧
    (fs.foldl setFlag {}).alt = decide (.hash ∈ fs) ∧
    (fs.foldl setFlag {}).lzeroes = decide (.zero ∈ fs ∧ .minus ∉ fs) := by
  rw [fold_ljust, fold_sign, fold_alt, fold_lz _ _ (by simp)]
  simp

/-! ### numbers -/

theorem dig_digit : ∀ d : Fin 10, dig (digitText d) = true ∧ (digitText d).toNat - 0x30 = d.val := by decide +kernel

theorem parseNum_ok (c : UInt8) (rest : Str) (hc : dig c = false) : ∀ (ds : List (Fin 10)) (n : Nat),
    ds.foldl (fun n d => n * 10 + d.val) n < 2 ^ 31 →
      parseNum (ds.map digitText ++ c :: rest) n = .ok (ds.foldl (fun n d => n * 10 + d.val) n, c, rest) := by
  intro ds
  induction ds with
  | nil =>
    intro n hn
    simp only [List.map_nil, List.nil_append, List.foldl_nil]
    unfold parseNum
    rw [if_neg (by simp [hc])]
  | cons d ds ih =>
    intro n hn
    obtain ⟨h1, h2⟩ := dig_digit d
    rw [List.foldl_cons] at hn ⊢
    have hmono : ∀ (ds : List (Fin 10)) (n : Nat), n ≤ ds.foldl (fun n d => n * 10 + d.val) n := by
      intro ds
      induction ds with
      | nil => intro n; simp
      | cons d ds ih => intro n; rw [List.foldl_cons]; have := ih (n * 10 + d.val); omega
    have hm := hmono ds (n * 10 + d.val)
    rw [List.map_cons, List.cons_append]
    unfold parseNum
    rw [if_pos h1]
    simp only
    rw [h2, if_neg (by omega)]
    exact ih _ hn

/-! ### digits -/

theorem digLoop_ok (digit : Nat → UInt8) (base : Nat) (hb : 2 ≤ base) : ∀ (room n : Nat) (acc : Str), 0 < n → n < base ^ room →
    digLoop digit base room n acc = some ((Nat.digits base n).reverse.map digit ++ acc) := by
  intro room
  induction room with
  | zero => intro n acc h1 h2; simp at h2; omega
  | succ room ih =>
    intro n acc h1 h2
    rw [Nat.digits_def' (by omega) h1]
    unfold digLoop
    simp only
    by_cases h : n / base ≠ 0
    · rw [if_pos h, ih (n / base) _ (Nat.pos_of_ne_zero h) (by
        rw [Nat.div_lt_iff_lt_mul (by omega)]
        rwa [Nat.pow_succ] at h2)]
      simp
    · rw [if_neg h]
      have : n / base = 0 := by omega
      rw [this]; simp

theorem digLoop_zero (digit : Nat → UInt8) (base : Nat) (acc : Str) : digLoop digit base 11 0 acc = some (digit 0 :: acc) := by
  unfold digLoop; simp

/-- the digits and the zeroes before them, doprint.c:514-526 -/
theorem digits_part (digit : Nat → UInt8) (base : Nat) (hb : base = 8 ∨ base = 10 ∨ base = 16)
    (h0 : ∀ i, i < base → (digit i = 0x30 ↔ i = 0)) (n : Nat) (hn : n < 2 ^ 32) (P : Int) (prec : Option Nat)
    (hP : (prec = none ∧ P < 0) ∨ ∃ q : Nat, prec = some q ∧ P = q) (oct : Prop) [Decidable oct] :
    ∃ p, digLoop digit base 11 n [] = some p ∧
    ∃ dcnt : Nat, dcnt = (if P < 0 then p.length else if n = 0 ∧ P = 0 then 0 else p.length) ∧
    ∃ P1 : Int, P1 = (if P < 0 then 1 else P) ∧
    ∃ P2 : Int, P2 = (if oct ∧ ((n = 0 ∧ P1 = 0) ∨ (n ≠ 0 ∧ P1 ≤ dcnt)) then (dcnt : Int) + 1 else P1) ∧
    ∃ P3 : Int, P3 = (if P2 < dcnt then (dcnt : Int) else P2) ∧
    ∃ ds : Str, ds = (if oct then forceZero (digits digit base (prec.getD 1) n) else digits digit base (prec.getD 1) n) ∧
      P3 = ds.length ∧ List.replicate (P3 - dcnt).toNat 0x30 ++ p.take dcnt = ds := by
  have hbase : 2 ≤ base := by omega
  have hd0 : digit 0 = 0x30 := (h0 0 (by omega)).2 rfl
  have hchr : chr '0' = 0x30 := rfl
  rcases Nat.eq_zero_or_pos n with hz | hpos
  · subst hz
    refine ⟨[0x30], by rw [digLoop_zero, hd0], _, rfl, _, rfl, _, rfl, _, rfl, _, rfl, ?_⟩
    unfold digits
    simp only [Nat.digits_zero, List.reverse_nil, List.map_nil, List.length_nil, List.append_nil, Nat.sub_zero]
    have hfz : ∀ k, forceZero (List.replicate k (chr '0')) = List.replicate (max k 1) (chr '0') := by
      intro k
      cases k with
      | zero => rfl
      | succ k =>
        unfold forceZero
        rw [List.replicate_succ]
        simp
        rw [List.replicate_succ]
    rcases hP with ⟨e, hneg⟩ | ⟨q, e, hq⟩
    · subst e
      simp only [if_pos hneg, List.length_singleton]
      by_cases ho : oct
      · simp only [ho, hfz]
        simp [hchr]
      · simp [ho, hchr]
    · subst e
      subst hq
      have hnn : ¬ ((q : Int) < 0) := by omega
      simp only [if_neg hnn, Option.getD_some]
      rcases Nat.eq_zero_or_pos q with hq0 | hq0
      · subst hq0
        by_cases ho : oct
        · simp [ho, forceZero, hchr]
        · simp [ho]
      · have hq1 : ¬ ((q : Int) = 0) := by omega
        simp only [hq1, and_false, if_false, false_or, ne_eq, not_true_eq_false, false_and, or_false, List.length_singleton]
        rw [if_neg (show ¬ ((q : Int) < (1 : Nat)) by omega)]
        by_cases ho : oct
        · rw [if_pos ho, hfz, show max q 1 = q by omega]
          refine ⟨by simp, ?_⟩
          rw [show ((q : Int) - (1 : Nat)).toNat = q - 1 by omega, hchr]
          simp only [List.take_succ_cons, List.take_zero]
          rw [show [0x30] = List.replicate 1 (0x30 : UInt8) from rfl, List.replicate_append_replicate]
          congr 1; omega
        · rw [if_neg ho]
          refine ⟨by simp, ?_⟩
          rw [show ((q : Int) - (1 : Nat)).toNat = q - 1 by omega, hchr]
          simp only [List.take_succ_cons, List.take_zero]
          rw [show [0x30] = List.replicate 1 (0x30 : UInt8) from rfl, List.replicate_append_replicate]
          congr 1; omega
  · have hroom : n < base ^ 11 := by
      rcases hb with h | h | h <;> subst h <;> omega
    have hloop := digLoop_ok digit base hbase 11 n [] hpos hroom
    rw [List.append_nil] at hloop
    refine ⟨_, hloop, _, rfl, _, rfl, _, rfl, _, rfl, _, rfl, ?_⟩
    unfold digits
    simp only
    have hne : Nat.digits base n ≠ [] := Nat.digits_ne_nil_iff_ne_zero.2 (by omega)
    have hlast := Nat.getLast_digit_ne_zero base (m := n) (by omega)
    have hlastlt : (Nat.digits base n).getLast hne < base := Nat.digits_lt_base (by omega) (List.getLast_mem hne)
    have hlen : ((Nat.digits base n).reverse.map digit).length ≠ 0 := by simp [hne]
    have hhead : ((Nat.digits base n).reverse.map digit).head? ≠ some 0x30 := by
      rw [List.head?_map, List.head?_reverse, List.getLast?_eq_some_getLast hne]
      simp only [Option.map_some, ne_eq, Option.some.injEq]
      rw [h0 _ hlastlt]
      exact hlast
    generalize (Nat.digits base n).reverse.map digit = D at *
    have hn0 : n ≠ 0 := by omega
    simp only [hn0, false_and, if_false, ite_self, false_or, ne_eq, not_false_eq_true, true_and, List.take_length]
    have hP1 : (if P < 0 then (1 : Int) else P) = (prec.getD 1 : Nat) := by
      rcases hP with ⟨e, hneg⟩ | ⟨q, e, hq⟩
      · rw [if_pos hneg, e]; rfl
      · rw [if_neg (by omega), e, hq]; rfl
    rw [hP1]
    generalize prec.getD 1 = q
    by_cases ho : oct
    · simp only [ho, true_and, if_true]
      by_cases hq : (q : Int) ≤ D.length
      · rw [if_pos hq, if_neg (by omega), show q - D.length = 0 by omega]
        unfold forceZero
        simp only [List.replicate_zero, List.nil_append]
        rw [hchr, if_neg hhead]
        refine ⟨by simp, ?_⟩
        rw [show ((D.length : Int) + 1 - D.length).toNat = 1 by omega]
        rfl
      · rw [if_neg hq, if_neg (by omega)]
        obtain ⟨k, hk⟩ : ∃ k, q - D.length = k + 1 := ⟨q - D.length - 1, by omega⟩
        rw [hk]
        unfold forceZero
        rw [List.replicate_succ, List.cons_append, List.head?_cons, if_pos rfl, ← List.cons_append, ← List.replicate_succ]
        refine ⟨by simp; omega, ?_⟩
        rw [show ((q : Int) - D.length).toNat = k + 1 by omega, hchr]
    · simp only [ho, false_and, if_false]
      by_cases hq : (q : Int) < D.length
      · rw [if_pos hq, show q - D.length = 0 by omega]
        refine ⟨by simp, ?_⟩
        simp
      · rw [if_neg hq]
        refine ⟨by simp; omega, ?_⟩
        rw [show ((q : Int) - D.length).toNat = q - D.length by omega, hchr]

end Smlr.Printf
