import Verif.Scan.Spec
import Verif.Ctype.Props

set_option autoImplicit false
/-
The integer scanner of `__doscan` finds the longest viable prefix.
-/
namespace Smlr.Scan

open Smlr.Ctype Spec

/-! ### Characters -/

theorem bytes {P : Nat → Prop} (h : ∀ n : Fin 256, P n.val) : ∀ c, c < 256 → P c :=
  fun c hc => h ⟨c, hc⟩

/-- The digit computed by doscan.c:558-565. -/
def dig (c2 : Int) : Int :=
  if isdigit c2 ≠ 0 then c2 - 48
  else if isalpha c2 ≠ 0 then (((c2.toNat &&& 0x5F) : Nat) : Int) - 55
  else -1

theorem dig_table0 : ∀ c : Nat, c < 256 →
    ((digitVal c).isSome = true ↔ (isdigit c ≠ 0 ∨ isalpha c ≠ 0)) ∧
    ((digitVal c).isSome = true → dig c = ((digitVal c).getD 0 : Nat)) :=
  bytes (by decide +kernel)

theorem dig_table (c : Nat) (hc : c < 256) :
    (match digitVal c with
     | some v => (isdigit c ≠ 0 ∨ isalpha c ≠ 0) ∧ dig c = v
     | none => ¬ (isdigit c ≠ 0 ∨ isalpha c ≠ 0)) := by
  have h := dig_table0 c hc
  cases hv : digitVal c with
  | none => rw [hv] at h; simpa using h.1
  | some v => rw [hv] at h; simp only at h ⊢; exact ⟨h.1.1 rfl, by simpa using h.2 rfl⟩

theorem dig_eof : ¬ (isdigit (-1) ≠ 0 ∨ isalpha (-1) ≠ 0) := by decide +kernel

/-- `c` is a digit of base `r`. -/
def isDig (r c : Nat) : Bool :=
  match digitVal c with
  | some v => decide (v < r)
  | none => false

theorem isDig_iff {r c : Nat} : isDig r c = true ↔ ∃ v, digitVal c = some v ∧ v < r := by
  unfold isDig
  cases h : digitVal c <;> simp

theorem dig_iff {c r : Nat} (hc : c < 256) :
    ((isdigit c ≠ 0 ∨ isalpha c ≠ 0) ∧ dig c < (r : Int)) ↔ isDig r c = true := by
  have h := dig_table c hc
  unfold isDig
  cases hv : digitVal c with
  | none => rw [hv] at h; simp only at h; simp [h]
  | some v =>
    rw [hv] at h; simp only at h
    rw [h.2]; simp [h.1]

theorem dig_val {c r : Nat} (hc : c < 256) (h : isDig r c = true) :
    (dig c).toNat = (digitVal c).getD 0 := by
  have ht := dig_table c hc
  unfold isDig at h
  cases hv : digitVal c with
  | none => rw [hv] at h; simp at h
  | some v => rw [hv] at ht; simp only at ht; rw [ht.2]; simp

theorem upx_table : ∀ c : Nat, c < 256 → (toupper c = 88 ↔ c = 120 ∨ c = 88) :=
  bytes (by decide +kernel)

theorem upx_eof : toupper (-1) ≠ 88 := by decide +kernel

/-! ### The digit loop -/

/-- The digits at the head of the input, within the width. -/
def dspan (r : Nat) : Nat → List Nat → List Nat
  | 0, _ => []
  | _ + 1, [] => []
  | w + 1, c :: t => if isDig r c then c :: dspan r w t else []

theorem dspan_prefix (r : Nat) : ∀ w t, dspan r w t <+: t
  | 0, t => by simp [dspan]
  | w + 1, [] => by simp [dspan]
  | w + 1, c :: t => by
    unfold dspan
    split
    · exact (List.prefix_cons_inj c).2 (dspan_prefix r w t)
    · simp

theorem dspan_len (r : Nat) : ∀ w t, (dspan r w t).length ≤ w
  | 0, t => by simp [dspan]
  | w + 1, [] => by simp [dspan]
  | w + 1, c :: t => by
    unfold dspan
    split
    · simpa using dspan_len r w t
    · simp

theorem dspan_digs (r : Nat) : ∀ w t, Digs r (dspan r w t)
  | 0, t => by simp [dspan, Digs]
  | w + 1, [] => by simp [dspan, Digs]
  | w + 1, c :: t => by
    unfold dspan
    split
    · rename_i h
      intro x hx
      rcases List.mem_cons.1 hx with rfl | hx
      · exact isDig_iff.1 h
      · exact dspan_digs r w t x hx
    · simp [Digs]

/-- The run of digits ends at the width or at a character that is no digit. -/
theorem dspan_next (r : Nat) : ∀ w t c, dspan r w t ++ [c] <+: t → (dspan r w t).length < w →
    isDig r c = false
  | 0, t, c, _, h => by simp at h
  | w + 1, [], c, h, _ => by simp [dspan] at h
  | w + 1, x :: t, c, h, hl => by
    unfold dspan at h hl
    split at h
    · rename_i hx
      rw [if_pos hx] at hl
      simp only [List.cons_append, List.prefix_cons_inj] at h
      exact dspan_next r w t c h (by simpa using hl)
    · rename_i hx
      simp only [List.nil_append] at h
      have : c = x := by
        have := (List.cons_prefix_cons).1 h
        exact this.1
      rw [this]; simpa using hx

theorem fgetc_cons (c : Nat) (t : List Nat) : fgetc (c :: t) = ((c : Int), t) := rfl
theorem fgetc_nil : fgetc [] = (-1, []) := rfl

theorem ungetc_eof (t : List Nat) : ungetc (-1) t = t := by simp [ungetc]
theorem ungetc_char (c : Nat) (t : List Nat) : ungetc (c : Int) t = c :: t := by
  have : ¬ ((c : Int) < 0) := by omega
  simp [ungetc, this]

/-- One iteration in the digit state. -/
theorem step_digit (W : Nat) (inp : List Nat) (w b0 : Nat) (neg g : Bool) (n : Nat) (ch : Int)
    (hb : ∀ c ∈ inp, c < 256) :
    numStep W ⟨.digit, inp, w, b0, neg, g, n, ch⟩ =
      (match w, inp with
       | w + 1, c :: t =>
         if isDig (if b0 = 0 then 10 else b0) c then
           .go ⟨.digit, t, w, if b0 = 0 then 10 else b0, neg, true,
             (n * (if b0 = 0 then 10 else b0) + (digitVal c).getD 0) % 2 ^ W, ch + 1⟩
         else if g then .stop ⟨.digit, inp, w + 1, if b0 = 0 then 10 else b0, neg, g, n, ch⟩
         else .ret false inp
       | w, inp =>
         if g then .stop ⟨.digit, inp, w, if b0 = 0 then 10 else b0, neg, g, n, ch⟩
         else .ret (decide (0 < w ∧ inp = [])) inp) := by
  generalize hB : (if b0 = 0 then 10 else b0) = b
  match w, inp with
  | 0, inp =>
    have he := dig_eof
    unfold numStep
    simp only [Nat.lt_irrefl, if_false, hB, ungetc_eof]
    rw [if_neg (fun h => he h.1)]
    by_cases hg : g = true <;> simp [hg]
  | w + 1, [] =>
    have he := dig_eof
    unfold numStep
    simp only [Nat.zero_lt_succ, if_true, hB, fgetc_nil, ungetc_eof]
    rw [if_neg (fun h => he h.1)]
    by_cases hg : g = true <;> simp [hg]
  | w + 1, c :: t =>
    have hc : c < 256 := hb c (by simp)
    unfold numStep
    simp only [Nat.zero_lt_succ, if_true, hB, fgetc_cons, ungetc_char]
    by_cases hd : isDig b c = true
    · have h1 := (dig_iff (r := b) hc).2 hd
      have h2 := dig_val hc hd
      unfold dig at h1 h2
      rw [if_pos h1, h2, if_pos hd]
      simp
    · have h1 : ¬ _ := fun h => hd ((dig_iff (r := b) hc).1 h)
      unfold dig at h1
      rw [if_neg h1, if_neg hd]
      by_cases hg : g = true
      · simp [hg]
      · simp [hg]

/-- The digit loop takes the run of digits. -/
theorem loop_digit (W : Nat) : ∀ (k : Nat) (inp : List Nat) (w b0 : Nat) (neg g : Bool) (n : Nat)
    (ch : Int), (∀ c ∈ inp, c < 256) → inp.length < k →
    numLoop W k ⟨.digit, inp, w, b0, neg, g, n, ch⟩ =
      (if g = true ∨ dspan (if b0 = 0 then 10 else b0) w inp ≠ [] then
        .stop ⟨.digit, inp.drop (dspan (if b0 = 0 then 10 else b0) w inp).length,
          w - (dspan (if b0 = 0 then 10 else b0) w inp).length,
          if b0 = 0 then 10 else b0, neg, true,
          (dspan (if b0 = 0 then 10 else b0) w inp).foldl
            (fun a c => (a * (if b0 = 0 then 10 else b0) + (digitVal c).getD 0) % 2 ^ W) n,
          ch + (dspan (if b0 = 0 then 10 else b0) w inp).length⟩
       else .ret (decide (0 < w ∧ inp = [])) inp)
  | 0, inp, w, b0, neg, g, n, ch, hb, hk => by omega
  | k + 1, inp, w, b0, neg, g, n, ch, hb, hk => by
    unfold numLoop
    rw [step_digit W inp w b0 neg g n ch hb]
    generalize hB : (if b0 = 0 then 10 else b0) = b
    have hb0 : (if b = 0 then 10 else b) = b := by
      by_cases h : b0 = 0
      · rw [if_pos h] at hB; subst hB; rfl
      · rw [if_neg h] at hB; subst hB; rw [if_neg h]
    match w, inp with
    | 0, inp =>
      by_cases hg : g = true
      · simp [hg, dspan]
      · simp [hg, dspan]
    | w + 1, [] =>
      by_cases hg : g = true
      · simp [hg, dspan]
      · simp [hg, dspan]
    | w + 1, c :: t =>
      by_cases hd : isDig b c = true
      · simp only [hd, if_true]
        rw [loop_digit W k t w b neg true _ _ (fun x hx => hb x (by simp [hx])) (by simpa using hk)]
        simp only [hb0, dspan, hd, if_true, true_or, ne_eq, List.cons_ne_nil, not_false_iff, or_true,
          List.length_cons, List.drop_succ_cons, List.foldl_cons]
        congr 2
        · omega
        · push_cast; omega
      · by_cases hg : g = true
        · simp [hg, hd, dspan]
        · simp [hg, hd, dspan]

end Smlr.Scan
