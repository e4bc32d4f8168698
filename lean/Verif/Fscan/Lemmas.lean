import Verif.Fscan.Model
import Verif.Fscan.Spec
import Verif.Strtof.Lemmas
set_option autoImplicit false
namespace Smlr.Fscan
open Smlr.Number
open Smlr.Strtof

theorem isUp_iff (c x : UInt8) : isUp c x = true ↔ upper c = x := by
  unfold isUp; rw [decide_eq_true_eq]; exact upper_iff c x

/-- scanner, input, field width left, characters taken -/
structure Cfg where
  q : Q
  s : Str
  w : Nat
  ch : Nat

def run (k : Nat) (c : Cfg) : End := loop k c.q c.s c.w c.ch

/-- the character that the scanner sees -/
def Cfg.look (c : Cfg) : Option UInt8 := if 0 < c.w then c.s.head? else none

/-- from `a` the scanner comes to `b` within `B` rounds -/
def Reach (B : Nat) (a b : Cfg) : Prop := ∃ n ≤ B, ∀ k, run (n + k + 1) a = run (k + 1) b

theorem Reach.refl (a : Cfg) : Reach 0 a a := ⟨0, Nat.le_refl _, fun k => by rw [Nat.zero_add]⟩

theorem Reach.mono {B C : Nat} {a b : Cfg} (h : Reach B a b) (hBC : B ≤ C) : Reach C a b := by
  obtain ⟨n, hn, h⟩ := h
  exact ⟨n, by omega, h⟩

theorem Reach.trans {B C D : Nat} {a b c : Cfg} (h1 : Reach B a b) (h2 : Reach C b c) (hD : B + C ≤ D) : Reach D a c := by
  obtain ⟨n, hn, h1⟩ := h1
  obtain ⟨m, hm, h2⟩ := h2
  refine ⟨n + m, by omega, fun k => ?_⟩
  rw [Nat.add_assoc n m k, h1, h2]

theorem reach_eat {q q' : Q} {c : UInt8} {s : Str} {w ch : Nat} (hw : 0 < w) (h : Fscan.trans q (some c) false = .eat q') :
    Reach 1 ⟨q, c :: s, w, ch⟩ ⟨q', s, w - 1, ch + 1⟩ := by
  refine ⟨1, Nat.le_refl _, fun k => ?_⟩
  have hf : decide (w = 0) = false := by simp; omega
  rw [Nat.add_comm 1 k]
  unfold run
  rw [show loop (k + 1 + 1) = fun q inp width ch => loop (k + 1 + 1) q inp width ch from rfl]
  simp only
  rw [loop]
  simp only [hw, if_true, List.head?_cons, hf, h, List.tail_cons]
  rw [if_neg (by omega)]

/-- a character put back; at the end of the input both states do the same -/
theorem reach_keep {q q' : Q} {s : Str} {w ch : Nat} (h1 : ∀ c, (Cfg.mk q s w ch).look = some c → Fscan.trans q (some c) false = .keep q')
    (h2 : ∀ b, Fscan.trans q none b = Fscan.trans q' none b) (h3 : ∀ b, (∃ e, Fscan.trans q none b = .ret e) ∨ ∃ x, Fscan.trans q none b = .keepStop x) :
    Reach 1 ⟨q, s, w, ch⟩ ⟨q', s, w, ch⟩ := by
  refine ⟨1, Nat.le_refl _, fun k => ?_⟩
  rw [Nat.add_comm 1 k]
  unfold run
  simp only
  cases hl : (Cfg.mk q s w ch).look with
  | none =>
    have hl' : (if 0 < w then s.head? else none) = none := hl
    rw [loop, loop]
    simp only [hl', h2]
    rcases h3 (w = 0) with ⟨e, he⟩ | ⟨x, hx⟩
    · rw [h2] at he; simp only [he]
    · rw [h2] at hx; simp only [hx]
  | some c =>
    have hl' : (if 0 < w then s.head? else none) = some c := hl
    have hw : 0 < w := by
      apply Nat.pos_of_ne_zero
      intro h0
      rw [if_neg (by omega)] at hl'
      cases hl'
    have hf : decide (w = 0) = false := by simp; omega
    rw [loop]
    simp only [hl', hf, h1 c hl]
    rw [if_neg (by omega)]

theorem run_stop {q q' : Q} {s : Str} {w ch k : Nat} (h : ∀ b, Fscan.trans q ((Cfg.mk q s w ch).look) b = .keepStop q') :
    run (k + 1) ⟨q, s, w, ch⟩ = .stop q' s ch := by
  unfold run
  rw [loop]
  have := h (w = 0)
  unfold Cfg.look at this
  simp only at this ⊢
  rw [this]

theorem run_ret {q : Q} {s : Str} {w ch k : Nat} (h : ∀ b, ∃ e, Fscan.trans q ((Cfg.mk q s w ch).look) b = .ret e) :
    ∃ e, run (k + 1) ⟨q, s, w, ch⟩ = .ret e s ch := by
  unfold run
  rw [loop]
  obtain ⟨e, he⟩ := h (w = 0)
  unfold Cfg.look at he
  simp only at he ⊢
  rw [he]
  exact ⟨e, rfl⟩

/-! ### sign and first character -/

theorem sign_phase (sg t : Str) (neg : Bool) (w ch : Nat) (hs : Sign sg neg) (hw : sg.length ≤ w)
    (ht : sg = [] → ∀ c, (Cfg.mk {} t w ch).look = some c → c ≠ 0x2B ∧ c ≠ 0x2D) :
    Reach 1 ⟨{}, sg ++ t, w, ch⟩ ⟨{ st := .infNan, neg := neg }, t, w - sg.length, ch + sg.length⟩ := by
  cases hs with
  | none =>
    apply reach_keep
    · intro c hc
      have := ht rfl c hc
      unfold Fscan.trans
      simp only
      rw [if_neg (by tauto)]
    · intro b; rfl
    · intro b; exact Or.inl ⟨_, rfl⟩
  | plus => exact reach_eat (Nat.lt_of_lt_of_le (by decide) hw) rfl
  | minus => exact reach_eat (Nat.lt_of_lt_of_le (by decide) hw) rfl

theorem infNan_phase (t : Str) (neg : Bool) (w ch : Nat) (ht : ∀ c, (Cfg.mk {} t w ch).look = some c → upper c ≠ 0x49 ∧ upper c ≠ 0x4E) :
    Reach 1 ⟨{ st := .infNan, neg := neg }, t, w, ch⟩ ⟨{ st := .leading, neg := neg }, t, w, ch⟩ := by
  apply reach_keep
  · intro c hc
    have := ht c hc
    unfold Fscan.trans
    simp only
    rw [if_neg (by rw [isUp_iff]; exact this.1), if_neg (by rw [isUp_iff]; exact this.2)]
  · intro b; rfl
  · intro b; exact Or.inl ⟨_, rfl⟩

/-! ### digits -/

theorem lead_zeros (z : Nat) : ∀ (q : Q) (t : Str) (w ch : Nat), q.st = .leading → z ≤ w →
    Reach z ⟨q, List.replicate z 0x30 ++ t, w, ch⟩ ⟨{ q with gotint := if z = 0 then q.gotint else 1 }, t, w - z, ch + z⟩ := by
  induction z with
  | zero => intro q t w ch _ _; exact Reach.refl _
  | succ z ih =>
    intro q t w ch hst hw
    rw [List.replicate_succ, List.cons_append]
    have h1 : Reach 1 ⟨q, 0x30 :: (List.replicate z 0x30 ++ t), w, ch⟩ ⟨{ q with gotint := 1 }, List.replicate z 0x30 ++ t, w - 1, ch + 1⟩ :=
      reach_eat (by omega) (by unfold Fscan.trans; rw [hst]; simp only [if_true])
    have h2 := ih { q with gotint := 1 } t (w - 1) (ch + 1) hst (by omega)
    have := h1.trans h2 (Nat.le_of_eq (Nat.add_comm 1 z))
    rw [show w - 1 - z = w - (z + 1) by omega, show ch + 1 + z = ch + (z + 1) by omega] at this
    simp only [ite_self] at this
    rw [if_neg (by omega)]
    exact this

theorem lead_int (q : Q) (t : Str) (w ch : Nat) (hst : q.st = .leading) (ht : (Cfg.mk q t w ch).look ≠ some 0x30) :
    Reach 1 ⟨q, t, w, ch⟩ ⟨{ q with st := .int }, t, w, ch⟩ := by
  apply reach_keep
  · intro c hc
    unfold Fscan.trans
    rw [hst]
    simp only
    rw [if_neg (by rintro rfl; exact ht hc)]
  · intro b; unfold Fscan.trans; rw [hst]
  · intro b; unfold Fscan.trans; rw [hst]; simp only
    split
    · exact Or.inr ⟨_, rfl⟩
    · exact Or.inl ⟨_, rfl⟩

theorem frct_zeros (z : Nat) : ∀ (q : Q) (t : Str) (w ch : Nat), q.st = .frctLeading → z ≤ w →
    Reach z ⟨q, List.replicate z 0x30 ++ t, w, ch⟩ ⟨{ q with gotfrct := if z = 0 then q.gotfrct else 1, m := q.m - z }, t, w - z, ch + z⟩ := by
  induction z with
  | zero =>
    intro q t w ch _ _
    have : ({ q with gotfrct := if 0 = 0 then q.gotfrct else 1, m := q.m - ((0 : Nat) : Int) } : Q) = q := by simp
    rw [this]; exact Reach.refl _
  | succ z ih =>
    intro q t w ch hst hw
    rw [List.replicate_succ, List.cons_append]
    have h1 : Reach 1 ⟨q, 0x30 :: (List.replicate z 0x30 ++ t), w, ch⟩ ⟨{ q with gotfrct := 1, m := q.m - 1 }, List.replicate z 0x30 ++ t, w - 1, ch + 1⟩ :=
      reach_eat (by omega) (by unfold Fscan.trans; rw [hst]; simp only [if_true])
    have h2 := ih { q with gotfrct := 1, m := q.m - 1 } t (w - 1) (ch + 1) hst (by omega)
    have := h1.trans h2 (Nat.le_of_eq (Nat.add_comm 1 z))
    rw [show w - 1 - z = w - (z + 1) by omega, show ch + 1 + z = ch + (z + 1) by omega] at this
    simp only [ite_self] at this
    rw [show q.m - 1 - (z : Int) = q.m - ((z + 1 : Nat) : Int) by omega] at this
    rw [if_neg (by omega)]
    exact this

theorem frct_int (q : Q) (t : Str) (w ch : Nat) (hst : q.st = .frctLeading) (ht : (Cfg.mk q t w ch).look ≠ some 0x30) :
    Reach 1 ⟨q, t, w, ch⟩ ⟨{ q with st := .frct }, t, w, ch⟩ := by
  apply reach_keep
  · intro c hc
    unfold Fscan.trans
    rw [hst]
    simp only
    rw [if_neg (by rintro rfl; exact ht hc)]
  · intro b; unfold Fscan.trans; rw [hst]
  · intro b; unfold Fscan.trans; rw [hst]; simp only
    split
    · exact Or.inr ⟨_, rfl⟩
    · exact Or.inl ⟨_, rfl⟩

theorem int_digits (s : Str) (hs : AllDigits s) : ∀ (q : Q) (t : Str) (w ch : Nat), q.st = .int → s.length ≤ w →
    Reach s.length ⟨q, s ++ t, w, ch⟩ ⟨{ q with gotint := if s = [] then q.gotint else 2, ds := (scanInt s q.ds q.m).1, m := (scanInt s q.ds q.m).2.1 }, t, w - s.length, ch + s.length⟩ := by
  induction s with
  | nil => intro q t w ch _ _; exact Reach.refl _
  | cons c s ih =>
    intro q t w ch hst hw
    have hc := (isDigit_iff c).2 (hs c (by simp))
    rw [List.length_cons] at hw
    have h1 : Reach 1 ⟨q, c :: (s ++ t), w, ch⟩
        ⟨{ q with gotint := 2, ds := addDigit q.ds c, m := if q.ds.length < maxDigits then q.m else q.m + 1 }, s ++ t, w - 1, ch + 1⟩ :=
      reach_eat (by omega) (by unfold Fscan.trans; rw [hst]; simp only [hc, if_true])
    have h2 := ih (fun x hx => hs x (by simp [hx])) { q with gotint := 2, ds := addDigit q.ds c, m := if q.ds.length < maxDigits then q.m else q.m + 1 } t (w - 1) (ch + 1) hst (by omega)
    have e : scanInt (c :: s) q.ds q.m = scanInt s (addDigit q.ds c) (if q.ds.length < maxDigits then q.m else q.m + 1) := by
      rw [scanInt, if_pos hc]
      unfold addDigit
      by_cases h : q.ds.length < maxDigits
      · rw [if_pos h, if_pos h, if_pos h]
      · rw [if_neg h, if_neg h, if_neg h]
    have := h1.trans h2 (Nat.le_of_eq (Nat.add_comm 1 s.length))
    rw [show w - 1 - s.length = w - (s.length + 1) by omega, show ch + 1 + s.length = ch + (s.length + 1) by omega] at this
    simp only [ite_self] at this
    rw [e, List.length_cons, if_neg (by simp)]
    exact this

theorem frct_digits (s : Str) (hs : AllDigits s) : ∀ (q : Q) (t : Str) (w ch : Nat), q.st = .frct → s.length ≤ w →
    Reach s.length ⟨q, s ++ t, w, ch⟩ ⟨{ q with gotfrct := if s = [] then q.gotfrct else 2, ds := (scanFrac s q.ds q.m).1, m := (scanFrac s q.ds q.m).2.1 }, t, w - s.length, ch + s.length⟩ := by
  induction s with
  | nil => intro q t w ch _ _; exact Reach.refl _
  | cons c s ih =>
    intro q t w ch hst hw
    have hc := (isDigit_iff c).2 (hs c (by simp))
    rw [List.length_cons] at hw
    have h1 : Reach 1 ⟨q, c :: (s ++ t), w, ch⟩ ⟨{ q with gotfrct := 2, ds := addDigit q.ds c, m := q.m - 1 }, s ++ t, w - 1, ch + 1⟩ :=
      reach_eat (by omega) (by unfold Fscan.trans; rw [hst]; simp only [hc, if_true])
    have h2 := ih (fun x hx => hs x (by simp [hx])) { q with gotfrct := 2, ds := addDigit q.ds c, m := q.m - 1 } t (w - 1) (ch + 1) hst (by omega)
    have e : scanFrac (c :: s) q.ds q.m = scanFrac s (addDigit q.ds c) (q.m - 1) := by
      rw [scanFrac, if_pos hc]; rfl
    have := h1.trans h2 (Nat.le_of_eq (Nat.add_comm 1 s.length))
    rw [show w - 1 - s.length = w - (s.length + 1) by omega, show ch + 1 + s.length = ch + (s.length + 1) by omega] at this
    simp only [ite_self] at this
    rw [e, List.length_cons, if_neg (by simp)]
    exact this

/-- the exponent read from digits: no more than 2^31 - 1 -/
theorem addExp_min (n d : Nat) (hd : d ≤ 9) : addExp (min n (2 ^ 31 - 1)) d = min (n * 10 + d) (2 ^ 31 - 1) := by
  unfold addExp
  rw [ovf_ok _ 10 d (by omega) (Or.inr (Or.inl rfl)) (by omega)]
  unfold u32
  by_cases h : 2 ^ 32 ≤ min n (2 ^ 31 - 1) * 10 + d
  · rw [if_pos (by rw [decide_eq_true h]; rfl)]
    omega
  · rw [decide_eq_false h, Bool.false_or]
    by_cases h2 : (min n (2 ^ 31 - 1) * 10 + d) % 2 ^ 32 > (2 ^ 32 - 1) / 2
    · rw [if_pos (decide_eq_true h2)]; omega
    · rw [if_neg (by simpa using h2)]; omega

theorem exp_digits (s : Str) (hs : AllDigits s) : ∀ (q : Q) (t : Str) (w ch n : Nat), q.st = .expDigit → s.length ≤ w → q.eexp = min n (2 ^ 31 - 1) →
    Reach s.length ⟨q, s ++ t, w, ch⟩ ⟨{ q with gotexp := if s = [] then q.gotexp else 2, eexp := min (ext 10 n (s.map digitVal)) (2 ^ 31 - 1) }, t, w - s.length, ch + s.length⟩ := by
  induction s with
  | nil =>
    intro q t w ch n _ _ hq
    have : ({ q with gotexp := if ([] : Str) = [] then q.gotexp else 2, eexp := min (ext 10 n (([] : Str).map digitVal)) (2 ^ 31 - 1) } : Q) = q := by
      simp only [if_true, List.map_nil]
      rw [show ext 10 n [] = n from rfl, ← hq]
    rw [this]
    exact Reach.refl _
  | cons c s ih =>
    intro q t w ch n hst hw hq
    have hc := (isDigit_iff c).2 (hs c (by simp))
    rw [List.length_cons] at hw
    have h1 : Reach 1 ⟨q, c :: (s ++ t), w, ch⟩ ⟨{ q with gotexp := 2, eexp := addExp q.eexp (c.toNat - 0x30) }, s ++ t, w - 1, ch + 1⟩ :=
      reach_eat (by omega) (by unfold Fscan.trans; rw [hst]; simp only [hc, if_true])
    have h2 := ih (fun x hx => hs x (by simp [hx])) { q with gotexp := 2, eexp := addExp q.eexp (c.toNat - 0x30) } t (w - 1) (ch + 1) (n * 10 + digitVal c) hst (by omega)
      (by show addExp q.eexp (c.toNat - 0x30) = _; rw [hq]; exact addExp_min n (digitVal c) (digit_le hc))
    have := h1.trans h2 (Nat.le_of_eq (Nat.add_comm 1 s.length))
    rw [show w - 1 - s.length = w - (s.length + 1) by omega, show ch + 1 + s.length = ch + (s.length + 1) by omega] at this
    simp only [ite_self] at this
    rw [List.length_cons, if_neg (by simp)]
    exact this

end Smlr.Fscan
