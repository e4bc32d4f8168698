import Verif.Fscan.Lemmas
set_option autoImplicit false
namespace Smlr.Fscan
open Smlr.Number
open Smlr.Strtof

/-! ### every input -/

/-- digits that can be converted -/
structure Dig (ds : List Nat) : Prop where
  nine : ∀ d ∈ ds, d ≤ 9
  len : ds.length ≤ maxDigits
  head : ds.head? ≠ some 0

structure Inv (q : Q) (c2 : Option UInt8) : Prop where
  dig : Dig q.ds
  int : q.st = .int → q.ds = [] → c2 ≠ some 0x30
  frct : q.st = .frct → q.ds = [] → c2 ≠ some 0x30
  two : q.gotint = 2 → q.ds ≠ []

def rank : St → Nat
  | .sign => 8
  | .infNan => 7
  | .leading => 6
  | .int => 5
  | .frctLeading => 4
  | .frct => 3
  | .expSign => 2
  | .expDigit => 1
  | .word => 0

theorem addDigit_dig {ds : List Nat} {c : UInt8} (h : Dig ds) (hc : isDigit c = true) (h0 : ds = [] → c ≠ 0x30) : Dig (addDigit ds c) ∧ addDigit ds c ≠ [] := by
  unfold addDigit
  by_cases hl : ds.length < maxDigits
  · rw [if_pos hl]
    refine ⟨⟨?_, by simp; omega, ?_⟩, by simp⟩
    · intro d hd
      rcases List.mem_append.1 hd with x | x
      · exact h.nine d x
      · simp at x; subst x; exact digit_le hc
    · cases hds : ds with
      | nil =>
        intro hx
        have h1 : digitVal c = 0 := by simpa [digitVal] using hx
        exact h0 hds ((digit_zero hc).1 h1)
      | cons d ds' => have := h.head; rw [hds] at this; simpa using this
  · rw [if_neg hl]
    exact ⟨h, by rintro rfl; simp [maxDigits] at hl⟩

/-- what a round keeps up -/
def After (q : Q) (c2 : Option UInt8) : Act → Prop
  | .eat q' => c2 ≠ none ∧ (∀ c', Inv q' c') ∧ rank q'.st ≤ rank q.st
  | .keep q' => Inv q' c2 ∧ rank q'.st < rank q.st
  | .eatStop q' => Dig q'.ds
  | .keepStop q' => Dig q'.ds
  | .ret _ => True

theorem step_ok (q : Q) (c2 : Option UInt8) (b : Bool) (h : Inv q c2) : After q c2 (Fscan.trans q c2 b) := by
  have noE : ∀ q' : Q, q'.ds = q.ds → q'.gotint = q.gotint → q'.st ≠ .int → q'.st ≠ .frct → ∀ c', Inv q' c' := by
    intro q' e1 e2 e3 e4 c'
    exact ⟨by rw [e1]; exact h.dig, fun x => absurd x e3, fun x => absurd x e4, by rw [e1, e2]; exact h.two⟩
  unfold Fscan.trans
  cases hst : q.st with
  | sign =>
    cases c2 with
    | none => trivial
    | some c =>
      simp only
      split
      · exact ⟨by simp, by apply noE <;> simp [hst], by simp [rank, hst]⟩
      · exact ⟨by apply noE <;> simp [hst], by simp [rank, hst]⟩
  | infNan =>
    cases c2 with
    | none => trivial
    | some c =>
      simp only
      split
      · exact ⟨by simp, by apply noE <;> simp [hst], by simp [rank, hst]⟩
      · split
        · exact ⟨by simp, by apply noE <;> simp [hst], by simp [rank, hst]⟩
        · exact ⟨by apply noE <;> simp [hst], by simp [rank, hst]⟩
  | word =>
    simp only
    split
    · trivial
    · split
      · rename_i hany
        have hn : c2 ≠ none := by rintro rfl; simp at hany
        split
        · exact h.dig
        · exact ⟨hn, by apply noE <;> simp [hst], by simp [rank, hst]⟩
      · split
        · exact h.dig
        · trivial
  | leading =>
    cases c2 with
    | none => simp only; split <;> first | exact h.dig | trivial
    | some c =>
      simp only
      split
      · exact ⟨by simp, fun c' => ⟨h.dig, by simp [hst], by simp [hst], by simp⟩, by simp [rank, hst]⟩
      · rename_i hc
        exact ⟨⟨h.dig, fun _ _ => by simpa using hc, by simp, h.two⟩, by simp [rank, hst]⟩
  | int =>
    cases c2 with
    | none => simp only; split <;> first | exact h.dig | trivial
    | some c =>
      simp only
      split
      · rename_i hc
        have := addDigit_dig h.dig hc (fun hn hx => h.int hst hn (by rw [hx]))
        exact ⟨by simp, fun c' => ⟨this.1, fun _ x => absurd x this.2, fun _ x => absurd x this.2, fun _ => this.2⟩, by simp [rank, hst]⟩
      · split
        · refine ⟨by simp, fun c' => ⟨h.dig, ?_, ?_, h.two⟩, ?_⟩
          · intro x; simp only at x; split at x <;> cases x
          · intro x hd; simp only at x
            split at x
            · rename_i h2; exact absurd hd (h.two h2)
            · cases x
          · rw [hst]; simp only; split <;> simp [rank]
        · split
          · exact ⟨by simp, by apply noE <;> simp [hst], by simp [rank, hst]⟩
          · split <;> first | exact h.dig | trivial
  | frctLeading =>
    cases c2 with
    | none => simp only; split <;> first | exact h.dig | trivial
    | some c =>
      simp only
      split
      · exact ⟨by simp, by apply noE <;> simp [hst], by simp [rank, hst]⟩
      · rename_i hc
        exact ⟨⟨h.dig, by simp, fun _ _ => by simpa using hc, h.two⟩, by simp [rank, hst]⟩
  | frct =>
    cases c2 with
    | none => simp only; split <;> first | exact h.dig | trivial
    | some c =>
      simp only
      split
      · rename_i hc
        have := addDigit_dig h.dig hc (fun hn hx => h.frct hst hn (by rw [hx]))
        exact ⟨by simp, fun c' => ⟨this.1, fun _ x => absurd x this.2, fun _ x => absurd x this.2, fun _ => this.2⟩, by simp [rank, hst]⟩
      · split
        · exact ⟨by simp, by apply noE <;> simp [hst], by simp [rank, hst]⟩
        · split <;> first | exact h.dig | trivial
  | expSign =>
    cases c2 with
    | none => trivial
    | some c =>
      simp only
      split
      · exact ⟨by simp, by apply noE <;> simp [hst], by simp [rank, hst]⟩
      · exact ⟨by apply noE <;> simp [hst], by simp [rank, hst]⟩
  | expDigit =>
    cases c2 with
    | none => simp only; split <;> first | exact h.dig | trivial
    | some c =>
      simp only
      split
      · exact ⟨by simp, by apply noE <;> simp [hst], by simp [rank, hst]⟩
      · split <;> first | exact h.dig | trivial

/-- the loop ends, with digits that can be converted; it takes no more characters than the input and the field width have -/
theorem loop_ok (k : Nat) : ∀ (q : Q) (s : Str) (w ch : Nat), s.length + rank q.st < k → Inv q (if 0 < w then s.head? else none) →
    (∃ e n, loop k q s w ch = .ret e (s.drop n) (ch + n) ∧ n ≤ s.length ∧ n ≤ w) ∨
    ∃ q' n, loop k q s w ch = .stop q' (s.drop n) (ch + n) ∧ n ≤ s.length ∧ n ≤ w ∧ Dig q'.ds := by
  induction k with
  | zero => intro q s w ch h; omega
  | succ k ih =>
    intro q s w ch hk hi
    have st := step_ok q _ (decide (w = 0)) hi
    rw [loop]
    cases ha : Fscan.trans q (if 0 < w then s.head? else none) (decide (w = 0)) with
    | ret e => exact Or.inl ⟨e, 0, by simp, by omega, by omega⟩
    | keepStop q' => rw [ha] at st; exact Or.inr ⟨q', 0, by simp, by omega, by omega, st⟩
    | eatStop q' =>
      rw [ha] at st
      by_cases hw : 0 < w
      · cases s with
        | nil =>
          exfalso
          revert ha
          unfold Fscan.trans
          rw [if_pos hw]
          cases q.st <;> simp <;> (repeat' split) <;> simp_all
        | cons c s => exact Or.inr ⟨q', 1, by simp, by simp, by omega, st⟩
      · exfalso
        revert ha
        unfold Fscan.trans
        rw [if_neg hw]
        cases q.st <;> simp <;> (repeat' split) <;> simp_all
    | keep q' =>
      rw [ha] at st
      simp only
      by_cases hw : w = 0
      · rw [if_pos hw]; exact Or.inr ⟨q', 0, by simp, by omega, by omega, st.1.dig⟩
      · rw [if_neg hw]; exact ih q' s w ch (by have := st.2; omega) st.1
    | eat q' =>
      rw [ha] at st
      simp only
      obtain ⟨h1, h2, h3⟩ := st
      have hw : 0 < w := by
        apply Classical.byContradiction
        intro hw
        rw [if_neg hw] at h1; exact h1 rfl
      rw [if_neg (by omega)]
      cases s with
      | nil => rw [if_pos hw] at h1; exact absurd rfl h1
      | cons c s =>
        rw [List.length_cons] at hk
        rcases ih q' s (w - 1) (ch + 1) (by omega) (h2 _) with ⟨e, n, r1, r2, r3⟩ | ⟨q2, n, r1, r2, r3, r4⟩
        · exact Or.inl ⟨e, n + 1, by rw [List.tail_cons, r1, List.drop_succ_cons, Nat.add_assoc, Nat.add_comm 1 n], by simp; omega, by omega⟩
        · exact Or.inr ⟨q2, n + 1, by rw [List.tail_cons, r1, List.drop_succ_cons, Nat.add_assoc, Nat.add_comm 1 n], by simp; omega, by omega, r4⟩

end Smlr.Fscan
