import Verif.Fscan.Number
set_option autoImplicit false
namespace Smlr.Fscan
open Smlr.Number
open Smlr.Strtof

/-! ### words -/

theorem word_phase (W : Str) (a : Str) : ∀ (q : Q) (i : Nat) (t : Str) (w ch : Nat), q.st = .word → q.word = some (W, i) → a.length ≤ w →
    i + a.length < W.length → a.map upper = (W.drop i).take a.length →
    Reach a.length ⟨q, a ++ t, w, ch⟩ ⟨{ q with word := some (W, i + a.length) }, t, w - a.length, ch + a.length⟩ := by
  induction a with
  | nil =>
    intro q i t w ch _ hw _ _ _
    have : ({ q with word := some (W, i + ([] : Str).length) } : Q) = q := by
      rw [List.length_nil, Nat.add_zero, ← hw]
    rw [this]
    exact Reach.refl _
  | cons c a ih =>
    intro q i t w ch hst hq hw hi hm
    rw [List.length_cons] at hw hi hm
    have hd : W.drop i = W[i]'(by omega) :: W.drop (i + 1) := List.drop_eq_getElem_cons (by omega)
    rw [hd, List.take_succ_cons, List.map_cons, List.cons.injEq] at hm
    have h1 : Reach 1 ⟨q, c :: (a ++ t), w, ch⟩ ⟨{ q with word := some (W, i + 1) }, a ++ t, w - 1, ch + 1⟩ := by
      apply reach_eat (by omega)
      unfold Fscan.trans
      rw [hst, hq]
      simp only [Option.any_some]
      rw [if_pos (by
        rw [isUp_iff, hm.1, List.getD_eq_getElem?_getD, List.getElem?_eq_getElem (by omega)]; rfl), if_neg (by omega)]
    have h2 := ih { q with word := some (W, i + 1) } (i + 1) t (w - 1) (ch + 1) hst rfl (by omega) (by omega) hm.2
    have := h1.trans h2 (Nat.le_of_eq (Nat.add_comm 1 a.length))
    rw [show w - 1 - a.length = w - (a.length + 1) by omega, show ch + 1 + a.length = ch + (a.length + 1) by omega,
      show i + 1 + a.length = i + (a.length + 1) by omega] at this
    exact this

/-- one of the two words, and the letter that leads to it -/
def IsW (W : Str) : Prop := W = infinity ∨ W = nan

theorem word_start (W a t : Str) (neg : Bool) (w ch : Nat) (hW : IsW W) (h1 : 1 ≤ a.length) (h2 : a.length < W.length) (hw : a.length ≤ w)
    (hm : a.map upper = W.take a.length) :
    Reach a.length ⟨{ st := .infNan, neg := neg }, a ++ t, w, ch⟩ ⟨{ st := .word, neg := neg, word := some (W, a.length) }, t, w - a.length, ch + a.length⟩ := by
  cases a with
  | nil => simp at h1
  | cons c a =>
    rw [List.length_cons] at hw h2 hm
    have hd : W = W[0]'(by omega) :: W.drop 1 := by
      have := List.drop_eq_getElem_cons (l := W) (i := 0) (by omega)
      simpa using this
    rw [hd, List.take_succ_cons, List.map_cons, List.cons.injEq] at hm
    have a1 : Reach 1 ⟨{ st := .infNan, neg := neg }, c :: (a ++ t), w, ch⟩ ⟨{ st := .word, neg := neg, word := some (W, 1) }, a ++ t, w - 1, ch + 1⟩ := by
      apply reach_eat (by omega)
      unfold Fscan.trans
      simp only
      rcases hW with rfl | rfl
      · have : upper c = 0x49 := hm.1
        rw [if_pos ((isUp_iff c _).2 this)]
      · have : upper c = 0x4E := hm.1
        rw [if_neg (by rw [isUp_iff, this]; decide), if_pos ((isUp_iff c _).2 this)]
    have a2 := word_phase W a { st := .word, neg := neg, word := some (W, 1) } 1 t (w - 1) (ch + 1) rfl rfl (by omega) (by omega) hm.2
    have := a1.trans a2 (Nat.le_of_eq (Nat.add_comm 1 a.length))
    rw [show w - 1 - a.length = w - (a.length + 1) by omega, show ch + 1 + a.length = ch + (a.length + 1) by omega,
      show 1 + a.length = a.length + 1 by omega] at this
    exact this

/-- the last letter -/
theorem word_last (W t : Str) (c : UInt8) (neg : Bool) (i w ch k : Nat) (hw : 0 < w) (hi : i + 1 = W.length) (hc : W[i]? = some (upper c)) :
    run (k + 1) ⟨{ st := .word, neg := neg, word := some (W, i) }, c :: t, w, ch⟩ = .stop { st := .word, neg := neg, word := some (W, i + 1) } t (ch + 1) := by
  unfold run
  rw [loop]
  simp only [hw, if_true, List.head?_cons]
  have : Fscan.trans { st := .word, neg := neg, word := some (W, i) } (some c) (decide (w = 0)) = .eatStop { st := .word, neg := neg, word := some (W, i + 1) } := by
    unfold Fscan.trans
    simp only [Option.any_some]
    rw [if_pos (by rw [isUp_iff, List.getD_eq_getElem?_getD, hc]; rfl), if_pos hi]
  rw [this]
  rfl

/-- a whole word -/
theorem word_whole (W a t : Str) (neg : Bool) (w ch : Nat) (hW : IsW W) (hw : a.length ≤ w) (hm : a.map upper = W) (k : Nat) :
    run (a.length + k + 1) ⟨{ st := .infNan, neg := neg }, a ++ t, w, ch⟩ = .stop { st := .word, neg := neg, word := some (W, W.length) } t (ch + a.length) := by
  have hl : a.length = W.length := by rw [← hm, List.length_map]
  have h2 : 2 ≤ W.length := by rcases hW with rfl | rfl <;> decide
  obtain ⟨b, c, rfl⟩ : ∃ b c, a = b ++ [c] := by
    rcases List.eq_nil_or_concat a with h | ⟨b, c, h⟩
    · rw [h] at hl; simp at hl; omega
    · exact ⟨b, c, by simpa using h⟩
  rw [List.map_append] at hm
  simp only [List.length_append, List.length_singleton] at hl hw ⊢
  have a1 := word_start W b (c :: t) neg w ch hW (by omega) (by omega) (by omega) (by rw [← hm, List.take_left' (by simp)])
  obtain ⟨n, hn, H⟩ := a1
  rw [List.append_assoc, List.singleton_append]
  have := H (b.length + 1 + k - n)
  rw [show n + (b.length + 1 + k - n) = b.length + 1 + k by omega] at this
  rw [this, word_last W t c neg b.length _ _ _ (by omega) (by omega)]
  · rw [Nat.add_assoc, ← hl]
  · rw [← hm, List.getElem?_append_right (by simp)]; simp

end Smlr.Fscan
