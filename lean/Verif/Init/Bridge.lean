import Verif.Init.Spec
import Verif.Layout.Props

/-! # Initialisers: types laid out by the compiler are well formed -/
set_option autoImplicit false

namespace Smlr.Init
open Smlr.Layout (Members roundUp_ge stop_ge ms_P2 ty_P2 min_P2 P2_mem size_pos Word)

mutual
/-- the type has the sizes and offsets that C22 is about -/
def Laid (W : Nat) : Ty → Layout.Ty → Prop
  | .sc n _, t => (t = .char ∧ n = 1) ∨ (t = .short ∧ n = 2) ∨ (t = .word ∧ n = W)
  | .arr n e, .arr m e' => n = m ∧ Laid W e e'
  | .su u sz ms, .su u' ms' => u = u' ∧ sz = (Layout.Ty.su u ms').size W ∧ LaidMs W ms ms' (ms'.offsets W u 0)
  | _, _ => False
def LaidMs (W : Nat) : Mems → Members → List Nat → Prop
  | .nil, .nil, [] => True
  | .cons o t r, .cons _ t' r', o' :: os => o = o' ∧ Laid W t t' ∧ LaidMs W r r' os
  | _, _, _ => False
end

mutual
theorem laid_wf (W : Nat) (hW : Word W) : ∀ (t : Ty) (t' : Layout.Ty), Laid W t t' → t'.Ok W → t'.Complete → WF t ∧ size t = t'.size W
  | .sc n k, t', h, _, _ => by
    rw [WF, size]
    have : 0 < W := by rcases hW with h | h <;> omega
    unfold Laid at h
    rcases h with ⟨rfl, rfl⟩ | ⟨rfl, rfl⟩ | ⟨rfl, rfl⟩ <;> simp [Layout.Ty.size]
    omega
  | .arr n e, t', h, ho, hc => by
    cases t' with
    | arr m e' =>
      rw [Laid] at h
      rw [Layout.Ty.Ok] at ho
      rw [Layout.Ty.Complete] at hc
      obtain ⟨rfl, h⟩ := h
      obtain ⟨a1, a2⟩ := laid_wf W hW e e' h ho.2.2 hc
      rw [WF, size, Layout.Ty.size, a2]
      exact ⟨⟨by omega, a1⟩, rfl⟩
    | _ => simp [Laid] at h
  | .su u sz ms, t', h, ho, hc => by
    cases t' with
    | su u' ms' =>
      rw [Laid] at h
      rw [Layout.Ty.Ok] at ho
      rw [Layout.Ty.Complete] at hc
      obtain ⟨rfl, h1, h2⟩ := h
      have hge := roundUp_ge (if u then ms'.widest W else ms'.stop W 0) (ms'.align W) (ms_P2 W hW ms' ho).1
      rw [Layout.Ty.size] at h1
      rw [WF, size, Layout.Ty.size]
      refine ⟨⟨?_, ?_⟩, h1⟩
      · intro e
        subst e
        cases ms' with
        | nil => exact hc.1 rfl
        | cons p t' r' => simp [LaidMs] at h2
      · cases u with
        | true =>
          rw [if_pos rfl] at hge h1
          exact laid_union W hW sz ms ms' 0 0 h2 ho hc.2 (by omega)
        | false =>
          rw [if_neg (by simp)] at hge h1
          exact laid_struct W hW sz ms ms' 0 0 (Nat.le_refl _) h2 ho hc.2 (by omega)
    | _ => simp [Laid] at h

theorem laid_union (W : Nat) (hW : Word W) (sz : Nat) : ∀ (ms : Mems) (ms' : Members) (x e : Nat), LaidMs W ms ms' (ms'.offsets W true x) → ms'.Ok W → ms'.Complete → ms'.widest W ≤ sz → WFs true sz e ms
  | .nil, ms', x, e, h, ho, hc, hs => by rw [WFs]; trivial
  | .cons o t r, ms', x, e, h, ho, hc, hs => by
    cases ms' with
    | nil => simp [LaidMs] at h
    | cons p t' r' =>
      rw [Members.offsets, if_pos rfl, LaidMs] at h
      rw [Members.Ok] at ho
      rw [Members.Complete] at hc
      rw [Members.widest] at hs
      obtain ⟨rfl, h1, h2⟩ := h
      obtain ⟨a1, a2⟩ := laid_wf W hW t t' h1 ho.2.2.1 hc.1
      rw [WFs, if_pos rfl, a2]
      exact ⟨a1, rfl, by omega, laid_union W hW sz r r' 0 _ h2 ho.2.2.2 hc.2 (by omega)⟩

theorem laid_struct (W : Nat) (hW : Word W) (sz : Nat) : ∀ (ms : Mems) (ms' : Members) (x e : Nat), e ≤ x → LaidMs W ms ms' (ms'.offsets W false x) → ms'.Ok W → ms'.Complete → ms'.stop W x ≤ sz → WFs false sz e ms
  | .nil, ms', x, e, _, h, ho, hc, hs => by rw [WFs]; trivial
  | .cons o t r, ms', x, e, he, h, ho, hc, hs => by
    cases ms' with
    | nil => simp [LaidMs] at h
    | cons p t' r' =>
      rw [Members.offsets, if_neg (by simp), LaidMs] at h
      rw [Members.Ok] at ho
      rw [Members.Complete] at hc
      rw [Members.stop] at hs
      obtain ⟨h0, h1, h2⟩ := h
      obtain ⟨a1, a2⟩ := laid_wf W hW t t' h1 ho.2.2.1 hc.1
      have hp := min_P2 (ty_P2 W hW _ ho.2.2.1).1 (P2_mem ho.1)
      have hge := roundUp_ge x _ hp
      have hst := stop_ge W hW r' (Layout.roundUp x (min (t'.align W) p) + t'.size W) ho.2.2.2
      rw [WFs, if_neg (by simp), a2]
      refine ⟨a1, by omega, by omega, ?_⟩
      exact laid_struct W hW sz r r' _ _ (by omega) h2 ho.2.2.2 hc.2 hs
end

end Smlr.Init
