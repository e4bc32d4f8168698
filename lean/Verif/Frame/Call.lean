import Verif.Frame.Place
set_option autoImplicit false
namespace Smlr.Frame
open Smlr.Cg (Wd Ins Opd St Mem Env ld st stepP labs wd StkOk Zone)
open Smlr.Fn (lang RunN Reach Step Defined)

variable {W : Nat} {G : Int → Wd W} {K : Code W} {Q : List XIns}

theorem step_lift {pc : Nat} {s : St W} {r : Nat × St W} (h : stepP G (Q.map XIns.ins) pc s = some r) : stepX G K Q pc s = some r := by
  have hq : (Q.map XIns.ins)[pc]? = (Q[pc]?).map XIns.ins := List.getElem?_map
  unfold stepX
  cases hc : Q[pc]? with
  | none =>
    rw [hc] at hq
    unfold stepP at h
    rw [hq] at h
    cases h
  | some i =>
    rw [hc] at hq
    cases i with
    | base i => exact h
    | _ =>
      unfold stepP at h
      rw [hq] at h
      cases h

theorem run_lift {n pc pc' : Nat} {s s' : St W} (h : RunN G (Q.map XIns.ins) n pc s pc' s') : RunX G K Q n pc s pc' s' := by
  induction h with
  | refl => exact .refl _ _
  | step h _ ih => exact .step (step_lift h) ih

theorem RunX.trans {n k pc pc₁ pc₂ : Nat} {s s₁ s₂ : St W} (h : RunX G K Q n pc s pc₁ s₁) (h' : RunX G K Q k pc₁ s₁ pc₂ s₂) : RunX G K Q (n + k) pc s pc₂ s₂ := by
  induction h with
  | refl => rw [Nat.zero_add]; exact h'
  | step h _ ih => rw [Nat.add_right_comm]; exact .step h (ih h')

theorem add_ne (b : Wd W) {x y : Nat} (hx : x < 2 ^ (8 * W)) (hy : y < 2 ^ (8 * W)) (h : x ≠ y) : b + BitVec.ofNat _ x ≠ b + BitVec.ofNat _ y := by
  intro he
  apply h
  have h1 : (BitVec.ofNat (8 * W) x) = BitVec.ofNat (8 * W) y := by
    generalize BitVec.ofNat (8 * W) x = x at he ⊢
    generalize BitVec.ofNat (8 * W) y = y at he ⊢
    grind
  have := congrArg BitVec.toNat h1
  rwa [BitVec.toNat_ofNat, BitVec.toNat_ofNat, Nat.mod_eq_of_lt hx, Nat.mod_eq_of_lt hy] at this

/-- an address under another is not above it -/
theorem under_ne (b : Wd W) {j k : Nat} (hk : 1 ≤ k) (h : j + k < 2 ^ (8 * W)) : b + BitVec.ofNat _ j ≠ b - BitVec.ofNat _ k := by
  intro he
  have h1 : BitVec.ofNat (8 * W) j + BitVec.ofNat (8 * W) k = 0 := by
    generalize BitVec.ofNat (8 * W) j = x at he
    generalize BitVec.ofNat (8 * W) k = y at he
    grind
  have h3 := congrArg BitVec.toNat h1
  rw [← BitVec.ofNat_add, BitVec.toNat_ofNat, Nat.mod_eq_of_lt h] at h3
  have h3 : j + k = 0 := by simpa using h3
  omega

theorem stepX_at {pre post : List XIns} {i : XIns} (hQ : Q = pre ++ i :: post) : Q[pre.length]? = some i := by
  rw [hQ, List.getElem?_append_right (Nat.le_refl _), Nat.sub_self]
  rfl

/-- the prologue -/
theorem prolog_run {pre post : List XIns} {x : Int} {N : Nat} (hQ : Q = pre ++ ([.fn x] ++ prolog N) ++ post) (s : St W) :
    ∃ n s1, RunX G K Q n pre.length s (pre.length + ([XIns.fn x] ++ prolog N).length) s1 ∧ s1.sp = s.sp - BitVec.ofNat _ W - BitVec.ofNat _ N ∧ s1.bp = s.sp - BitVec.ofNat _ W ∧
      s1.mem = st s.mem (s.sp - BitVec.ofNat _ W) W s.bp.toNat := by
  have q0 : Q[pre.length]? = some (.fn x) := by
    apply stepX_at (post := prolog N ++ post)
    rw [hQ]
    simp
  have q1 : Q[pre.length + 1]? = some .pushBp := by
    have := stepX_at (Q := Q) (pre := pre ++ [.fn x]) (i := .pushBp) (post := .movBpSp :: ((if (N : Int) = 0 then [] else [.subSp N]) ++ post)) (by
      rw [hQ]
      simp [prolog])
    simpa using this
  have q2 : Q[pre.length + 2]? = some .movBpSp := by
    have := stepX_at (Q := Q) (pre := pre ++ [.fn x, .pushBp]) (i := .movBpSp) (post := (if (N : Int) = 0 then [] else [.subSp N]) ++ post) (by
      rw [hQ]
      simp [prolog])
    simpa using this
  have e0 : stepX G K Q pre.length s = some (pre.length + 1, s) := by unfold stepX; rw [q0]
  have e1 : stepX G K Q (pre.length + 1) s = some (pre.length + 2, push s s.bp) := by unfold stepX; rw [q1]
  have e2 : stepX G K Q (pre.length + 2) (push s s.bp) = some (pre.length + 3, { push s s.bp with bp := (push s s.bp).sp }) := by unfold stepX; rw [q2]
  by_cases hN : N = 0
  · subst hN
    refine ⟨_, _, .step e0 (.step e1 (.step e2 (.refl _ _))), ?_, rfl, rfl⟩
    show s.sp - BitVec.ofNat _ W = _
    simp
  · have hN' : ¬ (N : Int) = 0 := by omega
    have q3 : Q[pre.length + 3]? = some (.subSp N) := by
      have := stepX_at (Q := Q) (pre := pre ++ [.fn x, .pushBp, .movBpSp]) (i := .subSp N) (post := post) (by
        rw [hQ]
        simp [prolog, hN])
      simpa using this
    have e3 : stepX G K Q (pre.length + 3) { push s s.bp with bp := (push s s.bp).sp } =
        some (pre.length + 4, { push s s.bp with bp := (push s s.bp).sp, sp := (push s s.bp).sp - BitVec.ofInt _ (N : Int), flags := none }) := by unfold stepX; rw [q3]
    have hl : pre.length + ([XIns.fn x] ++ prolog N).length = pre.length + 4 := by simp [prolog, hN]
    rw [hl]
    refine ⟨_, _, .step e0 (.step e1 (.step e2 (.step e3 (.refl _ _)))), ?_, rfl, rfl⟩
    show s.sp - BitVec.ofNat _ W - BitVec.ofInt _ (N : Int) = _
    rw [BitVec.ofInt_natCast]

/-- the epilogue -/
theorem epilog_run {pre post : List XIns} (hQ : Q = pre ++ epilog ++ post) (s : St W) {b ra : Wd W} {pc : Nat} (hb : BitVec.ofNat _ (ld s.mem s.bp W) = b)
    (hr : BitVec.ofNat _ (ld s.mem (s.bp + BitVec.ofNat _ W) W) = ra) (hk : K.ins ra = some pc) :
    ∃ n, RunX G K Q n pre.length s pc { s with bp := b, sp := s.bp + BitVec.ofNat _ W + BitVec.ofNat _ W } := by
  have q0 : Q[pre.length]? = some .leave := stepX_at (post := .ret :: post) (by rw [hQ]; simp [epilog])
  have q1 : Q[pre.length + 1]? = some .ret := by
    have := stepX_at (Q := Q) (pre := pre ++ [.leave]) (i := .ret) (post := post) (by rw [hQ]; simp [epilog])
    simpa using this
  have e0 : stepX G K Q pre.length s = some (pre.length + 1, { s with bp := b, sp := s.bp + BitVec.ofNat _ W }) := by
    unfold stepX
    rw [q0, ← hb]
    rfl
  have e1 : stepX G K Q (pre.length + 1) { s with bp := b, sp := s.bp + BitVec.ofNat _ W } =
      some (pc, { s with bp := b, sp := s.bp + BitVec.ofNat _ W + BitVec.ofNat _ W }) := by
    unfold stepX
    rw [q1]
    show (K.ins (BitVec.ofNat _ (ld s.mem (s.bp + BitVec.ofNat _ W) W))).map _ = _
    rw [hr, hk]
    rfl
  exact ⟨_, .step e0 (.step e1 (.refl _ _))⟩

end Smlr.Frame
