import Verif.Mframe.Spec
set_option autoImplicit false
namespace Smlr.Mframe
open Smlr.Cg (Wd Mem Env ld st wd StkOk Zone)
open Smlr.Mips (Ins St stepP Run labs saved exec execs ea opd alu load)
open Smlr.Mfn (RunN)
open Smlr.Frame (Code Under)

variable {G : Int → Wd 4} {K : Code 4} {Q : List XIns}

theorem step_lift {pc : Nat} {s : St} {r : Nat × St} (h : stepP G (Q.map XIns.ins) pc s = some r) : stepX G K Q pc s = some r := by
  have hq : (Q.map XIns.ins)[pc]? = (Q[pc]?).map XIns.ins := List.getElem?_map
  have hst : exec G s stuck = none := by
    have h0 : (s.get 0).toInt = 0 := rfl
    simp only [exec, stuck]
    rw [if_pos (Or.inl h0)]
  unfold stepX
  cases hc : Q[pc]? with
  | none =>
    rw [hc] at hq
    unfold stepP at h
    rw [hq] at h
    cases h
  | some i =>
    rw [hc] at hq
    cases i with
    | base i => exact h
    | _ =>
      unfold stepP at h
      rw [hq] at h
      change (exec G s stuck).map _ = _ at h
      rw [hst] at h
      cases h

theorem run_lift {n pc pc' : Nat} {s s' : St} (h : RunN G (Q.map XIns.ins) n pc s pc' s') : RunX G K Q n pc s pc' s' := by
  induction h with
  | refl => exact .refl _ _
  | step h _ ih => exact .step (step_lift h) ih

theorem RunX.trans {n k pc pc₁ pc₂ : Nat} {s s₁ s₂ : St} (h : RunX G K Q n pc s pc₁ s₁) (h' : RunX G K Q k pc₁ s₁ pc₂ s₂) : RunX G K Q (n + k) pc s pc₂ s₂ := by
  induction h with
  | refl => rw [Nat.zero_add]; exact h'
  | step h _ ih => rw [Nat.add_right_comm]; exact .step h (ih h')

theorem stepX_at {pre post : List XIns} {i : XIns} (hQ : Q = pre ++ i :: post) : Q[pre.length]? = some i := by
  rw [hQ, List.getElem?_append_right (Nat.le_refl _), Nat.sub_self]
  rfl

/-- straight-line code in the program -/
theorem run_base {pre post : List XIns} {c : List Ins} {s t : St} (hQ : Q = pre ++ c.map .base ++ post) (h : execs G c s = some t) :
    ∃ n, RunX G K Q n pre.length s (pre.length + c.length) t := by
  have h1 := Mips.run_execs h (pre.map XIns.ins) (post.map XIns.ins)
  obtain ⟨n, h2⟩ := Mfn.runN_of h1
  have e : Q.map XIns.ins = pre.map XIns.ins ++ c ++ post.map XIns.ins := by
    rw [hQ]
    simp [Function.comp_def, XIns.ins]
  rw [← e, List.length_map] at h2
  exact ⟨n, run_lift h2⟩

theorem home_execs (s : St) (n : Nat) : execs G ((List.range n).map (fun i => Ins.store .sw (4 + i) (.ind 29 (4 * i : Nat)))) s = some { s with mem := home s n } := by
  induction n with
  | zero => rfl
  | succ n ih =>
    rw [List.range_succ, List.map_append]
    refine Mips.execs_app ih ?_
    rw [List.map_singleton, Mips.execs_one]
    show some _ = some _
    congr 2
    show st (home s n) (St.get _ 29 + wd 4 ((4 * n : Nat) : Int)) 4 (St.get _ (4 + n)).toNat = st _ _ _ _
    have e1 : wd 4 ((4 * n : Nat) : Int) = BitVec.ofNat 32 (4 * n) := BitVec.ofInt_natCast ..
    rw [e1]
    have e2 : St.get { s with mem := home s n } (4 + n) = s.r (4 + n) := if_neg (by omega)
    rw [e2]
    rfl

theorem prolog_execs (s : St) (n N : Nat) (leaf : Bool) :
    ∃ t, execs G (prolog n N leaf) s = some t ∧ t.sp = s.sp - 8#32 - BitVec.ofNat _ N ∧ t.fp = s.sp - 8#32 ∧ (∀ i, i ≠ 29 → i ≠ 30 → t.r i = s.r i) ∧ t.mem = began s n leaf := by
  have e1 : wd 4 (8 + (N : Int)) = 8#32 + BitVec.ofNat 32 N := by
    show BitVec.ofInt 32 (8 + (N : Int)) = _
    rw [BitVec.ofInt_add, BitVec.ofInt_natCast]
    rfl
  have e2 : wd 4 (8 + (N : Int) - 8) = BitVec.ofNat 32 N := by
    rw [show 8 + (N : Int) - 8 = N by omega]
    exact BitVec.ofInt_natCast ..
  have e3 : s.sp - wd 4 (8 + (N : Int)) = s.sp - 8#32 - BitVec.ofNat 32 N := by
    rw [e1, BitVec.sub_sub]
  have e4 : s.sp - wd 4 (8 + (N : Int)) + wd 4 (8 + (N : Int) - 8) = s.sp - 8#32 := by
    rw [e3, e2, BitVec.sub_add_cancel]
  let a := s.sp - wd 4 (8 + (N : Int))
  let b := s.sp - wd 4 (8 + (N : Int)) + wd 4 (8 + (N : Int) - 8)
  let t0 : St := { s with mem := home s n }
  let t1 := (t0.set 29 a)
  let t2 : St := { t1 with mem := st (home s n) b 4 s.fp.toNat }
  let t3 := t2.set 30 b
  have hb : b = s.sp - 8#32 := e4
  have h3 : execs G [.alu .subu 29 29 (.imm (8 + (N : Int))), .store .sw 30 (.ind 29 (8 + (N : Int) - 8)), .alu .addu 30 29 (.imm (8 + (N : Int) - 8))] t0 = some t3 := rfl
  unfold prolog frame
  cases leaf with
  | true =>
    refine ⟨t3, Mips.execs_app (home_execs s n) (by simpa using h3), e3, e4, ?_, ?_⟩
    · intro i h1 h2
      show (if i = 30 then _ else if i = 29 then _ else _) = _
      rw [if_neg h2, if_neg h1]
    · show st _ b _ _ = _
      rw [hb]
      rfl
  | false =>
    have e5 : b + wd 4 4 = s.sp - 4#32 := by
      rw [hb, show wd 4 4 = 4#32 from rfl]
      bv_omega
    let t4 : St := { t3 with mem := st t3.mem (b + wd 4 4) 4 (s.r 31).toNat }
    have h4 : execs G [Ins.store .sw 31 (.ind 30 4)] t3 = some t4 := rfl
    refine ⟨t4, Mips.execs_app (home_execs s n) (Mips.execs_app h3 h4), e3, e4, ?_, ?_⟩
    · intro i h1 h2
      show (if i = 30 then _ else if i = 29 then _ else _) = _
      rw [if_neg h2, if_neg h1]
    · show st (st _ b _ _) (b + wd 4 4) _ _ = _
      rw [e5, hb]
      rfl

theorem epilog_execs {s : St} {sp b ra : Wd 4} {N : Nat} {leaf : Bool} (h1 : s.sp = sp - 8#32 - BitVec.ofNat _ N) (h2 : s.fp = sp - 8#32) (h3 : ld s.mem (sp - 8#32) 4 = b.toNat)
    (h4 : if leaf then s.r 31 = ra else ld s.mem (sp - 4#32) 4 = ra.toNat) :
    ∃ t, execs G (epilog N leaf) s = some t ∧ t.sp = sp ∧ t.fp = b ∧ t.r 31 = ra ∧ (∀ i, i ≠ 29 → i ≠ 30 → i ≠ 31 → t.r i = s.r i) ∧ t.mem = s.mem := by
  have ew : ∀ w : Wd 4, (BitVec.ofNat 32 w.toNat : Wd 4) = w := fun w => by simp
  have e1 : wd 4 (8 + (N : Int)) = 8#32 + BitVec.ofNat 32 N := by
    show BitVec.ofInt 32 (8 + (N : Int)) = _
    rw [BitVec.ofInt_add, BitVec.ofInt_natCast]
    rfl
  have e2 : sp - 8#32 - BitVec.ofNat 32 N + wd 4 (8 + (N : Int)) = sp := by
    rw [e1]
    generalize BitVec.ofNat 32 N = y
    bv_omega
  have main : ∀ u : St, u.sp = s.sp → u.fp = s.fp → u.mem = s.mem → ∃ t, execs G [.load .lw 30 (.ind 30 0), .alu .addu 29 29 (.imm (8 + (N : Int)))] u = some t ∧ t.sp = sp ∧ t.fp = b ∧
      (∀ i, i ≠ 29 → i ≠ 30 → t.r i = u.r i) ∧ t.mem = s.mem := by
    intro u q1 q2 q3
    refine ⟨_, rfl, ?_, ?_, ?_, ?_⟩
    · show u.r 29 + wd 4 (8 + (N : Int)) = sp
      rw [show u.r 29 = s.sp from q1, h1, e2]
    · show BitVec.ofNat 32 (ld u.mem (u.r 30 + wd 4 0) 4) = b
      rw [q3, show u.r 30 = s.fp from q2, h2, show wd 4 0 = 0#32 from rfl, BitVec.add_zero, h3, ew]
    · intro i h1 h2
      show (if i = 29 then _ else if i = 30 then _ else _) = _
      rw [if_neg h1, if_neg h2]
    · exact q3
  unfold epilog
  cases leaf with
  | true =>
    obtain ⟨t, k1, k2, k3, k4, k5⟩ := main s rfl rfl rfl
    exact ⟨t, by simpa using k1, k2, k3, (k4 31 (by decide) (by decide)).trans (by simpa using h4), fun i h1 h2 _ => k4 i h1 h2, k5⟩
  | false =>
    have h4 : ld s.mem (sp - 4#32) 4 = ra.toNat := by simpa using h4
    let u := s.set 31 ra
    have hu : execs G [Ins.load .lw 31 (.ind 30 4)] s = some u := by
      show some (s.set 31 (BitVec.ofNat 32 (ld s.mem (s.r 30 + wd 4 4) 4))) = some u
      have e5 : s.r 30 + wd 4 4 = sp - 4#32 := by
        rw [show s.r 30 = s.fp from rfl, h2, show wd 4 4 = 4#32 from rfl]
        bv_omega
      rw [e5, h4, ew]
    obtain ⟨t, k1, k2, k3, k4, k5⟩ := main u rfl rfl rfl
    refine ⟨t, Mips.execs_app hu k1, k2, k3, k4 31 (by decide) (by decide), fun i h1 h2 h3 => ?_, k5⟩
    rw [k4 i h1 h2]
    show (if i = 31 then _ else _) = _
    rw [if_neg h3]

/-! ### Memory -/

theorem home_other (s : St) (n : Nat) (a : Wd 4) (h : ∀ k < 4 * n, a ≠ s.sp + BitVec.ofNat _ k) : home s n a = s.mem a := by
  induction n with
  | zero => rfl
  | succ n ih =>
    show st (home s n) _ 4 _ a = _
    rw [Cg.st_other, ih (fun k hk => h k (by omega))]
    intro i hi
    have := h (4 * n + i) (by omega)
    rwa [BitVec.ofNat_add, ← BitVec.add_assoc] at this

theorem home_word (s : St) (n i : Nat) (hn : n ≤ 4) (hi : 4 * i + 8 ≤ 2 ^ 32) : ld (home s n) (s.sp + BitVec.ofNat _ (4 * i)) 4 = if i < n then (s.r (4 + i)).toNat else ld s.mem (s.sp + BitVec.ofNat _ (4 * i)) 4 := by
  induction n with
  | zero => rw [if_neg (by omega)]; rfl
  | succ n ih =>
    have ih := ih (by omega)
    show ld (st (home s n) (s.sp + BitVec.ofNat _ (4 * n)) 4 (s.r (4 + n)).toNat) _ 4 = _
    by_cases he : i = n
    · subst he
      rw [if_pos (by omega), Cg.ld_st _ _ _ _ (by decide), Nat.mod_eq_of_lt (s.r (4 + i)).isLt]
    · rw [Cg.ld_congr _ (home s n), ih]
      · by_cases h : i < n
        · rw [if_pos h, if_pos (by omega)]
        · rw [if_neg h, if_neg (by omega)]
      · intro j hj
        apply Cg.st_other
        intro k hk
        rw [BitVec.add_assoc, BitVec.add_assoc, ← BitVec.ofNat_add, ← BitVec.ofNat_add]
        exact Frame.add_ne s.sp (by show _ < 2 ^ 32; omega) (by show _ < 2 ^ 32; omega) (by omega)

/-- outside of the two words under the stack pointer nothing else changes -/
theorem began_other (s : St) (n : Nat) (leaf : Bool) (a : Wd 4) (h : ∀ k, 1 ≤ k → k ≤ 8 → a ≠ s.sp - BitVec.ofNat _ k) : began s n leaf a = home s n a := by
  have e : ∀ (b : Nat) (i : Nat), i < b → b ≤ 8 → s.sp - BitVec.ofNat 32 b + BitVec.ofNat 32 i = s.sp - BitVec.ofNat 32 (b - i) := by
    intro b i h1 h2
    have : BitVec.ofNat 32 b = BitVec.ofNat 32 (b - i) + BitVec.ofNat 32 i := by rw [← BitVec.ofNat_add]; congr 1; omega
    rw [this]
    generalize BitVec.ofNat 32 (b - i) = y
    generalize BitVec.ofNat 32 i = z
    have : s.sp - (y + z) + z = s.sp - y := by bv_omega
    exact this
  have h8 : st (home s n) (s.sp - 8#32) 4 s.fp.toNat a = home s n a := by
    apply Cg.st_other
    intro i hi
    have := e 8 i (by omega) (by omega)
    rw [show BitVec.ofNat 32 8 = 8#32 from rfl] at this
    rw [this]
    exact h _ (by omega) (by omega)
  unfold began
  cases leaf with
  | true => exact h8
  | false =>
    show st (st (home s n) (s.sp - 8#32) 4 s.fp.toNat) (s.sp - 4#32) 4 _ a = _
    rw [Cg.st_other, h8]
    intro i hi
    have := e 4 i (by omega) (by omega)
    rw [show BitVec.ofNat 32 4 = 4#32 from rfl] at this
    rw [this]
    exact h _ (by omega) (by omega)

theorem began_fp (s : St) (n : Nat) (leaf : Bool) : ld (began s n leaf) (s.sp - 8#32) 4 = s.fp.toNat := by
  have h8 : ld (st (home s n) (s.sp - 8#32) 4 s.fp.toNat) (s.sp - 8#32) 4 = s.fp.toNat := by
    rw [Cg.ld_st _ _ _ _ (by decide), Nat.mod_eq_of_lt s.fp.isLt]
  unfold began
  cases leaf with
  | true => exact h8
  | false =>
    show ld (st _ _ _ _) _ _ = _
    rw [Cg.ld_congr _ _ _ _ ?_, h8]
    intro j hj
    apply Cg.st_other
    intro i hi
    have e : s.sp - 4#32 = s.sp - 8#32 + BitVec.ofNat 32 4 := by bv_omega
    rw [e, BitVec.add_assoc, ← BitVec.ofNat_add]
    exact Frame.add_ne _ (by show _ < 2 ^ 32; omega) (by show _ < 2 ^ 32; omega) (by omega)

theorem began_ra (s : St) (n : Nat) : ld (began s n false) (s.sp - 4#32) 4 = (s.r 31).toNat := by
  show ld (st _ _ _ _) _ _ = _
  rw [Cg.ld_st _ _ _ _ (by decide), Nat.mod_eq_of_lt (s.r 31).isLt]

/-- part of a word, converted -/
theorem val_word (m : Mem 4) (a : Wd 4) (z : Int) (hk : z.natAbs ≤ 4) (x : Wd 4) (h : ld m a 4 = x.toNat) : Cg.val m a z = Cg.conv z x.toInt := by
  unfold Cg.val
  rw [Cg.conv_toInt _ hk, ← h]
  have hpre : ∀ (m : Mem 4) (a : Wd 4) (n k : Nat), ld m a (n + k) % 256 ^ n = ld m a n := by
    intro m a n k
    induction n generalizing a with
    | zero => simp [ld, Nat.mod_one]
    | succ n ih =>
      rw [Nat.succ_add]
      simp only [ld]
      have h1 := (m a).isLt
      rw [Nat.pow_succ', Nat.mod_mul]
      have e1 : ((m a).toNat + 256 * ld m (a + 1) (n + k)) % 256 = (m a).toNat := by omega
      have e2 : ((m a).toNat + 256 * ld m (a + 1) (n + k)) / 256 = ld m (a + 1) (n + k) := by omega
      rw [e1, e2, ih]
  have hz2 := hpre m a z.natAbs (4 - z.natAbs)
  rw [Nat.add_sub_cancel' hk] at hz2
  generalize ld m a 4 = X at hz2
  rw [← hz2]
  unfold Cg.conv
  split
  · rw [Int.natCast_emod, Int.natCast_pow]
    exact Int.emod_emod_of_dvd _ (Int.dvd_refl _)
  · rw [Int.natCast_emod]
    exact Int.emod_bmod ..

/-- the code before a call -/
theorem ready_execs (s : St) (deep : Bool) (v : Nat) (ra : Wd 4) : ∃ t, execs G (ready deep v) s = some t ∧ t.set 31 ra = atEntry deep s v ra ∧ t.r 2 = s.r 2 := by
  cases deep with
  | false =>
    refine ⟨_, rfl, ?_, rfl⟩
    rfl
  | true =>
    have one : ∀ (c : Prop) [Decidable c] (u : St) (i : Nat), u.mem = s.mem → u.sp = s.sp →
        execs G (if c then [Ins.load .lw (4 + i) (.ind 29 (4 * i : Nat))] else []) u = some (if c then u.set (4 + i) (word s i) else u) := by
      intro c _ u i h1 h2
      split
      · show some (u.set (4 + i) (BitVec.ofNat 32 (ld u.mem (u.r 29 + wd 4 ((4 * i : Nat) : Int)) 4))) = _
        rw [h1, show u.r 29 = s.sp from h2, show wd 4 ((4 * i : Nat) : Int) = BitVec.ofNat 32 (4 * i) from BitVec.ofInt_natCast ..]
        rfl
      · rfl
    have h0 := one (v ≥ 4) s 0 rfl rfl
    have h1 := one (v ≥ 8) (if v ≥ 4 then s.set 4 (word s 0) else s) 1 (by split <;> rfl) (by split <;> rfl)
    have h2 := one (v ≥ 12) (i := 2) (u := if v ≥ 8 then (if v ≥ 4 then s.set 4 (word s 0) else s).set 5 (word s 1) else (if v ≥ 4 then s.set 4 (word s 0) else s)) (by split <;> split <;> rfl) (by split <;> split <;> rfl)
    have h3 := one (v ≥ 16) (i := 3) (u := if v ≥ 12 then (if v ≥ 8 then (if v ≥ 4 then s.set 4 (word s 0) else s).set 5 (word s 1) else (if v ≥ 4 then s.set 4 (word s 0) else s)).set 6 (word s 2) else
      (if v ≥ 8 then (if v ≥ 4 then s.set 4 (word s 0) else s).set 5 (word s 1) else (if v ≥ 4 then s.set 4 (word s 0) else s))) (by split <;> split <;> split <;> rfl) (by split <;> split <;> split <;> rfl)
    refine ⟨_, Mips.execs_app (Mips.execs_app (Mips.execs_app h0 h1) h2) h3, ?_, by split <;> split <;> split <;> split <;> rfl⟩
    have hr : ∀ (a b : St), a.r = b.r → a.hi = b.hi → a.lo = b.lo → a.mem = b.mem → a = b := by
      intro a b h1 h2 h3 h4
      cases a; cases b
      simp only at h1 h2 h3 h4
      rw [h1, h2, h3, h4]
    apply hr
    · funext k
      show (if k = 31 then ra else _) = if k = 31 then ra else if 4 ≤ k ∧ k < 8 ∧ 4 * (k - 4) + 4 ≤ v then word s (k - 4) else s.r k
      by_cases hk : k = 31
      · rw [if_pos hk, if_pos hk]
      rw [if_neg hk, if_neg hk]
      have key : ∀ (c : Prop) [Decidable c] (u : St) (i : Nat) (w : Wd 4), (if c then u.set i w else u).r k = if c ∧ k = i then w else u.r k := by
        intro c _ u i w
        by_cases hc : c
        · rw [if_pos hc]
          show (if k = i then w else u.r k) = _
          by_cases hi : k = i
          · rw [if_pos hi, if_pos ⟨hc, hi⟩]
          · rw [if_neg hi, if_neg (fun h => hi h.2)]
        · rw [if_neg hc, if_neg (fun h => hc h.1)]
      rw [key, key, key, key]
      by_cases k4 : k = 4
      · subst k4
        by_cases hv : 4 ≤ v
        · simp [hv]
        · simp [hv]
      by_cases k5 : k = 5
      · subst k5
        by_cases hv : 8 ≤ v
        · simp [hv]
        · simp [hv]
      by_cases k6 : k = 6
      · subst k6
        by_cases hv : 12 ≤ v
        · simp [hv]
        · simp [hv]
      by_cases k7 : k = 7
      · subst k7
        by_cases hv : 16 ≤ v
        · simp [hv]
        · simp [hv]
      rw [if_neg (by omega), if_neg (by omega), if_neg (by omega), if_neg (by omega), if_neg (by omega)]
    all_goals (split <;> split <;> split <;> split <;> rfl)

end Smlr.Mframe
