import Verif.Mframe.Call
set_option autoImplicit false
/-! # C57 The frame of a function and its calls on MIPS -/
namespace Smlr.Mframe
open Smlr.Cg (Wd Mem Env ld st wd StkOk Zone)
open Smlr.Mips (Ins St stepP Run labs saved exec execs)
open Smlr.Fn (lang Reach Step Defined)
open Smlr.Stmt.Spec (Stmt Conf)
open Smlr.Frame (Code Under)

/-- The end of a function.  From every state in which the frame is as the beginning of the function has made it, the code after the body goes to where the function has been called, with the registers of the caller; `$31` may have been changed if there are calls. -/
theorem c57_return {G : Int → Wd 4} {K : Code 4} {Q pre post : List XIns} {N : Nat} {leaf : Bool} (hQ : Q = pre ++ (epilog N leaf).map XIns.base ++ [XIns.jr 31] ++ post) {s : St} {sp b ra : Wd 4}
    (h1 : s.sp = sp - 8#32 - BitVec.ofNat _ N) (h2 : s.fp = sp - 8#32) (h3 : ld s.mem (sp - 8#32) 4 = b.toNat) (h4 : if leaf then s.r 31 = ra else ld s.mem (sp - 4#32) 4 = ra.toNat)
    {pc : Nat} (hr : K.ins ra = some pc) :
    ∃ n t, RunX G K Q n pre.length s pc t ∧ t.sp = sp ∧ t.fp = b ∧ t.r 31 = ra ∧ (∀ i, i ≠ 29 → i ≠ 30 → i ≠ 31 → t.r i = s.r i) ∧ t.mem = s.mem := by
  obtain ⟨t, k1, k2, k3, k4, k5, k6⟩ := epilog_execs (G := G) h1 h2 h3 h4
  obtain ⟨n, k7⟩ := run_base (K := K) (Q := Q) (pre := pre) (post := [XIns.jr 31] ++ post) (by rw [hQ]; simp) k1
  have q : Q[pre.length + (epilog N leaf).length]? = some (.jr 31) := by
    have := stepX_at (Q := Q) (pre := pre ++ (epilog N leaf).map XIns.base) (i := .jr 31) (post := post) (by rw [hQ]; simp)
    simpa using this
  have e : stepX G K Q (pre.length + (epilog N leaf).length) t = some (pc, t) := by
    unfold stepX
    rw [q]
    show (K.ins (t.r 31)).map _ = _
    rw [k4, hr]
    rfl
  exact ⟨_, t, k7.trans (.step e (.refl _ _)), k2, k3, k4, k5, k6⟩

theorem count_le (lo hi : Nat) : count lo hi ≤ 4 := by
  unfold count
  split
  · split <;> omega
  · omega

/-- A function whose behaviour is defined, from its first instruction: its body runs with the arguments that were in registers stored with the others; if it returns, the code goes to where the function has been called, with the value in `$2`, the registers that expressions do not change (among them the stack and frame pointers) as they were,
the objects as the body leaves them, and the rest of the memory, but for the words that the function uses of the stack, as it was; if it goes on for ever, so does the code.  Partial as C56: not for functions that end with a loop whose body is a bare `return`. -/
theorem c57_function_partial {isMain : Bool} {body : Stmt (lang 4)} {P : List Ins} {d N lo hi : Nat} {leaf : Bool} (hc : Compiled isMain body P d) {K : Code 4} {Q pre post : List XIns} {x : Int}
    (hQ : Q = pre ++ function x lo hi N leaf P ++ post) (hl : (labs (Q.map XIns.ins)).Nodup) {V : Env 4} {s : St} (hs : Room V s.sp N d) {pc : Nat} (hr : K.ins (s.r 31) = some pc)
    {m0 : Mem 4} (hm : m0 = began s (count lo hi) leaf) (hd : Defined V isMain body m0) :
    (∃ r m n s1, Reach V isMain body (.run body .stop m0) (.done r m) ∧ RunX V.G K Q n pre.length s pc s1 ∧ (∀ v, r = some v → s1.r 2 = wd 4 v) ∧ (∀ i, saved i → s1.r i = s.r i) ∧
      (∀ a, V.A a → s1.mem a = m a) ∧ ∀ a, ¬ V.A a → ¬ Under s.sp (8 + N + d * 4) a → (∀ k < 4 * count lo hi, a ≠ s.sp + BitVec.ofNat _ k) → s1.mem a = s.mem a) ∨
    ∃ (f : Nat → Conf (lang 4) (Mem 4)) (k pc : Nat → Nat) (g : Nat → St), f 0 = .run body .stop m0 ∧ (∀ j, Step V isMain body (f j) (f (j + 1))) ∧ (∀ n, ∃ j, n ≤ k j) ∧
      ∀ j, RunX V.G K Q (k j) pre.length s (pc j) (g j) ∧ ∀ a, V.A a → (g j).mem a = (f j).st a := by
  subst hm
  obtain ⟨void, mc, mg, n, lab0, rest, code, ρ, h1, h2, h3, h4, h5, h6, h7⟩ := hc
  obtain ⟨P', hP', hrun⟩ := Mfn.c56_body_partial h1 h2 h3 h4 h5 ρ
  have : P' = P := by
    have := hP'.symm.trans h6
    injection this
  subst this
  generalize hn : count lo hi = n at *
  have hn4 : n ≤ 4 := by rw [← hn]; exact count_le lo hi
  obtain ⟨s0, k1, k2, k3, k4, k5⟩ := prolog_execs (G := V.G) s n N leaf
  have hQ1 : Q = pre ++ [XIns.fn x] ++ (prolog n N leaf).map XIns.base ++ (P'.map XIns.base ++ (epilog N leaf).map XIns.base ++ [XIns.jr 31] ++ post) := by rw [hQ]; simp [function, hn]
  have e0 : stepX V.G K Q pre.length s = some (pre.length + 1, s) := by
    have q : Q[pre.length]? = some (.fn x) := stepX_at (post := (prolog n N leaf).map XIns.base ++ (P'.map XIns.base ++ (epilog N leaf).map XIns.base ++ [XIns.jr 31] ++ post)) (by rw [hQ1]; simp)
    unfold stepX
    rw [q]
  obtain ⟨n0, hpro⟩ := run_base (K := K) (Q := Q) hQ1 k1
  have hpl : (pre ++ [XIns.fn x]).length = pre.length + 1 := by simp
  rw [hpl] at hpro
  have hpro := RunX.step e0 hpro
  have hb : s0.fp = V.bp := by rw [k3, hs.bp]
  have hsp' : s0.sp = V.bp - BitVec.ofNat _ N := by rw [k2, hs.bp]
  have hQm : Q.map XIns.ins = (pre ++ [XIns.fn x] ++ (prolog n N leaf).map XIns.base).map XIns.ins ++ P' ++ ((epilog N leaf).map XIns.base ++ [XIns.jr 31] ++ post).map XIns.ins := by
    rw [hQ1]
    simp [Function.comp_def, XIns.ins]
  have hlen : ((pre ++ [XIns.fn x] ++ (prolog n N leaf).map XIns.base).map XIns.ins).length = pre.length + 1 + (prolog n N leaf).length := by simp; omega
  have hfits := hs.fits
  have hzone : StkOk V.A s0.sp d := ⟨fun a ha => hs.below a (by rw [← hsp']; exact ha), by show _ < 2 ^ 32; omega⟩
  have hz : ∀ j < 8, ¬ Zone s0.sp d (V.bp + BitVec.ofNat _ j) := by
    rintro j hj ⟨k, q1, q2, q3⟩
    rw [hsp', BitVec.sub_sub, ← BitVec.ofNat_add] at q3
    exact Frame.under_ne V.bp (by omega) (by show _ < 2 ^ 32; omega) q3
  rcases hrun V (Q.map XIns.ins) _ _ s0 d hQm hl hb h7 hzone (k5 ▸ hd) with ⟨r, m, s1, j1, j2, j3, j4, j6, j7⟩ | ⟨f, k, pcs, g, j1, j2, j3, j4⟩
  · left
    obtain ⟨n1, j2⟩ := Mfn.runN_of j2
    have j2 := run_lift (K := K) j2
    rw [hlen] at j2
    have keep : ∀ j < 8, s1.mem (V.bp + BitVec.ofNat _ j) = s0.mem (V.bp + BitVec.ofNat _ j) := fun j hj => j7 _ (hs.links j hj) (hz j hj)
    have l1 : ld s1.mem (s.sp - 8#32) 4 = s.fp.toNat := by
      rw [← began_fp s n leaf, ← k5, ← hs.bp]
      exact Cg.ld_congr _ _ _ _ (fun i hi => keep i (by omega))
    have l2 : ld s1.mem (s.sp - 4#32) 4 = ld (began s n leaf) (s.sp - 4#32) 4 := by
      rw [← k5]
      apply Cg.ld_congr
      intro i hi
      have e : s.sp - 4#32 + BitVec.ofNat 32 i = V.bp + BitVec.ofNat 32 (4 + i) := by
        rw [hs.bp, BitVec.ofNat_add]
        generalize BitVec.ofNat 32 i = z
        bv_omega
      have := keep (4 + i) (by omega)
      rw [← e] at this
      exact this
    have sv : ∀ i, saved i → s1.r i = s0.r i := j4
    have s29 : s1.sp = s.sp - 8#32 - BitVec.ofNat _ N := (sv 29 (by unfold saved; omega)).trans k2
    have s30 : s1.fp = s.sp - 8#32 := (sv 30 (by unfold saved; omega)).trans k3
    have s31 : s1.r 31 = s.r 31 := (sv 31 (by unfold saved; omega)).trans (k4 31 (by decide) (by decide))
    obtain ⟨n2, t, t1, t2, t3, t4, t5, t6⟩ := c57_return (G := V.G) (K := K) (Q := Q) (pre := pre ++ [XIns.fn x] ++ (prolog n N leaf).map XIns.base ++ P'.map XIns.base) (post := post) (N := N) (leaf := leaf)
      (by rw [hQ1]; simp) (s := s1) (sp := s.sp) (b := s.fp) (ra := s.r 31) s29 s30 l1 (by
        cases leaf with
        | true => exact s31
        | false => exact l2.trans (began_ra s n)) hr
    have hlen2 : (pre ++ [XIns.fn x] ++ (prolog n N leaf).map XIns.base ++ P'.map XIns.base).length = pre.length + 1 + (prolog n N leaf).length + P'.length := by simp; omega
    rw [hlen2] at t1
    refine ⟨r, m, _, t, k5 ▸ j1, (hpro.trans j2).trans t1, ?_, ?_, ?_, ?_⟩
    · intro v hv
      rw [t5 2 (by decide) (by decide) (by decide)]
      exact j3 v hv
    · intro i hi
      by_cases i1 : i = 29
      · rw [i1]; exact t2
      by_cases i2 : i = 30
      · rw [i2]; exact t3
      by_cases i3 : i = 31
      · rw [i3]; exact t4
      rw [t5 i i1 i2 i3, sv i hi, k4 i i1 i2]
    · intro a ha
      rw [t6]
      exact j6 a ha
    · intro a ha hu hh
      rw [t6, j7 a ha ?_, k5, began_other, home_other s n a hh]
      · intro k q1 q2 q3
        exact hu ⟨k, q1, by omega, q3⟩
      · rintro ⟨k, q1, q2, q3⟩
        apply hu
        refine ⟨8 + N + k, by omega, by omega, ?_⟩
        rw [q3, k2, BitVec.sub_sub, BitVec.sub_sub, show (8#32 : Wd 4) = BitVec.ofNat (8 * 4) 8 from rfl, ← BitVec.ofNat_add, ← BitVec.ofNat_add, Nat.add_assoc]
  · right
    refine ⟨f, fun j => n0 + 1 + k j, pcs, g, k5 ▸ j1, j2, fun N' => ?_, fun j => ?_⟩
    · obtain ⟨j, hj⟩ := j3 N'
      exact ⟨j, Nat.le_trans hj (Nat.le_add_left _ _)⟩
    · obtain ⟨q1, -, q4, -⟩ := j4 j
      have q1 := run_lift (K := K) q1
      rw [hlen] at q1
      exact ⟨hpro.trans q1, q4⟩

/-- Arguments.  Whether the caller has them all on the stack, the first on the top (the last has been pushed first), or the first four in registers, each parameter of the function has, when the body begins, the value of its argument, converted to its type.
The function may have fewer parameters than there are arguments, with `...`; what counts is that the prologue takes `lo` and `hi` from its declaration. -/
theorem c57_args (deep leaf : Bool) (s : St) (n : Nat) (hn : (n + 2) * 4 ≤ 2 ^ 32) (szs : List Int) (hz : ∀ z ∈ szs, Cg.okSz 4 z) (hl : szs.length ≤ n) (lo hi : Nat) (hlo : lo = szs.length) (hhi : lo ≤ hi) (ra : Wd 4)
    (i : Nat) (hi' : i < szs.length) :
    Cg.val (began (atEntry deep s (4 * n) ra) (count lo hi) leaf) ((atEntry deep s (4 * n) ra).sp - 8#32 + BitVec.ofNat _ (Frame.argOfs 4 (szs.map Int.natAbs) i)) szs[i] =
      Cg.conv szs[i] (given deep s i).toInt := by
  have hu : ∀ z, Cg.okSz 4 z → z.natAbs ≤ 4 ∧ Frame.up 4 z.natAbs = 4 := by
    intro z h
    unfold Frame.up
    unfold Cg.okSz at h
    omega
  have hsum : ∀ (l : List Int), (∀ z ∈ l, Cg.okSz 4 z) → (((l.map Int.natAbs)).map (Frame.up 4)).sum = l.length * 4 := by
    intro l
    induction l with
    | nil => intro _; simp
    | cons z l ih =>
      intro h
      rw [List.map_cons, List.map_cons, List.sum_cons, ih (fun y hy => h y (List.mem_cons_of_mem _ hy)), (hu z (h z (by simp))).2, List.length_cons, Nat.succ_mul, Nat.add_comm]
  have ho : Frame.argOfs 4 (szs.map Int.natAbs) i = 8 + 4 * i := by
    unfold Frame.argOfs
    rw [← List.map_take, hsum _ (fun z hz' => hz z (List.mem_of_mem_take hz')), List.length_take, Nat.min_eq_left (by omega)]
    omega
  generalize he : atEntry deep s (4 * n) ra = e
  have ha : e.sp - 8#32 + BitVec.ofNat _ (Frame.argOfs 4 (szs.map Int.natAbs) i) = e.sp + BitVec.ofNat _ (4 * i) := by
    rw [ho, BitVec.ofNat_add]
    show e.sp - 8#32 + (8#32 + BitVec.ofNat 32 (4 * i)) = e.sp + BitVec.ofNat 32 (4 * i)
    generalize BitVec.ofNat 32 (4 * i) = z
    bv_omega
  rw [ha]
  apply val_word _ _ _ (hu szs[i] (hz _ (List.getElem_mem _))).1
  have hb : ld (began e (count lo hi) leaf) (e.sp + BitVec.ofNat _ (4 * i)) 4 = ld (home e (count lo hi)) (e.sp + BitVec.ofNat _ (4 * i)) 4 := by
    apply Cg.ld_congr
    intro j hj
    apply began_other
    intro k q1 q2
    rw [BitVec.add_assoc, ← BitVec.ofNat_add]
    exact Frame.under_ne e.sp q1 (by show _ < 2 ^ 32; omega)
  rw [hb, home_word e _ i (count_le lo hi) (by omega)]
  have hcnt : i < 4 → i < count lo hi := by
    intro h
    unfold count
    rw [if_pos (by omega)]
    split <;> omega
  by_cases h4 : i < 4
  · rw [if_pos (hcnt h4)]
    congr 1
    subst he
    unfold given atEntry
    cases deep with
    | true =>
      show (if 4 + i = 31 then _ else _) = _
      rw [if_neg (by omega), if_pos (by omega), if_pos rfl]
      congr 1
      omega
    | false =>
      show (if 4 + i = 31 then _ else if 4 + i = 29 then _ else _) = _
      rw [if_neg (by omega), if_neg (by omega), if_neg (by decide), if_pos h4]
  · have : ¬ i < count lo hi := by have := count_le lo hi; omega
    rw [if_neg this]
    subst he
    unfold given atEntry
    have hw : ∀ (m : Mem 4) (a : Wd 4), ld m a 4 = (BitVec.ofNat 32 (ld m a 4)).toNat := by
      intro m a
      rw [BitVec.toNat_ofNat, Nat.mod_eq_of_lt]
      exact Cg.ld_lt m a 4
    cases deep with
    | true => exact hw _ _
    | false =>
      rw [if_neg (by decide), if_neg h4]
      unfold word
      have ea : s.sp - 16#32 + BitVec.ofNat 32 (4 * i) = s.sp + BitVec.ofNat 32 (4 * (i - 4)) := by
        rw [show 4 * i = 16 + 4 * (i - 4) by omega, BitVec.ofNat_add]
        generalize BitVec.ofNat 32 (4 * (i - 4)) = z
        bv_omega
      show ld s.mem (s.sp - 16#32 + BitVec.ofNat 32 (4 * i)) 4 = _
      rw [ea]
      exact hw _ _

/-- A call: the function runs, and then the code goes on after the call, with the arguments (and the room that was made for them) gone from the stack.  The name of the function is in the instruction, or a pointer to the function is in `$2`.  `$31` is changed, and, with arguments on the stack, registers of arguments. -/
theorem c57_call_partial {isMain : Bool} {body : Stmt (lang 4)} {P : List Ins} {d N lo hi : Nat} {leaf deep : Bool} (hc : Compiled isMain body P d) {K : Code 4} {Q pre post pre' post' : List XIns} {x : Int} {v : Nat} {f : XIns}
    (hQ : Q = pre ++ function x lo hi N leaf P ++ post) (hQ' : Q = pre' ++ callCode deep f v ++ post') (hl : (labs (Q.map XIns.ins)).Nodup) {V : Env 4} {s : St}
    (hf : f = .jal x ∧ .fn x ∉ pre ∨ f = .jalr 2 ∧ K.ins (s.r 2) = some pre.length)
    {p : Nat} (hp : p = pre'.length + (ready deep v).length + 1) (hK : K.ins (K.adr p) = some p)
    (hs : Room V (atEntry deep s v (K.adr p)).sp N d) {m0 : Mem 4} (hm : m0 = began (atEntry deep s v (K.adr p)) (count lo hi) leaf) (hd : Defined V isMain body m0) :
    (∃ r m n s1, Reach V isMain body (.run body .stop m0) (.done r m) ∧ RunX V.G K Q n pre'.length s (pre'.length + (callCode deep f v).length) s1 ∧ (∀ v, r = some v → s1.r 2 = wd 4 v) ∧
      s1.sp = (if deep then s.sp + BitVec.ofNat _ (max v 16) else s.sp + BitVec.ofNat _ (v - 16)) ∧
      (∀ i, saved i → i ≠ 29 → i ≠ 31 → ¬ (deep = true ∧ 4 ≤ i ∧ i < 8) → s1.r i = s.r i) ∧ (∀ a, V.A a → s1.mem a = m a) ∧
      ∀ a, ¬ V.A a → ¬ Under (atEntry deep s v (K.adr p)).sp (8 + N + d * 4) a → (∀ k < 4 * count lo hi, a ≠ (atEntry deep s v (K.adr p)).sp + BitVec.ofNat _ k) → s1.mem a = s.mem a) ∨
    ∃ (f : Nat → Conf (lang 4) (Mem 4)) (k pc : Nat → Nat) (g : Nat → St), f 0 = .run body .stop m0 ∧ (∀ j, Step V isMain body (f j) (f (j + 1))) ∧ (∀ n, ∃ j, n ≤ k j) ∧
      ∀ j, RunX V.G K Q (k j) pre'.length s (pc j) (g j) ∧ ∀ a, V.A a → (g j).mem a = (f j).st a := by
  obtain ⟨t, t1, t2, t3⟩ := ready_execs (G := V.G) s deep v (K.adr p)
  have hv0 : ¬ (-(if v < 16 then 16 else v : Int)) = 0 := by split <;> omega
  have hQ1 : Q = pre' ++ (ready deep v).map XIns.base ++ f :: XIns.base (.alu .subu 29 29 (.imm (-(if v < 16 then 16 else v : Int)))) :: post' := by
    rw [hQ']
    simp only [callCode, growStack, if_neg hv0]
    simp
  obtain ⟨n0, r0⟩ := run_base (K := K) (Q := Q) hQ1 t1
  have hpl : (pre' ++ (ready deep v).map XIns.base).length = pre'.length + (ready deep v).length := by simp
  have qf : Q[pre'.length + (ready deep v).length]? = some f := by
    have := stepX_at (Q := Q) hQ1
    rwa [hpl] at this
  have he : .fn x ∉ pre → entry Q x = some pre.length := by
    intro hx
    unfold entry
    have hmem : XIns.fn x ∈ Q := by rw [hQ]; simp [function]
    rw [if_pos hmem, hQ, List.append_assoc, List.idxOf_append_of_notMem hx]
    simp [function, List.idxOf_cons_self]
  have e0 : stepX V.G K Q (pre'.length + (ready deep v).length) t = some (pre.length, atEntry deep s v (K.adr p)) := by
    unfold stepX
    rw [qf]
    rcases hf with ⟨rfl, hx⟩ | ⟨rfl, hx⟩
    · show (entry Q x).map _ = _
      rw [he hx, ← hp, t2]
      rfl
    · show (K.ins (t.r 2)).map _ = _
      rw [t3, hx, ← hp, t2]
      rfl
  have r1 := r0.trans (RunX.step e0 (.refl _ _))
  have hra : (atEntry deep s v (K.adr p)).r 31 = K.adr p := by unfold atEntry; split <;> rfl
  rcases c57_function_partial hc hQ hl hs (K := K) (pc := p) (by rw [hra, hK]) hm hd with ⟨r, m, n, s1, k1, k2, k3, k4, k5, k6⟩ | ⟨f, k, pcs, g, k1, k2, k3, k4⟩
  · left
    have hQ2 : Q = (pre' ++ (ready deep v).map XIns.base ++ [f]) ++ [Ins.alu .subu 29 29 (.imm (-(if v < 16 then 16 else v : Int)))].map XIns.base ++ post' := by rw [hQ1]; simp
    obtain ⟨n2, r2⟩ := run_base (G := V.G) (K := K) (Q := Q) (s := s1) hQ2 rfl
    have hlen : (pre' ++ (ready deep v).map XIns.base ++ [f]).length = p := by simp [hp]; omega
    rw [hlen] at r2
    have hend : p + [Ins.alu .subu 29 29 (.imm (-(if v < 16 then 16 else v : Int)))].length = pre'.length + (callCode deep f v).length := by
      simp only [callCode, growStack, if_neg hv0, hp]
      simp
      omega
    rw [hend] at r2
    have sp1 : s1.sp = (atEntry deep s v (K.adr p)).sp := k4 29 (by unfold saved; omega)
    refine ⟨r, m, _, _, k1, (r1.trans k2).trans r2, k3, ?_, ?_, k5, ?_⟩
    · show s1.sp - BitVec.ofInt 32 (-(if v < 16 then 16 else v : Int)) = _
      have ew : s1.sp - BitVec.ofInt 32 (-(if v < 16 then 16 else v : Int)) = s1.sp + BitVec.ofNat 32 (max v 16) := by
        have : (-(if v < 16 then 16 else v : Int)) = -((max v 16 : Nat) : Int) := by split <;> omega
        rw [this, BitVec.ofInt_neg, BitVec.ofInt_natCast]
        generalize BitVec.ofNat 32 (max v 16) = y
        show s1.sp - -y = s1.sp + y
        bv_omega
      rw [ew, sp1]
      cases deep with
      | true => rfl
      | false =>
        show s.sp - 16#32 + BitVec.ofNat 32 (max v 16) = s.sp + BitVec.ofNat 32 (v - 16)
        rw [show max v 16 = 16 + (v - 16) by omega, BitVec.ofNat_add]
        generalize BitVec.ofNat 32 (v - 16) = y
        bv_omega
    · intro i h1 h2 h3 h4
      show (if i = 29 then _ else s1.r i) = _
      rw [if_neg h2, k4 i h1]
      unfold atEntry
      cases deep with
      | true =>
        show (if i = 31 then _ else if _ then _ else _) = _
        rw [if_neg h3, if_neg (fun h => h4 ⟨rfl, h.1, h.2.1⟩)]
      | false =>
        show (if i = 31 then _ else if i = 29 then _ else _) = _
        rw [if_neg h3, if_neg h2]
    · intro a h1 h2 h3
      show s1.mem a = _
      rw [k6 a h1 h2 h3]
      unfold atEntry
      split <;> rfl
  · right
    refine ⟨f, fun j => n0 + (0 + 1) + k j, pcs, g, k1, k2, fun N' => ?_, fun j => ?_⟩
    · obtain ⟨j, hj⟩ := k3 N'
      exact ⟨j, Nat.le_trans hj (Nat.le_add_left _ _)⟩
    · exact ⟨r1.trans (k4 j).1, (k4 j).2⟩

/-! ### Cases -/

section
open Smlr.Fn (exBody exV exCode ex_wf ex_code ex_defined)
open Smlr.Mfn (exP ex_print)

theorem ex_compiled : Compiled false exBody exP 2 :=
  ⟨false, 10, 10, 100, 1, [], exCode, (fun l => l), ex_wf, by decide, ex_code, .inr rfl, (fun x hx => (nomatch hx)), ex_print, by decide +kernel⟩

/-- a nested call with two arguments, one with five that is not nested, and the function, with two parameters and a frame of 16 bytes -/
def exQ : List XIns := callCode true (.jal 7) 8 ++ callCode false (.jalr 2) 20 ++ function 7 2 2 16 false exP

example : exQ = [.base (.load .lw 4 (.ind 29 0)), .base (.load .lw 5 (.ind 29 4)), .jal 7, .base (.alu .subu 29 29 (.imm (-16))),
    .base (.alu .subu 29 29 (.imm 16)), .jalr 2, .base (.alu .subu 29 29 (.imm (-20))),
    .fn 7, .base (.store .sw 4 (.ind 29 0)), .base (.store .sw 5 (.ind 29 4)), .base (.alu .subu 29 29 (.imm 24)), .base (.store .sw 30 (.ind 29 16)), .base (.alu .addu 30 29 (.imm 16)),
    .base (.store .sw 31 (.ind 30 4))] ++ exP.map .base ++ [.base (.load .lw 31 (.ind 30 4)), .base (.load .lw 30 (.ind 30 0)), .base (.alu .addu 29 29 (.imm 24)), .jr 31] := by decide +kernel

def exK : Code 4 := ⟨fun n => BitVec.ofNat 32 (n + 0x100), fun a => some (a.toNat - 0x100)⟩

theorem ex_room : Room exV 0x8008#32 16 2 := by
  refine ⟨rfl, ?_, ?_, by decide⟩
  · intro k hk ⟨h1, h2⟩
    change (0x8000#32 + BitVec.ofNat 32 k).toNat < _ at h2
    rw [BitVec.toNat_add, BitVec.toNat_ofNat] at h2
    change (32768 + k % 2 ^ 32) % 2 ^ 32 < _ at h2
    omega
  · rintro a ⟨k, k1, k2, rfl⟩ ⟨h1, h2⟩
    change (0x7FF0#32 - BitVec.ofNat 32 k).toNat < _ at h2
    rw [BitVec.toNat_sub, BitVec.toNat_ofNat] at h2
    change (2 ^ 32 - k % 2 ^ 32 + 32752) % 2 ^ 32 < _ at h2
    omega

/-- all hypotheses are met: the nested call -/
example (s : St) (h : s.sp = 0x8008#32) :
    (∃ r m n s1, Reach exV false exBody (.run exBody .stop (began (atEntry true s 8 0x103#32) 2 false)) (.done r m) ∧ RunX exV.G exK exQ n 0 s 4 s1 ∧ (∀ v, r = some v → s1.r 2 = wd 4 v) ∧
      s1.sp = 0x8018#32 ∧ s1.fp = s.fp ∧ ∀ a, exV.A a → s1.mem a = m a) ∨
    ∃ f : Nat → Conf (lang 4) (Mem 4), f 0 = .run exBody .stop (began (atEntry true s 8 0x103#32) 2 false) ∧ ∀ j, Step exV false exBody (f j) (f (j + 1)) := by
  rcases c57_call_partial ex_compiled (K := exK) (Q := exQ) (lo := 2) (hi := 2) (leaf := false) (deep := true) (f := .jal 7) (pre := callCode true (.jal 7) 8 ++ callCode false (.jalr 2) 20) (post := []) (pre' := [])
    (post' := callCode false (.jalr 2) 20 ++ function 7 2 2 16 false exP) (x := 7) (v := 8) (N := 16) (by simp [exQ]) (by simp [exQ]) (by decide +kernel) (V := exV) (s := s) (.inl ⟨rfl, by decide⟩) (p := 3) rfl rfl
    (by show Room exV s.sp 16 2; rw [h]; exact ex_room) rfl (ex_defined _) with ⟨r, m, n, s1, k1, k2, k3, k4, k5, k6, -⟩ | ⟨f, -, -, -, k1, k2, -⟩
  · exact .inl ⟨r, m, n, s1, k1, k2, k3, by rw [k4, h]; rfl, k5 30 (by unfold saved; omega) (by decide) (by decide) (by decide), k6⟩
  · exact .inr ⟨f, k1, k2⟩

/-- the call through a pointer, with five arguments of which one is on the stack -/
example (s : St) (h : s.sp = 0x8018#32) (h2 : s.r 2 = 0x107#32) :
    (∃ r m n s1, Reach exV false exBody (.run exBody .stop (began (atEntry false s 20 0x106#32) 2 false)) (.done r m) ∧ RunX exV.G exK exQ n 4 s 7 s1 ∧ (∀ v, r = some v → s1.r 2 = wd 4 v) ∧
      s1.sp = 0x801C#32 ∧ s1.fp = s.fp ∧ ∀ a, exV.A a → s1.mem a = m a) ∨
    ∃ f : Nat → Conf (lang 4) (Mem 4), f 0 = .run exBody .stop (began (atEntry false s 20 0x106#32) 2 false) ∧ ∀ j, Step exV false exBody (f j) (f (j + 1)) := by
  rcases c57_call_partial ex_compiled (K := exK) (Q := exQ) (lo := 2) (hi := 2) (leaf := false) (deep := false) (f := .jalr 2) (pre := callCode true (.jal 7) 8 ++ callCode false (.jalr 2) 20) (post := [])
    (pre' := callCode true (.jal 7) 8) (post' := function 7 2 2 16 false exP) (x := 7) (v := 20) (N := 16) (by simp [exQ]) (by simp [exQ]) (by decide +kernel) (V := exV) (s := s) (.inr ⟨rfl, by rw [h2]; rfl⟩) (p := 6) rfl rfl
    (by show Room exV (s.sp - 16#32) 16 2; rw [h]; exact ex_room) rfl (ex_defined _) with ⟨r, m, n, s1, k1, k2, k3, k4, k5, k6, -⟩ | ⟨f, -, -, -, k1, k2, -⟩
  · exact .inl ⟨r, m, n, s1, k1, k2, k3, by rw [k4, h]; rfl, k5 30 (by unfold saved; omega) (by decide) (by decide) (by decide), k6⟩
  · exact .inr ⟨f, k1, k2⟩

/-- five arguments, the first of type `unsigned char` and in `$4`, the last of type `int` and on the stack -/
example (s : St) (h : s.r 4 = 0x1FF#32) (h' : ld s.mem s.sp 4 = 0xFFFFFFFF) (m : Mem 4) (hm : m = began (atEntry false s 20 0x106#32) 4 true) :
    Cg.val m (s.sp - 16#32) 1 = 255 ∧ Cg.val m (s.sp) 4 = 4294967295 := by
  have key := c57_args false true s 5 (by decide) [1, 4, 4, 4, 4] (by decide) (by decide) 5 5 rfl (by decide) 0x106#32
  subst hm
  have k0 := key 0 (by decide)
  have k4 := key 4 (by decide)
  have a0 : (s.sp - 16#32) - 8#32 + 8#32 = s.sp - 16#32 := BitVec.sub_add_cancel _ _
  have a4 : (s.sp - 16#32) - 8#32 + 24#32 = s.sp := by bv_omega
  constructor
  · rw [← a0]
    exact k0.trans (by show Cg.conv 1 (s.r 4).toInt = _; rw [h]; decide)
  · have e : given false s 4 = 0xFFFFFFFF#32 := by
      show BitVec.ofNat 32 (ld s.mem (s.sp + 0#32) 4) = _
      rw [BitVec.add_zero, h']
    have k4 : Cg.val (began (atEntry false s 20 0x106#32) 4 true) (s.sp - 16#32 - 8#32 + 24#32) 4 = Cg.conv 4 (given false s 4).toInt := k4
    rw [a4, e] at k4
    exact k4.trans (by decide)

/-- a return with `$31` changed by calls -/
example (s : St) (h1 : s.sp = 0x7FF0#32) (h2 : s.fp = 0x8000#32) (h3 : ld s.mem 0x8000#32 4 = 0x9000) (h4 : ld s.mem 0x8004#32 4 = 0x103) :
    ∃ n t, RunX exV.G exK ((epilog 16 false).map XIns.base ++ [XIns.jr 31]) n 0 s 3 t ∧ t.sp = 0x8008#32 ∧ t.fp = 0x9000#32 := by
  obtain ⟨n, t, k1, k2, k3, -⟩ := c57_return (G := exV.G) (K := exK) (Q := (epilog 16 false).map XIns.base ++ [XIns.jr 31]) (pre := []) (post := []) (N := 16) (leaf := false) (by simp) (s := s) (sp := 0x8008#32) (b := 0x9000#32) (ra := 0x103#32)
    (h1.trans (by decide)) h2 h3 h4 (pc := 3) rfl
  exact ⟨n, t, k1, k2, k3⟩

end

end Smlr.Mframe
