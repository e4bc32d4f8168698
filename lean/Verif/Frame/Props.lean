import Verif.Frame.Call
set_option autoImplicit false
/-! # C48 The frame of a function and its calls -/
namespace Smlr.Frame
open Smlr.Cg (Wd Ins Opd St Mem Env ld st stepP labs wd StkOk Zone)
open Smlr.Fn (lang RunN Reach Step Defined)
open Smlr.Stmt.Spec (Stmt Conf)

variable {W : Nat}

/-- Local variables.  If those that live at the same time fit in the largest frame, each is put in whole words inside the frame, apart from all that live when it is declared, and the frame is no larger than it must be; otherwise there is an error. -/
theorem c48_locals (hW : W = 2 ∨ W = 4) (flat : Bool) (ds : Decls) (hf : ds.full = true) :
    if ds.height W ≤ (if W = 4 ∧ flat = true then 0x7FFFFFFF else 0x7FFF) then
      ∃ p n, locals W flat ds = some (p, n) ∧ p.decls = ds ∧ n.toNat = ds.height W ∧ p.sound [] ∧
        ∀ l ∈ p.slots, - (ds.height W : Int) ≤ l.ofs ∧ l.ofs + l.size ≤ 0 ∧ l.ofs % W = 0
    else locals W flat ds = none := by
  have h := locals_iff hW (flat := flat) ds hf
  show if _ ≤ lim W flat then _ else _
  split at h
  · rename_i hfit
    rw [if_pos hfit]
    obtain ⟨p, n, h1, h2, h3, h4⟩ := h
    exact ⟨p, n, h1, h2, h3, h4.sound [] (fun _ h => (nomatch h)), h4.slots⟩
  · rename_i hfit
    rw [if_neg hfit]
    exact h

/-- Parameters are where arguments are. -/
theorem c48_params (hW : W = 2 ∨ W = 4) (flat : Bool) (szs : List I32) (hz : ∀ z ∈ szs, z.toNat ≠ 0) :
    if argOfs W (szs.map BitVec.toNat) szs.length ≤ (if W = 4 ∧ flat = true then 0x7FFFFFFF else 0x7FFF) then
      ∃ os, params W flat szs = some os ∧ os.length = szs.length ∧ ∀ i (hi : i < os.length), os[i].toNat = argOfs W (szs.map BitVec.toNat) i
    else params W flat szs = none := by
  have h2 : (2#32 * BitVec.ofNat 32 W).toNat = 2 * W := by rcases hW with rfl | rfl <;> rfl
  have h := paramLoop_iff hW (flat := flat) szs (2#32 * BitVec.ofNat 32 W) hz (by
    rw [h2]; unfold lim; split <;> omega)
  rw [h2] at h
  show if argOfs W (szs.map BitVec.toNat) szs.length ≤ lim W flat then _ else _
  unfold argOfs params
  rw [List.take_of_length_le (by simp)]
  exact h

/-- A function whose body has defined behaviour, from its entry, with the return address on the top of the stack: either the body returns, and then the code goes to the return address, with the value in the accumulator,
the return address popped, the frame pointer as it was, the objects as the body leaves them, and nothing else changed but memory under the stack pointer; or the body goes on for ever, and so does the code.  Partial: see `Compiled`. -/
theorem c48_function_partial (hW : W = 2 ∨ W = 4) {isMain : Bool} {body : Stmt (lang W)} {P : List Ins} {d N : Nat} (hc : Compiled isMain body P d) {K : Code W} {Q pre post : List XIns} {x : Int}
    (hQ : Q = pre ++ function x N P ++ post) (hl : (labs (Q.map XIns.ins)).Nodup) {V : Env W} {s : St W} (hs : Room V s.sp N d) {pc : Nat} (hr : K.ins (top s) = some pc)
    (hd : Defined V isMain body (push s s.bp).mem) :
    (∃ r m n s1, Reach V isMain body (.run body .stop (push s s.bp).mem) (.done r m) ∧ RunX V.G K Q n pre.length s pc s1 ∧ (∀ v, r = some v → s1.ax = wd W v) ∧
      s1.sp = s.sp + BitVec.ofNat _ W ∧ s1.bp = s.bp ∧ (∀ a, V.A a → s1.mem a = m a) ∧ ∀ a, ¬ V.A a → ¬ Under s.sp (W + N + d * W) a → s1.mem a = s.mem a) ∨
    ∃ (f : Nat → Conf (lang W) (Mem W)) (k pc : Nat → Nat) (g : Nat → St W), f 0 = .run body .stop (push s s.bp).mem ∧ (∀ j, Step V isMain body (f j) (f (j + 1))) ∧ (∀ n, ∃ j, n ≤ k j) ∧
      ∀ j, RunX V.G K Q (k j) pre.length s (pc j) (g j) ∧ ∀ a, V.A a → (g j).mem a = (f j).st a := by
  obtain ⟨void, mc, mg, n, lab0, rest, code, ρ, h1, h2, h3, h4, h5, h6, h7⟩ := hc
  obtain ⟨P', hP', hrun⟩ := Fn.c47_body_partial hW h1 h2 h3 h4 h5 ρ
  have : P' = P := by
    have := hP'.symm.trans h6
    injection this
  subst this
  obtain ⟨n0, s0, hpro, hsp, hbp, hmem⟩ := prolog_run (G := V.G) (K := K) (Q := Q) (pre := pre) (x := x) (N := N) (post := P'.map .base ++ epilog ++ post) (by rw [hQ]; simp [function]) s
  have hM : s0.mem = (push s s.bp).mem := hmem
  have hb : s0.bp = V.bp := by rw [hbp, hs.bp]
  have hsp' : s0.sp = V.bp - BitVec.ofNat _ N := by rw [hsp, hs.bp]
  have hQm : Q.map XIns.ins = (pre ++ ([XIns.fn x] ++ prolog N)).map XIns.ins ++ P' ++ (epilog ++ post).map XIns.ins := by
    rw [hQ]
    simp [function, Function.comp_def, XIns.ins]
  have hlen : ((pre ++ ([XIns.fn x] ++ prolog N)).map XIns.ins).length = pre.length + ([XIns.fn x] ++ prolog N).length := by simp
  have hfits := hs.fits
  have hW0 : 0 < W := by omega
  have hzone : StkOk V.A s0.sp d := ⟨fun a ha => hs.below a (by rw [← hsp']; exact ha), by omega⟩
  have hz : ∀ j < 2 * W, ¬ Zone s0.sp d (V.bp + BitVec.ofNat _ j) := by
    rintro j hj ⟨k, k1, k2, k3⟩
    rw [hsp', BitVec.sub_sub, ← BitVec.ofNat_add] at k3
    exact under_ne V.bp (by omega) (by omega) k3
  rcases hrun V (Q.map XIns.ins) _ _ s0 d hQm hl hb h7 hzone (hM ▸ hd) with ⟨r, m, s1, k1, k2, k3, k4, k5, k6, k7⟩ | ⟨f, k, pcs, g, k1, k2, k3, k4⟩
  · left
    obtain ⟨n1, k2⟩ := Fn.runN_of k2
    have k2 := run_lift (K := K) k2
    rw [hlen] at k2
    have keep : ∀ j < 2 * W, s1.mem (V.bp + BitVec.ofNat _ j) = s0.mem (V.bp + BitVec.ofNat _ j) := fun j hj => k7 _ (hs.links j hj) (hz j hj)
    have b1 : s1.bp = V.bp := k5.trans hb
    have l1 : BitVec.ofNat _ (ld s1.mem s1.bp W) = s.bp := by
      rw [b1, Cg.ld_congr s1.mem s0.mem V.bp W (fun i hi => keep i (by omega)), hM]
      show BitVec.ofNat _ (ld (st s.mem (s.sp - BitVec.ofNat _ W) W s.bp.toNat) _ W) = _
      rw [← hs.bp, Cg.ld_st _ _ _ _ (by omega)]
      have := s.bp.isLt
      rw [Nat.mod_eq_of_lt (by rwa [show 256 = 2 ^ 8 from rfl, ← Nat.pow_mul])]
      simp
    have sb : V.bp + BitVec.ofNat _ W = s.sp := by rw [hs.bp, BitVec.sub_add_cancel]
    have l2 : BitVec.ofNat _ (ld s1.mem (s1.bp + BitVec.ofNat _ W) W) = top s := by
      unfold top
      rw [b1, sb]
      congr 1
      apply Cg.ld_congr
      intro i hi
      have e : s.sp + BitVec.ofNat _ i = V.bp + BitVec.ofNat _ (W + i) := by
        rw [← sb, BitVec.add_assoc, BitVec.ofNat_add]
      rw [e, keep _ (by omega), hM]
      show st s.mem (s.sp - BitVec.ofNat _ W) W s.bp.toNat _ = _
      rw [← hs.bp]
      apply Cg.st_other
      intro j hj
      exact add_ne V.bp (by omega) (by omega) (by omega)
    obtain ⟨n2, k8⟩ := epilog_run (G := V.G) (K := K) (Q := Q) (pre := pre ++ ([.fn x] ++ prolog N) ++ P'.map .base) (post := post) (by rw [hQ]; simp [function]) s1 l1 l2 hr
    have hlen2 : (pre ++ ([XIns.fn x] ++ prolog N) ++ P'.map XIns.base).length = pre.length + ([XIns.fn x] ++ prolog N).length + P'.length := by simp; omega
    rw [hlen2] at k8
    refine ⟨r, m, n0 + n1 + n2, _, hM ▸ k1, (hpro.trans k2).trans k8, k3, ?_, rfl, k6, ?_⟩
    · show s1.bp + BitVec.ofNat _ W + BitVec.ofNat _ W = _
      rw [b1, sb]
    · intro a ha hu
      show s1.mem a = _
      rw [k7 a ha ?_, hM]
      · show st s.mem (s.sp - BitVec.ofNat _ W) W s.bp.toNat a = _
        apply Cg.st_other
        rintro i hi rfl
        apply hu
        refine ⟨W - i, by omega, by omega, ?_⟩
        have : BitVec.ofNat (8 * W) W = BitVec.ofNat (8 * W) (W - i) + BitVec.ofNat (8 * W) i := by rw [← BitVec.ofNat_add]; congr 1; omega
        rw [this]
        generalize BitVec.ofNat (8 * W) (W - i) = y
        generalize BitVec.ofNat (8 * W) i = z
        grind
      · rintro ⟨k, q1, q2, q3⟩
        apply hu
        refine ⟨W + N + k, by omega, by omega, ?_⟩
        rw [q3, hsp, BitVec.sub_sub, BitVec.sub_sub, ← BitVec.ofNat_add, ← BitVec.ofNat_add, Nat.add_assoc]
  · right
    refine ⟨f, fun j => n0 + k j, pcs, g, hM ▸ k1, k2, fun n => ?_, fun j => ?_⟩
    · obtain ⟨j, hj⟩ := k3 n
      exact ⟨j, Nat.le_trans hj (Nat.le_add_left _ _)⟩
    · obtain ⟨q1, -, -, q4, -⟩ := k4 j
      have q1 := run_lift (K := K) q1
      rw [hlen] at q1
      exact ⟨hpro.trans q1, q4⟩

/-- Arguments.  When words are on the stack, the first on the top (the last has been pushed first), and the return address and the frame pointer are pushed after them, each parameter of a function has the value of its argument, converted to its type. -/
theorem c48_args (hW : W = 2 ∨ W = 4) (s : St W) (vs : List (Wd W)) (hv : ∀ i (hi : i < vs.length), ld s.mem (s.sp + BitVec.ofNat _ (i * W)) W = vs[i].toNat) (hn : (vs.length + 2) * W ≤ 2 ^ (8 * W))
    (szs : List Int) (hz : ∀ z ∈ szs, Cg.okSz W z) (hl : szs.length = vs.length) (ra bp : Wd W) (i : Nat) (hi : i < vs.length) :
    Cg.val (push (push s ra) bp).mem ((push (push s ra) bp).sp + BitVec.ofNat _ (argOfs W (szs.map Int.natAbs) i)) (szs[i]'(by omega)) = Cg.conv (szs[i]'(by omega)) vs[i].toInt := by
  have hu : ∀ z, Cg.okSz W z → z.natAbs ≤ W ∧ up W z.natAbs = W := by
    intro z h
    unfold up
    unfold Cg.okSz at h
    rcases hW with rfl | rfl <;> omega
  have hsum : ∀ (l : List Int), (∀ z ∈ l, Cg.okSz W z) → (((l.map Int.natAbs)).map (up W)).sum = l.length * W := by
    intro l
    induction l with
    | nil => intro _; simp
    | cons z l ih =>
      intro h
      rw [List.map_cons, List.map_cons, List.sum_cons, ih (fun y hy => h y (List.mem_cons_of_mem _ hy)), (hu z (h z (by simp))).2, List.length_cons, Nat.succ_mul, Nat.add_comm]
  have ho : argOfs W (szs.map Int.natAbs) i = 2 * W + i * W := by
    unfold argOfs
    rw [← List.map_take, hsum _ (fun z hz' => hz z (List.mem_of_mem_take hz')), List.length_take, Nat.min_eq_left (by omega)]
  have hk := (hu szs[i] (hz _ (List.getElem_mem _))).1
  have ha : (push (push s ra) bp).sp + BitVec.ofNat _ (argOfs W (szs.map Int.natAbs) i) = s.sp + BitVec.ofNat _ (i * W) := by
    show s.sp - BitVec.ofNat _ W - BitVec.ofNat _ W + _ = _
    rw [ho, BitVec.ofNat_add, show 2 * W = W + W by omega, BitVec.ofNat_add]
    generalize BitVec.ofNat (8 * W) W = y
    generalize BitVec.ofNat (8 * W) (i * W) = z
    grind
  have him : i * W + W ≤ vs.length * W := by
    have := Nat.mul_le_mul_right W (show i + 1 ≤ vs.length by omega)
    rwa [Nat.succ_mul] at this
  have hn' : vs.length * W + 2 * W ≤ 2 ^ (8 * W) := by rwa [Nat.add_mul] at hn
  have hm : ∀ j < W, (push (push s ra) bp).mem (s.sp + BitVec.ofNat _ (i * W) + BitVec.ofNat _ j) = s.mem (s.sp + BitVec.ofNat _ (i * W) + BitVec.ofNat _ j) := by
    intro j hj
    rw [BitVec.add_assoc, ← BitVec.ofNat_add]
    have key : ∀ k l, 1 ≤ k → k ≤ 2 → l < W → s.sp + BitVec.ofNat _ (i * W + j) ≠ s.sp - BitVec.ofNat _ (k * W) + BitVec.ofNat _ l := by
      intro k l h1 h2 h3
      have hk1 : W ≤ k * W := Nat.le_mul_of_pos_left W h1
      have hk2 : k * W ≤ 2 * W := Nat.mul_le_mul_right W h2
      have e : s.sp - BitVec.ofNat _ (k * W) + BitVec.ofNat _ l = s.sp - BitVec.ofNat _ (k * W - l) := by
        have : BitVec.ofNat (8 * W) (k * W) = BitVec.ofNat (8 * W) (k * W - l) + BitVec.ofNat (8 * W) l := by rw [← BitVec.ofNat_add]; congr 1; omega
        rw [this]
        generalize BitVec.ofNat (8 * W) (k * W - l) = y
        generalize BitVec.ofNat (8 * W) l = z
        grind
      rw [e]
      exact under_ne s.sp (by omega) (by omega)
    show st (st s.mem (s.sp - BitVec.ofNat _ W) W ra.toNat) (s.sp - BitVec.ofNat _ W - BitVec.ofNat _ W) W bp.toNat _ = _
    rw [Cg.st_other, Cg.st_other]
    · intro l hl
      have := key 1 l (by omega) (by omega) hl
      rwa [Nat.one_mul] at this
    · intro l hl
      have := key 2 l (by omega) (by omega) hl
      rwa [Nat.two_mul, BitVec.ofNat_add (x := W) (y := W), ← BitVec.sub_sub] at this
  rw [ha]
  unfold Cg.val
  have hld : ld (push (push s ra) bp).mem (s.sp + BitVec.ofNat _ (i * W)) (szs[i]).natAbs = ld s.mem (s.sp + BitVec.ofNat _ (i * W)) (szs[i]).natAbs :=
    Cg.ld_congr _ _ _ _ (fun j hj => hm j (by omega))
  rw [hld, Cg.conv_toInt _ hk, ← hv i hi]
  have hpre : ∀ (m : Mem W) (a : Wd W) (n k : Nat), ld m a (n + k) % 256 ^ n = ld m a n := by
    intro m a n k
    induction n generalizing a with
    | zero => simp [ld, Nat.mod_one]
    | succ n ih =>
      rw [Nat.succ_add]
      simp only [ld]
      have h1 := (m a).isLt
      rw [Nat.pow_succ', Nat.mod_mul]
      have e1 : ((m a).toNat + 256 * ld m (a + 1) (n + k)) % 256 = (m a).toNat := by omega
      have e2 : ((m a).toNat + 256 * ld m (a + 1) (n + k)) / 256 = ld m (a + 1) (n + k) := by omega
      rw [e1, e2, ih]
  have hz2 := hpre s.mem (s.sp + BitVec.ofNat _ (i * W)) (szs[i]).natAbs (W - (szs[i]).natAbs)
  rw [Nat.add_sub_cancel' hk] at hz2
  generalize ld s.mem (s.sp + BitVec.ofNat _ (i * W)) W = X at hz2
  rw [← hz2]
  unfold Cg.conv
  split
  · rw [Int.natCast_emod, Int.natCast_pow]
    exact Int.emod_emod_of_dvd _ (Int.dvd_refl _)
  · rw [Int.natCast_emod]
    exact Int.emod_bmod ..

theorem call_end (hW : W = 2 ∨ W = 4) {isMain : Bool} {body : Stmt (lang W)} {P : List Ins} {d N : Nat} (hc : Compiled isMain body P d) {K : Code W} {Q pre post pre' post' : List XIns} {x : Int} {v : Nat} {i : XIns}
    (hQ : Q = pre ++ function x N P ++ post) (hQ' : Q = pre' ++ ([i] ++ growStack (-(v : Int))) ++ post') (hl : (labs (Q.map XIns.ins)).Nodup)
    (hK : K.ins (K.adr (pre'.length + 1)) = some (pre'.length + 1)) {V : Env W} {s : St W} (e0 : stepX V.G K Q pre'.length s = some (pre.length, push s (K.adr (pre'.length + 1)))) (hs : Room V (s.sp - BitVec.ofNat _ W) N d)
    {m0 : Mem W} (hm : m0 = (push (push s (K.adr (pre'.length + 1))) s.bp).mem) (hd : Defined V isMain body m0) :
    (∃ r m n s1, Reach V isMain body (.run body .stop m0) (.done r m) ∧ RunX V.G K Q n pre'.length s (pre'.length + ([i] ++ growStack (-(v : Int))).length) s1 ∧ (∀ v, r = some v → s1.ax = wd W v) ∧
      s1.sp = s.sp + BitVec.ofNat _ v ∧ s1.bp = s.bp ∧ (∀ a, V.A a → s1.mem a = m a) ∧ ∀ a, ¬ V.A a → ¬ Under s.sp (2 * W + N + d * W) a → s1.mem a = s.mem a) ∨
    ∃ (f : Nat → Conf (lang W) (Mem W)) (k pc : Nat → Nat) (g : Nat → St W), f 0 = .run body .stop m0 ∧ (∀ j, Step V isMain body (f j) (f (j + 1))) ∧ (∀ n, ∃ j, n ≤ k j) ∧
      ∀ j, RunX V.G K Q (k j) pre'.length s (pc j) (g j) ∧ ∀ a, V.A a → (g j).mem a = (f j).st a := by
  subst hm
  have hW1 : W ≤ 2 ^ (8 * W) := by rcases hW with rfl | rfl <;> decide
  have ht : top (push s (K.adr (pre'.length + 1))) = K.adr (pre'.length + 1) := by
    unfold top
    show BitVec.ofNat _ (ld (st s.mem (s.sp - BitVec.ofNat _ W) W _) (s.sp - BitVec.ofNat _ W) W) = _
    rw [Cg.ld_st _ _ _ _ hW1]
    have := (K.adr (pre'.length + 1)).isLt
    rw [Nat.mod_eq_of_lt (by rwa [show 256 = 2 ^ 8 from rfl, ← Nat.pow_mul])]
    simp
  rcases c48_function_partial hW hc hQ hl (s := push s (K.adr (pre'.length + 1))) hs (K := K) (pc := pre'.length + 1) (by rw [ht, hK]) hd with
    ⟨r, m, n, s1, k1, k2, k3, k4, k5, k6, k7⟩ | ⟨f, k, pcs, g, k1, k2, k3, k4⟩
  · left
    have k4 : s1.sp = s.sp := by
      rw [k4]
      show s.sp - BitVec.ofNat _ W + BitVec.ofNat _ W = _
      exact BitVec.sub_add_cancel _ _
    have k7' : ∀ a, ¬ V.A a → ¬ Under s.sp (2 * W + N + d * W) a → s1.mem a = s.mem a := by
      intro a ha hu
      rw [k7 a ha ?_]
      · show st s.mem (s.sp - BitVec.ofNat _ W) W _ a = _
        apply Cg.st_other
        rintro i hi rfl
        apply hu
        refine ⟨W - i, by omega, by omega, ?_⟩
        have : BitVec.ofNat (8 * W) W = BitVec.ofNat (8 * W) (W - i) + BitVec.ofNat (8 * W) i := by rw [← BitVec.ofNat_add]; congr 1; omega
        rw [this]
        generalize BitVec.ofNat (8 * W) (W - i) = y
        generalize BitVec.ofNat (8 * W) i = z
        grind
      · rintro ⟨k, q1, q2, q3⟩
        apply hu
        refine ⟨W + k, by omega, by omega, ?_⟩
        have q3 : a = s.sp - BitVec.ofNat _ W - BitVec.ofNat _ k := q3
        rw [q3, BitVec.sub_sub, ← BitVec.ofNat_add]
    by_cases hv : v = 0
    · subst hv
      exact ⟨r, m, _, s1, k1, .step e0 k2, k3, by simp [k4], k5, k6, k7'⟩
    · have hv' : ¬ -(v : Int) = 0 := by omega
      have q1 : Q[pre'.length + 1]? = some (.subSp (-(v : Int))) := by
        have := stepX_at (Q := Q) (pre := pre' ++ [i]) (i := .subSp (-(v : Int))) (post := post') (by rw [hQ']; simp [growStack, hv])
        simpa using this
      have e1 : stepX V.G K Q (pre'.length + 1) s1 = some (pre'.length + 2, { s1 with sp := s1.sp - BitVec.ofInt _ (-(v : Int)), flags := none }) := by unfold stepX; rw [q1]
      have hlen : pre'.length + (([i] ++ growStack (-(v : Int)))).length = pre'.length + 2 := by simp [growStack, hv]
      rw [hlen]
      refine ⟨r, m, _, _, k1, .step e0 (k2.trans (.step e1 (.refl _ _))), k3, ?_, k5, k6, k7'⟩
      show s1.sp - BitVec.ofInt _ (-(v : Int)) = _
      rw [k4, BitVec.ofInt_neg, BitVec.ofInt_natCast]
      generalize BitVec.ofNat (8 * W) v = y
      grind
  · right
    refine ⟨f, fun j => k j + 1, pcs, g, k1, k2, fun n => ?_, fun j => ⟨.step e0 (k4 j).1, (k4 j).2⟩⟩
    obtain ⟨j, hj⟩ := k3 n
    exact ⟨j, Nat.le_succ_of_le hj⟩

/-- A call, with arguments on the stack: the function runs, and then the code goes on after the call, with the arguments gone from the stack. -/
theorem c48_call_partial (hW : W = 2 ∨ W = 4) {isMain : Bool} {body : Stmt (lang W)} {P : List Ins} {d N : Nat} (hc : Compiled isMain body P d) {K : Code W} {Q pre post pre' post' : List XIns} {x : Int} {v : Nat}
    (hQ : Q = pre ++ function x N P ++ post) (hx : .fn x ∉ pre) (hQ' : Q = pre' ++ callCode x v ++ post') (hl : (labs (Q.map XIns.ins)).Nodup)
    (hK : K.ins (K.adr (pre'.length + 1)) = some (pre'.length + 1)) {V : Env W} {s : St W} (hs : Room V (s.sp - BitVec.ofNat _ W) N d)
    {m0 : Mem W} (hm : m0 = (push (push s (K.adr (pre'.length + 1))) s.bp).mem) (hd : Defined V isMain body m0) :
    (∃ r m n s1, Reach V isMain body (.run body .stop m0) (.done r m) ∧ RunX V.G K Q n pre'.length s (pre'.length + (callCode x v).length) s1 ∧ (∀ v, r = some v → s1.ax = wd W v) ∧
      s1.sp = s.sp + BitVec.ofNat _ v ∧ s1.bp = s.bp ∧ (∀ a, V.A a → s1.mem a = m a) ∧ ∀ a, ¬ V.A a → ¬ Under s.sp (2 * W + N + d * W) a → s1.mem a = s.mem a) ∨
    ∃ (f : Nat → Conf (lang W) (Mem W)) (k pc : Nat → Nat) (g : Nat → St W), f 0 = .run body .stop m0 ∧ (∀ j, Step V isMain body (f j) (f (j + 1))) ∧ (∀ n, ∃ j, n ≤ k j) ∧
      ∀ j, RunX V.G K Q (k j) pre'.length s (pc j) (g j) ∧ ∀ a, V.A a → (g j).mem a = (f j).st a := by
  have q0 : Q[pre'.length]? = some (.call x) := stepX_at (post := growStack (-(v : Int)) ++ post') (by rw [hQ']; simp [callCode])
  have he : entry Q x = some pre.length := by
    unfold entry
    have hmem : XIns.fn x ∈ Q := by rw [hQ]; simp [function]
    rw [if_pos hmem, hQ, List.append_assoc, List.idxOf_append_of_notMem hx]
    simp [function, List.idxOf_cons_self]
  have e0 : stepX V.G K Q pre'.length s = some (pre.length, push s (K.adr (pre'.length + 1))) := by
    unfold stepX
    rw [q0]
    show (entry Q x).map _ = _
    rw [he]
    rfl
  exact call_end hW hc hQ hQ' hl hK e0 hs hm hd

/-- The same for a call through a pointer that is in the accumulator. -/
theorem c48_call_ptr_partial (hW : W = 2 ∨ W = 4) {isMain : Bool} {body : Stmt (lang W)} {P : List Ins} {d N : Nat} (hc : Compiled isMain body P d) {K : Code W} {Q pre post pre' post' : List XIns} {x : Int} {v : Nat}
    (hQ : Q = pre ++ function x N P ++ post) (hQ' : Q = pre' ++ callPtrCode v ++ post') (hl : (labs (Q.map XIns.ins)).Nodup)
    (hK : K.ins (K.adr (pre'.length + 1)) = some (pre'.length + 1)) {V : Env W} {s : St W} (hp : K.ins s.ax = some pre.length) (hs : Room V (s.sp - BitVec.ofNat _ W) N d)
    {m0 : Mem W} (hm : m0 = (push (push s (K.adr (pre'.length + 1))) s.bp).mem) (hd : Defined V isMain body m0) :
    (∃ r m n s1, Reach V isMain body (.run body .stop m0) (.done r m) ∧ RunX V.G K Q n pre'.length s (pre'.length + (callPtrCode v).length) s1 ∧ (∀ v, r = some v → s1.ax = wd W v) ∧
      s1.sp = s.sp + BitVec.ofNat _ v ∧ s1.bp = s.bp ∧ (∀ a, V.A a → s1.mem a = m a) ∧ ∀ a, ¬ V.A a → ¬ Under s.sp (2 * W + N + d * W) a → s1.mem a = s.mem a) ∨
    ∃ (f : Nat → Conf (lang W) (Mem W)) (k pc : Nat → Nat) (g : Nat → St W), f 0 = .run body .stop m0 ∧ (∀ j, Step V isMain body (f j) (f (j + 1))) ∧ (∀ n, ∃ j, n ≤ k j) ∧
      ∀ j, RunX V.G K Q (k j) pre'.length s (pc j) (g j) ∧ ∀ a, V.A a → (g j).mem a = (f j).st a := by
  have q0 : Q[pre'.length]? = some .calla := stepX_at (post := growStack (-(v : Int)) ++ post') (by rw [hQ']; simp [callPtrCode])
  have e0 : stepX V.G K Q pre'.length s = some (pre.length, push s (K.adr (pre'.length + 1))) := by
    unfold stepX
    rw [q0]
    show (K.ins s.ax).map _ = _
    rw [hp]
    rfl
  exact call_end hW hc hQ hQ' hl hK e0 hs hm hd

/-! ### Cases -/

/-- `int a; { char b[5]; short c; } { int d[3]; } char e;` -/
example : locals 4 true (.var 4 (.scope (.var 5 (.var 2 .nil)) (.scope (.var 12 .nil) (.var 1 .nil)))) =
    some (.var (-4) 4 (.scope (.var (-12) 5 (.var (-16) 2 .nil)) (.scope (.var (-16) 12 .nil) (.var (-8) 1 .nil))), 16) := by decide

/-- `char a[32767];` fits in a frame of a 32-bit program but not in one of a 16-bit program, where it takes 32768 bytes -/
example : (locals 2 true (.var 32767 .nil)).isSome = false ∧ (locals 4 true (.var 32767 .nil)).isSome = true ∧ (Decls.var 32767 .nil).full = true := by decide

/-- `f(char a, struct { char x[6]; } b, int c)` -/
example : params 4 true [1, 6, 4] = some [8, 12, 20] ∧ params 2 true [1, 6, 2] = some [4, 6, 12] := by decide

section
open Smlr.Fn (exBody exP exV exCode ex_wf ex_code ex_print ex_defined)

theorem ex_compiled : Compiled false exBody exP 2 :=
  ⟨false, 10, 10, 100, 1, [], exCode, (fun l => l), ex_wf, by decide, ex_code, .inr rfl, (fun x hx => (nomatch hx)), ex_print, by decide +kernel⟩

/-- a call with two arguments, and the function, with a frame of 16 bytes -/
def exQ : List XIns := callCode 7 8 ++ function 7 16 exP

def exK : Code 4 := ⟨fun n => BitVec.ofNat 32 (n + 0x100), fun a => some (a.toNat - 0x100)⟩

theorem ex_room : Room exV (0x8008#32 - BitVec.ofNat _ 4) 16 2 := by
  refine ⟨rfl, ?_, ?_, by decide⟩
  · intro k hk ⟨h1, h2⟩
    change (0x8000#32 + BitVec.ofNat 32 k).toNat < _ at h2
    rw [BitVec.toNat_add, BitVec.toNat_ofNat] at h2
    change (32768 + k % 2 ^ 32) % 2 ^ 32 < _ at h2
    omega
  · rintro a ⟨k, k1, k2, rfl⟩ ⟨h1, h2⟩
    change (0x7FF0#32 - BitVec.ofNat 32 k).toNat < _ at h2
    rw [BitVec.toNat_sub, BitVec.toNat_ofNat] at h2
    change (2 ^ 32 - k % 2 ^ 32 + 32752) % 2 ^ 32 < _ at h2
    omega

/-- all hypotheses are met -/
example (s : St 4) (h : s.sp = 0x8008#32) :
    (∃ r m n s1, Reach exV false exBody (.run exBody .stop (push (push s 0x101#32) s.bp).mem) (.done r m) ∧ RunX exV.G exK exQ n 0 s 2 s1 ∧ (∀ v, r = some v → s1.ax = wd 4 v) ∧
      s1.sp = 0x8010#32 ∧ s1.bp = s.bp ∧ ∀ a, exV.A a → s1.mem a = m a) ∨
    ∃ f : Nat → Conf (lang 4) (Mem 4), f 0 = .run exBody .stop (push (push s 0x101#32) s.bp).mem ∧ ∀ j, Step exV false exBody (f j) (f (j + 1)) := by
  rcases c48_call_partial (.inr rfl) ex_compiled (K := exK) (Q := exQ) (pre := callCode 7 8) (post := []) (pre' := []) (post' := function 7 16 exP) (x := 7) (v := 8) (N := 16) (by simp [exQ])
    (by decide) rfl (by decide +kernel) rfl (V := exV) (s := s) (by rw [h]; exact ex_room) rfl (ex_defined _) with ⟨r, m, n, s1, k1, k2, k3, k4, k5, k6, -⟩ | ⟨f, -, -, -, k1, k2, -⟩
  · exact .inl ⟨r, m, n, s1, k1, k2, k3, by rw [k4, h]; rfl, k5, k6⟩
  · exact .inr ⟨f, k1, k2⟩

/-- two arguments, of types `unsigned char` and `int` -/
example (s : St 4) (h : ld s.mem s.sp 4 = 0x1FF) (h' : ld s.mem (s.sp + 4#32) 4 = 0xFFFFFFFF) :
    Cg.val (push (push s 0x101#32) s.bp).mem ((push (push s 0x101#32) s.bp).sp + 8#32) 1 = 255 ∧ Cg.val (push (push s 0x101#32) s.bp).mem ((push (push s 0x101#32) s.bp).sp + 12#32) 4 = 4294967295 := by
  have key := c48_args (.inr rfl) s [0x1FF#32, 0xFFFFFFFF#32] (by
    intro i hi
    match i, hi with
    | 0, _ => simpa using h
    | 1, _ => exact h') (by decide) [1, 4] (by decide) rfl 0x101#32 s.bp
  exact ⟨(key 0 (by decide)).trans (by decide), (key 1 (by decide)).trans (by decide)⟩

end

end Smlr.Frame
