import Verif.Mips.Jump
import Verif.Cg.Branch
set_option autoImplicit false
/-! Whole expressions: `genExpr`, and jumps on their values. -/
namespace Smlr.Mips
open Smlr.Cg (Wd Mem ld st sext wd Env Ar Cc conv val upd arith rel unary okSz b2i E Steps Step Safe Agree Frame StkOk Hole Zone Un IncK Acc Ub toks dest)

/-! ### `GenPrep` at the top -/

theorem first_asg {k : Cg.Tok} {rest : List Cg.T} (h : (first k rest).1 = .asg) : k = .asg := by
  cases rest with
  | nil => exact h
  | cons x r =>
    simp only [first, prep1] at h
    split at h
    · split at h
      · split at h <;> first | exact h | cases h
      · exact h
    · exact h

theorem prep_top (f : Nat) (k : Cg.Tok) (v : Int) (rest : List Cg.T) (h : k ≠ .asg ∨ ∀ n r, rest = (.num, n) :: r → truncU n ≠ 0) :
    prep f true ((k, v) :: rest) = prep f false ((k, v) :: rest) := by
  cases f with
  | zero => rfl
  | succ f =>
    by_cases hk : k = .asg
    · subst hk
      have hp : Plain .asg := plain_of (by simp) (by simp) (by simp) (by simp)
      have h := h.resolve_left (fun h => h rfl)
      unfold prep
      simp only [head_plain hp, kind]
      cases rest with
      | nil => rfl
      | cons x r =>
        obtain ⟨k', n⟩ := x
        by_cases hn : k' = .num
        · subst hn
          simp only [if_neg (h n r rfl)]
        · split
          · next heq => cases heq; exact absurd rfl hn
          · rfl
    · unfold prep
      have h1 : (first k rest).1 ≠ .asg := fun h => hk (first_asg h)
      generalize first k rest = q at h1
      obtain ⟨k', r⟩ := q
      dsimp only at h1 ⊢
      cases hkk : kind k' <;> simp only
      split
      · next heq => exact absurd rfl h1
      · rfl

/-- an assignment of zero -/
def zero : E → Bool
  | .asg _ _ (.num n) => truncU n = 0
  | _ => false

theorem prep_whole (e : E) (h : zero e = false) (f : Nat) (hf : (toks e).length ≤ f) : prep f true (toks e).reverse = some (pt e, []) := by
  have h1 := prep_toks e f [] hf
  rw [List.append_nil] at h1
  rcases toks_last e with ⟨n, rfl⟩ | ⟨a, k, v, ha, hk⟩
  · rw [← h1]
    exact prep_top f _ _ _ (Or.inl (by simp))
  · rw [← h1, ha, List.reverse_append]
    refine prep_top f _ _ _ ?_
    by_cases hk : k = .asg
    · right
      subst hk
      intro n r hr
      cases e with
      | asg sz l r' =>
        simp only [toks] at ha
        have ha' := (List.append_inj' ha rfl).1
        rw [← ha'] at hr
        replace hr : (toks l ++ toks r').reverse = (.num, n) :: r := hr
        rw [List.reverse_append] at hr
        rcases toks_last r' with ⟨n', rfl⟩ | ⟨b, k', v', hb, hk'⟩
        · simp only [toks, List.reverse_singleton, List.singleton_append, List.cons.injEq, Prod.mk.injEq, true_and] at hr
          intro hn
          rw [← hr.1] at hn
          simp only [zero, hn, decide_true] at h
          cases h
        · rw [hb] at hr
          simp at hr
          exact absurd hr.1.1 hk'
      | padd sub sz n e =>
        simp only [toks] at ha
        rw [show toks e ++ [(Cg.Tok.num, n), (if sub = true then Cg.Tok.psub else Cg.Tok.padd, sz)] = (toks e ++ [(.num, n)]) ++ [(if sub then .psub else .padd, sz)] by simp] at ha
        have := (List.append_inj' ha rfl).2
        cases sub <;> simp at this
      | num v | glob v | loc v => cases a <;> simp [toks] at ha
      | un u e => have := (List.append_inj' ha rfl).2; cases u <;> simp [Cg.Un.tok] at this
      | inc k' sz e => have := (List.append_inj' ha rfl).2; cases k' <;> simp [Cg.IncK.tok] at this
      | _ => have := (List.append_inj' ha rfl).2; simp at this
    · exact Or.inl hk

theorem prep_zero (sz : Int) (l : E) (n : Int) (hn : truncU n = 0) (f : Nat) (hf : (toks l).length < f) :
    prep f true (toks (.asg sz l (.num n))).reverse = some (revd .asg0 sz (pt l) [(.num0, n)], []) := by
  obtain ⟨f, rfl⟩ : ∃ g, f = g + 1 := ⟨f - 1, by omega⟩
  have h1 := prep_toks l f [] (by omega)
  rw [List.append_nil] at h1
  have hp : Plain .asg := plain_of (by simp) (by simp) (by simp) (by simp)
  rw [show (toks (.asg sz l (.num n))).reverse = (.asg, sz) :: (.num, n) :: (toks l).reverse by simp [toks]]
  unfold prep
  simp only [head_plain hp, kind, if_pos hn, h1, Option.map_some]

/-! ### the loop over all elements -/

theorem gen_end {F : List T} {g : Bool} {c : List Ins} (h : GenTo F 0 g 0 c) : gen false ⟨false, 0, V0⟩ (.t .ret, 0) F = some c := by
  have := h.2 false 0 rfl (.t .ret, 0) [] (fun _ h => (nomatch h))
  rw [List.append_nil] at this
  rw [show (V0 : Nat) = wreg 0 from rfl, this]
  simp [gen, pc, wreg, V0]

theorem gen_ret {F : List T} {g : Bool} {c : List Ins} (h : GenTo F 0 g 0 c) : gen false ⟨false, 0, V0⟩ (.t .ret, 0) (F ++ [(.t .ret, 0)]) = some c := by
  have h1 : GenTo (F ++ [(.t .ret, 0)]) 0 g 0 (c ++ []) := h.snoc (nx_any (by simp) (by simp) rfl rfl) fun m _ => rfl
  rw [List.append_nil] at h1
  exact gen_end h1

theorem genExpr_ret (e : E) {c : List Ins} (h : GenTo (pt e) 0 (!isVoid e) 0 c) : genExpr (toks e ++ [(.ret, 0)]) = some c := by
  have h1 := prep_toks e ((toks e ++ [(Cg.Tok.ret, 0)]).length + 1) [] (by simp; omega)
  rw [List.append_nil] at h1
  unfold genExpr
  simp only [List.reverse_append, List.reverse_singleton, List.singleton_append, or_true, if_true, h1, Option.bind_some]
  exact gen_ret h

theorem toks_end' (e : E) : ∃ a k v, toks e = a ++ [(k, v)] ∧ ¬ (k = .ifT ∨ k = .ifN ∨ k = .ret) := by
  cases e with
  | num v | glob v | loc v => exact ⟨[], _, _, rfl, by simp⟩
  | un u e => exact ⟨_, _, _, rfl, by cases u <;> simp [Cg.Un.tok]⟩
  | inc k sz e => exact ⟨_, _, _, rfl, by cases k <;> simp [Cg.IncK.tok]⟩
  | padd sub sz n e => exact ⟨toks e ++ [(.num, n)], if sub then .psub else .padd, sz, by simp [toks], by cases sub <;> simp⟩
  | _ => exact ⟨_, _, _, rfl, by simp⟩

theorem toks_end (e : E) : ∃ k v r, (toks e).reverse = (k, v) :: r ∧ ¬ (k = .ifT ∨ k = .ifN ∨ k = .ret) := by
  obtain ⟨a, k, v, h, hk⟩ := toks_end' e
  exact ⟨k, v, a.reverse, by rw [h]; simp, hk⟩

theorem genExpr_top (e : E) : genExpr (toks e) = (prep ((toks e).length + 1) true (toks e).reverse).bind fun q => gen false ⟨false, 0, V0⟩ (.t .ret, 0) q.1 := by
  obtain ⟨k, v, r, h, hk⟩ := toks_end e
  unfold genExpr
  rw [h]
  simp only [if_neg hk]

theorem wreg0 : wreg 0 = 2 := rfl

/-- code for an expression whose value is not needed -/
theorem effect (e : E) (h : e.ok 4) (ht : typed e) :
    ∃ c, genExpr (toks e) = some c ∧ ∀ V : Env 4, ∀ P pre post, P = pre ++ c ++ post → (labs P).Nodup → ∀ s m, s.fp = V.bp → Agree V.A s.mem m → StkOk V.A s.sp (dep 0 (temps e)) →
      Safe V e m → ∃ s' v m', Run V.G P pre.length s (pre.length + c.length) s' ∧ Steps V e m (.num v) m' ∧ Keep 0 s s' ∧ Agree V.A s'.mem m' ∧ Frame V.A s.sp (dep 0 (temps e)) s.mem s'.mem := by
  rw [genExpr_top]
  cases hz : zero e with
  | false =>
    obtain ⟨c, g, sm⟩ := full e h ht 0
    refine ⟨c, by rw [prep_whole e hz _ (by omega)]; exact gen_end g, fun V P pre post hP hn s m hb ha hs hsafe => ?_⟩
    obtain ⟨s', v, m', h1, h2, -, h4, h5, h6⟩ := sm V P pre post hP hn s m hb ha hs hsafe
    exact ⟨s', v, m', h1, h2, h4, h5, h6⟩
  | true =>
    have : ∃ sz l n, e = .asg sz l (.num n) ∧ truncU n = 0 := by
      unfold zero at hz
      split at hz
      · next sz l n => exact ⟨sz, l, n, rfl, of_decide_eq_true hz⟩
      · cases hz
    obtain ⟨sz, l, n, rfl, hn⟩ := this
    have hn0 : wd 4 n = 0 := (toNat_zero _).mp hn
    rw [prep_zero sz l n hn _ (by simp only [toks, List.length_append]; omega), Option.bind_some]
    have hz := h.1
    cases ho : isObj l with
    | true =>
      obtain ⟨p, ob, hp, hrev, hpt, hfree, hadr⟩ := named l ho
      rw [hpt]
      refine ⟨wr 0 sz ob, ?_, fun V P pre post hP hn' s m hb ha hs hsafe => ?_⟩
      · have e1 : ∀ G prev r, gen false G prev ((.num0, n) :: r) = gen false G (.num0, n) r := by
          intro G prev r
          rw [gen_step (c := []) (G' := G) rfl]; simp
        have e2 : ∀ G prev r, gen false G prev (p :: r) = gen false G p r := by
          intro G prev r
          rw [gen_step (c := []) (G' := G) (by obtain ⟨k, v⟩ := p; rcases hp with rfl | rfl <;> rfl)]; simp
        show gen false _ _ ((.num0, n) :: p :: [(.asg0, sz)]) = _
        rw [e1, e2, gen_step (c := wr 0 sz ob) (G' := ⟨false, 0, V0⟩) (by simp only [step, hrev, Option.getD_some])]
        simp [gen]
      · obtain ⟨a, h1, h2⟩ := hadr V s m hb
        have st := (Cg.hole_asgL V sz (.num n)).steps (.one h1)
        have hacc := asg_acc (hsafe.steps st)
        obtain ⟨s1, a1, a2, a3⟩ := wr_ok V.G s hz (show (0 : Nat) ≠ 1 by decide) ob
        rw [h2, get_zero, ← hn0] at a2
        refine ⟨s1, _, _, ?_, st.trans (.one (.asg sz a n m hacc)), (show Chg 0 s s1 from a3.mono (by simp)).keep, ?_, ?_⟩
        · rw [hP]; exact run_execs a1 pre post
        · rw [a2]; exact Cg.agree_upd ha _ _ _
        · intro b hb _; rw [a2]; exact Cg.upd_frame hacc b hb
    | false =>
      rw [revd_else .asg0 sz ho]
      obtain ⟨c, g, sm⟩ := full l h.2.1 ht.2.2.1 0
      rw [ht.1] at g
      refine ⟨c ++ wr 0 sz (.reg 2), ?_, fun V P pre post hP hn' s m hb ha hs hsafe => ?_⟩
      · have nz : ∀ p (k : Tok) (v : Int), k = .num0 ∨ k = .asg0 → nx p [(k, v)] := by
          rintro p k v hk x hx
          cases hx
          rcases hk with rfl | rfl <;> exact ⟨⟨nofun, nofun⟩, fun _ => rfl, fun _ => rfl⟩
        have h1 : GenTo (pt l ++ [(.num0, n)]) 0 true 0 (c ++ []) := g.snoc (nz _ _ _ (Or.inl rfl)) fun m _ => rfl
        have h2 : GenTo (pt l ++ [(.num0, n)] ++ [(.asg0, sz)]) 0 true 0 (c ++ [] ++ wr 0 sz (.reg 2)) :=
          h1.snoc (nz _ _ _ (Or.inr rfl)) fun m _ => by rw [lastT_snoc]; rfl
        rw [List.append_nil] at h2
        exact gen_end h2
      · have hd : dep 0 (temps l) ≤ dep 0 (temps (.asg sz l (.num n))) := by simp only [temps, dep]; omega
        obtain ⟨s1, a, m1, a1, a2, a3, a4, a5, a6⟩ := sm V P pre (wr 0 sz (.reg 2) ++ post) (by rw [hP]; simp) hn' s m hb ha (hs.mono hd) ((Cg.hole_asgL V sz (.num n)).safe hsafe)
        have st := (Cg.hole_asgL V sz (.num n)).steps a2
        have hacc := asg_acc (hsafe.steps st)
        obtain ⟨s2, b1, b2, b3⟩ := wr_ok V.G s1 hz (show (0 : Nat) ≠ 1 by decide) (.reg 2)
        rw [show oaddr V.G s1 (.reg 2) = s1.r (wreg 0) from rfl, a3, get_zero, ← hn0] at b2
        have r2 := run_execs b1 (pre ++ c) post
        rw [show pre ++ c ++ wr 0 sz (.reg 2) ++ post = P by rw [hP]; simp, List.length_append] at r2
        refine ⟨s2, _, _, ?_, st.trans (.one (.asg sz a n m1 hacc)), a4.trans (show Chg 0 s1 s2 from b3.mono (by simp)).keep, ?_, ?_⟩
        · rw [List.length_append, ← Nat.add_assoc]; exact a1.trans r2
        · rw [b2]; exact Cg.agree_upd a5 _ _ _
        · refine (a6.mono hd).trans ?_
          intro b hb _; rw [b2]; exact Cg.upd_frame hacc b hb

/-! ### jumps on the value -/

/-- the code evaluates an expression, and then jumps -/
def SimJ (V : Env 4) (c : List Ins) (d : Nat) (e : E) (nz : Bool) (lab : Int) : Prop :=
  ∀ P pre post p' q', P = pre ++ c ++ post → P = p' ++ .lab lab :: q' → (labs P).Nodup → ∀ s m, s.fp = V.bp → Agree V.A s.mem m → StkOk V.A s.sp d → Safe V e m →
    ∃ s' v m', Run1 V.G P pre.length s (dest 4 nz v (p'.length + 1) (pre.length + c.length)) s' ∧ Steps V e m (.num v) m' ∧ Keep 0 s s' ∧
      Agree V.A s'.mem m' ∧ Frame V.A s.sp d s.mem s'.mem

theorem dest_b2i (nz b : Bool) (x y : Nat) : dest 4 nz (b2i b) x y = if b = nz then x else y := by
  unfold dest
  cases b <;> cases nz <;> simp [b2i, wd]

/-- the end of a run: code that jumps -/
theorem jumpIf_run {G : Int → Wd 4} {s : St} {w : Nat} {lab : Int} {tr b : Bool} {code : List Ins} (h : JumpIf G s w lab tr code b)
    {P pre post p' q' : List Ins} (hP : P = pre ++ code ++ post) (hP' : P = p' ++ .lab lab :: q') (hn : (labs P).Nodup) :
    ∃ s', Run1 G P pre.length s (if b = tr then p'.length + 1 else pre.length + code.length) s' ∧ s'.mem = s.mem ∧ Only [w] s s' := by
  obtain ⟨c, i, s', rfl, h1, h2, h3, h4⟩ := h
  have r1 := run_execs h1 pre ([i] ++ post)
  rw [show pre ++ c ++ ([i] ++ post) = P by rw [hP]; simp, ← List.length_append] at r1
  refine ⟨s', ?_, h3, h4⟩
  by_cases hb : b = tr
  · rw [decide_eq_true hb] at h2
    rw [if_pos hb]
    exact r1.trans1 (run_jump1 (pre := pre ++ c) (post := post) (by rw [hP]; simp) h2 hP' hn)
  · rw [decide_eq_false hb] at h2
    rw [if_neg hb, show pre.length + (c ++ [i]).length = (pre ++ c).length + 1 by simp; omega]
    exact r1.trans1 (run_no_jump1 (pre := pre ++ c) (post := post) (by rw [hP]; simp) h2)

/-- a jump after the value -/
theorem jump_val {V : Env 4} {c : List Ins} {d : Nat} {e : E} (h : Sim V 0 c d e) (nz : Bool) (lab : Int) :
    SimJ V (c ++ [if nz then .bne V0 0 lab else .beq V0 0 lab]) d e nz lab := by
  intro P pre post p' q' hP hP' hn s m hb ha hs hsafe
  obtain ⟨s', v, m', h1, h2, h3, h4, h5, h6⟩ := h P pre ([if nz then .bne V0 0 lab else .beq V0 0 lab] ++ post) (by rw [hP]; simp) hn s m hb ha hs hsafe
  refine ⟨s', v, m', ?_, h2, h4, h5, h6⟩
  have hj : jump s' (if nz then .bne V0 0 lab else .beq V0 0 lab) = some (lab, decide (decide (wd 4 v ≠ 0) = nz)) := by
    rw [← h3]
    cases nz
    · simp only [Bool.false_eq_true, if_false]; rw [show (V0 : Nat) = wreg 0 from rfl, jump_beq]; simp
    · simp only [if_true]; rw [show (V0 : Nat) = wreg 0 from rfl, jump_bne]; simp
  rw [← List.length_append] at h1
  unfold dest
  by_cases hc : decide (wd 4 v ≠ 0) = nz
  · rw [decide_eq_true hc] at hj
    rw [if_pos hc]
    exact h1.trans1 (run_jump1 (pre := pre ++ c) (post := post) (by rw [hP]; simp) hj hP' hn)
  · rw [decide_eq_false hc] at hj
    rw [if_neg hc, show pre.length + (c ++ [if nz then Ins.bne V0 0 lab else .beq V0 0 lab]).length = (pre ++ c).length + 1 by simp; omega]
    exact h1.trans1 (run_no_jump1 (pre := pre ++ c) (post := post) (by rw [hP]; simp) hj)

/-- the token of the jump -/
def ifTok (nz : Bool) (lab : Int) : T := (.t (if nz then .ifT else .ifN), lab)

theorem brOf_if (nz : Bool) (lab : Int) : brOf (some (ifTok nz lab)) = some (nz, lab) := by cases nz <;> rfl

theorem gen_skip (G : Gs) (prev x : T) : gen true G prev [x] = gen false G x [] := by rw [gen]; rfl

/-- a comparison with a number -/
theorem jump_cmpN (c : Cc) (n : Int) (e : E) (hv : isVoid e = false) (pe : Full e) (f : E → E) (hf : ∀ V : Env 4, Hole V f)
    (hs : ∀ (V : Env 4) v m, Steps V (f (.num v)) m (.num (b2i (rel c (wd 4 v) (wd 4 n)))) m) (d : Nat) (hd : temps e ≤ d) (nz : Bool) (lab : Int) :
    ∃ c', gen false ⟨false, 0, V0⟩ (.t .ret, 0) (pt e ++ [(.t .num, (special (.cmp c) n).2), (.t (special (.cmp c) n).1, 0)] ++ [ifTok nz lab]) = some c' ∧
      ∀ V, SimJ V c' (dep 0 d) (f e) nz lab := by
  obtain ⟨ce, g, sm⟩ := pe 0
  rw [hv] at g
  have hsim : ∀ V, Sim V 0 ce (dep 0 d) e := fun V => (sm V).mono (by unfold dep; omega)
  rcases special_rel c n with ⟨c', n', h1, h2⟩ | ⟨h1, h2⟩
  · have hfit := special_fits h1
    rw [h1]
    refine ⟨ce ++ cmpCode c' (wreg 0) 0 0 (some n') (some (nz, lab)), ?_, fun V => ?_⟩
    · rw [List.append_assoc, show (V0 : Nat) = wreg 0 from rfl, g.2 false 0 rfl _ _ (headL.nx ⟨_, _, rfl, Or.inl rfl⟩ _ _)]
      show Option.map _ (gen false ⟨true, 0, wreg 0⟩ _ ((.t .num, n') :: (.t (.cmp c'), 0) :: [ifTok nz lab])) = _
      have e1 : ∀ p, step ⟨true, 0, wreg 0⟩ p ((Tok.t (.cmp c'), (0 : Int)) :: [ifTok nz lab]).head? (.t .num, n') = some ([], ⟨true, 0, wreg 0⟩, false) := by
        intro p
        simp only [step, List.head?_cons, Option.map_some, Option.getD_some, Tok.is, immOp, Bool.not_true, Bool.and_false, if_true]
        rfl
      have e2 : step ⟨true, 0, wreg 0⟩ (.t .num, n') ([ifTok nz lab]).head? (.t (.cmp c'), 0) = some (cmpCode c' (wreg 0) 0 0 (some n') (some (nz, lab)), ⟨true, 0, wreg 0⟩, true) := by
        simp only [step, List.head?_cons, brOf_if, if_true, Option.isSome_some]
      rw [gen_step (e1 _), gen_cons, e2]
      simp only [Option.bind_some, gen_skip]
      simp [gen, pc, wreg, V0]
    · intro P pre post p' q' hP hP' hn s m hb ha hsk hsafe
      obtain ⟨s1, v, m1, a1, a2, a3, a4, a5, a6⟩ := hsim V P pre (cmpCode c' (wreg 0) 0 0 (some n') (some (nz, lab)) ++ post) (by rw [hP]; simp) hn s m hb ha hsk ((hf V).safe hsafe)
      have hj := cmp_imm_br V.G s1 c' (wreg_ne0 0) 0 0 n' hfit nz lab
      rw [get_wreg, a3, h2] at hj
      obtain ⟨s2, b1, b2, b3⟩ := jumpIf_run hj (P := P) (pre := pre ++ ce) (post := post) (by rw [hP]; simp) hP' hn
      refine ⟨s2, _, m1, ?_, ((hf V).steps a2).trans (hs V v m1), a4.trans (show Chg 0 s1 s2 from b3.mono (by simp)).keep, by rw [b2]; exact a5, by rw [b2]; exact a6⟩
      rw [dest_b2i, List.length_append, ← Nat.add_assoc]
      rw [List.length_append] at b1
      exact a1.trans1 b1
  · rw [h1]
    refine ⟨ce ++ p3 .and (wreg 0) (wreg 0) (.imm 0) ++ [if nz then .bne V0 0 lab else .beq V0 0 lab], ?_, fun V => jump_val ((hsim V).then (hf V) ?_) nz lab⟩
    · rw [List.append_assoc, show (V0 : Nat) = wreg 0 from rfl, g.2 false 0 rfl _ _ (headL.nx ⟨_, _, rfl, Or.inl rfl⟩ _ _)]
      show Option.map _ (gen false ⟨true, 0, wreg 0⟩ _ ((.t .num, 0) :: (.t (.ar .band), 0) :: [ifTok nz lab])) = _
      have e1 : ∀ p, step ⟨true, 0, wreg 0⟩ p ((Tok.t (.ar .band), (0 : Int)) :: [ifTok nz lab]).head? (.t .num, 0) = some ([], ⟨true, 0, wreg 0⟩, false) := by
        intro p
        simp only [step, List.head?_cons, Option.map_some, Option.getD_some, Tok.is, immOp, Bool.not_true, Bool.and_false, if_true]
        rfl
      have e2 : step ⟨true, 0, wreg 0⟩ (.t .num, 0) ([ifTok nz lab]).head? (.t (.ar .band), 0) = some (p3 .and (wreg 0) (wreg 0) (.imm 0), ⟨true, 0, wreg 0⟩, false) := by
        simp only [step, immOp, and_self, if_true, aluOf, Option.map_some]
      have e3 : ∀ p, step ⟨true, 0, wreg 0⟩ p none (ifTok nz lab) = some ([if nz then .bne V0 0 lab else .beq V0 0 lab], ⟨true, 0, wreg 0⟩, false) := by
        intro p; cases nz <;> rfl
      rw [gen_step (e1 _), gen_step e2, gen_step (e3 _)]
      simp [gen, pc, wreg, V0]
    · intro s m v hb ha hr hsafe
      obtain ⟨s', g1, g2, g3, g4⟩ := p3_ok V.G s .and (d := wreg 0) (a := wreg 0) (fun _ => wreg_ne0 0) (.imm 0)
      refine ⟨s', _, _, g1, hs V v m, ?_, g4.chg (by simp), by rw [g3]; exact ha, fun a _ => by rw [g3]⟩
      rw [g2, h2]
      show _ &&& wd 4 0 = wd 4 0
      exact BitVec.and_zero

theorem jump_cmp (c : Cc) (l r : E) (hv : isVoid l = false) (hv' : isVoid r = false) (pl : Full l) (pr : Full r) (nz : Bool) (lab : Int) :
    ∃ c', gen false ⟨false, 0, V0⟩ (.t .ret, 0) (pt (.cmp c l r) ++ [ifTok nz lab]) = some c' ∧ ∀ V, SimJ V c' (dep 0 (temps (.cmp c l r))) (.cmp c l r) nz lab := by
  rcases isNum_cases r with ⟨n, rfl⟩ | hr
  · rw [pt_cmp_num]
    exact jump_cmpN c n l hv pl (fun l => .cmp c l (.num n)) (fun V => Cg.hole_cmpL V c _) (fun V v m => .one (.cmp c v n m)) _ (by simp only [temps]; omega) nz lab
  · rcases isNum_cases l with ⟨n, rfl⟩ | hl
    · rw [pt_cmp_left c n hr]
      obtain ⟨c', h1, h2⟩ := mirror_rel c
      rw [h1]
      exact jump_cmpN c' n r hv' pr (fun r => .cmp c (.num n) r) (fun V => Cg.hole_cmpR V c _) (fun V v m => by rw [h2]; exact .one (.cmp c n v m)) _ (by simp only [temps]; omega) nz lab
    · rw [pt_cmp c hr hl]
      obtain ⟨cl, g, sm⟩ := pl 0
      obtain ⟨cr, g', sm'⟩ := pr 1
      rw [hv] at g
      rw [hv'] at g'
      have hA : pushc 0 = [] ∧ popc 0 = [] := ⟨rfl, rfl⟩
      refine ⟨(cl ++ (pushc 0 ++ (cr ++ popc 0))) ++ cmpCode c (wreg 0) (lreg 0) (wreg 1) none (some (nz, lab)), ?_, fun V => ?_⟩
      · have h1 := g.seq (pt_headL r) (g2 := true) (t2 := 1) g'
        have hnx : nx (lastT (pt l ++ pt r)) [(.t (.cmp c), 0), ifTok nz lab] := by
          intro x hx
          cases hx
          rw [lastT_app _ _ g'.1]
          exact ⟨by simp [noIf], fun h => absurd h (last_num hr), fun _ => rfl⟩
        have h2 := h1.2 false 0 rfl (.t .ret, 0) [(.t (.cmp c), 0), ifTok nz lab] hnx
        rw [List.append_assoc (pt l ++ pt r), show (V0 : Nat) = wreg 0 from rfl]
        show gen false _ _ (pt l ++ pt r ++ [(.t (.cmp c), 0), ifTok nz lab]) = _
        rw [h2]
        have e2 : step ⟨true, 1, wreg 1⟩ (lastT (pt l ++ pt r)) ([ifTok nz lab]).head? (.t (.cmp c), 0) =
            some (popc 0 ++ cmpCode c (wreg 0) (lreg 0) (wreg 1) none (some (nz, lab)), ⟨true, 0, wreg 0⟩, true) := by
          have : (lastT (pt l ++ pt r)).1 ≠ .t .num := by rw [lastT_app _ _ g'.1]; exact last_num hr
          simp only [step, List.head?_cons, brOf_if, if_neg this, pop_eq true 0, Option.map_some, Option.isSome_some]
        rw [gen_cons, e2]
        simp only [Option.bind_some, gen_skip]
        simp [gen, pc, wreg, V0]
      · intro P pre post p' q' hP hP' hn s m hb ha hsk hsafe
        obtain ⟨s1, v, w, m1, a1, a2, a3, a4, a5, a6, a7, -⟩ := two (f := fun l r => .cmp c l r) (Cg.hole_cmpL V c r) (fun l => .of (Cg.hole_cmpR V c l) r) (sm V) (sm' V)
          (d := dep 0 (temps (.cmp c l r))) (by simp only [temps]; omega) (P := P) (pre := pre) (post := cmpCode c (wreg 0) (lreg 0) (wreg 1) none (some (nz, lab)) ++ post)
          (by rw [hP]; simp) hn hb ha hsk hsafe
        have hj := cmp_reg_br V.G s1 c (wreg_ne0 0) (lreg 0) (wreg 1) nz lab
        rw [get_pos (lreg_ne0 0), get_wreg, a3, a4] at hj
        rw [← List.length_append] at a1
        obtain ⟨s2, b1, b2, b3⟩ := jumpIf_run hj (P := P) (pre := pre ++ (cl ++ (pushc 0 ++ (cr ++ popc 0)))) (post := post) (by rw [hP]; simp) hP' hn
        refine ⟨s2, _, m1, ?_, a2.trans (.one (.cmp c v w m1)), a5.trans (show Chg 0 s1 s2 from b3.mono (by simp)).keep, by rw [b2]; exact a6, by rw [b2]; exact a7⟩
        rw [dest_b2i, show pre.length + (cl ++ (pushc 0 ++ (cr ++ popc 0)) ++ cmpCode c (wreg 0) (lreg 0) (wreg 1) none (some (nz, lab))).length =
          (pre ++ (cl ++ (pushc 0 ++ (cr ++ popc 0)))).length + (cmpCode c (wreg 0) (lreg 0) (wreg 1) none (some (nz, lab))).length by simp only [List.length_append]; omega]
        exact a1.trans1 b1

theorem genExpr_if (e : E) (nz : Bool) (lab : Int) :
    genExpr (toks e ++ [(if nz then .ifT else .ifN, lab)]) = gen false ⟨false, 0, V0⟩ (.t .ret, 0) (pt e ++ [ifTok nz lab]) := by
  have h1 := prep_toks e ((toks e ++ [(if nz then Cg.Tok.ifT else .ifN, lab)]).length + 1) [] (by simp; omega)
  rw [List.append_nil] at h1
  unfold genExpr
  simp only [List.reverse_append, List.reverse_singleton, List.singleton_append]
  rw [if_pos (by cases nz <;> simp), h1]
  rfl

theorem branch_ok (e : E) (h : e.ok 4) (ht : typed e) (nz : Bool) (lab : Int) :
    ∃ c, branch e nz lab = some c ∧ ∀ V : Env 4, SimJ V c (dep 0 (temps e)) e nz lab := by
  cases hc : e.isCmp with
  | true =>
    cases e with
    | cmp o l r =>
      obtain ⟨c, g, sm⟩ := jump_cmp o l r ht.1 ht.2.1 (full l h.1 ht.2.2.1) (full r h.2 ht.2.2.2) nz lab
      exact ⟨c, by rw [branch, if_pos hc, genExpr_if, g], sm⟩
    | _ => exact Bool.noConfusion hc
  | false =>
    obtain ⟨c, g, sm⟩ := full e h ht 0
    refine ⟨c ++ [if nz then .bne V0 0 lab else .beq V0 0 lab], ?_, fun V => jump_val (sm V) nz lab⟩
    rw [branch, if_neg (by rw [hc]; simp), genExpr_ret e g]
    rfl

end Smlr.Mips
