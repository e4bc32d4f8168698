import Verif.Mfn.Sim
set_option autoImplicit false
/-! All steps of the body. -/
namespace Smlr.Mfn
open Smlr.Fn (Item lang rpn Step Reach Defined isDone)
open Smlr.Cg (Wd Mem Env Safe Steps wd Agree Frame StkOk)
open Smlr.Mips (St Ins Run Run1 labs)
open Smlr.Stmt (I mstep find Mc Go Match)
open Smlr.Stmt.Spec (Stmt Cont Conf step)

theorem runN_of {G : Int → Wd 4} {Q : List Ins} {pc pc' : Nat} {s s' : St} (h : Run G Q pc s pc' s') : ∃ n, RunN G Q n pc s pc' s' := by
  induction h with
  | refl pc s => exact ⟨0, .refl _ _⟩
  | step h _ ih => obtain ⟨n, ih⟩ := ih; exact ⟨n + 1, .step h ih⟩

theorem RunN.run {G : Int → Wd 4} {Q : List Ins} {n pc pc' : Nat} {s s' : St} (h : RunN G Q n pc s pc' s') : Run G Q pc s pc' s' := by
  induction h with
  | refl pc s => exact .refl _ _
  | step h _ ih => exact .step h ih

theorem RunN.trans {G : Int → Wd 4} {Q : List Ins} {n k pc pc₁ pc₂ : Nat} {s s₁ s₂ : St} (h : RunN G Q n pc s pc₁ s₁) (h' : RunN G Q k pc₁ s₁ pc₂ s₂) :
    RunN G Q (n + k) pc s pc₂ s₂ := by
  induction h with
  | refl => rw [Nat.zero_add]; exact h'
  | step h _ ih => rw [Nat.add_right_comm]; exact .step h (ih h')

theorem adv_runN {G : Int → Wd 4} {Q : List Ins} {p p' pc pc' : Nat} {s s' : St} (h : Adv G Q p pc s p' pc' s') : ∃ n, RunN G Q n pc s pc' s' ∧ (0 < n ∨ p < p') := by
  rcases h with ⟨b, t, h1, h2⟩ | ⟨h1, h2⟩
  · obtain ⟨n, h3⟩ := runN_of h2
    exact ⟨n + 1, .step h1 h3, .inl (by omega)⟩
  · obtain ⟨n, h3⟩ := runN_of h1
    exact ⟨n, h3, .inr h2⟩

/-- a configuration of the body and one of the machine -/
structure Pt where
  c : Conf (lang 4) (Mem 4)
  p : Nat
  acc : Option Int
  pc : Nat
  s : St
  n : Nat

section
variable {ρ : Nat → Int} {code : List (I (lang 4).X)} {Q : List Ins} {base : Nat} {V : Env 4} {r₀ : Nat → Wd 4} {d : Nat} {M : Mem 4} {X : Stmt.Ctx (lang 4)}

structure Inv (V : Env 4) (ρ : Nat → Int) (code : List (I (lang 4).X)) (Q : List Ins) (base : Nat) (d : Nat) (X : Stmt.Ctx (lang 4)) (s0 : St) (t : Pt) : Prop where
  reach : Reach V X.isMain X.body (.run X.body .stop s0.mem) t.c
  mt : Match code X t.c ⟨t.p, t.acc, t.c.st⟩
  conc : At V ρ code base s0.r d s0.mem t.p t.acc t.c.st t.pc t.s
  run : RunN V.G Q t.n base s0 t.pc t.s

/-- the order in which the body goes on although the machine does not -/
def less (code : List (I (lang 4).X)) (a b : Pt) : Prop :=
  Prod.Lex (· < ·) (· < ·) ((code.length - a.p, Stmt.csize a.c) : Nat × Nat) (code.length - b.p, Stmt.csize b.c)

theorem less_wf (code : List (I (lang 4).X)) : WellFounded (less code) :=
  InvImage.wf (fun a : Pt => ((code.length - a.p, Stmt.csize a.c) : Nat × Nat)) (Prod.lex Nat.lt_wfRel Nat.lt_wfRel).wf

theorem next (h : Lay ρ code Q base) (hd : ∀ i ∈ code, need i ≤ d) {s0 : St} (hk : StkOk V.A s0.sp d) (hU : Stmt.Uniq code) (hE : Stmt.Ends code X)
    (hb : ∃ q cs ds, Stmt.C code X X.body none none 0 q cs ds ∧ Stmt.MK code X .stop q none none) (hdef : Defined V X.isMain X.body s0.mem) {t : Pt}
    (ht : Inv V ρ code Q base d X s0 t) (hdone : ¬ isDone t.c) :
    ∃ t', Inv V ρ code Q base d X s0 t' ∧ Step V X.isMain X.body t.c t'.c ∧ t.n ≤ t'.n ∧ (t.n < t'.n ∨ less code t' t) := by
  obtain ⟨c', p', acc', pc', s', h1, h2, h3, h4⟩ := body_step h hd hk hU hE hb hdone (hdef _ ht.reach) ht.mt ht.conc
  rcases h4 with ⟨hp, h4⟩ | ⟨e1, e2, e3, e4⟩
  · obtain ⟨k, h5, h6⟩ := adv_runN h4
    refine ⟨⟨c', p', acc', pc', s', t.n + k⟩, ⟨ht.reach.step h1, h2, h3, ht.run.trans h5⟩, h1, Nat.le_add_right _ _, ?_⟩
    rcases h6 with h6 | h6
    · exact .inl (Nat.lt_add_of_pos_right h6)
    · refine .inr (.left _ _ ?_)
      show code.length - p' < code.length - t.p
      omega
  · subst e1 e2 e3
    exact ⟨⟨c', t.p, acc', t.pc, t.s, t.n⟩, ⟨ht.reach.step h1, h2, h3, ht.run⟩, h1, Nat.le_refl _, .inr (.right _ e4)⟩

/-- an infinite sequence in which the machine goes on for ever -/
theorem forever {I : Pt → Prop} {S : Pt → Pt → Prop} (hn : ∀ t, I t → ∃ t', I t' ∧ S t t' ∧ t.n ≤ t'.n ∧ (t.n < t'.n ∨ less code t' t)) (t0 : Pt) (h0 : I t0) :
    ∃ f : Nat → Pt, f 0 = t0 ∧ (∀ n, I (f n)) ∧ (∀ n, S (f n) (f (n + 1))) ∧ ∀ N, ∃ n, N ≤ (f n).n := by
  let g : {t // I t} → {t // I t} := fun t => ⟨(hn t.1 t.2).choose, (hn t.1 t.2).choose_spec.1⟩
  let F : Nat → {t // I t} := fun n => Nat.rec ⟨t0, h0⟩ (fun _ t => g t) n
  have hg : ∀ n, S (F n).1 (F (n + 1)).1 ∧ (F n).1.n ≤ (F (n + 1)).1.n ∧ ((F n).1.n < (F (n + 1)).1.n ∨ less code (F (n + 1)).1 (F n).1) :=
    fun n => (hn (F n).1 (F n).2).choose_spec.2
  have up : ∀ t : Pt, ∀ n, (F n).1 = t → ∃ k, (F n).1.n < (F k).1.n := by
    intro t
    induction t using (less_wf code).induction with
    | _ t ih =>
      intro n hnt
      rcases (hg n).2.2 with h | h
      · exact ⟨n + 1, h⟩
      · obtain ⟨k, hk⟩ := ih _ (by rw [← hnt]; exact h) (n + 1) rfl
        exact ⟨k, Nat.lt_of_le_of_lt (hg n).2.1 hk⟩
  refine ⟨fun n => (F n).1, rfl, fun n => (F n).2, fun n => (hg n).1, fun N => ?_⟩
  induction N with
  | zero => exact ⟨0, Nat.zero_le _⟩
  | succ N ih =>
    obtain ⟨n, h⟩ := ih
    obtain ⟨k, hk⟩ := up _ n rfl
    exact ⟨k, Nat.lt_of_le_of_lt h hk⟩

theorem off_end {P : List Ins} (hP : print ρ code = some P) : off ρ code base code.length = base + P.length := by
  unfold off
  rw [List.take_length, hP]
  rfl

end

end Smlr.Mfn
