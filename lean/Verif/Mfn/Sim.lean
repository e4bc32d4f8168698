import Verif.Mfn.Exec
import Verif.Fn.Sim
set_option autoImplicit false
/-! One step of the body, on the machine: as for x86 (`Fn.Sim`). -/
namespace Smlr.Mfn
open Smlr.Fn (Item lang rpn Step Reach Defined Wrong isDone probe evals isQuiet constOf semO constOf_rpn semO_const semO_var semO_inv semO_constOk semO_zero quiet_or mstep_evals mstep_code mafter_count go_of_mafter go_lt num_end num_safe put put_put put_st put_self put_size match_put rpn_head rpn_inj)
open Smlr.Cg (Wd Mem Env Safe Steps wd Agree Frame StkOk)
open Smlr.Mips (St Ins Run Run1 labs)
open Smlr.Stmt (I mstep find Mc Go Match)
open Smlr.Stmt.Spec (Stmt Cont Conf step mafter)

/-! ### following it -/

/-- no steps, or progress -/
def Prog (G : Int → Wd 4) (Q : List Ins) (n p pc : Nat) (s : St) (p' pc' : Nat) (s' : St) : Prop := (n = 0 ∧ p' = p ∧ pc' = pc ∧ s' = s) ∨ (0 < n ∧ Adv G Q p pc s p' pc' s')

theorem Adv.trans {G : Int → Wd 4} {Q : List Ins} {p q r pc pc₁ pc₂ : Nat} {s s₁ s₂ : St} (h : Adv G Q p pc s q pc₁ s₁) (h' : Adv G Q q pc₁ s₁ r pc₂ s₂) :
    Adv G Q p pc s r pc₂ s₂ := by
  rcases h with h | ⟨h, l⟩
  · rcases h' with h' | ⟨h', -⟩
    · exact .inl (h.run.trans1 h')
    · obtain ⟨a, b, h1, h2⟩ := h
      exact .inl ⟨a, b, h1, h2.trans h'⟩
  · rcases h' with h' | ⟨h', l'⟩
    · exact .inl (h.trans1 h')
    · exact .inr ⟨h.trans h', by omega⟩

theorem Adv.prog {G : Int → Wd 4} {Q : List Ins} {n p q r pc pc₁ pc₂ : Nat} {s s₁ s₂ : St} (h : Adv G Q p pc s q pc₁ s₁) (h' : Prog G Q n q pc₁ s₁ r pc₂ s₂) :
    Adv G Q p pc s r pc₂ s₂ := by
  rcases h' with ⟨-, rfl, rfl, rfl⟩ | ⟨-, h'⟩
  · exact h
  · exact h.trans h'

theorem Prog.adv {G : Int → Wd 4} {Q : List Ins} {n p q r pc pc₁ pc₂ : Nat} {s s₁ s₂ : St} (h : Prog G Q n p pc s q pc₁ s₁) (h' : Adv G Q q pc₁ s₁ r pc₂ s₂) :
    Adv G Q p pc s r pc₂ s₂ := by
  rcases h with ⟨-, rfl, rfl, rfl⟩ | ⟨-, h⟩
  · exact h'
  · exact h.trans h'

section
variable {ρ : Nat → Int} {code : List (I (lang 4).X)} {Q : List Ins} {base : Nat} {V : Env 4} {r₀ : Nat → Wd 4} {d : Nat} {M : Mem 4}

theorem follow (h : Lay ρ code Q base) (hd : ∀ i ∈ code, need i ≤ d) (hk : StkOk V.A (r₀ 29) d) {x : List (lang 4).X} {o : Option (Int × Mem 4)}
    {R : Mem 4 × Nat → Prop} {n : Nat} {a b : Mc (Mem 4 × Nat)} (hg : Go (semO x o) code R n a b) {pc : Nat} {s : St} (ha : At V ρ code base r₀ d M a.pc a.acc a.st.1 pc s) :
    (b.st = a.st ∧ ∃ pc' s', Prog V.G Q n a.pc pc s b.pc pc' s' ∧ At V ρ code base r₀ d M b.pc b.acc b.st.1 pc' s') ∨
    ∃ j z pc' s', j < n ∧ (∀ o', mafter (semO x o') code j a = some z) ∧ z.st = a.st ∧ Prog V.G Q j a.pc pc s z.pc pc' s' ∧ At V ρ code base r₀ d M z.pc z.acc z.st.1 pc' s' ∧
      a.st.2 = 0 ∧ constOf x = none ∧ ∃ i it, code[z.pc]? = some i ∧ evals i = some x ∧ x = rpn it := by
  induction hg generalizing pc s with
  | refl m _ => exact .inl ⟨rfl, pc, s, .inl ⟨rfl, rfl, rfl, rfl⟩, ha⟩
  | @step n m m1 m2 _ hs _ ih =>
    have next : ∀ pc₁ s₁, m1.st = m.st → (∀ o', mstep (semO x o') code m = some m1) → Adv V.G Q m.pc pc s m1.pc pc₁ s₁ → At V ρ code base r₀ d M m1.pc m1.acc m1.st.1 pc₁ s₁ →
        (m2.st = m.st ∧ ∃ pc' s', Prog V.G Q (n + 1) m.pc pc s m2.pc pc' s' ∧ At V ρ code base r₀ d M m2.pc m2.acc m2.st.1 pc' s') ∨
        ∃ j z pc' s', j < n + 1 ∧ (∀ o', mafter (semO x o') code j m = some z) ∧ z.st = m.st ∧ Prog V.G Q j m.pc pc s z.pc pc' s' ∧ At V ρ code base r₀ d M z.pc z.acc z.st.1 pc' s' ∧
          m.st.2 = 0 ∧ constOf x = none ∧ ∃ i it, code[z.pc]? = some i ∧ evals i = some x ∧ x = rpn it := by
      intro pc₁ s₁ e1 e2 adv at1
      rcases ih at1 with ⟨k1, pc', s', k2, k3⟩ | ⟨j, z, pc', s', k1, k2, k3, k4, k5, k6, k7⟩
      · exact .inl ⟨k1.trans e1, pc', s', .inr ⟨by omega, adv.prog k2⟩, k3⟩
      · refine .inr ⟨j + 1, z, pc', s', by omega, fun o' => ?_, k3.trans e1, .inr ⟨by omega, adv.prog k4⟩, k5, by rw [← e1]; exact k6, k7⟩
        show (mstep (semO x o') code m).bind (mafter (semO x o') code j) = some z
        rw [e2 o']
        exact k2 o'
    obtain ⟨i, hi⟩ := mstep_code hs
    rcases quiet_or i with hq | ⟨y, hy⟩
    · obtain ⟨p, acc, st⟩ := m
      obtain ⟨p', acc', st'⟩ := m1
      obtain ⟨e1, e2, pc₁, s₁, adv, at1⟩ := quiet h ha hi hq hs
      subst e1
      exact next pc₁ s₁ rfl (fun o' => e2 _ _ _) adv at1
    · obtain ⟨it, rfl⟩ : ∃ it : Item 4, y = rpn it := by
        have := h.good i (List.mem_of_getElem? hi)
        cases i with
        | ifNot e l => cases hy; exact ⟨this.choose, this.choose_spec.1⟩
        | ifYes e l => cases hy; exact ⟨this.choose, this.choose_spec.1⟩
        | eval e => cases hy; exact this
        | evalR e => cases hy; exact this
        | _ => cases hy
      obtain ⟨r, hr, -⟩ := mstep_evals hs hi hy
      cases hc : constOf (rpn it) with
      | some v =>
        have ht := it.num v ((constOf_rpn it).symm.trans hc)
        obtain ⟨v', m', p', acc', pc₁, s₁, k1, adv, at1, k2⟩ := evaluate h hd hk ha hi hy (by rw [ht]; exact num_safe _ _)
        rw [ht] at k1
        obtain ⟨k3, rfl⟩ := num_end k1
        cases k3
        have e2 : ∀ o', mstep (semO x o') code m = some ⟨p', acc', m.st⟩ := fun o' => k2 _ _ m.st m.st (semO_const hc _)
        have e3 := e2 o
        rw [hs] at e3
        cases e3
        exact next pc₁ s₁ rfl e2 adv at1
      | none =>
        obtain ⟨rfl, h0⟩ := semO_inv hr hc
        exact .inr ⟨0, m, pc, s, by omega, fun _ => rfl, rfl, .inl ⟨rfl, rfl, rfl, rfl⟩, ha, h0, hc, i, it, hi, hy, rfl⟩

variable {X : Stmt.Ctx (lang 4)}

theorem body_step (h : Lay ρ code Q base) (hd : ∀ i ∈ code, need i ≤ d) (hk : StkOk V.A (r₀ 29) d) (hU : Stmt.Uniq code) (hE : Stmt.Ends code X)
    (hb : ∃ q cs ds, Stmt.C code X X.body none none 0 q cs ds ∧ Stmt.MK code X .stop q none none) {c : Conf (lang 4) (Mem 4)} (hdone : ¬ isDone c) (hw : ¬ Wrong V X.isMain X.body c)
    {p : Nat} {acc : Option Int} (hm : Match code X c ⟨p, acc, c.st⟩) {pc : Nat} {s : St} (ha : At V ρ code base r₀ d M p acc c.st pc s) :
    ∃ c' p' acc' pc' s', Step V X.isMain X.body c c' ∧ Match code X c' ⟨p', acc', c'.st⟩ ∧ At V ρ code base r₀ d M p' acc' c'.st pc' s' ∧
      ((p < code.length ∧ Adv V.G Q p pc s p' pc' s') ∨ (p' = p ∧ pc' = pc ∧ s' = s ∧ Stmt.csize c' < Stmt.csize c)) := by
  generalize hu : put c () = u
  generalize hmm : c.st = m at *
  have hcu : c = put u m := by rw [← hu, put_put, ← hmm, put_self]
  have hdone' : ∀ r st, put u (m, 0) ≠ .done r st := by
    intro r st he
    apply hdone
    rw [hcu]
    cases u with
    | done => trivial
    | _ => cases he
  have hm0 : Match code X (put u ((m, 0) : Mem 4 × Nat)) ⟨p, acc, (m, 0)⟩ := by rw [← hu, put_put]; exact match_put hm _
  have hsim := fun x o => Stmt.sim (sem := semO x o) hU (semO_constOk x o) hE (semO_zero x o) hm0 hdone' hb
  -- without evaluation, or with that of a constant
  have easy : ∀ (c₁ : Conf (lang 4) Unit), (∀ o, step (semO [] o) X.isMain X.body (put u (m, 0)) = some (put c₁ (m, 0))) → Step V X.isMain X.body c (put c₁ m) →
      ∃ c' p' acc' pc' s', Step V X.isMain X.body c c' ∧ Match code X c' ⟨p', acc', c'.st⟩ ∧ At V ρ code base r₀ d M p' acc' c'.st pc' s' ∧
      ((p < code.length ∧ Adv V.G Q p pc s p' pc' s') ∨ (p' = p ∧ pc' = pc ∧ s' = s ∧ Stmt.csize c' < Stmt.csize c)) := by
    intro c₁ h1 h2
    have g := hsim [] none
    rw [h1 none] at g
    obtain ⟨n, z, g1, g2, g3⟩ := g
    have hz := Stmt.match_st g2
    rw [put_st] at hz
    rcases follow h hd hk g1 (pc := pc) (s := s) ha with ⟨k1, pc', s', k2, k3⟩ | ⟨j, z', pc', s', k1, k2, k3, k4, k5, k6, k7, i, it, k8, k9, k10⟩
    · obtain ⟨zp, za, zs⟩ := z
      cases hz
      refine ⟨put c₁ m, zp, za, pc', s', h2, ?_, by rw [put_st]; exact k3, ?_⟩
      · have := match_put g2 m
        rw [put_put] at this
        rw [put_st]
        exact this
      · rcases k2 with ⟨e1, e2, e3, e4⟩ | ⟨e0, k2⟩
        · refine .inr ⟨e2, e3, e4, ?_⟩
          have := g3.resolve_left (by omega)
          rw [put_size, put_size] at this
          rw [hcu, put_size, put_size]
          exact this
        · exact .inl ⟨go_lt g1 e0, k2⟩
    · obtain ⟨t, ht⟩ := rpn_head it
      rw [← k10] at ht
      cases ht
  cases Fn.kind X.isMain X.body u with
  | none hn => exact absurd ⟨hdone, by rw [hcu]; exact hn _ _ _⟩ hw
  | quiet c₁ hq => exact easy c₁ (fun o => hq _ _ _) ⟨fun _ _ => none, fun _ _ _ _ h => (nomatch h), by rw [hcu]; exact hq _ _ _⟩
  | eval x k he =>
    have hp : ∃ it : Item 4, x = rpn it ∧ Safe V it.den m := by
      apply Classical.byContradiction
      intro hno
      apply hw
      refine ⟨hdone, ?_⟩
      rw [hcu, he]
      unfold probe
      rw [if_neg hno]
      rfl
    obtain ⟨it, rfl, hsafe⟩ := hp
    obtain ⟨hst, href⟩ := it.ref V m hsafe
    -- the step of the body for an outcome
    have outcome : ∀ (v : Int) (m' : Mem 4), Steps V it.tree m (.num v) m' → Step V X.isMain X.body c (put (k (wd 4 v).toInt) m') := by
      intro v m' hv
      obtain ⟨w, hw1, hw2⟩ := href v m' hv
      classical
      refine ⟨fun y n => if y = rpn it ∧ n = m then some ((wd 4 v).toInt, m') else none, ?_, ?_⟩
      · intro y n v' n' hy
        dsimp only at hy
        split at hy
        · rename_i hyn
          cases hy
          exact ⟨it, w, hyn.1, by rw [hyn.2]; exact hsafe, by rw [hyn.2]; exact hw2, by rw [hw1]⟩
        · cases hy
      · rw [hcu, he]
        simp
    cases hc : constOf (rpn it) with
    | some v =>
      have ht := it.num v ((constOf_rpn it).symm.trans hc)
      refine easy (k (wd 4 v).toInt) (fun o => ?_) (outcome v m (by rw [ht]; exact .refl _ _))
      rw [he, semO_const hc]
      rfl
    | none =>
      have g := hsim (rpn it) (some (0, m))
      rw [he, semO_var hc] at g
      obtain ⟨n, z, g1, g2, -⟩ := g
      have hz := Stmt.match_st g2
      rw [put_st] at hz
      rcases follow h hd hk g1 (pc := pc) (s := s) ha with ⟨k1, -⟩ | ⟨j, y, pc₁, s₁, k1, k2, k3, k4, k5, k6, k7, i, it', k8, k9, k10⟩
      · rw [hz] at k1
        exact absurd (congrArg Prod.snd k1) (by simp)
      · cases rpn_inj k10
        have k3 : y.st = (m, 0) := k3
        obtain ⟨v, m', p', acc', pc₂, s₂, e1, e2, e3, e4⟩ := evaluate h hd hk k5 k8 k9 (by rw [k3]; exact hst)
        rw [k3] at e1
        have g := hsim (rpn it) (some ((wd 4 v).toInt, m'))
        rw [he, semO_var hc] at g
        obtain ⟨n', z', g1', g2', -⟩ := g
        have hz' := Stmt.match_st g2'
        rw [put_st] at hz'
        have hz'' : z'.st = (m', 1) := hz'
        have hj := k2 (some ((wd 4 v).toInt, m'))
        have hn' := g1'.after
        have hlt : j < n' := by
          apply Classical.byContradiction
          intro hge
          obtain ⟨r, rfl⟩ : ∃ r, j = n' + r := ⟨j - n', by omega⟩
          rw [Stmt.mafter_add, hn'] at hj
          have := mafter_count r z' y hj (by rw [hz''])
          rw [k3] at this
          cases this
        obtain ⟨r, rfl⟩ : ∃ r, n' = j + (1 + r) := ⟨n' - j - 1, by omega⟩
        have hy : mstep (semO (rpn it) (some ((wd 4 v).toInt, m'))) code y = some ⟨p', acc', (m', 1)⟩ := by
          have := e4 _ (semO (rpn it) (some ((wd 4 v).toInt, m'))) y.st (m', 1) (by rw [k3]; exact semO_var hc m)
          obtain ⟨yp, ya, ys⟩ := y
          exact this
        rw [Stmt.mafter_add, hj, Option.bind_some, Stmt.mafter_add] at hn'
        have h1 : mafter (semO (rpn it) (some ((wd 4 v).toInt, m'))) code 1 y = some ⟨p', acc', (m', 1)⟩ := by
          show (mstep _ code y).bind _ = _
          rw [hy]
          rfl
        rw [h1, Option.bind_some] at hn'
        have hgo := go_of_mafter (X := Unit) (L := lang 4) _ _ _ hn'
        rcases follow h hd hk hgo (pc := pc₂) (s := s₂) e3 with ⟨l1, pc₃, s₃, l2, l3⟩ | ⟨_, _, _, _, _, _, _, _, _, l6, _⟩
        · obtain ⟨zp, za, zs⟩ := z'
          cases hz''
          refine ⟨put (k (wd 4 v).toInt) m', zp, za, pc₃, s₃, outcome v m' e1, ?_, by rw [put_st]; exact l3, .inl ⟨go_lt g1' (by omega), (k4.adv e2).prog l2⟩⟩
          have := match_put g2' m'
          rw [put_put] at this
          rw [put_st]
          exact this
        · cases l6

end

end Smlr.Mfn
