import Verif.Fn.Exec
set_option autoImplicit false
/-! One step of the body, on the machine.  The simulation of `Stmt.Sim` holds for every meaning of expressions, so it is used for each step with the outcome that the machine has. -/
namespace Smlr.Fn
open Smlr.Cg (Wd Mem Env Ins Safe Steps wd St Run Run1 labs Agree Frame StkOk)
open Smlr.Stmt (I mstep find Mc Go Match)
open Smlr.Stmt.Spec (Stmt Cont Conf step mafter)

variable {W : Nat}

/-! ### evaluation with one outcome -/

open Classical in
/-- the value of a constant expression -/
noncomputable def constOf (y : List (lang W).X) : Option Int := y.head?.bind fun p => if y = rpn p.1 then p.1.const else none

theorem constOf_rpn (i : Item W) : constOf (rpn i) = i.const := by
  obtain ⟨t, ht⟩ := rpn_head i
  unfold constOf
  rw [ht]
  simp

theorem constOf_some {y : List (lang W).X} {v : Int} (h : constOf y = some v) : ∃ i : Item W, y = rpn i ∧ i.const = some v := by
  unfold constOf at h
  cases hh : y.head? with
  | none => rw [hh] at h; cases h
  | some p =>
    rw [hh, Option.bind_some] at h
    split at h
    · exact ⟨p.1, by assumption, h⟩
    · cases h

open Classical in
/-- constants have their values; `x` has an outcome once -/
noncomputable def semO (x : List (lang W).X) (o : Option (Int × Mem W)) (y : List (lang W).X) (st : Mem W × Nat) : Option (Int × (Mem W × Nat)) :=
  match constOf y with
  | some v => some ((wd W v).toInt, st)
  | none => if y = x ∧ st.2 = 0 then o.map fun r => (r.1, (r.2, 1)) else none

theorem semO_const {x y : List (lang W).X} {o : Option (Int × Mem W)} {v : Int} (h : constOf y = some v) (st : Mem W × Nat) : semO x o y st = some ((wd W v).toInt, st) := by
  unfold semO; rw [h]

theorem semO_var {x : List (lang W).X} {r : Int × Mem W} (h : constOf x = none) (m : Mem W) : semO x (some r) x (m, 0) = some (r.1, (r.2, 1)) := by
  unfold semO; rw [h]; simp

theorem semO_inv {x y : List (lang W).X} {o : Option (Int × Mem W)} {st : Mem W × Nat} {r : Int × (Mem W × Nat)} (h : semO x o y st = some r) (hc : constOf y = none) :
    y = x ∧ st.2 = 0 := by
  unfold semO at h
  rw [hc] at h
  dsimp only at h
  split at h
  · assumption
  · cases h

theorem semO_constOk (x : List (lang W).X) (o : Option (Int × Mem W)) : Stmt.ConstOk (L := lang W) (semO x o) := by
  intro e v h st
  exact semO_const ((constOf_rpn e).trans h) st

theorem semO_zero (x : List (lang W).X) (o : Option (Int × Mem W)) (st : Mem W × Nat) : semO x o (lang W).zero st = some (0, st) := by
  have := semO_const (x := x) (o := o) (constOf_rpn (zero W)) st
  rw [show (wd W 0).toInt = 0 by rw [toInt_zero_iff]; show BitVec.ofInt _ 0 = 0; simp] at this
  exact this

theorem semO_count {x y : List (lang W).X} {o : Option (Int × Mem W)} {st : Mem W × Nat} {r : Int × (Mem W × Nat)} (h : semO x o y st = some r) (h1 : st.2 = 1) : r.2.2 = 1 := by
  cases hc : constOf y with
  | some v => rw [semO_const hc] at h; cases h; exact h1
  | none => have := (semO_inv h hc).2; omega

/-! ### the abstract machine -/

theorem quiet_or (i : I (lang W).X) : isQuiet i = true ∨ ∃ y, evals i = some y := by
  cases i with
  | ifNot e l => exact .inr ⟨e, rfl⟩
  | ifYes e l => exact .inr ⟨e, rfl⟩
  | eval e => exact .inr ⟨e, rfl⟩
  | evalR e => exact .inr ⟨e, rfl⟩
  | _ => exact .inl rfl

theorem mstep_evals {σ : Type} {sem : List (lang W).X → σ → Option (Int × σ)} {code : List (I (lang W).X)} {z z' : Mc σ} (h : mstep sem code z = some z') {i : I (lang W).X}
    (hi : code[z.pc]? = some i) {y : List (lang W).X} (hy : evals i = some y) : ∃ r, sem y z.st = some r ∧ z'.st = r.2 := by
  unfold mstep at h
  rw [hi] at h
  cases i with
  | ifNot e l =>
    cases hy
    dsimp only at h
    cases hs : sem y z.st with
    | none => rw [hs] at h; cases h
    | some r =>
      rw [hs, Option.bind_some] at h
      refine ⟨r, rfl, ?_⟩
      split at h
      · cases hf : find code l with
        | none => rw [hf] at h; cases h
        | some q => rw [hf] at h; cases h; rfl
      · cases h; rfl
  | ifYes e l =>
    cases hy
    dsimp only at h
    cases hs : sem y z.st with
    | none => rw [hs] at h; cases h
    | some r =>
      rw [hs, Option.bind_some] at h
      refine ⟨r, rfl, ?_⟩
      split at h
      · cases h; rfl
      · cases hf : find code l with
        | none => rw [hf] at h; cases h
        | some q => rw [hf] at h; cases h; rfl
  | eval e =>
    cases hy
    dsimp only at h
    cases hs : sem y z.st with
    | none => rw [hs] at h; cases h
    | some r => rw [hs] at h; cases h; exact ⟨r, rfl, rfl⟩
  | evalR e =>
    cases hy
    dsimp only at h
    cases hs : sem y z.st with
    | none => rw [hs] at h; cases h
    | some r => rw [hs] at h; cases h; exact ⟨r, rfl, rfl⟩
  | _ => cases hy

theorem mstep_quiet {σ : Type} {sem : List (lang W).X → σ → Option (Int × σ)} {code : List (I (lang W).X)} {z z' : Mc σ} (h : mstep sem code z = some z') {i : I (lang W).X}
    (hi : code[z.pc]? = some i) (hq : isQuiet i = true) : z'.st = z.st := by
  unfold mstep at h
  rw [hi] at h
  have jump : ∀ {l : Nat}, ((find code l).map fun p => ({ z with pc := p } : Mc σ)) = some z' → z'.st = z.st := by
    intro l h
    cases hf : find code l with
    | none => rw [hf] at h; cases h
    | some q => rw [hf] at h; cases h; rfl
  cases i with
  | lab l => cases h; rfl
  | jmp l => exact jump h
  | jz l =>
    cases ha : z.acc with
    | none => simp only [ha] at h; cases h
    | some v =>
      simp only [ha, Option.bind_some] at h
      split at h
      · exact jump (l := l) (by rw [← h, ha])
      · cases h; rfl
  | jnz l =>
    cases ha : z.acc with
    | none => simp only [ha] at h; cases h
    | some v =>
      simp only [ha, Option.bind_some] at h
      split at h
      · cases h; rfl
      · exact jump (l := l) (by rw [← h, ha])
  | je w l =>
    cases ha : z.acc with
    | none => simp only [ha] at h; cases h
    | some v =>
      simp only [ha, Option.bind_some] at h
      split at h
      · exact jump (l := l) (by rw [← h, ha])
      · cases h; rfl
  | _ => cases hq

theorem mstep_code {σ : Type} {sem : List (lang W).X → σ → Option (Int × σ)} {code : List (I (lang W).X)} {z z' : Mc σ} (h : mstep sem code z = some z') :
    ∃ i, code[z.pc]? = some i := by
  cases hc : code[z.pc]? with
  | none => unfold mstep at h; rw [hc] at h; cases h
  | some i => exact ⟨i, rfl⟩

theorem mafter_count {x : List (lang W).X} {o : Option (Int × Mem W)} {code : List (I (lang W).X)} : ∀ (k : Nat) (z z' : Mc (Mem W × Nat)), mafter (semO x o) code k z = some z' →
    z.st.2 = 1 → z'.st.2 = 1 := by
  intro k
  induction k with
  | zero => intro z z' h h1; cases h; exact h1
  | succ k ih =>
    intro z z' h h1
    have h : (mstep (semO x o) code z).bind (mafter (semO x o) code k) = some z' := h
    cases hs : mstep (semO x o) code z with
    | none => rw [hs] at h; cases h
    | some y =>
      rw [hs] at h
      refine ih y z' h ?_
      obtain ⟨i, hi⟩ := mstep_code hs
      rcases quiet_or i with hq | ⟨e, he⟩
      · rw [mstep_quiet hs hi hq]; exact h1
      · obtain ⟨r, h2, h3⟩ := mstep_evals hs hi he
        rw [h3]
        exact semO_count h2 h1

theorem go_of_mafter {X σ : Type} {L : Stmt.Lang} {sem : List L.X → σ → Option (Int × σ)} {code : List (I L.X)} : ∀ (k : Nat) (z z' : Mc σ), mafter sem code k z = some z' →
    Go sem code (fun _ => True) k z z' := by
  intro k
  induction k with
  | zero => intro z z' h; cases h; exact .refl _ trivial
  | succ k ih =>
    intro z z' h
    have h : (mstep sem code z).bind (mafter sem code k) = some z' := h
    cases hs : mstep sem code z with
    | none => rw [hs] at h; cases h
    | some y => rw [hs] at h; exact .step trivial hs (ih y z' h)

theorem go_lt {σ : Type} {sem : List (lang W).X → σ → Option (Int × σ)} {code : List (I (lang W).X)} {R : σ → Prop} {n : Nat} {a b : Mc σ} (h : Go sem code R n a b) (hn : 0 < n) :
    a.pc < code.length := by
  cases h with
  | refl => cases hn
  | step _ hs _ =>
    obtain ⟨i, hi⟩ := mstep_code hs
    exact (List.getElem?_eq_some_iff.mp hi).1

/-! ### following it -/

/-- no steps, or progress -/
def Prog (G : Int → Wd W) (Q : List Ins) (n p pc : Nat) (s : St W) (p' pc' : Nat) (s' : St W) : Prop := (n = 0 ∧ p' = p ∧ pc' = pc ∧ s' = s) ∨ (0 < n ∧ Adv G Q p pc s p' pc' s')

theorem Adv.trans {G : Int → Wd W} {Q : List Ins} {p q r pc pc₁ pc₂ : Nat} {s s₁ s₂ : St W} (h : Adv G Q p pc s q pc₁ s₁) (h' : Adv G Q q pc₁ s₁ r pc₂ s₂) :
    Adv G Q p pc s r pc₂ s₂ := by
  rcases h with h | ⟨h, l⟩
  · rcases h' with h' | ⟨h', -⟩
    · exact .inl (h.run.trans1 h')
    · obtain ⟨a, b, h1, h2⟩ := h
      exact .inl ⟨a, b, h1, h2.trans h'⟩
  · rcases h' with h' | ⟨h', l'⟩
    · exact .inl (h.trans1 h')
    · exact .inr ⟨h.trans h', by omega⟩

theorem Adv.prog {G : Int → Wd W} {Q : List Ins} {n p q r pc pc₁ pc₂ : Nat} {s s₁ s₂ : St W} (h : Adv G Q p pc s q pc₁ s₁) (h' : Prog G Q n q pc₁ s₁ r pc₂ s₂) :
    Adv G Q p pc s r pc₂ s₂ := by
  rcases h' with ⟨-, rfl, rfl, rfl⟩ | ⟨-, h'⟩
  · exact h
  · exact h.trans h'

theorem Prog.adv {G : Int → Wd W} {Q : List Ins} {n p q r pc pc₁ pc₂ : Nat} {s s₁ s₂ : St W} (h : Prog G Q n p pc s q pc₁ s₁) (h' : Adv G Q q pc₁ s₁ r pc₂ s₂) :
    Adv G Q p pc s r pc₂ s₂ := by
  rcases h with ⟨-, rfl, rfl, rfl⟩ | ⟨-, h⟩
  · exact h'
  · exact h.trans h'

theorem num_end {V : Env W} {v : Int} {m m' : Mem W} {e : Cg.E} (h : Steps V (.num v) m e m') : e = .num v ∧ m' = m := by
  cases h with
  | refl => exact ⟨rfl, rfl⟩
  | step h _ => cases h

theorem num_safe {V : Env W} (v : Int) (m : Mem W) : Safe V (.num v) m := by
  intro e m' h hu
  obtain ⟨rfl, rfl⟩ := num_end h
  cases hu

section
variable {ρ : Nat → Int} {code : List (I (lang W).X)} {Q : List Ins} {base : Nat} {V : Env W} {sp : Wd W} {d : Nat} {M : Mem W}

theorem follow (hW : W = 2 ∨ W = 4) (h : Lay ρ code Q base) (hd : ∀ i ∈ code, need i ≤ d) (hk : StkOk V.A sp d) {x : List (lang W).X} {o : Option (Int × Mem W)}
    {R : Mem W × Nat → Prop} {n : Nat} {a b : Mc (Mem W × Nat)} (hg : Go (semO x o) code R n a b) {pc : Nat} {s : St W} (ha : At V ρ code base sp d M a.pc a.acc a.st.1 pc s) :
    (b.st = a.st ∧ ∃ pc' s', Prog V.G Q n a.pc pc s b.pc pc' s' ∧ At V ρ code base sp d M b.pc b.acc b.st.1 pc' s') ∨
    ∃ j z pc' s', j < n ∧ (∀ o', mafter (semO x o') code j a = some z) ∧ z.st = a.st ∧ Prog V.G Q j a.pc pc s z.pc pc' s' ∧ At V ρ code base sp d M z.pc z.acc z.st.1 pc' s' ∧
      a.st.2 = 0 ∧ constOf x = none ∧ ∃ i it, code[z.pc]? = some i ∧ evals i = some x ∧ x = rpn it := by
  induction hg generalizing pc s with
  | refl m _ => exact .inl ⟨rfl, pc, s, .inl ⟨rfl, rfl, rfl, rfl⟩, ha⟩
  | @step n m m1 m2 _ hs _ ih =>
    have next : ∀ pc₁ s₁, m1.st = m.st → (∀ o', mstep (semO x o') code m = some m1) → Adv V.G Q m.pc pc s m1.pc pc₁ s₁ → At V ρ code base sp d M m1.pc m1.acc m1.st.1 pc₁ s₁ →
        (m2.st = m.st ∧ ∃ pc' s', Prog V.G Q (n + 1) m.pc pc s m2.pc pc' s' ∧ At V ρ code base sp d M m2.pc m2.acc m2.st.1 pc' s') ∨
        ∃ j z pc' s', j < n + 1 ∧ (∀ o', mafter (semO x o') code j m = some z) ∧ z.st = m.st ∧ Prog V.G Q j m.pc pc s z.pc pc' s' ∧ At V ρ code base sp d M z.pc z.acc z.st.1 pc' s' ∧
          m.st.2 = 0 ∧ constOf x = none ∧ ∃ i it, code[z.pc]? = some i ∧ evals i = some x ∧ x = rpn it := by
      intro pc₁ s₁ e1 e2 adv at1
      rcases ih at1 with ⟨k1, pc', s', k2, k3⟩ | ⟨j, z, pc', s', k1, k2, k3, k4, k5, k6, k7⟩
      · exact .inl ⟨k1.trans e1, pc', s', .inr ⟨by omega, adv.prog k2⟩, k3⟩
      · refine .inr ⟨j + 1, z, pc', s', by omega, fun o' => ?_, k3.trans e1, .inr ⟨by omega, adv.prog k4⟩, k5, by rw [← e1]; exact k6, k7⟩
        show (mstep (semO x o') code m).bind (mafter (semO x o') code j) = some z
        rw [e2 o']
        exact k2 o'
    obtain ⟨i, hi⟩ := mstep_code hs
    rcases quiet_or i with hq | ⟨y, hy⟩
    · obtain ⟨p, acc, st⟩ := m
      obtain ⟨p', acc', st'⟩ := m1
      obtain ⟨e1, e2, pc₁, s₁, adv, at1⟩ := quiet hW h ha hi hq hs
      subst e1
      exact next pc₁ s₁ rfl (fun o' => e2 _ _ _) adv at1
    · obtain ⟨it, rfl⟩ : ∃ it : Item W, y = rpn it := by
        have := h.good i (List.mem_of_getElem? hi)
        cases i with
        | ifNot e l => cases hy; exact ⟨this.choose, this.choose_spec.1⟩
        | ifYes e l => cases hy; exact ⟨this.choose, this.choose_spec.1⟩
        | eval e => cases hy; exact this
        | evalR e => cases hy; exact this
        | _ => cases hy
      obtain ⟨r, hr, -⟩ := mstep_evals hs hi hy
      cases hc : constOf (rpn it) with
      | some v =>
        have ht := it.num v ((constOf_rpn it).symm.trans hc)
        obtain ⟨v', m', p', acc', pc₁, s₁, k1, adv, at1, k2⟩ := evaluate hW h hd hk ha hi hy (by rw [ht]; exact num_safe _ _)
        rw [ht] at k1
        obtain ⟨k3, rfl⟩ := num_end k1
        cases k3
        have e2 : ∀ o', mstep (semO x o') code m = some ⟨p', acc', m.st⟩ := fun o' => k2 _ _ m.st m.st (semO_const hc _)
        have e3 := e2 o
        rw [hs] at e3
        cases e3
        exact next pc₁ s₁ rfl e2 adv at1
      | none =>
        obtain ⟨rfl, h0⟩ := semO_inv hr hc
        exact .inr ⟨0, m, pc, s, by omega, fun _ => rfl, rfl, .inl ⟨rfl, rfl, rfl, rfl⟩, ha, h0, hc, i, it, hi, hy, rfl⟩

variable {X : Stmt.Ctx (lang W)}

theorem body_step (hW : W = 2 ∨ W = 4) (h : Lay ρ code Q base) (hd : ∀ i ∈ code, need i ≤ d) (hk : StkOk V.A sp d) (hU : Stmt.Uniq code) (hE : Stmt.Ends code X)
    (hb : ∃ q cs ds, Stmt.C code X X.body none none 0 q cs ds ∧ Stmt.MK code X .stop q none none) {c : Conf (lang W) (Mem W)} (hdone : ¬ isDone c) (hw : ¬ Wrong V X.isMain X.body c)
    {p : Nat} {acc : Option Int} (hm : Match code X c ⟨p, acc, c.st⟩) {pc : Nat} {s : St W} (ha : At V ρ code base sp d M p acc c.st pc s) :
    ∃ c' p' acc' pc' s', Step V X.isMain X.body c c' ∧ Match code X c' ⟨p', acc', c'.st⟩ ∧ At V ρ code base sp d M p' acc' c'.st pc' s' ∧
      ((p < code.length ∧ Adv V.G Q p pc s p' pc' s') ∨ (p' = p ∧ pc' = pc ∧ s' = s ∧ Stmt.csize c' < Stmt.csize c)) := by
  generalize hu : put c () = u
  generalize hmm : c.st = m at *
  have hcu : c = put u m := by rw [← hu, put_put, ← hmm, put_self]
  have hdone' : ∀ r st, put u (m, 0) ≠ .done r st := by
    intro r st he
    apply hdone
    rw [hcu]
    cases u with
    | done => trivial
    | _ => cases he
  have hm0 : Match code X (put u ((m, 0) : Mem W × Nat)) ⟨p, acc, (m, 0)⟩ := by rw [← hu, put_put]; exact match_put hm _
  have hsim := fun x o => Stmt.sim (sem := semO x o) hU (semO_constOk x o) hE (semO_zero x o) hm0 hdone' hb
  -- without evaluation, or with that of a constant
  have easy : ∀ (c₁ : Conf (lang W) Unit), (∀ o, step (semO [] o) X.isMain X.body (put u (m, 0)) = some (put c₁ (m, 0))) → Step V X.isMain X.body c (put c₁ m) →
      ∃ c' p' acc' pc' s', Step V X.isMain X.body c c' ∧ Match code X c' ⟨p', acc', c'.st⟩ ∧ At V ρ code base sp d M p' acc' c'.st pc' s' ∧
      ((p < code.length ∧ Adv V.G Q p pc s p' pc' s') ∨ (p' = p ∧ pc' = pc ∧ s' = s ∧ Stmt.csize c' < Stmt.csize c)) := by
    intro c₁ h1 h2
    have g := hsim [] none
    rw [h1 none] at g
    obtain ⟨n, z, g1, g2, g3⟩ := g
    have hz := Stmt.match_st g2
    rw [put_st] at hz
    rcases follow hW h hd hk g1 (pc := pc) (s := s) ha with ⟨k1, pc', s', k2, k3⟩ | ⟨j, z', pc', s', k1, k2, k3, k4, k5, k6, k7, i, it, k8, k9, k10⟩
    · obtain ⟨zp, za, zs⟩ := z
      cases hz
      refine ⟨put c₁ m, zp, za, pc', s', h2, ?_, by rw [put_st]; exact k3, ?_⟩
      · have := match_put g2 m
        rw [put_put] at this
        rw [put_st]
        exact this
      · rcases k2 with ⟨e1, e2, e3, e4⟩ | ⟨e0, k2⟩
        · refine .inr ⟨e2, e3, e4, ?_⟩
          have := g3.resolve_left (by omega)
          rw [put_size, put_size] at this
          rw [hcu, put_size, put_size]
          exact this
        · exact .inl ⟨go_lt g1 e0, k2⟩
    · obtain ⟨t, ht⟩ := rpn_head it
      rw [← k10] at ht
      cases ht
  cases Fn.kind X.isMain X.body u with
  | none hn => exact absurd ⟨hdone, by rw [hcu]; exact hn _ _ _⟩ hw
  | quiet c₁ hq => exact easy c₁ (fun o => hq _ _ _) ⟨fun _ _ => none, fun _ _ _ _ h => (nomatch h), by rw [hcu]; exact hq _ _ _⟩
  | eval x k he =>
    have hp : ∃ it : Item W, x = rpn it ∧ Safe V it.den m := by
      apply Classical.byContradiction
      intro hno
      apply hw
      refine ⟨hdone, ?_⟩
      rw [hcu, he]
      unfold probe
      rw [if_neg hno]
      rfl
    obtain ⟨it, rfl, hsafe⟩ := hp
    obtain ⟨hst, href⟩ := it.ref V m hsafe
    -- the step of the body for an outcome
    have outcome : ∀ (v : Int) (m' : Mem W), Steps V it.tree m (.num v) m' → Step V X.isMain X.body c (put (k (wd W v).toInt) m') := by
      intro v m' hv
      obtain ⟨w, hw1, hw2⟩ := href v m' hv
      classical
      refine ⟨fun y n => if y = rpn it ∧ n = m then some ((wd W v).toInt, m') else none, ?_, ?_⟩
      · intro y n v' n' hy
        dsimp only at hy
        split at hy
        · rename_i hyn
          cases hy
          exact ⟨it, w, hyn.1, by rw [hyn.2]; exact hsafe, by rw [hyn.2]; exact hw2, by rw [hw1]⟩
        · cases hy
      · rw [hcu, he]
        simp
    cases hc : constOf (rpn it) with
    | some v =>
      have ht := it.num v ((constOf_rpn it).symm.trans hc)
      refine easy (k (wd W v).toInt) (fun o => ?_) (outcome v m (by rw [ht]; exact .refl _ _))
      rw [he, semO_const hc]
      rfl
    | none =>
      have g := hsim (rpn it) (some (0, m))
      rw [he, semO_var hc] at g
      obtain ⟨n, z, g1, g2, -⟩ := g
      have hz := Stmt.match_st g2
      rw [put_st] at hz
      rcases follow hW h hd hk g1 (pc := pc) (s := s) ha with ⟨k1, -⟩ | ⟨j, y, pc₁, s₁, k1, k2, k3, k4, k5, k6, k7, i, it', k8, k9, k10⟩
      · rw [hz] at k1
        exact absurd (congrArg Prod.snd k1) (by simp)
      · cases rpn_inj k10
        have k3 : y.st = (m, 0) := k3
        obtain ⟨v, m', p', acc', pc₂, s₂, e1, e2, e3, e4⟩ := evaluate hW h hd hk k5 k8 k9 (by rw [k3]; exact hst)
        rw [k3] at e1
        have g := hsim (rpn it) (some ((wd W v).toInt, m'))
        rw [he, semO_var hc] at g
        obtain ⟨n', z', g1', g2', -⟩ := g
        have hz' := Stmt.match_st g2'
        rw [put_st] at hz'
        have hz'' : z'.st = (m', 1) := hz'
        have hj := k2 (some ((wd W v).toInt, m'))
        have hn' := g1'.after
        have hlt : j < n' := by
          apply Classical.byContradiction
          intro hge
          obtain ⟨r, rfl⟩ : ∃ r, j = n' + r := ⟨j - n', by omega⟩
          rw [Stmt.mafter_add, hn'] at hj
          have := mafter_count r z' y hj (by rw [hz''])
          rw [k3] at this
          cases this
        obtain ⟨r, rfl⟩ : ∃ r, n' = j + (1 + r) := ⟨n' - j - 1, by omega⟩
        have hy : mstep (semO (rpn it) (some ((wd W v).toInt, m'))) code y = some ⟨p', acc', (m', 1)⟩ := by
          have := e4 _ (semO (rpn it) (some ((wd W v).toInt, m'))) y.st (m', 1) (by rw [k3]; exact semO_var hc m)
          obtain ⟨yp, ya, ys⟩ := y
          exact this
        rw [Stmt.mafter_add, hj, Option.bind_some, Stmt.mafter_add] at hn'
        have h1 : mafter (semO (rpn it) (some ((wd W v).toInt, m'))) code 1 y = some ⟨p', acc', (m', 1)⟩ := by
          show (mstep _ code y).bind _ = _
          rw [hy]
          rfl
        rw [h1, Option.bind_some] at hn'
        have hgo := go_of_mafter (X := Unit) (L := lang W) _ _ _ hn'
        rcases follow hW h hd hk hgo (pc := pc₂) (s := s₂) e3 with ⟨l1, pc₃, s₃, l2, l3⟩ | ⟨_, _, _, _, _, _, _, _, _, l6, _⟩
        · obtain ⟨zp, za, zs⟩ := z'
          cases hz''
          refine ⟨put (k (wd W v).toInt) m', zp, za, pc₃, s₃, outcome v m' e1, ?_, by rw [put_st]; exact l3, .inl ⟨go_lt g1' (by omega), (k4.adv e2).prog l2⟩⟩
          have := match_put g2' m'
          rw [put_put] at this
          rw [put_st]
          exact this
        · cases l6

end

end Smlr.Fn
