import Verif.Mfn.Model
import Verif.Fn.Exec
set_option autoImplicit false
/-! The pieces of the program, and what each of them does. -/
namespace Smlr.Mfn
open Smlr.Fn (Item lang rpn Goods evals isQuiet find_some find_mem rpn_snd rpn_head rpn_inj wd_zero_iff toInt_zero_iff)
open Smlr.Cg (Wd Mem Env Safe Steps wd Agree Frame StkOk)
open Smlr.Mips (St Ins Run Run1 labs V0 TB words saved)
open Smlr.Stmt (I mstep find Mc)

/-! ### where the pieces are -/

theorem print_app (ρ : Nat → Int) : ∀ (a b : List (I (lang 4).X)), print ρ (a ++ b) = (print ρ a).bind fun x => (print ρ b).map (x ++ ·) := by
  intro a b
  induction a with
  | nil => simp [print]
  | cons i a ih =>
    simp only [List.cons_append, print, ih]
    cases one ρ i with
    | none => rfl
    | some c => cases print ρ a <;> cases print ρ b <;> simp

/-- the place of the code of an instruction -/
def off (ρ : Nat → Int) (code : List (I (lang 4).X)) (base p : Nat) : Nat := base + ((print ρ (code.take p)).getD []).length

/-- the program with the code of the function in it -/
structure Lay (ρ : Nat → Int) (code : List (I (lang 4).X)) (Q : List Ins) (base : Nat) : Prop where
  pr : ∃ pre P post, print ρ code = some P ∧ Q = pre ++ P ++ post ∧ base = pre.length
  nd : (labs Q).Nodup
  good : Goods code
  tg : ∀ l : Nat, (I.jmp l ∈ code ∨ I.jz l ∈ code ∨ I.jnz l ∈ code ∨ (∃ e, I.ifNot e l ∈ code) ∨ (∃ e, I.ifYes e l ∈ code) ∨ ∃ v, I.je v l ∈ code) → I.lab l ∈ code

section
variable {ρ : Nat → Int} {code : List (I (lang 4).X)} {Q : List Ins} {base : Nat}

theorem Lay.block (h : Lay ρ code Q base) {p : Nat} {i : I (lang 4).X} (hp : code[p]? = some i) :
    ∃ A c B, one ρ i = some c ∧ Q = A ++ c ++ B ∧ A.length = off ρ code base p ∧ off ρ code base (p + 1) = A.length + c.length := by
  obtain ⟨pre, P, post, h1, h2, h3⟩ := h.pr
  have hl : p < code.length := by
    rcases Nat.lt_or_ge p code.length with h | h
    · exact h
    · rw [List.getElem?_eq_none h] at hp; cases hp
  have hg : code[p] = i := by rw [List.getElem?_eq_getElem hl] at hp; exact Option.some.inj hp
  have e1 : code = code.take p ++ (i :: code.drop (p + 1)) := by
    rw [← hg, List.getElem_cons_drop, List.take_append_drop]
  have e2 : code.take (p + 1) = code.take p ++ [i] := by rw [List.take_succ, hp]; rfl
  have h1' := h1
  rw [e1, print_app] at h1'
  cases ha : print ρ (code.take p) with
  | none => rw [ha] at h1'; cases h1'
  | some A =>
    rw [ha] at h1'
    simp only [Option.bind_some, print] at h1'
    cases hc : one ρ i with
    | none => rw [hc] at h1'; cases h1'
    | some c =>
      rw [hc] at h1'
      cases hb : print ρ (code.drop (p + 1)) with
      | none => rw [hb] at h1'; cases h1'
      | some B =>
        rw [hb] at h1'
        simp only [Option.bind_some, Option.map_some, Option.some.injEq] at h1'
        refine ⟨pre ++ A, c, B ++ post, rfl, ?_, ?_, ?_⟩
        · rw [h2, ← h1']; simp
        · rw [off, ha, h3]; simp
        · rw [off, e2, print_app, ha]
          simp only [Option.bind_some, print, hc, Option.map_some, Option.getD_some, List.length_append, h3, List.length_nil]
          omega

theorem Lay.lab (h : Lay ρ code Q base) {q l : Nat} (hq : find code l = some q) :
    ∃ A B, Q = A ++ .lab (ρ l) :: B ∧ A.length + 1 = off ρ code base (q + 1) := by
  obtain ⟨A, c, B, h1, h2, h3, h4⟩ := h.block (find_some hq)
  cases h1
  exact ⟨A, B, by rw [h2]; simp, by rw [h4]; simp⟩

/-! ### the state -/

/-- the machine is where the instruction `p` is (or behind it, if it is a label), its memory is that of C, `$2` has the value `acc`, and the registers that code for expressions does not change are as they were -/
structure At (V : Env 4) (ρ : Nat → Int) (code : List (I (lang 4).X)) (base : Nat) (r₀ : Nat → Wd 4) (d : Nat) (M : Mem 4) (p : Nat) (acc₀ : Option Int) (m : Mem 4) (pc₀ : Nat) (s : St) : Prop where
  pc : pc₀ = off ρ code base p ∨ ∃ l, code[p]? = some (.lab l) ∧ pc₀ = off ρ code base (p + 1)
  bp : r₀ 30 = V.bp
  sv : ∀ i, saved i → s.r i = r₀ i
  mem : Agree V.A s.mem m
  frame : Frame V.A (r₀ 29) d M s.mem
  acc : ∀ v, acc₀ = some v → s.r 2 = wd 4 v ∧ (wd 4 v).toInt = v

/-- the machine goes on, or at least in the code -/
def Adv (G : Int → Wd 4) (Q : List Ins) (p : Nat) (pc : Nat) (s : St) (p' : Nat) (pc' : Nat) (s' : St) : Prop := Run1 G Q pc s pc' s' ∨ (Run G Q pc s pc' s' ∧ p < p')

variable {V : Env 4} {r₀ : Nat → Wd 4} {d : Nat} {M : Mem 4}

theorem At.exact {p : Nat} {acc : Option Int} {m : Mem 4} {pc : Nat} {s : St} (h : At V ρ code base r₀ d M p acc m pc s) {i : I (lang 4).X} (hp : code[p]? = some i)
    (hi : ∀ l, i ≠ .lab l) : pc = off ρ code base p := by
  rcases h.pc with h | ⟨l, h, -⟩
  · exact h
  · rw [hp] at h; exact absurd (Option.some.inj h) (hi l)

theorem At.sp {p : Nat} {acc : Option Int} {m : Mem 4} {pc : Nat} {s : St} (h : At V ρ code base r₀ d M p acc m pc s) : s.sp = r₀ 29 := h.sv 29 (by unfold saved; omega)
theorem At.fp {p : Nat} {acc : Option Int} {m : Mem 4} {pc : Nat} {s : St} (h : At V ρ code base r₀ d M p acc m pc s) : s.fp = V.bp := (h.sv 30 (by unfold saved; omega)).trans h.bp

/-- a jump to a label -/
theorem At.goes {p q l : Nat} {acc : Option Int} {m : Mem 4} {pc : Nat} {s s' : St} (h : At V ρ code base r₀ d M p acc m pc s) (hq : find code l = some q)
    (hs : s'.mem = s.mem) (hr : ∀ i, i ≠ TB → s'.r i = s.r i) : At V ρ code base r₀ d M q acc m (off ρ code base (q + 1)) s' :=
  ⟨.inr ⟨l, find_some hq, rfl⟩, h.bp, fun i hi => (hr i hi.2.2.2.2).trans (h.sv i hi), by rw [hs]; exact h.mem, by rw [hs]; exact h.frame, fun v hv => by rw [hr 2 (by decide)]; exact h.acc v hv⟩

theorem At.next {p : Nat} {acc : Option Int} {m : Mem 4} {pc : Nat} {s s' : St} (h : At V ρ code base r₀ d M p acc m pc s)
    (hs : s'.mem = s.mem) (hr : ∀ i, i ≠ TB → s'.r i = s.r i) : At V ρ code base r₀ d M (p + 1) acc m (off ρ code base (p + 1)) s' :=
  ⟨.inl rfl, h.bp, fun i hi => (hr i hi.2.2.2.2).trans (h.sv i hi), by rw [hs]; exact h.mem, by rw [hs]; exact h.frame, fun v hv => by rw [hr 2 (by decide)]; exact h.acc v hv⟩

theorem run1_jump {G : Int → Wd 4} {A B : List Ins} {i : Ins} {t : Int} {s s' : St} {x : List Ins} {b : Bool} (hQ : Q = A ++ (x ++ [i]) ++ B) (hx : Mips.execs G x s = some s')
    (hj : Mips.jump s' i = some (t, b)) :
    (b = false → Run1 G Q A.length s (A.length + (x ++ [i]).length) s') ∧
    (b = true → ∀ A' B', Q = A' ++ .lab t :: B' → (labs Q).Nodup → Run1 G Q A.length s (A'.length + 1) s') := by
  have h8 := Mips.run_execs hx A ([i] ++ B)
  rw [show A ++ x ++ ([i] ++ B) = Q by rw [hQ]; simp] at h8
  have hi : Q = (A ++ x) ++ i :: B := by rw [hQ]; simp
  rw [← List.length_append] at h8
  constructor
  · rintro rfl
    have := h8.trans1 (Mips.run_no_jump1 (G := G) hi hj)
    rw [show A.length + (x ++ [i]).length = (A ++ x).length + 1 by simp only [List.length_append, List.length_cons, List.length_nil]; omega]
    exact this
  · rintro rfl A' B' h' hn
    exact h8.trans1 (Mips.run_jump1 (G := G) hi hj h' hn)

/-- a jump on the accumulator -/
theorem quiet_jcc (h : Lay ρ code Q base) {p l : Nat} {acc : Option Int} {m : Mem 4} {pc : Nat} {s s' : St} (ha : At V ρ code base r₀ d M p acc m pc s) {i : I (lang 4).X}
    (hp : code[p]? = some i) (hi : ∀ l, i ≠ .lab l) {x : List Ins} {c : Ins} (ho : one ρ i = some (x ++ [c]))
    (hx : Mips.execs V.G x s = some s') (hs : s'.mem = s.mem) (hr : ∀ i, i ≠ TB → s'.r i = s.r i) (b : Bool) (hb : Mips.jump s' c = some (ρ l, b)) {p' : Nat}
    (hg : (if b then find code l else some (p + 1)) = some p') :
    ∃ pc', Run1 V.G Q pc s pc' s' ∧ At V ρ code base r₀ d M p' acc m pc' s' := by
  obtain ⟨A, c', B, h1, h2, h3, h4⟩ := h.block hp
  rw [ho] at h1
  cases h1
  have e := ha.exact hp hi
  obtain ⟨k1, k2⟩ := run1_jump h2 hx hb
  rw [e, ← h3]
  cases b with
  | false =>
    cases hg
    refine ⟨_, k1 rfl, ?_⟩
    rw [← h4]
    exact ha.next hs hr
  | true =>
    obtain ⟨A', B', h5, h6⟩ := h.lab hg
    refine ⟨_, k2 rfl A' B' h5 h.nd, ?_⟩
    rw [h6]
    exact ha.goes hg hs hr

theorem quiet (h : Lay ρ code Q base) {p p' : Nat} {acc acc' : Option Int} {m : Mem 4} {pc : Nat} {s : St} (ha : At V ρ code base r₀ d M p acc m pc s)
    {i : I (lang 4).X} (hp : code[p]? = some i) (hi : isQuiet i = true) {τ : Type} {sem : List (lang 4).X → τ → Option (Int × τ)} {st st' : τ}
    (hs : mstep sem code ⟨p, acc, st⟩ = some ⟨p', acc', st'⟩) :
    st' = st ∧ (∀ (υ : Type) (sem' : List (lang 4).X → υ → Option (Int × υ)) (st : υ), mstep sem' code ⟨p, acc, st⟩ = some ⟨p', acc', st⟩) ∧
      ∃ pc' s', Adv V.G Q p pc s p' pc' s' ∧ At V ρ code base r₀ d M p' acc' m pc' s' := by
  unfold mstep at hs ⊢
  simp only [hp] at hs ⊢
  cases i with
  | lab l =>
    simp only [Option.some.injEq, Mc.mk.injEq] at hs
    obtain ⟨rfl, rfl, rfl⟩ := hs
    refine ⟨rfl, fun _ _ _ => rfl, ?_⟩
    rcases ha.pc with e | ⟨l', h1, e⟩
    · obtain ⟨A, c', B, h1, h2, h3, h4⟩ := h.block hp
      cases h1
      refine ⟨off ρ code base (p + 1), s, .inr ⟨?_, by omega⟩, ha.next rfl fun _ _ => rfl⟩
      rw [e, ← h3, h4]
      rw [h2]
      exact Mips.run_execs (G := V.G) (c := [.lab (ρ l)]) (s := s) (s' := s) (by simp [Mips.execs, Mips.exec]) A B
    · exact ⟨pc, s, .inr ⟨.refl _ _, by omega⟩, by rw [e]; exact ha.next rfl fun _ _ => rfl⟩
  | jmp l =>
    cases hf : find code l with
    | none => simp only [hf] at hs; cases hs
    | some q =>
      simp only [hf, Option.map_some, Option.some.injEq, Mc.mk.injEq] at hs
      obtain ⟨rfl, rfl, rfl⟩ := hs
      refine ⟨rfl, fun _ _ _ => by simp [hf], ?_⟩
      obtain ⟨pc', k1, k2⟩ := quiet_jcc (p' := q) h ha hp (by simp) (x := []) rfl rfl rfl (fun _ _ => rfl) true rfl hf
      exact ⟨pc', s, .inl k1, k2⟩
  | jz l =>
    cases acc with
    | none => cases hs
    | some v =>
      obtain ⟨e1, e2⟩ := ha.acc v rfl
      have key := fun p' => quiet_jcc (p' := p') h ha hp (by simp) (x := []) (l := l) rfl rfl rfl (fun _ _ => rfl) (decide (v = 0))
        (by show some (ρ l, decide (s.r 2 = 0)) = _; rw [e1]; congr 2; exact decide_eq_decide.mpr (wd_zero_iff e2))
      simp only [Option.bind_some] at hs ⊢
      by_cases hv : v = 0
      · rw [if_pos hv] at hs
        cases hf : find code l with
        | none => rw [hf] at hs; cases hs
        | some q =>
          rw [hf] at hs
          simp only [Option.map_some, Option.some.injEq, Mc.mk.injEq] at hs
          obtain ⟨rfl, rfl, rfl⟩ := hs
          obtain ⟨pc', k1, k2⟩ := key q (by simp [hv, hf])
          exact ⟨rfl, fun _ _ _ => by simp [hv], pc', _, .inl k1, k2⟩
      · rw [if_neg hv] at hs
        simp only [Option.some.injEq, Mc.mk.injEq] at hs
        obtain ⟨rfl, rfl, rfl⟩ := hs
        obtain ⟨pc', k1, k2⟩ := key (p + 1) (by simp [hv])
        exact ⟨rfl, fun _ _ _ => by simp [hv], pc', _, .inl k1, k2⟩
  | jnz l =>
    cases acc with
    | none => cases hs
    | some v =>
      obtain ⟨e1, e2⟩ := ha.acc v rfl
      have key := fun p' => quiet_jcc (p' := p') h ha hp (by simp) (x := []) (l := l) rfl rfl rfl (fun _ _ => rfl) (!decide (v = 0))
        (by show some (ρ l, decide (s.r 2 ≠ 0)) = _; rw [e1, ← decide_not]; congr 2; exact decide_eq_decide.mpr (not_congr (wd_zero_iff e2)))
      simp only [Option.bind_some] at hs ⊢
      by_cases hv : v = 0
      · rw [if_pos hv] at hs
        simp only [Option.some.injEq, Mc.mk.injEq] at hs
        obtain ⟨rfl, rfl, rfl⟩ := hs
        obtain ⟨pc', k1, k2⟩ := key (p + 1) (by simp [hv])
        exact ⟨rfl, fun _ _ _ => by simp [hv], pc', _, .inl k1, k2⟩
      · rw [if_neg hv] at hs
        cases hf : find code l with
        | none => rw [hf] at hs; cases hs
        | some q =>
          rw [hf] at hs
          simp only [Option.map_some, Option.some.injEq, Mc.mk.injEq] at hs
          obtain ⟨rfl, rfl, rfl⟩ := hs
          obtain ⟨pc', k1, k2⟩ := key q (by simp [hv, hf])
          exact ⟨rfl, fun _ _ _ => by simp [hv], pc', _, .inl k1, k2⟩
  | je w l =>
    cases acc with
    | none => cases hs
    | some v =>
      obtain ⟨e1, e2⟩ := ha.acc v rfl
      have hg : (wd 4 w).toInt = w := h.good _ (List.mem_of_getElem? hp)
      have key := fun p' => quiet_jcc (p' := p') h ha hp (by simp) (x := [.li TB w]) (l := l) (c := .beq V0 TB (ρ l)) (s' := s.set TB (wd 4 w)) rfl rfl rfl
        (fun i hi => Mips.set_r_ne s _ hi) (decide (v = w))
        (by
          show some (ρ l, decide (s.r 2 = wd 4 w)) = _
          rw [e1]
          congr 2
          refine decide_eq_decide.mpr ⟨fun h => ?_, fun h => by rw [h]⟩
          rw [← e2, ← hg, h])
      simp only [Option.bind_some] at hs ⊢
      by_cases hv : v = w
      · rw [if_pos hv] at hs
        cases hf : find code l with
        | none => rw [hf] at hs; cases hs
        | some q =>
          rw [hf] at hs
          simp only [Option.map_some, Option.some.injEq, Mc.mk.injEq] at hs
          obtain ⟨rfl, rfl, rfl⟩ := hs
          obtain ⟨pc', k1, k2⟩ := key q (by simp [hv, hf])
          exact ⟨rfl, fun _ _ _ => by simp [hv], pc', _, .inl k1, k2⟩
      · rw [if_neg hv] at hs
        simp only [Option.some.injEq, Mc.mk.injEq] at hs
        obtain ⟨rfl, rfl, rfl⟩ := hs
        obtain ⟨pc', k1, k2⟩ := key (p + 1) (by simp [hv])
        exact ⟨rfl, fun _ _ _ => by simp [hv], pc', _, .inl k1, k2⟩
  | _ => cases hi

/-! ### evaluation -/

/-- the code evaluates an expression; with `r`, its value is in `$2` in the end -/
def Ev (V : Env 4) (c : List Ins) (d : Nat) (e : Cg.E) (r : Bool) : Prop :=
  ∀ P pre post, P = pre ++ c ++ post → (labs P).Nodup → ∀ s m, s.fp = V.bp → Agree V.A s.mem m → StkOk V.A s.sp d → Safe V e m →
    ∃ s' v m', Run V.G P pre.length s (pre.length + c.length) s' ∧ Steps V e m (.num v) m' ∧ (r = true → s'.r 2 = wd 4 v) ∧ Mips.Keep 0 s s' ∧
      Agree V.A s'.mem m' ∧ Frame V.A s.sp d s.mem s'.mem

theorem one_eval (i : Item 4) : ∃ c, one ρ (.eval (rpn i)) = some c ∧ ∀ V : Env 4, Ev V c (words i.tree) i.tree false := by
  obtain ⟨c, g, sm⟩ := Mips.effect i.tree i.ok i.typed
  refine ⟨c, by rw [one, rpn_snd]; exact g, fun V P pre post hP hn s m hb ha hs hsafe => ?_⟩
  rw [← Mips.dep_words] at hs ⊢
  obtain ⟨s', v, m', h1, h2, h4, h5, h6⟩ := sm V P pre post hP hn s m hb ha hs hsafe
  exact ⟨s', v, m', h1, h2, fun h => (nomatch h), h4, h5, h6⟩

theorem one_evalR (i : Item 4) : ∃ c, one ρ (.evalR (rpn i)) = some c ∧ ∀ V : Env 4, Ev V c (words i.tree) i.tree true := by
  obtain ⟨c, g, sm⟩ := Mips.full i.tree i.ok i.typed 0
  refine ⟨c, by rw [one, rpn_snd]; exact Mips.genExpr_ret _ g, fun V P pre post hP hn s m hb ha hs hsafe => ?_⟩
  rw [← Mips.dep_words] at hs ⊢
  obtain ⟨s', v, m', h1, h2, h3, h4, h5, h6⟩ := sm V P pre post hP hn s m hb ha hs hsafe
  exact ⟨s', v, m', h1, h2, fun _ => h3, h4, h5, h6⟩

theorem one_branch (i : Item 4) (hc : i.tree.isCmp = true) (nz : Bool) (lab : Int) :
    ∃ c, Mips.genExpr ((rpn i).map Prod.snd ++ [(if nz then .ifT else .ifN, lab)]) = some c ∧ ∀ V : Env 4, Mips.SimJ V c (words i.tree) i.tree nz lab := by
  obtain ⟨c, g, sm⟩ := Mips.branch_ok i.tree i.ok i.typed nz lab
  rw [Mips.branch, if_pos hc] at g
  exact ⟨c, by rw [rpn_snd]; exact g, fun V => by rw [← Mips.dep_words]; exact sm V⟩

theorem need_rpn {i : I (lang 4).X} {it : Item 4} (h : evals i = some (rpn it)) : need i = words it.tree := by
  obtain ⟨t, ht⟩ := rpn_head it
  cases i with
  | ifNot e l => cases h; simp only [need]; rw [show List.head? (rpn it) = _ from ht]
  | ifYes e l => cases h; simp only [need]; rw [show List.head? (rpn it) = _ from ht]
  | eval e => cases h; simp only [need]; rw [show List.head? (rpn it) = _ from ht]
  | evalR e => cases h; simp only [need]; rw [show List.head? (rpn it) = _ from ht]
  | _ => cases h

theorem evaluate (h : Lay ρ code Q base) (hd : ∀ i ∈ code, need i ≤ d) (hk : StkOk V.A (r₀ 29) d) {p : Nat} {acc : Option Int} {m : Mem 4} {pc : Nat} {s : St}
    (ha : At V ρ code base r₀ d M p acc m pc s) {i : I (lang 4).X} (hp : code[p]? = some i) {it : Item 4} (he : evals i = some (rpn it)) (hs : Safe V it.tree m) :
    ∃ v m' p' acc' pc' s', Steps V it.tree m (.num v) m' ∧ Adv V.G Q p pc s p' pc' s' ∧ At V ρ code base r₀ d M p' acc' m' pc' s' ∧
      ∀ (τ : Type) (sem : List (lang 4).X → τ → Option (Int × τ)) (st st' : τ), sem (rpn it) st = some ((wd 4 v).toInt, st') →
        mstep sem code ⟨p, acc, st⟩ = some ⟨p', acc', st'⟩ := by
  have hm := List.mem_of_getElem? hp
  have hdep : words it.tree ≤ d := by rw [← need_rpn he]; exact hd i hm
  have hk' : StkOk V.A s.sp (words it.tree) := by rw [ha.sp]; exact hk.mono hdep
  obtain ⟨A, c, B, h1, h2, h3, h4⟩ := h.block hp
  have e : pc = off ρ code base p := ha.exact hp (by rintro l rfl; cases he)
  rw [← h3] at e
  subst e
  have straight : ∀ r, (∀ V : Env 4, Ev V c (words it.tree) it.tree r) →
      ∃ v m' s', Steps V it.tree m (.num v) m' ∧ Adv V.G Q p A.length s (p + 1) (off ρ code base (p + 1)) s' ∧
        At V ρ code base r₀ d M (p + 1) (if r then some (wd 4 v).toInt else none) m' (off ρ code base (p + 1)) s' := by
    intro r sm
    obtain ⟨s', v, m', k1, k2, k3, k5, k6, k7⟩ := sm V Q A B h2 h.nd s m ha.fp ha.mem hk' hs
    rw [← h4] at k1
    refine ⟨v, m', s', k2, .inr ⟨k1, by omega⟩, .inl rfl, ha.bp, fun i hi => (k5.sv i hi).trans (ha.sv i hi), k6, ?_, fun u hu => ?_⟩
    · rw [ha.sp] at k7
      exact ha.frame.trans (k7.mono hdep)
    · cases r with
      | false => cases hu
      | true =>
        cases hu
        rw [Cg.wd_toInt]
        exact ⟨k3 rfl, rfl⟩
  have branch : ∀ (nz : Bool) (l : Nat), (∀ V : Env 4, Mips.SimJ V c (words it.tree) it.tree nz (ρ l)) → ∀ q, find code l = some q →
      ∃ v m' pc' s', Steps V it.tree m (.num v) m' ∧ Run1 V.G Q A.length s pc' s' ∧
        At V ρ code base r₀ d M (if decide ((wd 4 v).toInt ≠ 0) = nz then q else p + 1) none m' pc' s' := by
    intro nz l sm q hq
    obtain ⟨A', B', h5, h6⟩ := h.lab hq
    obtain ⟨s', v, m', k1, k2, k5, k6, k7⟩ := sm V Q A B A' B' h2 h5 h.nd s m ha.fp ha.mem hk' hs
    refine ⟨v, m', _, s', k2, k1, ?_, ha.bp, fun i hi => (k5.sv i hi).trans (ha.sv i hi), k6, ?_, fun u hu => by cases hu⟩
    · unfold Cg.dest
      have e : decide ((wd 4 v).toInt ≠ 0) = decide (wd 4 v ≠ 0) := decide_eq_decide.mpr (not_congr (toInt_zero_iff _))
      rw [e]
      by_cases hc : decide (wd 4 v ≠ 0) = nz
      · rw [if_pos hc, if_pos hc]
        exact .inr ⟨l, find_some hq, h6⟩
      · rw [if_neg hc, if_neg hc]
        exact .inl h4.symm
    · rw [ha.sp] at k7
      exact ha.frame.trans (k7.mono hdep)
  cases i with
  | eval x =>
    cases he
    obtain ⟨c', g1, sm⟩ := one_eval (ρ := ρ) it
    have : some c' = some c := g1.symm.trans h1
    cases this
    obtain ⟨v, m', s', k1, k2, k3⟩ := straight false sm
    refine ⟨v, m', _, _, _, s', k1, k2, k3, fun τ sem st st' hst => ?_⟩
    unfold mstep
    simp only [hp]
    rw [hst]
    rfl
  | evalR x =>
    cases he
    obtain ⟨c', g1, sm⟩ := one_evalR (ρ := ρ) it
    have : some c' = some c := g1.symm.trans h1
    cases this
    obtain ⟨v, m', s', k1, k2, k3⟩ := straight true sm
    refine ⟨v, m', _, _, _, s', k1, k2, k3, fun τ sem st st' hst => ?_⟩
    unfold mstep
    simp only [hp]
    rw [hst]
    rfl
  | ifNot x l =>
    cases he
    obtain ⟨j, hj, hc⟩ : ∃ j : Item 4, rpn it = rpn j ∧ j.tree.isCmp = true := h.good _ hm
    cases rpn_inj hj
    obtain ⟨c', g1, sm⟩ := one_branch it hc false (ρ l)
    have : some c' = some c := g1.symm.trans h1
    cases this
    obtain ⟨q, hq⟩ := find_mem (h.tg l (.inr (.inr (.inr (.inl ⟨_, hm⟩)))))
    obtain ⟨v, m', pc', s', k1, k2, k3⟩ := branch false l sm q hq
    refine ⟨v, m', _, _, pc', s', k1, .inl k2, k3, fun τ sem st st' hst => ?_⟩
    unfold mstep
    simp only [hp]
    rw [hst]
    simp only [Option.bind_some, hq, Option.map_some]
    by_cases hv : (wd 4 v).toInt = 0
    · rw [if_pos hv, if_pos (by rw [hv]; rfl)]
    · rw [if_neg hv, if_neg (by rw [decide_eq_true hv]; simp)]
  | ifYes x l =>
    cases he
    obtain ⟨j, hj, hc⟩ : ∃ j : Item 4, rpn it = rpn j ∧ j.tree.isCmp = true := h.good _ hm
    cases rpn_inj hj
    obtain ⟨c', g1, sm⟩ := one_branch it hc true (ρ l)
    have : some c' = some c := g1.symm.trans h1
    cases this
    obtain ⟨q, hq⟩ := find_mem (h.tg l (.inr (.inr (.inr (.inr (.inl ⟨_, hm⟩))))))
    obtain ⟨v, m', pc', s', k1, k2, k3⟩ := branch true l sm q hq
    refine ⟨v, m', _, _, pc', s', k1, .inl k2, k3, fun τ sem st st' hst => ?_⟩
    unfold mstep
    simp only [hp]
    rw [hst]
    simp only [Option.bind_some, hq, Option.map_some]
    by_cases hv : (wd 4 v).toInt = 0
    · rw [if_pos hv, if_neg (by rw [hv]; simp)]
    · rw [if_neg hv, if_pos (by rw [decide_eq_true hv])]
  | _ => cases he

/-- there is code for every instruction -/
theorem print_total (ρ : Nat → Int) : ∀ code : List (I (lang 4).X), Goods code → ∃ P, print ρ code = some P := by
  intro code
  induction code with
  | nil => exact fun _ => ⟨[], rfl⟩
  | cons i code ih =>
    intro hg
    obtain ⟨P, hP⟩ := ih (fun j hj => hg j (List.mem_cons_of_mem _ hj))
    have hi := hg i List.mem_cons_self
    have : ∃ c, one ρ i = some c := by
      cases i with
      | eval e => obtain ⟨it, rfl⟩ := hi; obtain ⟨c, h, -⟩ := one_eval (ρ := ρ) it; exact ⟨c, h⟩
      | evalR e => obtain ⟨it, rfl⟩ := hi; obtain ⟨c, h, -⟩ := one_evalR (ρ := ρ) it; exact ⟨c, h⟩
      | ifNot e l => obtain ⟨it, rfl, hc⟩ := hi; obtain ⟨c, h, -⟩ := one_branch it hc false (ρ l); exact ⟨c, h⟩
      | ifYes e l => obtain ⟨it, rfl, hc⟩ := hi; obtain ⟨c, h, -⟩ := one_branch it hc true (ρ l); exact ⟨c, h⟩
      | _ => exact ⟨_, rfl⟩
    obtain ⟨c, hc⟩ := this
    exact ⟨c ++ P, by simp [print, hc, hP]⟩

end

end Smlr.Mfn
