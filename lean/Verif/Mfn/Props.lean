import Verif.Mfn.Main
import Verif.Fn.Props
set_option autoImplicit false
/-! # C56 Compiling the body of a function for MIPS

The body of a function, its behaviour (`Fn.Reach`, `Fn.Step`, `Fn.Defined`) and the expressions in it (`Fn.Item`; `c47_exprval` and `c47_return` say that those are what `exprval` leaves) are the same as for x86. -/
namespace Smlr.Mfn
open Smlr.Fn (Item lang rpn Step Reach Defined isDone inits ilabs Goods Good)
open Smlr.Cg (Wd Mem Env Safe Steps wd StkOk Zone)
open Smlr.Mips (St Ins Run labs saved)
open Smlr.Stmt (I)
open Smlr.Stmt.Spec (Stmt Cont Conf)

/-- The body of a function whose behaviour is defined.  The code that is printed for it does what the body does, with some order of evaluation in each expression that C allows: if the body returns,
the code reaches its end (where the epilog follows), with the value in `$2`, the stack and frame pointers and the other registers that code for expressions does not change (`saved`) as they were, and the objects as the body leaves them; and if the body goes on for ever, so does the code, which passes,
for each state of the body, a state with the same objects.  Partial: not for functions that end with a loop whose body is a bare `return` (`c26_loop_return_defect`). -/
theorem c56_body_partial {isMain void : Bool} {mc mg n lab0 : Nat} {s : Stmt (lang 4)} {rest : List (Stmt.Tok (lang 4))} {code : List (I (lang 4).X)} (hw : s.wf true)
    (hn : 2 * s.toks.length + 2 ≤ n) (h : Stmt.fxn isMain void mc mg n lab0 (s.toks ++ .k .rbrace :: rest) = .ok code) (hr : isMain = true ∨ Stmt.loopRet s = false)
    (hi : ∀ x ∈ inits s, ∃ i : Item 4, x = rpn i) (ρ : Nat → Int) :
    ∃ P, print ρ code = some P ∧
      ∀ (V : Env 4) (Q pre post : List Ins) (s0 : St) (d : Nat), Q = pre ++ P ++ post → (labs Q).Nodup → s0.fp = V.bp → (∀ i ∈ code, need i ≤ d) → StkOk V.A s0.sp d →
        Defined V isMain s s0.mem →
        (∃ r m s1, Reach V isMain s (.run s .stop s0.mem) (.done r m) ∧ Run V.G Q pre.length s0 (pre.length + P.length) s1 ∧ (∀ v, r = some v → s1.r 2 = wd 4 v) ∧
          (∀ i, saved i → s1.r i = s0.r i) ∧ (∀ a, V.A a → s1.mem a = m a) ∧ ∀ a, ¬ V.A a → ¬ Zone s0.sp d a → s1.mem a = s0.mem a) ∨
        ∃ (f : Nat → Conf (lang 4) (Mem 4)) (k pc : Nat → Nat) (g : Nat → St), f 0 = .run s .stop s0.mem ∧ (∀ j, Step V isMain s (f j) (f (j + 1))) ∧ (∀ N, ∃ j, N ≤ k j) ∧
          ∀ j, RunN V.G Q (k j) pre.length s0 (pc j) (g j) ∧ (∀ i, saved i → (g j).r i = s0.r i) ∧ (∀ a, V.A a → (g j).mem a = (f j).st a) ∧
            ∀ a, ¬ V.A a → ¬ Zone s0.sp d a → (g j).mem a = s0.mem a := by
  have hgood := Fn.fxn_good hw hn h hi
  obtain ⟨P, hP⟩ := print_total ρ code hgood
  refine ⟨P, hP, ?_⟩
  intro V Q pre post s0 d hQ hnd hbp hd hk hdef
  have tg := (Stmt.c26_labels hw hn h).2
  obtain ⟨X, rfl, rfl, hU, hE, hb⟩ := Stmt.fxn_rel hw hn h hr
  have lay : Lay ρ code Q pre.length := ⟨⟨pre, P, post, hP, hQ, rfl⟩, hnd, hgood, tg⟩
  let t0 : Pt := ⟨.run X.body .stop s0.mem, 0, none, pre.length, s0, 0⟩
  have i0 : Inv V ρ code Q pre.length d X s0 t0 := by
    refine ⟨.refl _, ?_, ?_, .refl _ _⟩
    · obtain ⟨q, cs, ds, h1, h2⟩ := hb
      exact ⟨rfl, 0, q, none, none, cs, ds, .refl _, h1, h2⟩
    · refine ⟨.inl ?_, hbp, fun _ _ => rfl, fun _ _ => rfl, fun _ _ _ => rfl, fun _ h => (nomatch h)⟩
      show pre.length = pre.length + 0
      rfl
  by_cases hdone : ∃ t, Inv V ρ code Q pre.length d X s0 t ∧ isDone t.c
  · obtain ⟨⟨c, p, acc, pc, s1, k⟩, hI, hD⟩ := hdone
    cases c with
    | run => cases hD
    | test => cases hD
    | done r m =>
      refine .inl ⟨r, m, s1, hI.reach, ?_, ?_, hI.conc.sv, hI.conc.mem, hI.conc.frame⟩
      · have hm : p = code.length := hI.mt.2.1
        rcases hI.conc.pc with he | ⟨l, he, -⟩
        · have he : pc = off ρ code pre.length p := he
          rw [hm, off_end hP] at he
          rw [← he]
          exact hI.run.run
        · have he : code[p]? = some (.lab l) := he
          have := (List.getElem?_eq_some_iff.mp he).1
          omega
      · intro v hv
        exact (hI.conc.acc v (hI.mt.2.2 v hv)).1
  · right
    obtain ⟨f, f0, fI, fS, fN⟩ := forever (code := code) (I := Inv V ρ code Q pre.length d X s0) (S := fun a b => Step V X.isMain X.body a.c b.c)
      (fun t ht => next lay hd hk hU hE hb hdef ht (fun hD => hdone ⟨t, ht, hD⟩)) t0 i0
    refine ⟨fun j => (f j).c, fun j => (f j).n, fun j => (f j).pc, fun j => (f j).s, by show (f 0).c = _; rw [f0], fS, fN, fun j => ?_⟩
    have := fI j
    exact ⟨this.run, this.conc.sv, this.conc.mem, this.conc.frame⟩

theorem one_labs (ρ : Nat → Int) {i : I (lang 4).X} (hi : Good i) {c : List Ins} (hc : one ρ i = some c) : (labs c).Sublist (ilabs ρ i) := by
  cases i with
  | lab l => cases hc; exact List.Sublist.refl _
  | jmp l => cases hc; exact List.Sublist.refl _
  | jz l => cases hc; exact List.nil_sublist _
  | jnz l => cases hc; exact List.nil_sublist _
  | je v l => cases hc; exact List.nil_sublist _
  | eval e =>
    obtain ⟨it, rfl⟩ := hi
    rw [one, Fn.rpn_snd] at hc
    rw [Fn.ilabs_rpn (it := it) rfl]
    exact Mips.top_labs _ hc
  | evalR e =>
    obtain ⟨it, rfl⟩ := hi
    rw [one, Fn.rpn_snd] at hc
    rw [Fn.ilabs_rpn (it := it) rfl]
    exact Mips.ret_labs _ hc
  | ifNot e l =>
    obtain ⟨it, rfl, h⟩ := hi
    rw [one, Fn.rpn_snd] at hc
    rw [Fn.ilabs_rpn (it := it) rfl]
    exact Mips.branch_labs _ false (ρ l) (by rw [Mips.branch, if_pos h]; exact hc)
  | ifYes e l =>
    obtain ⟨it, rfl, h⟩ := hi
    rw [one, Fn.rpn_snd] at hc
    rw [Fn.ilabs_rpn (it := it) rfl]
    exact Mips.branch_labs _ true (ρ l) (by rw [Mips.branch, if_pos h]; exact hc)

theorem print_labs (ρ : Nat → Int) : ∀ (code : List (I (lang 4).X)) (P : List Ins), Goods code → print ρ code = some P → (labs P).Sublist (code.flatMap (ilabs ρ)) := by
  intro code
  induction code with
  | nil => intro P _ h; cases h; exact List.Sublist.refl _
  | cons i code ih =>
    intro P hg h
    rw [print] at h
    obtain ⟨a, h1, h2⟩ := Option.bind_eq_some_iff.mp h
    obtain ⟨b, h3, rfl⟩ := Option.map_eq_some_iff.mp h2
    rw [Mips.labs_app, List.flatMap_cons]
    exact (one_labs ρ (hg i List.mem_cons_self) h1).append (ih b (fun j hj => hg j (List.mem_cons_of_mem _ hj)) h3)

/-- The labels in the printed code are among those of the statements and those of the expressions: if these are distinct, so are the labels in the code. -/
theorem c56_labels {isMain void : Bool} {mc mg n lab0 : Nat} {s : Stmt (lang 4)} {rest : List (Stmt.Tok (lang 4))} {code : List (I (lang 4).X)} (hw : s.wf true)
    (hn : 2 * s.toks.length + 2 ≤ n) (h : Stmt.fxn isMain void mc mg n lab0 (s.toks ++ .k .rbrace :: rest) = .ok code) (hi : ∀ x ∈ inits s, ∃ i : Item 4, x = rpn i) (ρ : Nat → Int)
    {P : List Ins} (hP : print ρ code = some P) (hd : (code.flatMap (ilabs ρ)).Nodup) : (labs P).Nodup ∧ ∀ l ∈ labs P, l ∈ code.flatMap (ilabs ρ) := by
  have := print_labs ρ code P (Fn.fxn_good hw hn h hi) hP
  exact ⟨hd.sublist this, fun l hl => this.subset hl⟩

/-! ### a case: `int f(void) { while (x > 0) --x; return x; }`, the body of `Fn.exBody` -/

/-- what is printed -/
def exP : List Ins :=
  [.lab 3, .lui 9, .load .lw 2 (.lo 9), .bz .lez 2 4, .lui 9, .load .lw 2 (.lo 9), .alu .subu 2 2 (.imm 1), .lui 9, .store .sw 2 (.lo 9), .j 3, .lab 4, .lui 9, .load .lw 2 (.lo 9), .lab 1]

theorem ex_print : print (fun l => l) Fn.exCode = some exP := by decide +kernel

/-- all hypotheses of `c56_body_partial` are met: from every memory, the function runs as it should, with the stack at 7000h and nothing on it but `x` somewhere else -/
example (m0 : Mem 4) (s0 : St) (h1 : s0.mem = m0) (h2 : s0.fp = 0x8000#32) (h3 : s0.sp = 0x7000#32) :
    (∃ r m s1, Reach Fn.exV false Fn.exBody (.run Fn.exBody .stop m0) (.done r m) ∧ Run Fn.exV.G exP 0 s0 14 s1 ∧ (∀ v, r = some v → s1.r 2 = wd 4 v) ∧ s1.sp = 0x7000#32 ∧
      ∀ a, Fn.exV.A a → s1.mem a = m a) ∨
    ∃ f : Nat → Conf (lang 4) (Mem 4), f 0 = .run Fn.exBody .stop m0 ∧ ∀ j, Step Fn.exV false Fn.exBody (f j) (f (j + 1)) := by
  obtain ⟨P, hP, h⟩ := c56_body_partial Fn.ex_wf (rest := []) (by decide) Fn.ex_code (.inr rfl) (fun x hx => (nomatch hx)) (fun l => l)
  rw [ex_print] at hP
  cases hP
  subst h1
  have hk : StkOk Fn.exV.A s0.sp 2 := by
    refine ⟨?_, by decide⟩
    rintro a ⟨k, k1, k2, rfl⟩ ⟨k3, k4⟩
    rw [h3] at k3 k4
    have : (0x7000#32 - BitVec.ofNat 32 k).toNat = 0x7000 - k := by
      rw [BitVec.toNat_sub, BitVec.toNat_ofNat]
      show (2 ^ 32 - k % 2 ^ 32 + 28672) % 2 ^ 32 = _
      omega
    change (0x7000#32 - BitVec.ofNat 32 k).toNat < _ at k4
    rw [this] at k4
    omega
  rcases h Fn.exV exP [] [] s0 2 (by simp) (by decide +kernel) h2 (by decide +kernel) hk (Fn.ex_defined _) with ⟨r, m, s1, k1, k2, k3, k4, k6, -⟩ | ⟨f, -, -, -, k1, k2, -⟩
  · exact .inl ⟨r, m, s1, k1, k2, k3, (k4 29 (by unfold saved; omega)).trans h3, k6⟩
  · exact .inr ⟨f, k1, k2⟩

/-- `switch (x)` compares `$2` with the values of the cases -/
example : one (fun l => l) (.je 70000 5) = some [.li 25 70000, .beq 2 25 5] := rfl

end Smlr.Mfn
