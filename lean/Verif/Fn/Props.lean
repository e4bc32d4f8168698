import Verif.Fn.Main
import Verif.Fn.Exprs
set_option autoImplicit false
/-! # C47 Compiling the body of a function -/
namespace Smlr.Fn
open Smlr.Cg (Wd Mem Env Ins Safe Steps wd St Run labs StkOk Zone)
open Smlr.Stmt (I)
open Smlr.Stmt.Spec (Stmt Cont Conf)

variable {W : Nat}

/-- The body of a function whose behaviour is defined.  The code that is printed for it does what the body does, with some order of evaluation in each expression that C allows: if the body returns,
the code reaches its end (where `leave` and `ret` follow), with the value in the accumulator, the stack as it was, and the objects as the body leaves them; and if the body goes on for ever, so does the code, which passes,
for each state of the body, a state with the same objects.  Partial: not for functions that end with a loop whose body is a bare `return` (`c26_loop_return_defect`). -/
theorem c47_body_partial (hW : W = 2 ∨ W = 4) {isMain void : Bool} {mc mg n lab0 : Nat} {s : Stmt (lang W)} {rest : List (Stmt.Tok (lang W))} {code : List (I (lang W).X)} (hw : s.wf true)
    (hn : 2 * s.toks.length + 2 ≤ n) (h : Stmt.fxn isMain void mc mg n lab0 (s.toks ++ .k .rbrace :: rest) = .ok code) (hr : isMain = true ∨ Stmt.loopRet s = false)
    (hi : ∀ x ∈ inits s, ∃ i : Item W, x = rpn i) (ρ : Nat → Int) :
    ∃ P, print ρ code = some P ∧
      ∀ (V : Env W) (Q pre post : List Ins) (s0 : St W) (d : Nat), Q = pre ++ P ++ post → (labs Q).Nodup → s0.bp = V.bp → (∀ i ∈ code, need i ≤ d) → StkOk V.A s0.sp d →
        Defined V isMain s s0.mem →
        (∃ r m s1, Reach V isMain s (.run s .stop s0.mem) (.done r m) ∧ Run V.G Q pre.length s0 (pre.length + P.length) s1 ∧ (∀ v, r = some v → s1.ax = wd W v) ∧
          s1.sp = s0.sp ∧ s1.bp = s0.bp ∧ (∀ a, V.A a → s1.mem a = m a) ∧ ∀ a, ¬ V.A a → ¬ Zone s0.sp d a → s1.mem a = s0.mem a) ∨
        ∃ (f : Nat → Conf (lang W) (Mem W)) (k pc : Nat → Nat) (g : Nat → St W), f 0 = .run s .stop s0.mem ∧ (∀ j, Step V isMain s (f j) (f (j + 1))) ∧ (∀ N, ∃ j, N ≤ k j) ∧
          ∀ j, RunN V.G Q (k j) pre.length s0 (pc j) (g j) ∧ (g j).sp = s0.sp ∧ (g j).bp = s0.bp ∧ (∀ a, V.A a → (g j).mem a = (f j).st a) ∧
            ∀ a, ¬ V.A a → ¬ Zone s0.sp d a → (g j).mem a = s0.mem a := by
  have hgood := fxn_good hw hn h hi
  obtain ⟨P, hP⟩ := print_total hW ρ code hgood
  refine ⟨P, hP, ?_⟩
  intro V Q pre post s0 d hQ hnd hbp hd hk hdef
  have tg := (Stmt.c26_labels hw hn h).2
  obtain ⟨X, rfl, rfl, hU, hE, hb⟩ := Stmt.fxn_rel hw hn h hr
  have lay : Lay ρ code Q pre.length := ⟨⟨pre, P, post, hP, hQ, rfl⟩, hnd, hgood, tg⟩
  let t0 : Pt W := ⟨.run X.body .stop s0.mem, 0, none, pre.length, s0, 0⟩
  have i0 : Inv V ρ code Q pre.length d X s0 t0 := by
    refine ⟨.refl _, ?_, ?_, .refl _ _⟩
    · obtain ⟨q, cs, ds, h1, h2⟩ := hb
      exact ⟨rfl, 0, q, none, none, cs, ds, .refl _, h1, h2⟩
    · refine ⟨.inl ?_, hbp, rfl, fun _ _ => rfl, fun _ _ _ => rfl, fun _ h => (nomatch h)⟩
      show pre.length = pre.length + 0
      rfl
  by_cases hdone : ∃ t, Inv V ρ code Q pre.length d X s0 t ∧ isDone t.c
  · obtain ⟨⟨c, p, acc, pc, s1, k⟩, hI, hD⟩ := hdone
    cases c with
    | run => cases hD
    | test => cases hD
    | done r m =>
      refine .inl ⟨r, m, s1, hI.reach, ?_, ?_, hI.conc.sp, hI.conc.bp.trans hbp.symm, hI.conc.mem, hI.conc.frame⟩
      · have hm : p = code.length := hI.mt.2.1
        rcases hI.conc.pc with he | ⟨l, he, -⟩
        · have he : pc = off ρ code pre.length p := he
          rw [hm, off_end hP] at he
          rw [← he]
          exact hI.run.run
        · have he : code[p]? = some (.lab l) := he
          have := (List.getElem?_eq_some_iff.mp he).1
          omega
      · intro v hv
        exact (hI.conc.acc v (hI.mt.2.2 v hv)).1
  · right
    obtain ⟨f, f0, fI, fS, fN⟩ := forever (code := code) (I := Inv V ρ code Q pre.length d X s0) (S := fun a b => Step V X.isMain X.body a.c b.c)
      (fun t ht => next hW lay hd hk hU hE hb hdef ht (fun hD => hdone ⟨t, ht, hD⟩)) t0 i0
    refine ⟨fun j => (f j).c, fun j => (f j).n, fun j => (f j).pc, fun j => (f j).s, by show (f 0).c = _; rw [f0], fS, fN, fun j => ?_⟩
    have := fI j
    exact ⟨this.run, this.conc.sp, this.conc.bp.trans hbp.symm, this.conc.mem, this.conc.frame⟩

/-- The labels in the printed code are among those of the statements and those of the expressions: if these are distinct, so are the labels in the code. -/
theorem c47_labels (hW : W = 2 ∨ W = 4) {isMain void : Bool} {mc mg n lab0 : Nat} {s : Stmt (lang W)} {rest : List (Stmt.Tok (lang W))} {code : List (I (lang W).X)} (hw : s.wf true)
    (hn : 2 * s.toks.length + 2 ≤ n) (h : Stmt.fxn isMain void mc mg n lab0 (s.toks ++ .k .rbrace :: rest) = .ok code) (hi : ∀ x ∈ inits s, ∃ i : Item W, x = rpn i) (ρ : Nat → Int)
    {P : List Ins} (hP : print ρ code = some P) (hd : (code.flatMap (ilabs ρ)).Nodup) : (labs P).Nodup ∧ ∀ l ∈ labs P, l ∈ code.flatMap (ilabs ρ) := by
  have := print_labs hW ρ code P (fxn_good hw hn h hi) hP
  exact ⟨hd.sublist this, fun l hl => this.subset hl⟩

open Smlr.Trans (den tk acc convert obj array rty) in
/-- For every expression that has a meaning, `exprval` leaves the tokens of an item with that meaning. -/
theorem c47_exprval {c : Expr.Cfg} (hW : c.W = 2 ∨ c.W = 4) (e : Expr.E) (d : Trans.D) (hd : den c e = some d) (n : Nat) (hn : e.depth ≤ n) (lab : Nat) (ws : List Expr.Warn) (h0 : 0 < lab)
    (hl : lab + Trans.labels e < 2 ^ 31) :
    Expr.exprval c n (e.post.length - 1) ⟨e.post, lab, ws⟩ = .error .long ∨
    ∃ (r : Expr.Res) (S : List (Expr.Tok × Expr.V)) (ws' : List Expr.Warn) (i : Item c.W),
      Expr.exprval c n (e.post.length - 1) ⟨e.post, lab, ws⟩ = .ok (r, ⟨S, lab + Trans.labels e, ws'⟩) ∧ r.ty = d.ty ∧
      i.den = d.x ∧ (rpn i).map Prod.snd = S.map tk ∧ i.const = (if r.const then some r.s.toInt else none) ∧ i.tree.labels.Nodup ∧ ∀ l ∈ i.tree.labels, lab ≤ l ∧ l < lab + Trans.labels e := by
  rcases exprval_tree hW e d hd n hn lab ws h0 hl with h | ⟨r, T, ws', x, h1, h2, h3, h4, h5, h6, h7⟩
  · exact .inl h
  · refine .inr ⟨r, T.post, ws', item (c := c) d.x x r.const r.s.toInt h5 (cg_typed _ _ h3).2 h6 (fun hc => ?_), h1, h2, rfl, ?_, rfl, h7⟩
    · rw [h4 hc] at h3
      cases h3
      rfl
    · rw [rpn_snd]
      exact (Trans.cg_toks _ _ h3).symm

open Smlr.Trans (den tk acc convert obj array rty) in
/-- The operand of `return` is converted to the type that the function returns; where the sizes and the signs are the same, there is nothing to convert. -/
theorem c47_return {c : Expr.Cfg} (hW : c.W = 2 ∨ c.W = 4) (e : Expr.E) (d : Trans.D) (hd : den c e = some d) (n : Nat) (hn : e.depth ≤ n) (lab : Nat) (ws : List Expr.Warn) (h0 : 0 < lab)
    (hl : lab + Trans.labels e < 2 ^ 31) (t : Expr.Ty) (ht : obj c.W t = true) (ha : array t = false) (ho : obj c.W (rty d.ty) = true) :
    Expr.exprval c n (e.post.length - 1) ⟨e.post, lab, ws⟩ = .error .long ∨
    ∃ (r : Expr.Res) (S : List (Expr.Tok × Expr.V)) (ws' : List Expr.Warn),
      Expr.exprval c n (e.post.length - 1) ⟨e.post, lab, ws⟩ = .ok (r, ⟨S, lab + Trans.labels e, ws'⟩) ∧
      (ret c t r S = .error .long ∨ ∃ (S' : List (Expr.Tok × Expr.V)) (i : Item c.W), ret c t r S = .ok S' ∧
        i.den = (if acc c t = acc c (rty d.ty) then d.x else convert c t d.x) ∧ (rpn i).map Prod.snd = S'.map tk ∧ i.tree.labels.Nodup ∧
        ∀ l ∈ i.tree.labels, lab ≤ l ∧ l < lab + Trans.labels e) := by
  rcases exprval_tree hW e d hd n hn lab ws h0 hl with h | ⟨r, T, ws', x, h1, h2, h3, h4, h5, h6, h7, h8⟩
  · exact .inl h
  · refine .inr ⟨r, T.post, ws', h1, ?_⟩
    have hx : ∀ v, T = .num (r.ty = .uint) v → x = .num v.toInt := fun v hT => by rw [hT] at h3; cases h3; rfl
    have hsz := Trans.declSize_acc hW ht ha
    rw [← h2] at ho ⊢
    rw [ret_cast hW ht ha (fun hv => by rw [hv] at ho; cases ho) ho]
    by_cases hk : acc c t ≠ c.W ∧ acc c t ≠ acc c (rty r.ty)
    · rw [if_pos hk, if_neg hk.2]
      cases hc : r.const with
      | true =>
        have hT := h4 hc
        have hx := hx _ hT
        right
        refine ⟨_, item (c := c) (convert c t d.x) (.num (Expr.castCalc c.W (acc c t) false r.s).1.toInt) true _ trivial trivial
          (fun V => Trans.cast_num hW (.inr ⟨ht, ha⟩) hsz false V (hx ▸ h6 V)) (fun _ => rfl), rfl, rfl, ?_, List.nodup_nil, fun _ h => (nomatch h)⟩
        rw [rpn_snd, hT]
        show [_] = [_]
        cases decide (r.ty = .uint) <;> rfl
      | false =>
        rw [if_neg (by simp)]
        obtain ⟨x', k1, k2, k3⟩ := Trans.cast_tree hW (.inr ⟨ht, ha⟩) hsz false r.s 0#32 h3 h5 h6
        cases hcc : (Expr.castCalc c.W (acc c t) false r.s).2 with
        | none =>
          rw [hcc] at k1
          right
          have : x' = x := by
            have k1 : Trans.cg T = some x' := k1
            rw [h3] at k1
            cases k1
            rfl
          refine ⟨T.post, item (c := c) (convert c t d.x) x' false 0 k2 (cg_typed _ _ k1).2 k3 (fun h => (nomatch h)), rfl, rfl, ?_, by rw [show Item.tree _ = x from this]; exact h7, by rw [show Item.tree _ = x from this]; exact h8⟩
          rw [rpn_snd]
          exact (Trans.cg_toks _ _ k1).symm
        | some tok =>
          rw [hcc] at k1
          dsimp only
          split
          · exact .inl rfl
          · right
            have hl : x'.labels = x.labels := by
              have k1 : (Trans.cg T).bind (Trans.mkUn tok 0#32) = some x' := k1
              rw [h3, Option.bind_some] at k1
              unfold Trans.mkUn at k1
              split at k1
              · cases k1; rfl
              · split at k1
                · cases k1; rfl
                · obtain ⟨y, -, rfl⟩ := Option.map_eq_some_iff.mp k1
                  rfl
            refine ⟨T.post ++ [(tok, 0#32)], item (c := c) (convert c t d.x) x' false 0 k2 (cg_typed _ _ k1).2 k3 (fun h => (nomatch h)), rfl, rfl, ?_, by rw [show (Item.tree _).labels = x.labels from hl]; exact h7,
              by rw [show (Item.tree _).labels = x.labels from hl]; exact h8⟩
            rw [rpn_snd]
            exact (Trans.cg_toks _ _ k1).symm
    · rw [if_neg hk]
      right
      have hden : (if acc c t = acc c (rty r.ty) then d.x else convert c t d.x) = d.x := by
        split
        · rfl
        · rename_i hne
          have hw : acc c t = c.W := Classical.byContradiction fun h => hk ⟨h, hne⟩
          have := hW
          cases t with
          | char => simp only [acc] at hw; split at hw <;> omega
          | schar => simp only [acc] at hw; omega
          | uchar => simp only [acc] at hw; omega
          | short => simp only [acc] at hw; omega
          | ushort => have : c.W = 4 := by simpa [obj] using ht
                      simp only [acc] at hw; omega
          | void => cases ht
          | _ => rfl
      rw [hden]
      refine ⟨T.post, item (c := c) d.x x r.const r.s.toInt h5 (cg_typed _ _ h3).2 h6 (fun hc => hx _ (h4 hc)), ?_, rfl, ?_, h7, h8⟩
      · cases hc : r.const with
        | true => rw [h4 hc]; rfl
        | false => rfl
      · rw [rpn_snd]
        exact (Trans.cg_toks _ _ h3).symm

/-! ### a case -/

/-- an expression as it is -/
def plain (e : Cg.E) (h : e.ok W) (ht : Mips.typed e) : Item W where
  den := e
  tree := e
  const := none
  ok := h
  typed := ht
  num := fun _ h => (nomatch h)
  ref := fun _ _ h => ⟨h, fun v _ hs => ⟨v, rfl, hs⟩⟩

/-- `x > 0`, `--x`, `x`, with the global variable `x`, number 9 -/
def exCond : Item 4 := plain (.cmp .gt (.deref 4 (.glob 9)) (.num 0)) ⟨⟨by simp [Cg.okSz], trivial⟩, trivial⟩ ⟨rfl, rfl, ⟨rfl, trivial⟩, trivial⟩
def exDec : Item 4 := plain (.inc .dec 4 (.glob 9)) ⟨by simp [Cg.okSz], trivial⟩ ⟨rfl, trivial⟩
def exVal : Item 4 := plain (.deref 4 (.glob 9)) ⟨by simp [Cg.okSz], trivial⟩ ⟨rfl, trivial⟩

/-- `int f(void) { while (x > 0) --x; return x; }` -/
def exBody : Stmt (lang 4) := .cons (.whl exCond (.expr exDec)) (.cons (.ret (some exVal)) .nil)

theorem ex_wf : exBody.wf true := ⟨rfl, ⟨rfl, rfl⟩, rfl, rfl, rfl⟩

def exCode : List (I (lang 4).X) := [.lab 3, .ifNot (rpn exCond) 4, .eval (rpn exDec), .jmp 3, .lab 4, .evalR (rpn exVal), .lab 1]

theorem ex_code : Stmt.fxn false false 10 10 100 1 (exBody.toks ++ [.k .rbrace]) = .ok exCode := by
  rw [Stmt.fxn_run (rest := []) ex_wf (by decide)]
  rfl

/-- what is printed -/
def exP : List Ins :=
  [.lab 3, .i2 .mov .ax (.mem (.lab 9) none), .i2 .cmp .ax (.imm 0), .jcc .le 4, .i1 .dec (.mem (.lab 9) (some 4)), .i2 .mov .ax (.mem (.lab 9) none), .jmp 3, .lab 4,
    .i2 .mov .ax (.mem (.lab 9) none), .lab 1]

theorem ex_print : print (fun l => l) exCode = some exP := by decide +kernel

/-- `x` is at address 1000h -/
def exV : Env 4 := ⟨fun _ => 0x1000#32, 0x8000#32, fun a => 0x1000 ≤ a.toNat ∧ a.toNat < 0x1004⟩

theorem ex_acc : Cg.Acc exV.A 0x1000#32 4 := by
  intro i hi
  have hi : i < 4 := hi
  show 0x1000 ≤ (0x1000#32 + BitVec.ofNat 32 i).toNat ∧ (0x1000#32 + BitVec.ofNat 32 i).toNat < 0x1004
  rw [BitVec.toNat_add, BitVec.toNat_ofNat]
  show 4096 ≤ (4096 + i % 2 ^ 32) % 2 ^ 32 ∧ (4096 + i % 2 ^ 32) % 2 ^ 32 < 4100
  omega

/-- expressions in which only `x` is accessed -/
def Fine : Cg.E → Prop
  | .num _ | .glob _ => True
  | .deref sz a => sz = 4 ∧ (a = .glob 9 ∨ a = .num 0x1000)
  | .inc k sz a => sz = 4 ∧ (a = .glob 9 ∨ a = .num 0x1000) ∧ k = .dec
  | .asg sz a r => sz = 4 ∧ (a = .glob 9 ∨ a = .num 0x1000) ∧ Fine r
  | .asgo o sz a r => sz = 4 ∧ (a = .glob 9 ∨ a = .num 0x1000) ∧ o = .sub ∧ Fine r
  | .bin o l r => o = .sub ∧ Fine l ∧ Fine r
  | .cmp _ l r => Fine l ∧ Fine r
  | _ => False

theorem fine_adr {a a' : Cg.E} {m m' : Mem 4} (h : Cg.Step exV a m a' m') (ha : a = .glob 9 ∨ a = .num 0x1000) : a' = .glob 9 ∨ a' = .num 0x1000 := by
  rcases ha with rfl | rfl
  · cases h; exact .inr rfl
  · cases h

theorem fine_step {e e' : Cg.E} {m m' : Mem 4} (h : Cg.Step exV e m e' m') : Fine e → Fine e' := by
  induction h with
  | derefC h _ => exact fun hf => ⟨hf.1, fine_adr h hf.2⟩
  | incC h _ => exact fun hf => ⟨hf.1, fine_adr h hf.2.1, hf.2.2⟩
  | preInc => exact fun hf => (nomatch hf.2.2)
  | preDec => exact fun hf => ⟨hf.1, hf.2.1, rfl, trivial⟩
  | binL _ ih => exact fun hf => ⟨hf.1, ih hf.2.1, hf.2.2⟩
  | binR _ ih => exact fun hf => ⟨hf.1, hf.2.1, ih hf.2.2⟩
  | cmpL _ ih => exact fun hf => ⟨ih hf.1, hf.2⟩
  | cmpR _ ih => exact fun hf => ⟨hf.1, ih hf.2⟩
  | asgL h _ => exact fun hf => ⟨hf.1, fine_adr h hf.2.1, hf.2.2⟩
  | asgR _ ih => exact fun hf => ⟨hf.1, hf.2.1, ih hf.2.2⟩
  | asgo => exact fun hf => ⟨hf.1, hf.2.1, hf.2.2.1, ⟨hf.1, hf.2.1⟩, hf.2.2.2⟩
  | asgoL h _ => exact fun hf => ⟨hf.1, fine_adr h hf.2.1, hf.2.2⟩
  | asgoR _ ih => exact fun hf => ⟨hf.1, hf.2.1, hf.2.2.1, ih hf.2.2.2⟩
  | _ => first | exact fun _ => trivial | exact fun h => h.elim

theorem fine_ub {e : Cg.E} {m : Mem 4} (h : Cg.Ub exV e m) : ¬ Fine e := by
  have num : ∀ {a sz : Int}, sz = 4 → ((.num a : Cg.E) = .glob 9 ∨ (.num a : Cg.E) = .num 0x1000) → Cg.Acc exV.A (wd 4 a) sz := by
    rintro a sz rfl (h | h) <;> cases h
    exact ex_acc
  have adr : ∀ {a : Cg.E} {m : Mem 4}, Cg.Ub exV a m → ¬ (a = .glob 9 ∨ a = .num 0x1000) := by
    rintro a m h (rfl | rfl) <;> cases h
  induction h with
  | deref sz a m h => exact fun hf => h (num hf.1 hf.2)
  | derefC h _ => exact fun hf => adr h hf.2
  | inc k sz a m h => exact fun hf => h (num hf.1 hf.2.1)
  | incC h _ => exact fun hf => adr h hf.2.1
  | bin o v w m h => rintro ⟨rfl, -⟩; cases h
  | binL _ ih => exact fun hf => ih hf.2.1
  | binR _ ih => exact fun hf => ih hf.2.2
  | cmpL _ ih => exact fun hf => ih hf.1
  | cmpR _ ih => exact fun hf => ih hf.2
  | asg sz a v m h => exact fun hf => h (num hf.1 hf.2.1)
  | asgL h _ => exact fun hf => adr h hf.2.1
  | asgR _ ih => exact fun hf => ih hf.2.2
  | asgoL h _ => exact fun hf => adr h hf.2.1
  | asgoR _ ih => exact fun hf => ih hf.2.2.2
  | _ => exact fun h => h.elim

theorem fine_safe {e : Cg.E} (h : Fine e) (m : Mem 4) : Safe exV e m := by
  intro e' m' hs hu
  have : ∀ {e e' : Cg.E} {m m' : Mem 4}, Steps exV e m e' m' → Fine e → Fine e' := by
    intro e e' m m' hs
    induction hs with
    | refl => exact id
    | step h _ ih => exact fun hf => ih (fine_step h hf)
  exact fine_ub hu (this hs h)

/-- where the body comes to -/
inductive ExR : Conf (lang 4) (Mem 4) → Prop
  | start (m) : ExR (.run exBody .stop m)
  | whl (m) : ExR (.run (.whl exCond (.expr exDec)) (.seq (.cons (.ret (some exVal)) .nil) .stop) m)
  | test (m) : ExR (.test (some exCond) none (.expr exDec) (.seq (.cons (.ret (some exVal)) .nil) .stop) m)
  | body (m) : ExR (.run (.expr exDec) (.loop (some exCond) none (.expr exDec) (.seq (.cons (.ret (some exVal)) .nil) .stop)) m)
  | back (m) : ExR (.run .nil (.loop (some exCond) none (.expr exDec) (.seq (.cons (.ret (some exVal)) .nil) .stop)) m)
  | out (m) : ExR (.run .nil (.seq (.cons (.ret (some exVal)) .nil) .stop) m)
  | rest (m) : ExR (.run (.cons (.ret (some exVal)) .nil) .stop m)
  | ret (m) : ExR (.run (.ret (some exVal)) (.seq .nil .stop) m)
  | done (r m) : ExR (.done r m)

theorem ex_reach {c c' : Conf (lang 4) (Mem 4)} (h : ExR c) (hs : Step exV false exBody c c') : ExR c' := by
  obtain ⟨sem, -, hs⟩ := hs
  have opt : ∀ {x : List (lang 4).X} {m : Mem 4} {f : Int × Mem 4 → Conf (lang 4) (Mem 4)}, (sem x m).map f = some c' → (∀ r, ExR (f r)) → ExR c' := by
    intro x m f h1 h2
    obtain ⟨r, -, rfl⟩ := Option.map_eq_some_iff.mp h1
    exact h2 r
  cases h with
  | start m => cases hs; exact .whl m
  | whl m => cases hs; exact .test m
  | test m =>
    refine opt hs fun r => ?_
    dsimp only
    split
    · exact .out _
    · exact .body _
  | body m => exact opt hs fun r => .back _
  | back m => cases hs; exact .test m
  | out m => cases hs; exact .rest m
  | rest m => cases hs; exact .ret m
  | ret m => exact opt hs fun r => .done _ _
  | done r m => cases hs

theorem ex_defined (m : Mem 4) : Defined exV false exBody m := by
  intro c hr
  have hx : ExR c := by
    generalize hc : Conf.run exBody Cont.stop m = c0 at hr
    induction hr with
    | refl => subst hc; exact .start m
    | step _ hs ih => exact ex_reach ih hs
  have pr : ∀ (i : Item 4) (m : Mem 4), Fine i.den → probe exV (rpn i) m = some (0, m) := by
    intro i m hf
    unfold probe
    rw [if_pos ⟨i, rfl, fine_safe hf m⟩]
  have p1 := fun m => pr exCond m ⟨⟨rfl, .inl rfl⟩, trivial⟩
  have p2 := fun m => pr exDec m ⟨rfl, .inl rfl, rfl⟩
  have p3 := fun m => pr exVal m ⟨rfl, .inl rfl⟩
  rintro ⟨hd, hw⟩
  cases hx with
  | test m =>
    have hw : (probe exV (rpn exCond) m).map _ = none := hw
    rw [p1] at hw
    cases hw
  | body m =>
    have hw : (probe exV (rpn exDec) m).map _ = none := hw
    rw [p2] at hw
    cases hw
  | ret m =>
    have hw : (probe exV (rpn exVal) m).map _ = none := hw
    rw [p3] at hw
    cases hw
  | done r m => exact hd trivial
  | _ => cases hw

/-- all hypotheses of `c47_body_partial` are met: from every memory, the function runs as it should, with the stack at 7000h and nothing on it but `x` somewhere else -/
example (m0 : Mem 4) (s0 : St 4) (h1 : s0.mem = m0) (h2 : s0.bp = 0x8000#32) (h3 : s0.sp = 0x7000#32) :
    (∃ r m s1, Reach exV false exBody (.run exBody .stop m0) (.done r m) ∧ Run exV.G exP 0 s0 10 s1 ∧ (∀ v, r = some v → s1.ax = wd 4 v) ∧ s1.sp = 0x7000#32 ∧ ∀ a, exV.A a → s1.mem a = m a) ∨
    ∃ f : Nat → Conf (lang 4) (Mem 4), f 0 = .run exBody .stop m0 ∧ ∀ j, Step exV false exBody (f j) (f (j + 1)) := by
  obtain ⟨P, hP, h⟩ := c47_body_partial (.inr rfl) ex_wf (rest := []) (by decide) ex_code (.inr rfl) (fun x hx => (nomatch hx)) (fun l => l)
  rw [ex_print] at hP
  cases hP
  subst h1
  have hk : StkOk exV.A s0.sp 2 := by
    refine ⟨?_, by decide⟩
    rintro a ⟨k, k1, k2, rfl⟩ ⟨k3, k4⟩
    rw [h3] at k3 k4
    have : (0x7000#32 - BitVec.ofNat 32 k).toNat = 0x7000 - k := by
      rw [BitVec.toNat_sub, BitVec.toNat_ofNat]
      show (2 ^ 32 - k % 2 ^ 32 + 28672) % 2 ^ 32 = _
      omega
    change (0x7000#32 - BitVec.ofNat 32 k).toNat < _ at k4
    rw [this] at k4
    omega
  rcases h exV exP [] [] s0 2 (by simp) (by decide +kernel) h2 (by decide +kernel) hk (ex_defined _) with ⟨r, m, s1, k1, k2, k3, k4, k5, k6, -⟩ | ⟨f, -, -, -, k1, k2, -⟩
  · exact .inl ⟨r, m, s1, k1, k2, k3, k4.trans h3, k6⟩
  · exact .inr ⟨f, k1, k2⟩

/-- the labels are distinct -/
example : (exCode.flatMap (ilabs (fun l => l))).Nodup := by decide +kernel

/-- `unsigned char f(void)`, `signed char f(void)` and `short f(void)` with `return 40000;`, and `signed char f(void)` with `return c;` for `unsigned char c` -/
example : (ret ⟨4, true, fun _ => none⟩ .uchar ⟨40000#32, .int, true, 0⟩ [(.numInt, 40000#32)]).toOption = some [(.numInt, 64#32)] ∧
    (ret ⟨4, true, fun _ => none⟩ .short ⟨40000#32, .int, true, 0⟩ [(.numInt, 40000#32)]).toOption = some [(.numInt, BitVec.ofInt 32 (-25536))] ∧
    (ret ⟨4, true, fun _ => none⟩ .schar ⟨0#32, .uchar, false, 0⟩ [(.localOfs, BitVec.ofInt 32 (-4)), (.star, 1#32)]).toOption = some [(.localOfs, BitVec.ofInt 32 (-4)), (.star, 1#32), (.schar, 0#32)] := by
  decide

/-- `c + 1` has a meaning, and the types are those of objects -/
example : ∃ d, Trans.den ⟨4, true, fun _ => some (.localVar (-4) .uchar)⟩ (.add .plus (.id 3#32) (.num false 1#32)) = some d ∧ Trans.obj 4 (Trans.rty d.ty) = true := ⟨_, rfl, rfl⟩

end Smlr.Fn
