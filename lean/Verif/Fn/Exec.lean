import Verif.Fn.Shape
set_option autoImplicit false
/-! The pieces of the program, and what each of them does. -/
namespace Smlr.Fn
open Smlr.Cg (Wd Mem Env Ins Safe Steps wd St Run Run1 labs Agree Frame StkOk SimG FullQ SimJ)
open Smlr.Stmt (I mstep find Mc)

variable {W : Nat}

/-! ### where the pieces are -/

theorem print_app (ρ : Nat → Int) : ∀ (a b : List (I (lang W).X)), print ρ (a ++ b) = (print ρ a).bind fun x => (print ρ b).map (x ++ ·) := by
  intro a b
  induction a with
  | nil => simp [print]
  | cons i a ih =>
    simp only [List.cons_append, print, ih]
    cases one ρ i with
    | none => rfl
    | some c => cases print ρ a <;> cases print ρ b <;> simp

/-- the place of the code of an instruction -/
def off (ρ : Nat → Int) (code : List (I (lang W).X)) (base p : Nat) : Nat := base + ((print ρ (code.take p)).getD []).length

/-- the program with the code of the function in it -/
structure Lay (ρ : Nat → Int) (code : List (I (lang W).X)) (Q : List Ins) (base : Nat) : Prop where
  pr : ∃ pre P post, print ρ code = some P ∧ Q = pre ++ P ++ post ∧ base = pre.length
  nd : (labs Q).Nodup
  good : Goods code
  tg : ∀ l : Nat, (I.jmp l ∈ code ∨ I.jz l ∈ code ∨ I.jnz l ∈ code ∨ (∃ e, I.ifNot e l ∈ code) ∨ (∃ e, I.ifYes e l ∈ code) ∨ ∃ v, I.je v l ∈ code) → I.lab l ∈ code

section
variable {ρ : Nat → Int} {code : List (I (lang W).X)} {Q : List Ins} {base : Nat}

theorem Lay.block (h : Lay ρ code Q base) {p : Nat} {i : I (lang W).X} (hp : code[p]? = some i) :
    ∃ A c B, one ρ i = some c ∧ Q = A ++ c ++ B ∧ A.length = off ρ code base p ∧ off ρ code base (p + 1) = A.length + c.length := by
  obtain ⟨pre, P, post, h1, h2, h3⟩ := h.pr
  have hl : p < code.length := by
    rcases Nat.lt_or_ge p code.length with h | h
    · exact h
    · rw [List.getElem?_eq_none h] at hp; cases hp
  have hg : code[p] = i := by rw [List.getElem?_eq_getElem hl] at hp; exact Option.some.inj hp
  have e1 : code = code.take p ++ (i :: code.drop (p + 1)) := by
    rw [← hg, List.getElem_cons_drop, List.take_append_drop]
  have e2 : code.take (p + 1) = code.take p ++ [i] := by rw [List.take_succ, hp]; rfl
  have h1' := h1
  rw [e1, print_app] at h1'
  cases ha : print ρ (code.take p) with
  | none => rw [ha] at h1'; cases h1'
  | some A =>
    rw [ha] at h1'
    simp only [Option.bind_some, print] at h1'
    cases hc : one ρ i with
    | none => rw [hc] at h1'; cases h1'
    | some c =>
      rw [hc] at h1'
      cases hb : print ρ (code.drop (p + 1)) with
      | none => rw [hb] at h1'; cases h1'
      | some B =>
        rw [hb] at h1'
        simp only [Option.bind_some, Option.map_some, Option.some.injEq] at h1'
        refine ⟨pre ++ A, c, B ++ post, rfl, ?_, ?_, ?_⟩
        · rw [h2, ← h1']; simp
        · rw [off, ha, h3]; simp
        · rw [off, e2, print_app, ha]
          simp only [Option.bind_some, print, hc, Option.map_some, Option.getD_some, List.length_append, h3, List.length_nil]
          omega

theorem find_some {X : Type} {code : List (I X)} {l q : Nat} (h : find code l = some q) : code[q]? = some (.lab l) := by
  unfold find at h
  rw [List.findIdx?_eq_some_iff_getElem] at h
  obtain ⟨h1, h2, -⟩ := h
  rw [List.getElem?_eq_getElem h1]
  cases hc : code[q] with
  | lab m => rw [hc] at h2; simp only [beq_iff_eq] at h2; rw [h2]
  | _ => rw [hc] at h2; cases h2

theorem find_mem {X : Type} {code : List (I X)} {l : Nat} (h : I.lab l ∈ code) : ∃ q, find code l = some q := by
  cases hf : find code l with
  | some q => exact ⟨q, rfl⟩
  | none =>
    unfold find at hf
    rw [List.findIdx?_eq_none_iff] at hf
    have := hf _ h
    simp at this

theorem Lay.lab (h : Lay ρ code Q base) {q l : Nat} (hq : find code l = some q) :
    ∃ A B, Q = A ++ .lab (ρ l) :: B ∧ A.length + 1 = off ρ code base (q + 1) := by
  obtain ⟨A, c, B, h1, h2, h3, h4⟩ := h.block (find_some hq)
  cases h1
  exact ⟨A, B, by rw [h2]; simp, by rw [h4]; simp⟩

/-! ### the state -/

/-- the machine is where the instruction `p` is (or behind it, if it is a label), its memory is that of C, its accumulator has the value `acc` -/
structure At (V : Env W) (ρ : Nat → Int) (code : List (I (lang W).X)) (base : Nat) (sp₀ : Wd W) (d : Nat) (M : Mem W) (p : Nat) (acc₀ : Option Int) (m : Mem W) (pc₀ : Nat) (s : St W) : Prop where
  pc : pc₀ = off ρ code base p ∨ ∃ l, code[p]? = some (.lab l) ∧ pc₀ = off ρ code base (p + 1)
  bp : s.bp = V.bp
  sp : s.sp = sp₀
  mem : Agree V.A s.mem m
  frame : Frame V.A sp₀ d M s.mem
  acc : ∀ v, acc₀ = some v → s.ax = wd W v ∧ (wd W v).toInt = v

/-- the machine goes on, or at least in the code -/
def Adv (G : Int → Wd W) (Q : List Ins) (p : Nat) (pc : Nat) (s : St W) (p' : Nat) (pc' : Nat) (s' : St W) : Prop := Run1 G Q pc s pc' s' ∨ (Run G Q pc s pc' s' ∧ p < p')

theorem wd_zero_iff {v : Int} (h : (wd W v).toInt = v) : wd W v = 0 ↔ v = 0 := by
  constructor
  · intro h0; rw [← h, h0]; exact BitVec.toInt_zero
  · rintro rfl; show BitVec.ofInt _ 0 = 0; simp

theorem toInt_zero_iff (x : Wd W) : x.toInt = 0 ↔ x = 0 := by
  rw [← BitVec.toInt_zero (w := 8 * W), BitVec.toInt_inj]; rfl

variable {V : Env W} {sp : Wd W} {d : Nat} {M : Mem W}

theorem At.exact {p : Nat} {acc : Option Int} {m : Mem W} {pc : Nat} {s : St W} (h : At V ρ code base sp d M p acc m pc s) {i : I (lang W).X} (hp : code[p]? = some i)
    (hi : ∀ l, i ≠ .lab l) : pc = off ρ code base p := by
  rcases h.pc with h | ⟨l, h, -⟩
  · exact h
  · rw [hp] at h; exact absurd (Option.some.inj h) (hi l)

/-- a jump to a label -/
theorem At.goes {p q l : Nat} {acc : Option Int} {m : Mem W} {pc : Nat} {s : St W} (h : At V ρ code base sp d M p acc m pc s) (hq : find code l = some q) (acc' : Option Int)
    (ha : acc' = acc ∨ acc' = none) (f : Option Cg.Flags) : At V ρ code base sp d M q acc' m (off ρ code base (q + 1)) { s with flags := f } :=
  ⟨.inr ⟨l, find_some hq, rfl⟩, h.bp, h.sp, h.mem, h.frame, fun v hv => by rcases ha with rfl | rfl; exact h.acc v hv; cases hv⟩

theorem At.next {p : Nat} {acc : Option Int} {m : Mem W} {pc : Nat} {s : St W} (h : At V ρ code base sp d M p acc m pc s) (f : Option Cg.Flags) :
    At V ρ code base sp d M (p + 1) acc m (off ρ code base (p + 1)) { s with flags := f } :=
  ⟨.inl rfl, h.bp, h.sp, h.mem, h.frame, h.acc⟩

theorem run1_jump {G : Int → Wd W} {A B : List Ins} {c : Cg.Cc} {t : Int} {s s' : St W} {x : List Ins} (hQ : Q = A ++ (x ++ [.jcc c t]) ++ B) (hx : Cg.execs G x s = some s')
    {f : Cg.Flags} (hf : s'.flags = some f) :
    (f.holds c = false → Run1 G Q A.length s (A.length + (x ++ [Ins.jcc c t]).length) s') ∧
    (f.holds c = true → ∀ A' B', Q = A' ++ .lab t :: B' → (labs Q).Nodup → Run1 G Q A.length s (A'.length + 1) s') := by
  have h8 := Cg.run_execs hx A ([.jcc c t] ++ B)
  rw [show A ++ x ++ ([.jcc c t] ++ B) = Q by rw [hQ]; simp] at h8
  have hj : Q = (A ++ x) ++ .jcc c t :: B := by rw [hQ]; simp
  rw [← List.length_append] at h8
  constructor
  · intro hc
    have := h8.trans1 (Cg.run_no_jcc1 (G := G) hj hf hc)
    rw [show A.length + (x ++ [Ins.jcc c t]).length = (A ++ x).length + 1 by simp only [List.length_append, List.length_cons, List.length_nil]; omega]
    exact this
  · intro hc A' B' h' hn
    exact h8.trans1 (Cg.run_jcc1 (G := G) hj hf hc h' hn)

/-- a jump on the accumulator -/
theorem quiet_jcc (h : Lay ρ code Q base) {p l : Nat} {v : Int} {m : Mem W} {pc : Nat} {s : St W} (ha : At V ρ code base sp d M p (some v) m pc s) {i : I (lang W).X}
    (hp : code[p]? = some i) (hi : ∀ l, i ≠ .lab l) {x : List Ins} {c : Cg.Cc} (ho : one ρ i = some (x ++ [.jcc c (ρ l)])) {f : Cg.Flags}
    (hx : Cg.execs V.G x s = some { s with flags := some f }) (b : Bool) (hb : f.holds c = b) {p' : Nat}
    (hs : (if b then find code l else some (p + 1)) = some p') :
    ∃ pc' s', Run1 V.G Q pc s pc' s' ∧ At V ρ code base sp d M p' (some v) m pc' s' := by
  obtain ⟨A, c', B, h1, h2, h3, h4⟩ := h.block hp
  rw [ho] at h1
  cases h1
  have e := ha.exact hp hi
  obtain ⟨k1, k2⟩ := run1_jump h2 hx rfl
  rw [e, ← h3]
  cases b with
  | false =>
    cases hs
    refine ⟨_, _, k1 hb, ?_⟩
    rw [← h4]
    exact ha.next _
  | true =>
    obtain ⟨A', B', h5, h6⟩ := h.lab hs
    refine ⟨_, _, k2 hb A' B' h5 h.nd, ?_⟩
    rw [h6]
    exact ha.goes hs _ (.inl rfl) _

/-- instructions that evaluate nothing -/
def isQuiet : I (lang W).X → Bool
  | .lab _ | .jmp _ | .jz _ | .jnz _ | .je _ _ => true
  | _ => false

theorem quiet (hW : W = 2 ∨ W = 4) (h : Lay ρ code Q base) {p p' : Nat} {acc acc' : Option Int} {m : Mem W} {pc : Nat} {s : St W} (ha : At V ρ code base sp d M p acc m pc s)
    {i : I (lang W).X} (hp : code[p]? = some i) (hi : isQuiet i = true) {τ : Type} {sem : List (lang W).X → τ → Option (Int × τ)} {st st' : τ}
    (hs : mstep sem code ⟨p, acc, st⟩ = some ⟨p', acc', st'⟩) :
    st' = st ∧ (∀ (υ : Type) (sem' : List (lang W).X → υ → Option (Int × υ)) (st : υ), mstep sem' code ⟨p, acc, st⟩ = some ⟨p', acc', st⟩) ∧
      ∃ pc' s', Adv V.G Q p pc s p' pc' s' ∧ At V ρ code base sp d M p' acc' m pc' s' := by
  have h0 : 0 < W := by omega
  unfold mstep at hs ⊢
  simp only [hp] at hs ⊢
  cases i with
  | lab l =>
    simp only [Option.some.injEq, Mc.mk.injEq] at hs
    obtain ⟨rfl, rfl, rfl⟩ := hs
    refine ⟨rfl, fun _ _ _ => rfl, ?_⟩
    rcases ha.pc with e | ⟨l', h1, e⟩
    · obtain ⟨A, c', B, h1, h2, h3, h4⟩ := h.block hp
      cases h1
      refine ⟨off ρ code base (p + 1), s, .inr ⟨?_, by omega⟩, ha.next s.flags⟩
      rw [e, ← h3, h4]
      rw [h2]
      exact Cg.run_execs (G := V.G) (c := [.lab (ρ l)]) (s := s) (s' := s) (by simp [Cg.execs, Cg.exec]) A B
    · exact ⟨pc, s, .inr ⟨.refl _ _, by omega⟩, by rw [e]; exact ha.next s.flags⟩
  | jmp l =>
    cases hf : find code l with
    | none => simp only [hf] at hs; cases hs
    | some q =>
      simp only [hf, Option.map_some, Option.some.injEq, Mc.mk.injEq] at hs
      obtain ⟨rfl, rfl, rfl⟩ := hs
      refine ⟨rfl, fun _ _ _ => by simp [hf], ?_⟩
      obtain ⟨A, c', B, h1, h2, h3, h4⟩ := h.block hp
      cases h1
      obtain ⟨A', B', h5, h6⟩ := h.lab hf
      refine ⟨_, s, .inl ?_, ha.goes hf _ (.inl rfl) s.flags⟩
      rw [ha.exact hp (by simp), ← h3, ← h6]
      exact Cg.run_jmp1 (post := B) s (by rw [h2]; simp) h5 h.nd
  | jz l =>
    cases acc with
    | none => cases hs
    | some v =>
      obtain ⟨e1, e2⟩ := ha.acc v rfl
      have key := fun p' => quiet_jcc (p' := p') h ha hp (by simp) (x := Cg.p2 W .test .ax .ax) (c := .eq) (l := l) rfl (Cg.test_exec V.G s) (decide (v = 0))
        (by rw [Cg.testFlags_eq, e1]; exact decide_eq_decide.mpr (wd_zero_iff e2))
      simp only [Option.bind_some] at hs ⊢
      by_cases hv : v = 0
      · rw [if_pos hv] at hs
        cases hf : find code l with
        | none => rw [hf] at hs; cases hs
        | some q =>
          rw [hf] at hs
          simp only [Option.map_some, Option.some.injEq, Mc.mk.injEq] at hs
          obtain ⟨rfl, rfl, rfl⟩ := hs
          obtain ⟨pc', s', k1, k2⟩ := key q (by simp [hv, hf])
          exact ⟨rfl, fun _ _ _ => by simp [hv], pc', s', .inl k1, k2⟩
      · rw [if_neg hv] at hs
        simp only [Option.some.injEq, Mc.mk.injEq] at hs
        obtain ⟨rfl, rfl, rfl⟩ := hs
        obtain ⟨pc', s', k1, k2⟩ := key (p + 1) (by simp [hv])
        exact ⟨rfl, fun _ _ _ => by simp [hv], pc', s', .inl k1, k2⟩
  | jnz l =>
    cases acc with
    | none => cases hs
    | some v =>
      obtain ⟨e1, e2⟩ := ha.acc v rfl
      have key := fun p' => quiet_jcc (p' := p') h ha hp (by simp) (x := Cg.p2 W .test .ax .ax) (c := .ne) (l := l) rfl (Cg.test_exec V.G s) (!decide (v = 0))
        (by rw [Cg.testFlags_ne, e1]; congr 1; exact decide_eq_decide.mpr (wd_zero_iff e2))
      simp only [Option.bind_some] at hs ⊢
      by_cases hv : v = 0
      · rw [if_pos hv] at hs
        simp only [Option.some.injEq, Mc.mk.injEq] at hs
        obtain ⟨rfl, rfl, rfl⟩ := hs
        obtain ⟨pc', s', k1, k2⟩ := key (p + 1) (by simp [hv])
        exact ⟨rfl, fun _ _ _ => by simp [hv], pc', s', .inl k1, k2⟩
      · rw [if_neg hv] at hs
        cases hf : find code l with
        | none => rw [hf] at hs; cases hs
        | some q =>
          rw [hf] at hs
          simp only [Option.map_some, Option.some.injEq, Mc.mk.injEq] at hs
          obtain ⟨rfl, rfl, rfl⟩ := hs
          obtain ⟨pc', s', k1, k2⟩ := key q (by simp [hv, hf])
          exact ⟨rfl, fun _ _ _ => by simp [hv], pc', s', .inl k1, k2⟩
  | je w l =>
    cases acc with
    | none => cases hs
    | some v =>
      obtain ⟨e1, e2⟩ := ha.acc v rfl
      have hg : (wd W w).toInt = w := h.good _ (List.mem_of_getElem? hp)
      have hx : Cg.execs V.G (Cg.p2 W .cmp .ax (.imm w)) s = some { s with flags := some (Cg.subFlags s.ax (wd W w)) } := by
        rw [Cg.p2_cmp, Cg.execs_one]
        exact Cg.cmp2 (Or.inl rfl) (Cg.read_imm _ _ _)
      have key := fun p' => quiet_jcc (p' := p') h ha hp (by simp) (x := Cg.p2 W .cmp .ax (.imm w)) (c := .eq) (l := l) rfl hx (decide (v = w))
        (by
          show decide (s.ax = wd W w) = _
          rw [e1]
          refine decide_eq_decide.mpr ⟨fun h => ?_, fun h => by rw [h]⟩
          rw [← e2, ← hg, h])
      simp only [Option.bind_some] at hs ⊢
      by_cases hv : v = w
      · rw [if_pos hv] at hs
        cases hf : find code l with
        | none => rw [hf] at hs; cases hs
        | some q =>
          rw [hf] at hs
          simp only [Option.map_some, Option.some.injEq, Mc.mk.injEq] at hs
          obtain ⟨rfl, rfl, rfl⟩ := hs
          obtain ⟨pc', s', k1, k2⟩ := key q (by simp [hv, hf])
          exact ⟨rfl, fun _ _ _ => by simp [hv], pc', s', .inl k1, k2⟩
      · rw [if_neg hv] at hs
        simp only [Option.some.injEq, Mc.mk.injEq] at hs
        obtain ⟨rfl, rfl, rfl⟩ := hs
        obtain ⟨pc', s', k1, k2⟩ := key (p + 1) (by simp [hv])
        exact ⟨rfl, fun _ _ _ => by simp [hv], pc', s', .inl k1, k2⟩
  | _ => cases hi

/-! ### evaluation -/

theorem rpn_snd (i : Item W) : (rpn i).map Prod.snd = Cg.toks i.tree := by
  unfold rpn
  rw [List.map_map]
  exact List.map_id'' (fun _ => rfl) _

theorem toks_ne (e : Cg.E) : Cg.toks e ≠ [] := by
  obtain ⟨X, t, h, -⟩ := Cg.toks_last e
  rw [h]
  simp

theorem rpn_head (i : Item W) : ∃ t, (rpn i).head? = some (i, t) := by
  unfold rpn
  cases h : Cg.toks i.tree with
  | nil => exact absurd h (toks_ne _)
  | cons t ts => exact ⟨t, rfl⟩

theorem rpn_inj {i j : Item W} (h : rpn i = rpn j) : i = j := by
  obtain ⟨t, ht⟩ := rpn_head i
  obtain ⟨u, hu⟩ := rpn_head j
  rw [h, hu] at ht
  exact (Prod.mk.inj (Option.some.inj ht)).1.symm

theorem one_eval (hW : W = 2 ∨ W = 4) (i : Item W) :
    ∃ c, one ρ (.eval (rpn i)) = some c ∧ one ρ (.evalR (rpn i)) = some c ∧ ∀ V : Env W, SimG V c i.tree.depth i.tree (FullQ W) := by
  obtain ⟨c, g, sm⟩ := (Cg.full_part hW i.tree i.ok).1
  refine ⟨c, ?_, ?_, sm⟩
  · have hg := g.2 [] (fun _ h => (nomatch h))
    rw [List.append_nil] at hg
    rw [one, rpn_snd, Cg.genExpr_toks hW _ i.ok, hg]
    simp [Cg.gen]
  · have hg := g.2 [(.ret, 0)] (fun t ht => by cases ht; simp)
    rw [one, rpn_snd, Cg.genExpr_end hW _ i.ok _ _ (by simp), hg]
    simp [Cg.gen]

theorem one_branch (hW : W = 2 ∨ W = 4) (i : Item W) (hc : i.tree.isCmp = true) (nz : Bool) (lab : Int) :
    ∃ c, Cg.genExpr W ((rpn i).map Prod.snd ++ [(if nz then .ifT else .ifN, lab)]) = some c ∧ ∀ V : Env W, SimJ V c i.tree.depth i.tree nz lab := by
  rw [rpn_snd]
  have h := i.ok
  cases he : i.tree with
  | cmp o l r =>
    rw [he] at h
    obtain ⟨c, g, sm⟩ := Cg.jump_cmp hW o l r h.1 h.2 (Cg.full_part hW l h.1).2 (Cg.full_part hW r h.2).2 nz lab
    exact ⟨c, by rw [Cg.genExpr_end hW _ h _ _ (by cases nz <;> simp), g], sm⟩
  | _ => rw [he] at hc; cases hc

/-- what an instruction evaluates -/
def evals : I (lang W).X → Option (List (lang W).X)
  | .ifNot e _ | .ifYes e _ | .eval e | .evalR e => some e
  | _ => none

theorem need_rpn {i : I (lang W).X} {it : Item W} (h : evals i = some (rpn it)) : need i = it.tree.depth := by
  obtain ⟨t, ht⟩ := rpn_head it
  cases i with
  | ifNot e l => cases h; simp only [need]; rw [show List.head? (rpn it) = _ from ht]
  | ifYes e l => cases h; simp only [need]; rw [show List.head? (rpn it) = _ from ht]
  | eval e => cases h; simp only [need]; rw [show List.head? (rpn it) = _ from ht]
  | evalR e => cases h; simp only [need]; rw [show List.head? (rpn it) = _ from ht]
  | _ => cases h

theorem evaluate (hW : W = 2 ∨ W = 4) (h : Lay ρ code Q base) (hd : ∀ i ∈ code, need i ≤ d) (hk : StkOk V.A sp d) {p : Nat} {acc : Option Int} {m : Mem W} {pc : Nat} {s : St W}
    (ha : At V ρ code base sp d M p acc m pc s) {i : I (lang W).X} (hp : code[p]? = some i) {it : Item W} (he : evals i = some (rpn it)) (hs : Safe V it.tree m) :
    ∃ v m' p' acc' pc' s', Steps V it.tree m (.num v) m' ∧ Adv V.G Q p pc s p' pc' s' ∧ At V ρ code base sp d M p' acc' m' pc' s' ∧
      ∀ (τ : Type) (sem : List (lang W).X → τ → Option (Int × τ)) (st st' : τ), sem (rpn it) st = some ((wd W v).toInt, st') →
        mstep sem code ⟨p, acc, st⟩ = some ⟨p', acc', st'⟩ := by
  have hm := List.mem_of_getElem? hp
  have hdep : it.tree.depth ≤ d := by rw [← need_rpn he]; exact hd i hm
  have hk' : StkOk V.A s.sp it.tree.depth := by rw [ha.sp]; exact hk.mono hdep
  obtain ⟨A, c, B, h1, h2, h3, h4⟩ := h.block hp
  have e : pc = off ρ code base p := ha.exact hp (by rintro l rfl; cases he)
  rw [← h3] at e
  subst e
  have straight : (∀ V : Env W, SimG V c it.tree.depth it.tree (FullQ W)) → ∀ (acc' : Int → Option Int), (∀ v u, acc' v = some u → u = (wd W v).toInt) →
      ∃ v m' s', Steps V it.tree m (.num v) m' ∧ Adv V.G Q p A.length s (p + 1) (off ρ code base (p + 1)) s' ∧
        At V ρ code base sp d M (p + 1) (acc' v) m' (off ρ code base (p + 1)) s' := by
    intro sm acc' hacc
    obtain ⟨s', e', m', k1, k2, ⟨v, rfl, k3⟩, k4, k5, k6, k7⟩ := sm V Q A B h2 h.nd s m ha.bp ha.mem hk' hs
    rw [← h4] at k1
    refine ⟨v, m', s', k2, .inr ⟨k1, by omega⟩, .inl rfl, k5.trans ha.bp, k4.trans ha.sp, k6, ?_, fun u hu => ?_⟩
    · rw [ha.sp] at k7
      exact ha.frame.trans (k7.mono hdep)
    · rw [hacc v u hu, Cg.wd_toInt]
      exact ⟨k3, rfl⟩
  have branch : ∀ (nz : Bool) (l : Nat), (∀ V : Env W, SimJ V c it.tree.depth it.tree nz (ρ l)) → ∀ q, find code l = some q →
      ∃ v m' pc' s', Steps V it.tree m (.num v) m' ∧ Run1 V.G Q A.length s pc' s' ∧
        At V ρ code base sp d M (if decide ((wd W v).toInt ≠ 0) = nz then q else p + 1) none m' pc' s' := by
    intro nz l sm q hq
    obtain ⟨A', B', h5, h6⟩ := h.lab hq
    obtain ⟨s', v, m', k1, k2, k4, k5, k6, k7⟩ := sm V Q A B A' B' h2 h5 h.nd s m ha.bp ha.mem hk' hs
    refine ⟨v, m', _, s', k2, k1, ?_, k5.trans ha.bp, k4.trans ha.sp, k6, ?_, fun u hu => by cases hu⟩
    · unfold Cg.dest
      have e : decide ((wd W v).toInt ≠ 0) = decide (wd W v ≠ 0) := decide_eq_decide.mpr (not_congr (toInt_zero_iff _))
      rw [e]
      by_cases hc : decide (wd W v ≠ 0) = nz
      · rw [if_pos hc, if_pos hc]
        exact .inr ⟨l, find_some hq, h6⟩
      · rw [if_neg hc, if_neg hc]
        exact .inl h4.symm
    · rw [ha.sp] at k7
      exact ha.frame.trans (k7.mono hdep)
  cases i with
  | eval x =>
    cases he
    obtain ⟨c', g1, -, sm⟩ := one_eval (ρ := ρ) hW it
    have : some c' = some c := g1.symm.trans h1
    cases this
    obtain ⟨v, m', s', k1, k2, k3⟩ := straight sm (fun _ => none) (fun _ _ h => by cases h)
    refine ⟨v, m', _, _, _, s', k1, k2, k3, fun τ sem st st' hst => ?_⟩
    unfold mstep
    simp only [hp]
    rw [hst]
    rfl
  | evalR x =>
    cases he
    obtain ⟨c', -, g1, sm⟩ := one_eval (ρ := ρ) hW it
    have : some c' = some c := g1.symm.trans h1
    cases this
    obtain ⟨v, m', s', k1, k2, k3⟩ := straight sm (fun v => some (wd W v).toInt) (fun _ _ h => by cases h; rfl)
    refine ⟨v, m', _, _, _, s', k1, k2, k3, fun τ sem st st' hst => ?_⟩
    unfold mstep
    simp only [hp]
    rw [hst]
    rfl
  | ifNot x l =>
    cases he
    obtain ⟨j, hj, hc⟩ : ∃ j : Item W, rpn it = rpn j ∧ j.tree.isCmp = true := h.good _ hm
    cases rpn_inj hj
    obtain ⟨c', g1, sm⟩ := one_branch hW it hc false (ρ l)
    have : some c' = some c := g1.symm.trans h1
    cases this
    obtain ⟨q, hq⟩ := find_mem (h.tg l (.inr (.inr (.inr (.inl ⟨_, hm⟩)))))
    obtain ⟨v, m', pc', s', k1, k2, k3⟩ := branch false l sm q hq
    refine ⟨v, m', _, _, pc', s', k1, .inl k2, k3, fun τ sem st st' hst => ?_⟩
    unfold mstep
    simp only [hp]
    rw [hst]
    simp only [Option.bind_some, hq, Option.map_some]
    by_cases hv : (wd W v).toInt = 0
    · rw [if_pos hv, if_pos (by rw [hv]; rfl)]
    · rw [if_neg hv, if_neg (by rw [decide_eq_true hv]; simp)]
  | ifYes x l =>
    cases he
    obtain ⟨j, hj, hc⟩ : ∃ j : Item W, rpn it = rpn j ∧ j.tree.isCmp = true := h.good _ hm
    cases rpn_inj hj
    obtain ⟨c', g1, sm⟩ := one_branch hW it hc true (ρ l)
    have : some c' = some c := g1.symm.trans h1
    cases this
    obtain ⟨q, hq⟩ := find_mem (h.tg l (.inr (.inr (.inr (.inr (.inl ⟨_, hm⟩))))))
    obtain ⟨v, m', pc', s', k1, k2, k3⟩ := branch true l sm q hq
    refine ⟨v, m', _, _, pc', s', k1, .inl k2, k3, fun τ sem st st' hst => ?_⟩
    unfold mstep
    simp only [hp]
    rw [hst]
    simp only [Option.bind_some, hq, Option.map_some]
    by_cases hv : (wd W v).toInt = 0
    · rw [if_pos hv, if_neg (by rw [hv]; simp)]
    · rw [if_neg hv, if_pos (by rw [decide_eq_true hv])]
  | _ => cases he

/-- there is code for every instruction -/
theorem print_total (hW : W = 2 ∨ W = 4) (ρ : Nat → Int) : ∀ code : List (I (lang W).X), Goods code → ∃ P, print ρ code = some P := by
  intro code
  induction code with
  | nil => exact fun _ => ⟨[], rfl⟩
  | cons i code ih =>
    intro hg
    obtain ⟨P, hP⟩ := ih (fun j hj => hg j (List.mem_cons_of_mem _ hj))
    have hi := hg i List.mem_cons_self
    have : ∃ c, one ρ i = some c := by
      cases i with
      | eval e => obtain ⟨it, rfl⟩ := hi; obtain ⟨c, h, -⟩ := one_eval (ρ := ρ) hW it; exact ⟨c, h⟩
      | evalR e => obtain ⟨it, rfl⟩ := hi; obtain ⟨c, -, h, -⟩ := one_eval (ρ := ρ) hW it; exact ⟨c, h⟩
      | ifNot e l => obtain ⟨it, rfl, hc⟩ := hi; obtain ⟨c, h, -⟩ := one_branch hW it hc false (ρ l); exact ⟨c, h⟩
      | ifYes e l => obtain ⟨it, rfl, hc⟩ := hi; obtain ⟨c, h, -⟩ := one_branch hW it hc true (ρ l); exact ⟨c, h⟩
      | _ => exact ⟨_, rfl⟩
    obtain ⟨c, hc⟩ := this
    exact ⟨c ++ P, by simp [print, hc, hP]⟩

end

end Smlr.Fn
