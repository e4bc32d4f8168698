import Verif.Stmt.Run
set_option autoImplicit false
/-! Facts about the code for a tree: its labels, the tables. -/
namespace Smlr.Stmt
open Spec

section
variable {L : Lang}

/-! ### the table of labels -/

theorem findGoto_some : ∀ {gs : List Goto} {n i : Nat}, findGoto n gs = some i → ∃ a x b, gs = a ++ x :: b ∧ a.length = i ∧ x.name = n
  | g :: gs, n, i, h => by
    unfold findGoto at h
    by_cases e : g.name = n
    · rw [if_pos e] at h
      cases h
      exact ⟨[], g, gs, rfl, rfl, e⟩
    · rw [if_neg e] at h
      cases h' : findGoto n gs with
      | none => rw [h'] at h; cases h
      | some j =>
        rw [h'] at h
        cases h
        obtain ⟨a, x, b, h1, h2, h3⟩ := findGoto_some h'
        exact ⟨g :: a, x, b, by rw [h1]; rfl, by simp [h2], h3⟩

theorem findGoto_none : ∀ {gs : List Goto} {n : Nat}, findGoto n gs = none → ∀ x ∈ gs, x.name ≠ n
  | [], n, _ => by simp
  | g :: gs, n, h => by
    unfold findGoto at h
    by_cases e : g.name = n
    · rw [if_pos e] at h; cases h
    · rw [if_neg e] at h
      cases h' : findGoto n gs with
      | none =>
        intro x hx
        rcases List.mem_cons.mp hx with rfl | hx
        · exact e
        · exact findGoto_none h' x hx
      | some j => rw [h'] at h; cases h

def names (gs : List Goto) : List Nat := gs.map (·.name)
def glabs (gs : List Goto) : List Nat := gs.map (·.lab)
/-- the label is defined -/
def dl (gs : List Goto) (l : Nat) : Prop := ∃ x ∈ gs, x.lab = l ∧ x.defd = true
/-- the name is defined -/
def dn (gs : List Goto) (n : Nat) : Prop := ∃ x ∈ gs, x.name = n ∧ x.defd = true
def un (gs : List Goto) (n : Nat) : Prop := ∃ x ∈ gs, x.name = n ∧ x.used = true

structure WF (g : GS) : Prop where
  pos : 1 ≤ g.lab
  names : (names g.gotos).Nodup
  labs : (glabs g.gotos).Nodup
  lt : ∀ x ∈ g.gotos, x.lab < g.lab

structure Ext (g g' : GS) : Prop where
  le : g.lab ≤ g'.lab
  keep : ∀ x ∈ g.gotos, ∃ y ∈ g'.gotos, y.name = x.name ∧ y.lab = x.lab ∧ (x.defd = true → y.defd = true)
  new : ∀ y ∈ g'.gotos, (∃ x ∈ g.gotos, x.lab = y.lab ∧ x.name = y.name) ∨ g.lab ≤ y.lab

theorem Ext.refl (g : GS) : Ext g g := ⟨Nat.le_refl _, fun x hx => ⟨x, hx, rfl, rfl, id⟩, fun y hy => .inl ⟨y, hy, rfl, rfl⟩⟩
theorem Ext.trans {a b c : GS} (h : Ext a b) (h' : Ext b c) : Ext a c := by
  refine ⟨Nat.le_trans h.le h'.le, fun x hx => ?_, fun z hz => ?_⟩
  · obtain ⟨y, hy, h1, h2, h3⟩ := h.keep x hx
    obtain ⟨z, hz, h4, h5, h6⟩ := h'.keep y hy
    exact ⟨z, hz, h4.trans h1, h5.trans h2, fun h => h6 (h3 h)⟩
  · rcases h'.new z hz with ⟨y, hy, h1, h1'⟩ | h1
    · rcases h.new y hy with ⟨x, hx, h2, h2'⟩ | h2
      · exact .inl ⟨x, hx, h2.trans h1, h2'.trans h1'⟩
      · exact .inr (by omega)
    · exact .inr (Nat.le_trans h.le h1)

theorem mem_glabs {gs : List Goto} {l : Nat} : l ∈ glabs gs ↔ ∃ x ∈ gs, x.lab = l := by simp [glabs]

theorem Ext.glabs {g g' : GS} (h : Ext g g') {l : Nat} (hl : l ∈ glabs g.gotos) : l ∈ glabs g'.gotos := by
  obtain ⟨x, hx, rfl⟩ := mem_glabs.mp hl
  obtain ⟨y, hy, -, h2, -⟩ := h.keep x hx
  exact mem_glabs.mpr ⟨y, hy, h2⟩
theorem Ext.glabs_new {g g' : GS} (h : Ext g g') {l : Nat} (hl : l ∈ Smlr.Stmt.glabs g'.gotos) : l ∈ Smlr.Stmt.glabs g.gotos ∨ g.lab ≤ l := by
  obtain ⟨x, hx, rfl⟩ := mem_glabs.mp hl
  rcases h.new x hx with ⟨y, hy, h2, -⟩ | h2
  · exact .inl (mem_glabs.mpr ⟨y, hy, h2⟩)
  · exact .inr h2
theorem Ext.dl {g g' : GS} (h : Ext g g') {l : Nat} (hl : dl g.gotos l) : dl g'.gotos l := by
  obtain ⟨x, hx, rfl, hd⟩ := hl
  obtain ⟨y, hy, -, h2, h3⟩ := h.keep x hx
  exact ⟨y, hy, h2, h3 hd⟩
theorem WF.glabs_lt {g : GS} (h : WF g) {l : Nat} (hl : l ∈ glabs g.gotos) : l < g.lab := by
  obtain ⟨x, hx, rfl⟩ := mem_glabs.mp hl
  exact h.lt x hx

/-- what `addG` does -/
structure Added (n : Nat) (d : Bool) (g : GS) (l : Nat) (g' : GS) : Prop where
  wf : WF g'
  ext : Ext g g'
  cs : g'.cs = g.cs
  d' : g'.d = g.d
  here : ∃ y ∈ g'.gotos, y.name = n ∧ y.lab = l ∧ (d = true → y.defd = true)
  lt : l < g'.lab
  from' : g.lab ≤ l ∨ l ∈ glabs g.gotos
  ndl : d = true → ¬ dl g.gotos l
  ndn : d = true → ¬ dn g.gotos n
  dn : ∀ m, dn g'.gotos m ↔ dn g.gotos m ∨ (d = true ∧ m = n)
  un : ∀ m, un g'.gotos m ↔ un g.gotos m ∨ (d = false ∧ m = n)
  nm : ∀ m, m ∈ names g'.gotos ↔ m ∈ names g.gotos ∨ m = n
  len : g'.gotos.length ≤ g.gotos.length ∨ g.gotos.length < g'.gotos.length ∧ n ∉ names g.gotos

theorem nodup_mid {α β : Type} {f : α → β} {a b : List α} {x : α} (h : ((a ++ x :: b).map f).Nodup) {y : α} (hy : y ∈ a ++ x :: b) (e : f y = f x) : y = x := by
  rw [List.map_append, List.map_cons, List.nodup_append] at h
  obtain ⟨h1, h2, h3⟩ := h
  rw [List.nodup_cons] at h2
  rcases List.mem_append.mp hy with hy | hy
  · exact absurd e (h3 _ (List.mem_map_of_mem hy) _ (by simp))
  · rcases List.mem_cons.mp hy with rfl | hy
    · rfl
    · exact absurd (e ▸ List.mem_map_of_mem hy) h2.1

theorem addG_ok {F : Fx} {n : Nat} {d : Bool} {g g' : GS} {l : Nat} (hw : WF g) (h : addG F n d g = .ok (l, g')) : Added n d g l g' := by
  unfold addG at h
  cases hf : findGoto n g.gotos with
  | some i =>
    rw [hf] at h
    obtain ⟨a, x, b, e1, e2, e3⟩ := findGoto_some hf
    have hx : g.gotos[i]? = some x := by rw [e1, ← e2]; exact get_mid a x b
    simp only [hx] at h
    by_cases hd : (x.defd && d) = true
    · rw [if_pos hd] at h; cases h
    · rw [if_neg hd] at h
      obtain ⟨x', hx'⟩ : ∃ x' : Goto, x' = { x with used := x.used || !d, defd := x.defd || d } := ⟨_, rfl⟩
      have es : g.gotos.set i x' = a ++ x' :: b := by
        rw [e1, ← e2, List.set_append_right _ _ (Nat.le_refl _)]
        simp
      rw [← hx', es] at h
      simp only [Except.ok.injEq, Prod.mk.injEq] at h
      obtain ⟨rfl, rfl⟩ := h
      have hn : x'.name = x.name := by rw [hx']
      have hl : x'.lab = x.lab := by rw [hx']
      have hdd : x'.defd = (x.defd || d) := by rw [hx']
      have huu : x'.used = (x.used || !d) := by rw [hx']
      have hn1 : names (a ++ x' :: b) = names (a ++ x :: b) := by simp [names, hn]
      have hl1 : glabs (a ++ x' :: b) = glabs (a ++ x :: b) := by simp [glabs, hl]
      have ndn' : d = true → ¬ Smlr.Stmt.dn g.gotos n := by
        intro hd1 ⟨y, hy, h1, h2⟩
        have h3 := hw.names
        rw [e1] at hy h3
        have := nodup_mid (f := fun z : Goto => z.name) h3 hy (h1.trans e3.symm)
        rw [this] at h2
        exact hd (by rw [h2, hd1]; rfl)
      have mem : ∀ y, y ∈ a ++ x' :: b ↔ y = x' ∨ (y ∈ a ∨ y ∈ b) := by
        intro y; simp only [List.mem_append, List.mem_cons]
        constructor
        · rintro (h | h | h)
          · exact .inr (.inl h)
          · exact .inl h
          · exact .inr (.inr h)
        · rintro (h | h | h)
          · exact .inr (.inl h)
          · exact .inl h
          · exact .inr (.inr h)
      have mem0 : ∀ y, y ∈ g.gotos ↔ y = x ∨ (y ∈ a ∨ y ∈ b) := by
        intro y; rw [e1]; simp only [List.mem_append, List.mem_cons]
        constructor
        · rintro (h | h | h)
          · exact .inr (.inl h)
          · exact .inl h
          · exact .inr (.inr h)
        · rintro (h | h | h)
          · exact .inr (.inl h)
          · exact .inl h
          · exact .inr (.inr h)
      refine ⟨⟨hw.pos, ?_, ?_, ?_⟩, ⟨Nat.le_refl _, ?_, ?_⟩, rfl, rfl, ?_, ?_, .inr ?_, ?_, ndn', ?_, ?_, ?_, .inl ?_⟩
      · show (names (a ++ x' :: b)).Nodup
        rw [hn1, ← e1]; exact hw.names
      · show (glabs (a ++ x' :: b)).Nodup
        rw [hl1, ← e1]; exact hw.labs
      · intro y hy
        rcases (mem y).mp hy with rfl | hy
        · rw [hl]; exact hw.lt x ((mem0 x).mpr (.inl rfl))
        · exact hw.lt y ((mem0 y).mpr (.inr hy))
      · intro y hy
        rcases (mem0 y).mp hy with rfl | hy
        · exact ⟨x', (mem x').mpr (.inl rfl), hn, hl, fun h => by rw [hdd, h]; rfl⟩
        · exact ⟨y, (mem y).mpr (.inr hy), rfl, rfl, id⟩
      · intro y hy
        rcases (mem y).mp hy with rfl | hy
        · exact .inl ⟨x, (mem0 x).mpr (.inl rfl), hl.symm, hn.symm⟩
        · exact .inl ⟨y, (mem0 y).mpr (.inr hy), rfl, rfl⟩
      · exact ⟨x', (mem x').mpr (.inl rfl), hn.trans e3, hl, fun h => by rw [hdd, h]; simp⟩
      · exact hw.lt x ((mem0 x).mpr (.inl rfl))
      · exact mem_glabs.mpr ⟨x, (mem0 x).mpr (.inl rfl), rfl⟩
      · intro hd1 ⟨y, hy, h1, h2⟩
        have h3 := hw.labs
        rw [e1] at hy h3
        have := nodup_mid (f := fun z : Goto => z.lab) h3 hy h1
        rw [this] at h2
        exact hd (by rw [h2, hd1]; rfl)
      · intro m
        constructor
        · rintro ⟨y, hy, h1, h2⟩
          rcases (mem y).mp hy with rfl | hy
          · rw [hdd, Bool.or_eq_true] at h2
            rcases h2 with h2 | h2
            · exact .inl ⟨x, (mem0 x).mpr (.inl rfl), hn.symm.trans h1, h2⟩
            · exact .inr ⟨h2, by rw [← h1, hn, e3]⟩
          · exact .inl ⟨y, (mem0 y).mpr (.inr hy), h1, h2⟩
        · rintro (⟨y, hy, h1, h2⟩ | ⟨h1, rfl⟩)
          · rcases (mem0 y).mp hy with rfl | hy
            · exact ⟨x', (mem x').mpr (.inl rfl), hn.trans h1, by rw [hdd, h2]; rfl⟩
            · exact ⟨y, (mem y).mpr (.inr hy), h1, h2⟩
          · exact ⟨x', (mem x').mpr (.inl rfl), hn.trans e3, by rw [hdd, h1]; simp⟩
      · intro m
        constructor
        · rintro ⟨y, hy, h1, h2⟩
          rcases (mem y).mp hy with rfl | hy
          · rw [huu, Bool.or_eq_true] at h2
            rcases h2 with h2 | h2
            · exact .inl ⟨x, (mem0 x).mpr (.inl rfl), hn.symm.trans h1, h2⟩
            · exact .inr ⟨by simpa using h2, by rw [← h1, hn, e3]⟩
          · exact .inl ⟨y, (mem0 y).mpr (.inr hy), h1, h2⟩
        · rintro (⟨y, hy, h1, h2⟩ | ⟨h1, rfl⟩)
          · rcases (mem0 y).mp hy with rfl | hy
            · exact ⟨x', (mem x').mpr (.inl rfl), hn.trans h1, by rw [huu, h2]; rfl⟩
            · exact ⟨y, (mem y).mpr (.inr hy), h1, h2⟩
          · exact ⟨x', (mem x').mpr (.inl rfl), hn.trans e3, by rw [huu, h1]; simp⟩
      · intro m
        show m ∈ names (a ++ x' :: b) ↔ _
        rw [hn1, ← e1]
        refine ⟨.inl, fun h => h.elim id fun h => ?_⟩
        rw [h, ← e3, e1]
        simp [names]
      · show (a ++ x' :: b).length ≤ _
        rw [e1]; simp
  | none =>
    rw [hf] at h
    have hno := findGoto_none hf
    by_cases hm : g.gotos.length ≥ F.maxGotos
    · simp only [if_pos hm] at h; cases h
    · simp only [if_neg hm, Except.ok.injEq, Prod.mk.injEq] at h
      obtain ⟨rfl, rfl⟩ := h
      have nn : n ∉ names g.gotos := by
        intro h
        obtain ⟨x, hx, e⟩ := List.mem_map.mp h
        exact hno x hx e
      have nl : g.lab ∉ glabs g.gotos := fun h => by
        have := hw.glabs_lt h
        omega
      have ap : ∀ {α : Type} {p : List α} {x : α}, p.Nodup → x ∉ p → (p ++ [x]).Nodup := by
        intro α p x h1 h2
        rw [List.nodup_append]
        exact ⟨h1, by simp, fun y hy z hz => by
          rw [List.mem_singleton] at hz
          intro e
          rw [e, hz] at hy
          exact h2 hy⟩
      refine ⟨⟨?_, ?_, ?_, ?_⟩, ⟨Nat.le_succ _, ?_, ?_⟩, rfl, rfl, ?_, Nat.lt_succ_self _, .inl (Nat.le_refl _), ?_, ?_, ?_, ?_, ?_, .inr ⟨?_, nn⟩⟩
      · exact Nat.le_succ_of_le hw.pos
      · show (names (g.gotos ++ [_])).Nodup
        unfold names
        rw [List.map_append]
        exact ap hw.names nn
      · show (glabs (g.gotos ++ [_])).Nodup
        unfold glabs
        rw [List.map_append]
        exact ap hw.labs nl
      · intro x hx
        rcases List.mem_append.mp hx with hx | hx
        · exact Nat.lt_succ_of_lt (hw.lt x hx)
        · rw [List.mem_singleton] at hx
          rw [hx]; exact Nat.lt_succ_self _
      · exact fun x hx => ⟨x, List.mem_append_left _ hx, rfl, rfl, id⟩
      · intro y hy
        rcases List.mem_append.mp hy with hy | hy
        · exact .inl ⟨y, hy, rfl, rfl⟩
        · rw [List.mem_singleton] at hy
          rw [hy]; exact .inr (Nat.le_refl _)
      · exact ⟨_, List.mem_append_right _ (List.mem_singleton.mpr rfl), rfl, rfl, id⟩
      · rintro - ⟨x, hx, e, -⟩
        exact nl (mem_glabs.mpr ⟨x, hx, e⟩)
      · rintro - ⟨x, hx, e, -⟩
        exact nn (List.mem_map.mpr ⟨x, hx, e⟩)
      · intro m
        constructor
        · rintro ⟨y, hy, h1, h2⟩
          rcases List.mem_append.mp hy with hy | hy
          · exact .inl ⟨y, hy, h1, h2⟩
          · rw [List.mem_singleton] at hy
            subst hy
            exact .inr ⟨h2, h1.symm⟩
        · rintro (⟨y, hy, h1, h2⟩ | ⟨h1, rfl⟩)
          · exact ⟨y, List.mem_append_left _ hy, h1, h2⟩
          · exact ⟨_, List.mem_append_right _ (List.mem_singleton.mpr rfl), rfl, h1⟩
      · intro m
        constructor
        · rintro ⟨y, hy, h1, h2⟩
          rcases List.mem_append.mp hy with hy | hy
          · exact .inl ⟨y, hy, h1, h2⟩
          · rw [List.mem_singleton] at hy
            subst hy
            exact .inr ⟨by simpa using h2, h1.symm⟩
        · rintro (⟨y, hy, h1, h2⟩ | ⟨h1, rfl⟩)
          · exact ⟨y, List.mem_append_left _ hy, h1, h2⟩
          · exact ⟨_, List.mem_append_right _ (List.mem_singleton.mpr rfl), rfl, by simp [h1]⟩
      · intro m
        show m ∈ names (g.gotos ++ [_]) ↔ _
        unfold names
        rw [List.map_append, List.mem_append]
        simp
      · show _ < (g.gotos ++ [_]).length
        simp

theorem addG_error {F : Fx} {n : Nat} {d : Bool} {g : GS} {e : Err} (h : addG F n d g = .error e) :
    (d = true ∧ dn g.gotos n) ∨ (n ∉ names g.gotos ∧ F.maxGotos ≤ g.gotos.length) := by
  unfold addG at h
  cases hf : findGoto n g.gotos with
  | some i =>
    rw [hf] at h
    obtain ⟨a, x, b, e1, e2, e3⟩ := findGoto_some hf
    have hx : g.gotos[i]? = some x := by rw [e1, ← e2]; exact get_mid a x b
    simp only [hx] at h
    by_cases hd : (x.defd && d) = true
    · rw [Bool.and_eq_true] at hd
      exact .inl ⟨hd.2, x, by rw [e1]; simp, e3, hd.1⟩
    · rw [if_neg hd] at h; cases h
  | none =>
    rw [hf] at h
    by_cases hm : g.gotos.length ≥ F.maxGotos
    · refine .inr ⟨fun h' => ?_, hm⟩
      obtain ⟨x, hx, e⟩ := List.mem_map.mp h'
      exact findGoto_none hf x hx e
    · simp only [if_neg hm] at h; cases h

/-! ### labels -/

def labs (c : List (I L.X)) : List Nat := c.filterMap fun i => match i with | .lab l => some l | _ => none

theorem labs_append (a b : List (I L.X)) : labs (a ++ b) = labs a ++ labs b := by simp [labs]
theorem labs_nil : labs ([] : List (I L.X)) = [] := rfl
theorem labs_lab (l : Nat) (b : List (I L.X)) : labs (.lab l :: b) = l :: labs b := rfl
theorem labs_jmp (l : Nat) (b : List (I L.X)) : labs (.jmp l :: b) = labs b := rfl
theorem labs_eval (l : List L.X) (b : List (I L.X)) : labs (.eval l :: b) = labs b := rfl
theorem labs_evalR (l : List L.X) (b : List (I L.X)) : labs (.evalR l :: b) = labs b := rfl
theorem labs_jn (e : L.E) (l : Nat) : labs (jn e l) = [] := by
  unfold jn
  cases L.const e with
  | none => simp only; split <;> rfl
  | some v => simp only; split <;> rfl
theorem labs_jy (e : L.E) (l : Nat) : labs (jy e l) = [] := by
  unfold jy
  cases L.const e with
  | none => simp only; split <;> rfl
  | some v => simp only; split <;> rfl
theorem labs_jnOpt (e : Option L.E) (l : Nat) : labs (jnOpt e l) = [] := by
  cases e with
  | none => rfl
  | some e => exact labs_jn e l
theorem labs_evals (es : List (List L.X)) : labs (L := L) (es.map .eval) = [] := by
  induction es with
  | nil => rfl
  | cons e es ih => exact ih
theorem labs_init (i : Init L) : labs (initCode i) = [] := by
  cases i with
  | none => rfl
  | expr e => rfl
  | decl es => exact labs_evals es
theorem labs_je (cs : List (Int × Nat)) : labs (L := L) (cs.map fun c => .je c.1 c.2) = [] := by
  induction cs with
  | nil => rfl
  | cons e es ih => exact ih
theorem labs_ite (b : Prop) [Decidable b] (l : Nat) : labs (L := L) (if b then [] else [.jmp l]) = [] := by split <;> rfl
theorem labs_sw (brk lbl d : Nat) (cs : List (Int × Nat)) : labs (L := L) (swEnd brk lbl d cs) = [lbl, brk] := by
  simp only [swEnd, labs_append, labs_je, labs_ite, labs_jmp, labs_lab, labs_nil, List.append_nil, List.cons_append, List.nil_append]

/-- the labels `ls` are made while the state goes from `g` to `g'` -/
def Good (g : GS) (ls : List Nat) (g' : GS) : Prop :=
  WF g → WF g' ∧ Ext g g' ∧ ls.Nodup ∧ ∀ l ∈ ls, l < g'.lab ∧ (g.lab ≤ l ∨ l ∈ glabs g.gotos) ∧ ¬ dl g.gotos l ∧ (l ∈ glabs g'.gotos → dl g'.gotos l)

theorem Good.nil (g : GS) : Good g [] g := fun h => ⟨h, .refl _, .nil, by simp⟩

theorem Good.append {g g1 g2 : GS} {a b : List Nat} (h : Good g a g1) (h' : Good g1 b g2) : Good g (a ++ b) g2 := by
  intro hw
  obtain ⟨w1, e1, n1, f1⟩ := h hw
  obtain ⟨w2, e2, n2, f2⟩ := h' w1
  refine ⟨w2, e1.trans e2, ?_, fun l hl => ?_⟩
  · rw [List.nodup_append]
    refine ⟨n1, n2, fun l hl m hm e => ?_⟩
    subst e
    obtain ⟨a1, a2, a3, a4⟩ := f1 l hl
    obtain ⟨b1, b2, b3, b4⟩ := f2 l hm
    rcases b2 with b2 | b2
    · omega
    · exact b3 (a4 b2)
  · rcases List.mem_append.mp hl with hl | hl
    · obtain ⟨a1, a2, a3, a4⟩ := f1 l hl
      refine ⟨Nat.lt_of_lt_of_le a1 e2.le, a2, a3, fun h => ?_⟩
      rcases e2.glabs_new h with h | h
      · exact e2.dl (a4 h)
      · omega
    · obtain ⟨b1, b2, b3, b4⟩ := f2 l hl
      refine ⟨b1, ?_, fun h => b3 (e1.dl h), b4⟩
      rcases b2 with b2 | b2
      · exact .inl (Nat.le_trans e1.le b2)
      · exact (e1.glabs_new b2).symm

theorem Good.fresh {g g' : GS} {a b fr : List Nat} (k : Nat) {cs : List (Int × Nat)} {d : Nat} (h : Good ⟨g.lab + k, cs, d, g.gotos⟩ a g') (hn : fr.Nodup)
    (hr : ∀ l ∈ fr, g.lab ≤ l ∧ l < g.lab + k) (hp : b.Perm (fr ++ a)) : Good g b g' := by
  intro hw
  have w0 : WF ⟨g.lab + k, cs, d, g.gotos⟩ := ⟨Nat.le_trans hw.pos (Nat.le_add_right _ _), hw.names, hw.labs, fun x hx => Nat.lt_of_lt_of_le (hw.lt x hx) (Nat.le_add_right _ _)⟩
  obtain ⟨w1, e1, n1, f1⟩ := h w0
  have le : g.lab + k ≤ g'.lab := e1.le
  refine ⟨w1, ⟨by omega, e1.keep, fun y hy => ?_⟩, ?_, fun l hl => ?_⟩
  · rcases e1.new y hy with h | h
    · exact .inl h
    · have h : g.lab + k ≤ y.lab := h
      exact .inr (by omega)
  · rw [hp.nodup_iff, List.nodup_append]
    refine ⟨hn, n1, fun l hl m hm e => ?_⟩
    subst e
    obtain ⟨r1, r2⟩ := hr l hl
    rcases (f1 l hm).2.1 with h | h
    · have h : g.lab + k ≤ l := h
      omega
    · have := hw.glabs_lt h
      omega
  · rcases List.mem_append.mp (hp.mem_iff.mp hl) with hl | hl
    · obtain ⟨r1, r2⟩ := hr l hl
      refine ⟨by omega, .inl r1, fun ⟨x, hx, e, _⟩ => ?_, fun h => ?_⟩
      · have := hw.lt x hx
        omega
      · rcases e1.glabs_new h with h | h
        · have := hw.glabs_lt h
          omega
        · have h : g.lab + k ≤ l := h
          omega
    · obtain ⟨a1, a2, a3, a4⟩ := f1 l hl
      refine ⟨a1, ?_, a3, a4⟩
      rcases a2 with h | h
      · have h : g.lab + k ≤ l := h
        exact .inl (by omega)
      · exact .inr h

theorem Good.state {g g' : GS} {a : List Nat} {cs : List (Int × Nat)} {d : Nat} (h : Good g a g') : Good g a ⟨g'.lab, cs, d, g'.gotos⟩ := by
  intro hw
  obtain ⟨w, e, n, f⟩ := h hw
  exact ⟨⟨w.pos, w.names, w.labs, w.lt⟩, ⟨e.le, e.keep, e.new⟩, n, f⟩

theorem and_inv {α β : Type} {x : Except Err α} {f : α → Except Err β} {b : β} (h : Except.and x f = .ok b) : ∃ a, x = .ok a ∧ f a = .ok b := by
  cases x with
  | error e => cases h
  | ok a => exact ⟨a, rfl, h⟩

theorem gen_labs (F : Fx) : ∀ (s : Stmt L) (tl : Bool) (sl : Nat) (bc : Option (Nat × Nat)) (ci : Nat) (g : GS) (c : List (I L.X)) (g' : GS),
    gen F s tl sl bc ci g = .ok (c, g') → Good g (labs c) g' := by
  intro s
  induction s with
  | nil => intro tl sl bc ci g c g' h; cases h; exact .nil g
  | cons s ss ih ih' =>
    intro tl sl bc ci g c g' h
    obtain ⟨a, ha, h⟩ := and_inv h
    obtain ⟨b, hb, h⟩ := and_inv h
    cases h
    rw [labs_append]
    exact (ih _ _ _ _ _ _ _ ha).append (ih' _ _ _ _ _ _ _ hb)
  | decl es => intro tl sl bc ci g c g' h; cases h; rw [labs_evals]; exact .nil g
  | empty => intro tl sl bc ci g c g' h; cases h; exact .nil g
  | expr e => intro tl sl bc ci g c g' h; cases h; exact .nil g
  | block ss ih => intro tl sl bc ci g c g' h; exact ih _ _ _ _ _ _ _ h
  | ret e =>
    intro tl sl bc ci g c g' h
    simp only [gen] at h
    split at h
    · cases h
    · cases h
      have : labs (retCode F tl e) = [] := by cases e <;> cases tl <;> rfl
      rw [this]
      exact .nil g
  | whl e b ih =>
    intro tl sl bc ci g c g' h
    obtain ⟨a, ha, h⟩ := and_inv h
    cases h
    refine (ih _ _ _ _ _ _ _ ha).fresh 2 (fr := [g.lab, g.lab + 1]) (by simp) (by simp) ?_
    simp only [labs_lab, labs_append, labs_jn, labs_ite, labs_nil, List.nil_append, List.cons_append]
    exact .cons _ (List.perm_append_comm)
  | dow b e ih =>
    intro tl sl bc ci g c g' h
    obtain ⟨a, ha, h⟩ := and_inv h
    cases h
    refine (ih _ _ _ _ _ _ _ ha).fresh 3 (fr := [g.lab, g.lab + 1, g.lab + 2]) (by simp) (by simp) ?_
    simp only [labs_lab, labs_append, labs_jy, labs_nil, List.nil_append, List.cons_append]
    exact .cons _ (List.perm_append_comm)
  | ift e s ih =>
    intro tl sl bc ci g c g' h
    obtain ⟨a, ha, h⟩ := and_inv h
    cases h
    refine (ih _ _ _ _ _ _ _ ha).fresh 2 (fr := [g.lab]) (by simp) (by simp) ?_
    simp only [labs_lab, labs_append, labs_jn, labs_nil, List.nil_append, List.cons_append]
    exact List.perm_append_comm
  | ife e s s' ih ih' =>
    intro tl sl bc ci g c g' h
    obtain ⟨a, ha, h⟩ := and_inv h
    obtain ⟨b, hb, h⟩ := and_inv h
    cases h
    refine ((ih _ _ _ _ _ _ _ ha).append (ih' _ _ _ _ _ _ _ hb)).fresh 2 (fr := [g.lab + 1, g.lab]) (by simp) (by simp) ?_
    simp only [labs_lab, labs_jmp, labs_append, labs_jn, labs_nil, List.nil_append, List.cons_append]
    refine List.perm_middle.trans ?_
    rw [← List.append_assoc]
    exact (List.Perm.cons _ List.perm_append_comm).trans (List.Perm.swap _ _ _)
  | «for» i e1 e3 b ih =>
    intro tl sl bc ci g c g' h
    obtain ⟨a, ha, h⟩ := and_inv h
    cases h
    have hg := ih _ _ _ _ _ _ _ ha
    simp only [labs_append, labs_init, labs_lab, labs_jnOpt, labs_nil, List.nil_append]
    unfold plan
    cases e3 with
    | none =>
      simp only
      split
      · refine hg.fresh 4 (fr := [g.lab, g.lab + 3]) (by simp) (by simp) ?_
        simp only [labs_nil, List.nil_append, List.cons_append]
        exact .cons _ List.perm_append_comm
      · refine hg.fresh 4 (fr := [g.lab, g.lab + 3]) (by simp) (by simp) ?_
        simp only [labs_nil, labs_jmp, List.nil_append, List.cons_append]
        exact .cons _ List.perm_append_comm
    | some e =>
      simp only
      split
      · refine hg.fresh 4 (fr := [g.lab, g.lab + 1, g.lab + 3]) (by simp) (by simp) ?_
        simp only [labs_append, labs_nil, labs_lab, labs_eval, labs_ite, List.nil_append, List.cons_append]
        exact .cons _ List.perm_append_comm
      · refine hg.fresh 4 (fr := [g.lab, g.lab + 1, g.lab + 2, g.lab + 3]) (by simp) (by simp) ?_
        simp only [labs_append, labs_nil, labs_lab, labs_eval, labs_jmp, List.nil_append, List.cons_append]
        exact .cons _ (.cons _ (.cons _ List.perm_append_comm))
  | brk =>
    intro tl sl bc ci g c g' h
    cases bc with
    | none => cases h
    | some x => cases h; exact .nil g
  | cont =>
    intro tl sl bc ci g c g' h
    cases bc with
    | none => cases h
    | some x =>
      simp only [gen] at h
      split at h
      · cases h
      · cases h; exact .nil g
  | switch e b ih =>
    intro tl sl bc ci g c g' h
    simp only [gen] at h
    split at h
    · cases h
    · obtain ⟨a, ha, h⟩ := and_inv h
      cases h
      refine Good.state (((ih _ _ _ _ _ _ _ ha).fresh 2 (fr := [g.lab + 1, g.lab]) (by simp) (by simp) ?_))
      simp only [labs_append, labs_sw, labs_evalR, labs_jmp, List.cons_append, List.nil_append]
      exact List.perm_append_comm
  | case e s ih =>
    intro tl sl bc ci g c g' h
    simp only [gen] at h
    split at h
    · cases h
    cases hv : L.const e with
    | none => rw [hv] at h; cases h
    | some v =>
      simp only [hv] at h
      split at h
      · cases h
      split at h
      · cases h
      obtain ⟨a, ha, h⟩ := and_inv h
      cases h
      exact (ih _ _ _ _ _ _ _ ha).fresh 1 (fr := [g.lab]) (by simp) (by simp) (.refl _)
  | default s ih =>
    intro tl sl bc ci g c g' h
    simp only [gen] at h
    split at h
    · cases h
    split at h
    · cases h
    obtain ⟨a, ha, h⟩ := and_inv h
    cases h
    exact (ih _ _ _ _ _ _ _ ha).fresh 1 (fr := [g.lab]) (by simp) (by simp) (.refl _)
  | goto n =>
    intro tl sl bc ci g c g' h
    obtain ⟨a, ha, h⟩ := and_inv h
    cases h
    intro hw
    have := addG_ok hw ha
    exact ⟨this.wf, this.ext, .nil, by simp [labs]⟩
  | label n s ih =>
    intro tl sl bc ci g c g' h
    obtain ⟨a, ha, h⟩ := and_inv h
    obtain ⟨b, hb, h⟩ := and_inv h
    cases h
    refine Good.append (a := [a.1]) (g1 := a.2) (fun hw => ?_) (ih _ _ _ _ _ _ _ hb)
    have := addG_ok hw ha
    refine ⟨this.wf, this.ext, by simp, fun l hl => ?_⟩
    rw [List.mem_singleton] at hl
    subst hl
    refine ⟨this.lt, this.from', this.ndl rfl, fun _ => ?_⟩
    obtain ⟨y, hy, -, h1, h2⟩ := this.here
    exact ⟨y, hy, h1, h2 rfl⟩

end

end Smlr.Stmt
