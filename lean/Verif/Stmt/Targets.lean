import Verif.Stmt.Code
set_option autoImplicit false
/-! Where the jumps go. -/
namespace Smlr.Stmt
open Spec

section
variable {L : Lang}

def tgt : I L.X → Option Nat
  | .jmp l | .jz l | .jnz l | .ifNot _ l | .ifYes _ l | .je _ l => some l
  | _ => none

def tgts (c : List (I L.X)) : List Nat := c.filterMap tgt

theorem tgts_append (a b : List (I L.X)) : tgts (a ++ b) = tgts a ++ tgts b := by simp [tgts]
theorem tgts_nil : tgts ([] : List (I L.X)) = [] := rfl
theorem tgts_lab (l : Nat) (b : List (I L.X)) : tgts (.lab l :: b) = tgts b := rfl
theorem tgts_jmp (l : Nat) (b : List (I L.X)) : tgts (.jmp l :: b) = l :: tgts b := rfl
theorem tgts_eval (l : List L.X) (b : List (I L.X)) : tgts (.eval l :: b) = tgts b := rfl
theorem tgts_evalR (l : List L.X) (b : List (I L.X)) : tgts (.evalR l :: b) = tgts b := rfl
theorem tgts_jn {e : L.E} {l t : Nat} (h : t ∈ tgts (jn e l)) : t = l := by
  unfold jn at h
  cases hc : L.const e with
  | none => simp only [hc] at h; split at h <;> simp [tgts, tgt] at h <;> first | exact h | exact h.symm
  | some v => simp only [hc] at h; split at h <;> simp [tgts, tgt] at h <;> first | exact h | exact h.symm
theorem tgts_jy {e : L.E} {l t : Nat} (h : t ∈ tgts (jy e l)) : t = l := by
  unfold jy at h
  cases hc : L.const e with
  | none => simp only [hc] at h; split at h <;> simp [tgts, tgt] at h <;> first | exact h | exact h.symm
  | some v => simp only [hc] at h; split at h <;> simp [tgts, tgt] at h <;> first | exact h | exact h.symm
theorem tgts_jnOpt {e : Option L.E} {l t : Nat} (h : t ∈ tgts (jnOpt e l)) : t = l := by
  cases e with
  | none => cases h
  | some e => exact tgts_jn h
theorem tgts_evals (es : List (List L.X)) : tgts (L := L) (es.map .eval) = [] := by
  induction es with
  | nil => rfl
  | cons e es ih => exact ih
theorem tgts_init (i : Init L) : tgts (initCode i) = [] := by
  cases i with
  | none => rfl
  | expr e => rfl
  | decl es => exact tgts_evals es
theorem tgts_je (cs : List (Int × Nat)) : tgts (L := L) (cs.map fun c => .je c.1 c.2) = cs.map (·.2) := by
  induction cs with
  | nil => rfl
  | cons e es ih => show e.2 :: _ = _; rw [List.map_cons, ← ih]; rfl
theorem tgts_ite (b : Prop) [Decidable b] (l t : Nat) (h : t ∈ tgts (L := L) (if b then [] else [.jmp l])) : t = l := by
  split at h
  · cases h
  · simpa [tgts, tgt] using h

variable {F : Fx}

/-- a place where a jump of a statement may go -/
def TOk (F : Fx) (ls : List Nat) (bc : Option (Nat × Nat)) (gn : List Nat) (g' : GS) (l : Nat) : Prop :=
  l ∈ ls ∨ (∃ x, bc = some x ∧ (l = x.1 ∨ (l = x.2 ∧ x.2 ≠ 0))) ∨ l = F.epi ∨ ∃ x ∈ g'.gotos, x.lab = l ∧ x.name ∈ gn

structure Tg (F : Fx) (c : List (I L.X)) (bc : Option (Nat × Nat)) (gn : List Nat) (g g' : GS) : Prop where
  tg : ∀ l ∈ tgts c, TOk F (labs c) bc gn g' l
  cs : ∀ x ∈ g'.cs, x ∈ g.cs ∨ x.2 ∈ labs c
  d : g'.d = g.d ∨ g'.d ∈ labs c
  df : ∀ x ∈ g'.gotos, x.defd = true → (∃ y ∈ g.gotos, y.lab = x.lab ∧ y.defd = true) ∨ x.lab ∈ labs c

theorem TOk.mono {ls ls' : List Nat} {bc bc' : Option (Nat × Nat)} {gn gn' : List Nat} {g g' : GS} {l : Nat} (h : TOk F ls bc gn g l) (h1 : ∀ x ∈ ls, x ∈ ls')
    (h2 : ∀ x, bc = some x → ∀ l, (l = x.1 ∨ (l = x.2 ∧ x.2 ≠ 0)) → l ∈ ls' ∨ ∃ y, bc' = some y ∧ (l = y.1 ∨ (l = y.2 ∧ y.2 ≠ 0))) (h3 : ∀ x ∈ gn, x ∈ gn')
    (h4 : ∀ x ∈ g.gotos, ∃ y ∈ g'.gotos, y.name = x.name ∧ y.lab = x.lab) : TOk F ls' bc' gn' g' l := by
  rcases h with h | ⟨x, h, h'⟩ | h | ⟨x, h, h', h''⟩
  · exact .inl (h1 l h)
  · rcases h2 x h l h' with h | h
    · exact .inl h
    · exact .inr (.inl h)
  · exact .inr (.inr (.inl h))
  · obtain ⟨y, hy, e1, e2⟩ := h4 x h
    exact .inr (.inr (.inr ⟨y, hy, e2.trans h', e1 ▸ h3 _ h''⟩))

theorem Tg.two {a b : List (I L.X)} {bc : Option (Nat × Nat)} {gn gn' : List Nat} {g g1 g2 : GS} (h : Tg F a bc gn g g1) (h' : Tg F b bc gn' g1 g2) (he : Ext g1 g2) :
    Tg F (a ++ b) bc (gn ++ gn') g g2 := by
  refine ⟨fun l hl => ?_, fun x hx => ?_, ?_, fun x hx hd => ?_⟩
  · rw [labs_append]
    rw [tgts_append] at hl
    rcases List.mem_append.mp hl with hl | hl
    · refine (h.tg l hl).mono (fun x hx => List.mem_append_left _ hx) (fun x hx l hl => .inr ⟨x, hx, hl⟩) (fun x hx => List.mem_append_left _ hx) (fun x hx => ?_)
      obtain ⟨y, hy, e1, e2, -⟩ := he.keep x hx
      exact ⟨y, hy, e1, e2⟩
    · exact (h'.tg l hl).mono (fun x hx => List.mem_append_right _ hx) (fun x hx l hl => .inr ⟨x, hx, hl⟩) (fun x hx => List.mem_append_right _ hx) (fun x hx => ⟨x, hx, rfl, rfl⟩)
  · rw [labs_append]
    rcases h'.cs x hx with hx | hx
    · rcases h.cs x hx with hx | hx
      · exact .inl hx
      · exact .inr (List.mem_append_left _ hx)
    · exact .inr (List.mem_append_right _ hx)
  · rw [labs_append]
    rcases h'.d with hx | hx
    · rcases h.d with hy | hy
      · exact .inl (hx.trans hy)
      · exact .inr (List.mem_append_left _ (hx ▸ hy))
    · exact .inr (List.mem_append_right _ hx)
  · rw [labs_append]
    rcases h'.df x hx hd with ⟨y, hy, e1, e2⟩ | hx
    · rcases h.df y hy e2 with ⟨z, hz, e3, e4⟩ | hy
      · exact .inl ⟨z, hz, e3.trans e1, e4⟩
      · exact .inr (List.mem_append_left _ (e1 ▸ hy))
    · exact .inr (List.mem_append_right _ hx)

/-- code around the code of a statement -/
theorem Tg.wrap {a c : List (I L.X)} {bc bc' : Option (Nat × Nat)} {gn : List Nat} {g g0 g' : GS} (h : Tg F a bc gn g0 g') (hcs : g0.cs = g.cs) (hd : g0.d = g.d) (hg : g0.gotos = g.gotos)
    (hl : ∀ x ∈ labs a, x ∈ labs c) (ht : ∀ t ∈ tgts c, t ∈ tgts a ∨ t ∈ labs c)
    (hb : ∀ x, bc = some x → ∀ l, (l = x.1 ∨ (l = x.2 ∧ x.2 ≠ 0)) → l ∈ labs c ∨ ∃ y, bc' = some y ∧ (l = y.1 ∨ (l = y.2 ∧ y.2 ≠ 0))) : Tg F c bc' gn g g' := by
  refine ⟨fun l hl' => ?_, fun x hx => ?_, ?_, fun x hx hd => ?_⟩
  · rcases ht l hl' with h1 | h1
    · exact (h.tg l h1).mono hl hb (fun x hx => hx) (fun x hx => ⟨x, hx, rfl, rfl⟩)
    · exact .inl h1
  · rcases h.cs x hx with h1 | h1
    · exact .inl (hcs ▸ h1)
    · exact .inr (hl _ h1)
  · rcases h.d with h1 | h1
    · exact .inl (h1.trans hd)
    · exact .inr (hl _ h1)
  · rcases h.df x hx hd with h1 | h1
    · exact .inl (hg ▸ h1)
    · exact .inr (hl _ h1)

theorem Tg.plain {c : List (I L.X)} {bc : Option (Nat × Nat)} {gn : List Nat} {g : GS} (h : ∀ l ∈ tgts c, TOk F (labs c) bc gn g l) : Tg F c bc gn g g :=
  ⟨h, fun _ hx => .inl hx, .inl rfl, fun x hx hd => .inl ⟨x, hx, rfl, hd⟩⟩

theorem WF.bump' {g : GS} (k : Nat) (hw : WF g) : WF ⟨g.lab + k, g.cs, g.d, g.gotos⟩ :=
  ⟨Nat.le_trans hw.pos (Nat.le_add_right _ _), hw.names, hw.labs, fun x hx => Nat.lt_of_lt_of_le (hw.lt x hx) (Nat.le_add_right _ _)⟩
theorem WF.bump2 {g : GS} (k : Nat) (hw : WF g) : WF ⟨g.lab + k, [], 0, g.gotos⟩ := ⟨(hw.bump' k).pos, hw.names, hw.labs, (hw.bump' k).lt⟩
theorem WF.bump3 {g : GS} (k : Nat) {cs : List (Int × Nat)} {d : Nat} (hw : WF g) : WF ⟨g.lab + k, cs, d, g.gotos⟩ := ⟨(hw.bump' k).pos, hw.names, hw.labs, (hw.bump' k).lt⟩

theorem nodup_inj {gs : List Goto} (h : (names gs).Nodup) {x y : Goto} (hx : x ∈ gs) (hy : y ∈ gs) (e : x.name = y.name) : x = y := by
  obtain ⟨a, b, rfl⟩ := List.append_of_mem hy
  exact nodup_mid (f := fun z : Goto => z.name) h hx e

theorem gen_tgts : ∀ (s : Stmt L) (tl : Bool) (sl : Nat) (bc : Option (Nat × Nat)) (ci : Nat) (g : GS) (c : List (I L.X)) (g' : GS),
    gen F s tl sl bc ci g = .ok (c, g') → WF g → Tg F c bc s.gotos g g' := by
  intro s
  have loop : ∀ {a b : Nat} {c : List (I L.X)} {bc' : Option (Nat × Nat)}, a ∈ labs c → b ∈ labs c → ∀ x, some (a, b) = some x → ∀ l, (l = x.1 ∨ (l = x.2 ∧ x.2 ≠ 0)) →
      l ∈ labs c ∨ ∃ y, bc' = some y ∧ (l = y.1 ∨ (l = y.2 ∧ y.2 ≠ 0)) := by
    intro a b c bc' ha hb x hx l hl
    cases hx
    rcases hl with rfl | ⟨rfl, -⟩
    · exact .inl ha
    · exact .inl hb
  have same : ∀ {c : List (I L.X)} {bc : Option (Nat × Nat)}, ∀ x, bc = some x → ∀ l, (l = x.1 ∨ (l = x.2 ∧ x.2 ≠ 0)) →
      l ∈ labs c ∨ ∃ y, bc = some y ∧ (l = y.1 ∨ (l = y.2 ∧ y.2 ≠ 0)) := fun {c bc} x hx l hl => .inr ⟨x, hx, hl⟩
  induction s with
  | nil | empty | expr => intro tl sl bc ci g c g' h hw; cases h; exact .plain (fun l hl => by cases hl)
  | decl es => intro tl sl bc ci g c g' h hw; cases h; exact .plain (fun l hl => by rw [tgts_evals] at hl; cases hl)
  | cons s ss ih ih' =>
    intro tl sl bc ci g c g' h hw
    obtain ⟨a, ha, h⟩ := and_inv h
    obtain ⟨b, hb, h⟩ := and_inv h
    cases h
    obtain ⟨w1, -, -, -⟩ := gen_labs F _ _ _ _ _ _ _ _ ha hw
    obtain ⟨-, e2, -, -⟩ := gen_labs F _ _ _ _ _ _ _ _ hb w1
    exact (ih _ _ _ _ _ _ _ ha hw).two (ih' _ _ _ _ _ _ _ hb w1) e2
  | block ss ih => intro tl sl bc ci g c g' h hw; exact ih _ _ _ _ _ _ _ h hw
  | ret e =>
    intro tl sl bc ci g c g' h hw
    simp only [gen] at h
    split at h
    · cases h
    · cases h
      refine .plain fun l hl => .inr (.inr (.inl ?_))
      cases e <;> cases tl <;> simp [retCode, tgts, tgt] at hl <;> first | exact hl | exact hl.symm
  | whl e b ih =>
    intro tl sl bc ci g c g' h hw
    obtain ⟨a, ha, h⟩ := and_inv h
    cases h
    refine (ih _ _ _ _ _ _ _ ha (hw.bump' 2)).wrap rfl rfl rfl (fun x hx => ?_) (fun t ht => ?_) (loop ?_ ?_)
    · simp only [labs_lab, labs_append, labs_jn, labs_ite, labs_nil, List.nil_append]
      simp [hx]
    · simp only [labs_lab, labs_append, labs_jn, labs_ite, labs_nil, List.nil_append]
      simp only [tgts_lab, tgts_append, tgts_nil, List.append_nil, List.mem_append] at ht
      rcases ht with ht | ht | ht
      · simp [tgts_jn ht]
      · exact .inl ht
      · simp [tgts_ite _ _ _ ht]
    · simp only [labs_lab, labs_append, labs_jn, labs_ite, labs_nil, List.nil_append]; simp
    · simp only [labs_lab]; simp
  | dow b e ih =>
    intro tl sl bc ci g c g' h hw
    obtain ⟨a, ha, h⟩ := and_inv h
    cases h
    refine (ih _ _ _ _ _ _ _ ha (hw.bump' 3)).wrap rfl rfl rfl (fun x hx => ?_) (fun t ht => ?_) (loop ?_ ?_)
    · simp only [labs_lab, labs_append, labs_jy, labs_nil, List.nil_append]
      simp [hx]
    · simp only [labs_lab, labs_append, labs_jy, labs_nil, List.nil_append]
      simp only [tgts_lab, tgts_append, tgts_nil, List.append_nil, List.mem_append] at ht
      rcases ht with ht | ht
      · exact .inl ht
      · simp [tgts_jy ht]
    · simp only [labs_lab, labs_append, labs_jy, labs_nil, List.nil_append]; simp
    · simp only [labs_lab, labs_append, labs_jy, labs_nil, List.nil_append]; simp
  | ift e s ih =>
    intro tl sl bc ci g c g' h hw
    obtain ⟨a, ha, h⟩ := and_inv h
    cases h
    refine (ih _ _ _ _ _ _ _ ha (hw.bump' 2)).wrap rfl rfl rfl (fun x hx => ?_) (fun t ht => ?_) same
    · simp only [labs_lab, labs_append, labs_jn, labs_nil, List.nil_append]
      simp [hx]
    · simp only [labs_lab, labs_append, labs_jn, labs_nil, List.nil_append]
      simp only [tgts_lab, tgts_append, tgts_nil, List.append_nil, List.mem_append] at ht
      rcases ht with ht | ht
      · simp [tgts_jn ht]
      · exact .inl ht
  | ife e s s' ih ih' =>
    intro tl sl bc ci g c g' h hw
    obtain ⟨a, ha, h⟩ := and_inv h
    obtain ⟨b, hb, h⟩ := and_inv h
    cases h
    obtain ⟨w1, -, -, -⟩ := gen_labs F _ _ _ _ _ _ _ _ ha (hw.bump' 2)
    obtain ⟨-, e2, -, -⟩ := gen_labs F _ _ _ _ _ _ _ _ hb w1
    refine ((ih _ _ _ _ _ _ _ ha (hw.bump' 2)).two (ih' _ _ _ _ _ _ _ hb w1) e2).wrap rfl rfl rfl (fun x hx => ?_) (fun t ht => ?_) same
    · simp only [labs_append, List.mem_append] at hx
      simp only [labs_lab, labs_jmp, labs_append, labs_jn, labs_nil, List.nil_append]
      rcases hx with hx | hx <;> simp [hx]
    · simp only [labs_lab, labs_jmp, labs_append, labs_jn, labs_nil, List.nil_append]
      simp only [tgts_lab, tgts_jmp, tgts_append, tgts_nil, List.append_nil, List.mem_append, List.mem_cons] at ht ⊢
      rcases ht with ht | ht | ht | ht
      · simp [tgts_jn ht]
      · exact .inl (.inl ht)
      · simp [ht]
      · exact .inl (.inr ht)
  | «for» i e1 e3 b ih =>
    intro tl sl bc ci g c g' h hw
    obtain ⟨a, ha, h⟩ := and_inv h
    cases h
    have H := ih _ _ _ _ _ _ _ ha (hw.bump' 4)
    obtain ⟨pl, hpl⟩ : ∃ pl, pl = plan e1 e3 sl g.lab := ⟨_, rfl⟩
    rw [← hpl] at H ⊢
    have facts : (∀ t, t ∈ tgts pl.pre ∨ t ∈ tgts pl.post → t = g.lab ∨ t ∈ labs pl.pre ∨ t ∈ labs pl.post) ∧ (pl.cnt = g.lab ∨ pl.cnt = g.lab + 3 ∨ pl.cnt ∈ labs pl.pre ∨ pl.cnt ∈ labs pl.post) := by
      rw [hpl]
      unfold plan
      cases e3 with
      | none =>
        simp only
        split
        · exact ⟨fun t ht => by simp [tgts] at ht, .inr (.inl rfl)⟩
        · exact ⟨fun t ht => by simp [tgts, tgt] at ht; exact .inl ht, .inl rfl⟩
      | some e =>
        simp only
        split
        · refine ⟨fun t ht => ?_, .inr (.inr (.inr ?_))⟩
          · simp only [tgts_nil, List.not_mem_nil, false_or, tgts_append, tgts_lab, tgts_eval, List.nil_append] at ht
            exact .inl (tgts_ite _ _ _ ht)
          · simp [labs_append, labs_lab]
        · refine ⟨fun t ht => ?_, .inr (.inr (.inl ?_))⟩
          · simp only [labs_lab, labs_jmp, labs_eval, labs_nil]
            simp only [tgts_nil, tgts_append, tgts_lab, tgts_eval, tgts_jmp, List.mem_cons, List.not_mem_nil, or_false] at ht
            rcases ht with (ht | ht) | ht <;> simp [ht]
          · simp [labs_lab, labs_jmp]
    have hl : labs (initCode i ++ (I.lab g.lab :: (jnOpt e1 (g.lab + 3) ++ (pl.pre ++ (a.1 ++ (pl.post ++ [I.lab (g.lab + 3)])))))) =
        g.lab :: (labs pl.pre ++ (labs a.1 ++ (labs pl.post ++ [g.lab + 3]))) := by
      simp only [labs_append, labs_init, labs_lab, labs_jnOpt, labs_nil, List.nil_append]
    have ht' : tgts (initCode i ++ (I.lab g.lab :: (jnOpt e1 (g.lab + 3) ++ (pl.pre ++ (a.1 ++ (pl.post ++ [I.lab (g.lab + 3)])))))) =
        tgts (jnOpt e1 (g.lab + 3)) ++ (tgts pl.pre ++ (tgts a.1 ++ tgts pl.post)) := by
      simp only [tgts_append, tgts_init, tgts_lab, tgts_nil, List.nil_append, List.append_nil]
    refine H.wrap rfl rfl rfl (fun x hx => ?_) (fun t ht => ?_) (loop ?_ ?_)
    · rw [hl]; simp [hx]
    · rw [hl]
      rw [ht'] at ht
      simp only [List.mem_append] at ht
      rcases ht with ht | ht | ht | ht
      · simp [tgts_jnOpt ht]
      · rcases facts.1 t (.inl ht) with h | h | h <;> simp [h]
      · exact .inl ht
      · rcases facts.1 t (.inr ht) with h | h | h <;> simp [h]
    · rw [hl]; simp
    · rw [hl]; rcases facts.2 with h | h | h | h <;> simp [h]
  | brk =>
    intro tl sl bc ci g c g' h hw
    cases bc with
    | none => cases h
    | some x =>
      cases h
      refine .plain fun l hl => .inr (.inl ⟨x, rfl, .inl ?_⟩)
      simpa [tgts, tgt] using hl
  | cont =>
    intro tl sl bc ci g c g' h hw
    cases bc with
    | none => cases h
    | some x =>
      simp only [gen] at h
      split at h
      · cases h
      · rename_i hx
        cases h
        refine .plain fun l hl => .inr (.inl ⟨x, rfl, .inr ⟨?_, hx⟩⟩)
        simpa [tgts, tgt] using hl
  | switch e b ih =>
    intro tl sl bc ci g c g' h hw
    simp only [gen] at h
    split at h
    · cases h
    obtain ⟨a, ha, h⟩ := and_inv h
    cases h
    have H := ih _ _ _ _ _ _ _ ha (hw.bump2 2)
    have hl : labs (I.evalR (L.rpn e) :: .jmp (g.lab + 1) :: (a.1 ++ swEnd g.lab (g.lab + 1) a.2.d a.2.cs)) = labs a.1 ++ [g.lab + 1, g.lab] := by
      simp only [labs_evalR, labs_jmp, labs_append, labs_sw]
    refine ⟨fun l hlt => ?_, fun x hx => .inl hx, .inl rfl, fun x hx hd => ?_⟩
    · rw [hl]
      simp only [tgts_evalR, tgts_jmp, tgts_append, swEnd, tgts_je, tgts_lab, tgts_nil, List.mem_append, List.mem_cons, List.not_mem_nil, or_false] at hlt
      rcases hlt with h | h | (h | h) | h
      · exact .inl (by simp [h])
      · refine (H.tg l h).mono (fun x hx => List.mem_append_left _ hx) (fun x hx l hl => ?_) (fun x hx => hx) (fun x hx => ⟨x, hx, rfl, rfl⟩)
        cases hx
        rcases hl with rfl | ⟨rfl, hx⟩
        · exact .inl (by simp)
        · cases bc with
          | none => exact absurd rfl hx
          | some y => exact .inr ⟨y, rfl, .inr ⟨rfl, hx⟩⟩
      · exact .inl (by simp [h])
      · obtain ⟨x, hx, rfl⟩ := List.mem_map.mp h
        rcases H.cs x hx with h | h
        · cases h
        · exact .inl (List.mem_append_left _ h)
      · have e1 := tgts_ite _ _ _ h
        rcases H.d with h0 | h0
        · have h0 : a.2.d = 0 := h0
          rw [if_pos h0] at e1
          exact .inl (by simp [e1])
        · by_cases h1 : a.2.d = 0
          · rw [if_pos h1] at e1
            exact .inl (by simp [e1])
          · rw [if_neg h1] at e1
            exact .inl (List.mem_append_left _ (e1 ▸ h0))
    · rw [hl]
      rcases H.df x hx hd with h | h
      · exact .inl h
      · exact .inr (List.mem_append_left _ h)
  | case e s ih =>
    intro tl sl bc ci g c g' h hw
    simp only [gen] at h
    split at h
    · cases h
    cases hv : L.const e with
    | none => rw [hv] at h; cases h
    | some v =>
      simp only [hv] at h
      split at h
      · cases h
      split at h
      · cases h
      obtain ⟨a, ha, h⟩ := and_inv h
      cases h
      have H := ih _ _ _ _ _ _ _ ha (hw.bump3 1)
      refine ⟨fun l hl => (H.tg l hl).mono (fun x hx => List.mem_cons_of_mem _ hx) same (fun x hx => hx) (fun x hx => ⟨x, hx, rfl, rfl⟩), fun x hx => ?_, ?_, fun x hx hd => ?_⟩
      · rcases H.cs x hx with h | h
        · rcases List.mem_append.mp h with h | h
          · exact .inl h
          · rw [List.mem_singleton] at h
            subst h
            exact .inr (List.mem_cons_self ..)
        · exact .inr (List.mem_cons_of_mem _ h)
      · exact H.d.imp id (List.mem_cons_of_mem _)
      · exact (H.df x hx hd).imp id (List.mem_cons_of_mem _)
  | default s ih =>
    intro tl sl bc ci g c g' h hw
    simp only [gen] at h
    split at h
    · cases h
    split at h
    · cases h
    obtain ⟨a, ha, h⟩ := and_inv h
    cases h
    have H := ih _ _ _ _ _ _ _ ha (hw.bump3 1)
    refine ⟨fun l hl => (H.tg l hl).mono (fun x hx => List.mem_cons_of_mem _ hx) same (fun x hx => hx) (fun x hx => ⟨x, hx, rfl, rfl⟩), fun x hx => ?_, ?_, fun x hx hd => ?_⟩
    · exact (H.cs x hx).imp id (List.mem_cons_of_mem _)
    · rcases H.d with h | h
      · exact .inr (by rw [h]; exact List.mem_cons_self ..)
      · exact .inr (List.mem_cons_of_mem _ h)
    · exact (H.df x hx hd).imp id (List.mem_cons_of_mem _)
  | goto n =>
    intro tl sl bc ci g c g' h hw
    obtain ⟨a, ha, h⟩ := and_inv h
    cases h
    have hA := addG_ok hw ha
    obtain ⟨y, hy, h1, h2, -⟩ := hA.here
    refine ⟨fun l hl => .inr (.inr (.inr ⟨y, hy, ?_, by simp [Stmt.gotos, h1]⟩)), fun x hx => .inl (hA.cs ▸ hx), .inl hA.d', fun x hx hd => .inl ?_⟩
    · rw [h2]
      simp only [tgts_jmp, tgts_nil, List.mem_singleton] at hl
      exact hl.symm
    · obtain ⟨z, hz, e1, e2⟩ := (hA.dn x.name).mp ⟨x, hx, rfl, hd⟩ |>.resolve_right (by simp)
      obtain ⟨z', hz', e3, e4, -⟩ := hA.ext.keep z hz
      refine ⟨z, hz, ?_, e2⟩
      rw [← e4]
      have : z' = x := nodup_inj hA.wf.names hz' hx (e3.trans e1)
      rw [this]
  | label n s ih =>
    intro tl sl bc ci g c g' h hw
    obtain ⟨a, ha, h⟩ := and_inv h
    obtain ⟨b, hb, h⟩ := and_inv h
    cases h
    have hA := addG_ok hw ha
    have H := ih _ _ _ _ _ _ _ hb hA.wf
    obtain ⟨y, hy, h1, h2, -⟩ := hA.here
    refine ⟨fun l hl => (H.tg l hl).mono (fun x hx => List.mem_cons_of_mem _ hx) same (fun x hx => hx) (fun x hx => ⟨x, hx, rfl, rfl⟩), fun x hx => ?_, ?_, fun x hx hd => ?_⟩
    · rcases H.cs x hx with h | h
      · exact .inl (hA.cs ▸ h)
      · exact .inr (List.mem_cons_of_mem _ h)
    · rcases H.d with h | h
      · exact .inl (h.trans hA.d')
      · exact .inr (List.mem_cons_of_mem _ h)
    · rcases H.df x hx hd with ⟨z, hz, e1, e2⟩ | h
      · rcases (hA.dn z.name).mp ⟨z, hz, rfl, e2⟩ with ⟨w, hw', e3, e4⟩ | ⟨-, e3⟩
        · obtain ⟨w', hw'', e5, e6, -⟩ := hA.ext.keep w hw'
          have : w' = z := nodup_inj hA.wf.names hw'' hz (e5.trans e3)
          refine .inl ⟨w, hw', ?_, e4⟩
          rw [← e6, this, e1]
        · have : z = y := nodup_inj hA.wf.names hz hy (e3.trans h1.symm)
          refine .inr ?_
          rw [← e1, this, h2]
          exact List.mem_cons_self ..
      · exact .inr (List.mem_cons_of_mem _ h)

end

end Smlr.Stmt
