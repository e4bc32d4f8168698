import Verif.Stmt.Code
set_option autoImplicit false
/-! Which trees are accepted. -/
namespace Smlr.Stmt
open Spec

section
variable {L : Lang}

/-- the constraints, given what came before: `cs` the cases, `df` the number of `default`, `lb` the labels of the statement, `nd` the entries it needs -/
def Acc (F : Fx) (ok : Prop) (cs : List Int) (df : Nat) (lb : List Nat) (nd ci : Nat) (g : GS) : Prop :=
  ok ∧ cs.Nodup ∧ (∀ v ∈ cs, v ∉ g.cs.map (·.1)) ∧ (g.d ≠ 0 → df = 0) ∧ df ≤ 1 ∧ lb.Nodup ∧ (∀ n ∈ lb, ¬ dn g.gotos n) ∧ ci + g.cs.length + nd ≤ F.maxCases

/-- what is in the tables behind the statement -/
def Post (cs : List Int) (df : Nat) (lb go : List Nat) (g g' : GS) : Prop :=
  g'.cs.map (·.1) = g.cs.map (·.1) ++ cs ∧ (g'.d ≠ 0 ↔ g.d ≠ 0 ∨ 0 < df) ∧ (∀ n, dn g'.gotos n ↔ dn g.gotos n ∨ n ∈ lb) ∧ (∀ n, un g'.gotos n ↔ un g.gotos n ∨ n ∈ go) ∧
    (∀ n, n ∈ names g'.gotos ↔ n ∈ names g.gotos ∨ n ∈ lb ∨ n ∈ go)

theorem Post.refl (g : GS) : Post [] 0 [] [] g g := ⟨by simp, by simp, by simp, by simp, by simp⟩

theorem Post.len {cs : List Int} {df : Nat} {lb go : List Nat} {g g' : GS} (h : Post cs df lb go g g') : g'.cs.length = g.cs.length + cs.length := by
  have := congrArg List.length h.1
  simpa using this

theorem Post.two {cs cs' : List Int} {df df' : Nat} {lb lb' go go' : List Nat} {g g1 g2 : GS} (h : Post cs df lb go g g1) (h' : Post cs' df' lb' go' g1 g2) :
    Post (cs ++ cs') (df + df') (lb ++ lb') (go ++ go') g g2 := by
  obtain ⟨a1, a2, a3, a4, a5⟩ := h
  obtain ⟨b1, b2, b3, b4, b5⟩ := h'
  refine ⟨by rw [b1, a1, List.append_assoc], ?_, fun n => ?_, fun n => ?_, fun n => ?_⟩
  · rw [b2, a2, or_assoc]
    refine or_congr Iff.rfl ?_
    omega
  · rw [b3, a3, List.mem_append, or_assoc]
  · rw [b4, a4, List.mem_append, or_assoc]
  · rw [b5, a5, List.mem_append, List.mem_append]
    constructor
    · rintro ((h | h | h) | h | h)
      · exact .inl h
      · exact .inr (.inl (.inl h))
      · exact .inr (.inr (.inl h))
      · exact .inr (.inl (.inr h))
      · exact .inr (.inr (.inr h))
    · rintro (h | (h | h) | h | h)
      · exact .inl (.inl h)
      · exact .inl (.inr (.inl h))
      · exact .inr (.inl h)
      · exact .inl (.inr (.inr h))
      · exact .inr (.inr h)

theorem Acc.two {F : Fx} {p q : Prop} {cs cs' : List Int} {df df' : Nat} {lb lb' go : List Nat} {nd nd' ci : Nat} {g g1 : GS} (h : Post cs df lb go g g1) :
    Acc F (p ∧ q) (cs ++ cs') (df + df') (lb ++ lb') (max nd (cs.length + nd')) ci g ↔ Acc F p cs df lb nd ci g ∧ Acc F q cs' df' lb' nd' ci g1 := by
  have hl := h.len
  obtain ⟨a1, a2, a3, a4, a5⟩ := h
  unfold Acc
  rw [List.nodup_append, List.nodup_append, hl, a1]
  constructor
  · rintro ⟨⟨h1, h2⟩, ⟨h3, h4, h5⟩, h6, h7, h8, ⟨h9, h10, h11⟩, h12, h13⟩
    refine ⟨⟨h1, h3, fun v hv => h6 v (List.mem_append_left _ hv), fun h => by have := h7 h; omega, by omega, h9, fun n hn => h12 n (List.mem_append_left _ hn), by omega⟩, h2, h4,
      fun v hv hm => ?_, fun h => ?_, by omega, h10, fun n hn hd => ?_, by omega⟩
    · rcases List.mem_append.mp hm with hm | hm
      · exact h6 v (List.mem_append_right _ hv) hm
      · exact h5 v hm v hv rfl
    · rcases a2.mp h with h | h
      · have := h7 h; omega
      · omega
    · rcases (a3 n).mp hd with h | h
      · exact h12 n (List.mem_append_right _ hn) h
      · exact h11 n h n hn rfl
  · rintro ⟨⟨h1, h2, h3, h4, h5, h6, h7, h8⟩, k1, k2, k3, k4, k5, k6, k7, k8⟩
    refine ⟨⟨h1, k1⟩, ⟨h2, k2, fun v hv w hw e => ?_⟩, fun v hv => ?_, fun h => ?_, ?_, ⟨h6, k6, fun v hv w hw e => ?_⟩, fun n hn => ?_, by omega⟩
    · subst e
      exact k3 v hw (List.mem_append_right _ hv)
    · rcases List.mem_append.mp hv with hv | hv
      · exact h3 v hv
      · exact fun h => k3 v hv (List.mem_append_left _ h)
    · have e1 := h4 h
      have e2 := k4 (a2.mpr (.inl h))
      omega
    · rcases Nat.eq_zero_or_pos df with h | h
      · omega
      · have := k4 (a2.mpr (.inr h))
        omega
    · subst e
      exact k7 v hw ((a3 v).mpr (.inr hv))
    · rcases List.mem_append.mp hn with hn | hn
      · exact h7 n hn
      · exact fun h => k7 n hn ((a3 n).mpr (.inl h))

variable (F : Fx)

/-- `b`, `c`, `w` of `Stmt.ok` -/
def bOf (bc : Option (Nat × Nat)) : Bool := bc.isSome
def cOf (bc : Option (Nat × Nat)) : Bool := (ctOf bc).isSome
def wOf (ci : Nat) : Bool := decide (ci ≠ 0)

abbrev SAcc (s : Stmt L) (bc : Option (Nat × Nat)) (ci : Nat) (g : GS) : Prop := Acc F (s.ok F.retVoid (bOf bc) (cOf bc) (wOf ci)) s.cases s.defs s.labels s.need ci g
abbrev SPost (s : Stmt L) (g g' : GS) : Prop := Post s.cases s.defs s.labels s.gotos g g'

variable {F}

theorem addG_len {n : Nat} {d : Bool} {g g' : GS} {l : Nat} (h : addG F n d g = .ok (l, g')) (hl : g.gotos.length ≤ F.maxGotos) : g'.gotos.length ≤ F.maxGotos := by
  unfold addG at h
  cases hf : findGoto n g.gotos with
  | some i =>
    rw [hf] at h
    cases hx : g.gotos[i]? with
    | none => simp only [hx] at h; cases h
    | some x =>
      simp only [hx] at h
      by_cases hd : (x.defd && d) = true
      · rw [if_pos hd] at h; cases h
      · rw [if_neg hd] at h
        cases h
        simpa using hl
  | none =>
    rw [hf] at h
    by_cases hm : g.gotos.length ≥ F.maxGotos
    · simp only [if_pos hm] at h; cases h
    · simp only [if_neg hm, Except.ok.injEq, Prod.mk.injEq] at h
      obtain ⟨-, rfl⟩ := h
      simp only [List.length_append, List.length_cons, List.length_nil]
      omega

theorem triv_acc {g : GS} {ok : Prop} {ci : Nat} (hok : ok) (hl : ci + g.cs.length ≤ F.maxCases) : Acc F ok [] 0 [] 0 ci g :=
  ⟨hok, .nil, by simp, by simp, by omega, .nil, by simp, by omega⟩

theorem WF.bump {g : GS} (k : Nat) (cs : List (Int × Nat)) (d : Nat) (hw : WF g) : WF ⟨g.lab + k, cs, d, g.gotos⟩ :=
  ⟨Nat.le_trans hw.pos (Nat.le_add_right _ _), hw.names, hw.labs, fun x hx => Nat.lt_of_lt_of_le (hw.lt x hx) (Nat.le_add_right _ _)⟩

theorem acc_switch {b : Stmt L} {bc : Option (Nat × Nat)} {ci k l : Nat} {e : L.E} {g : GS} :
    Acc F (b.ok F.retVoid (bOf (some (l, cntTarget bc))) (cOf (some (l, cntTarget bc))) (wOf (ci + k + 1))) b.cases b.defs b.labels b.need (ci + g.cs.length + 1) ⟨g.lab + 2, [], 0, g.gotos⟩ ↔
      SAcc F (.switch e b) bc ci g := by
  have h1 : cOf (some (l, cntTarget bc)) = cOf bc := by unfold cOf; rw [ctOf_sw]
  have h2 : wOf (ci + k + 1) = true := by unfold wOf; simp
  rw [h1, h2]
  show (_ ∧ _ ∧ _ ∧ _ ∧ _ ∧ _ ∧ _ ∧ _) ↔ (_ ∧ _ ∧ _ ∧ _ ∧ _ ∧ _ ∧ _ ∧ _)
  simp only [Stmt.ok, Stmt.cases, Stmt.defs, Stmt.labels, Stmt.need]
  constructor
  · rintro ⟨h1, h2, h3, h4, h5, h6, h7, h8⟩
    exact ⟨⟨h1, h2, h5⟩, .nil, by simp, by simp, by omega, h6, h7, by simp at h8; omega⟩
  · rintro ⟨⟨h1, h2, h3⟩, h4, h5, h6, h7, h8, h9, h10⟩
    exact ⟨h1, h2, by simp, by simp, h3, h8, h9, by simp; omega⟩

theorem hasCase_iff {cs : List (Int × Nat)} {v : Int} : hasCase cs v = true ↔ v ∈ cs.map (·.1) := by
  unfold hasCase
  rw [List.any_eq_true, List.mem_map]
  simp

theorem acc_case {s : Stmt L} {bc : Option (Nat × Nat)} {ci : Nat} {e : L.E} {g : GS} {v : Int} (hv : L.const e = some v) (hci : ci ≠ 0) (hc : L.trunc v ∉ g.cs.map (·.1)) :
    SAcc F s bc ci ⟨g.lab + 1, g.cs ++ [(L.trunc v, g.lab)], g.d, g.gotos⟩ ↔ SAcc F (.case e s) bc ci g := by
  show (_ ∧ _ ∧ _ ∧ _ ∧ _ ∧ _ ∧ _ ∧ _) ↔ (_ ∧ _ ∧ _ ∧ _ ∧ _ ∧ _ ∧ _ ∧ _)
  have hw : wOf ci = true := by simp [wOf, hci]
  have hcs : (Stmt.case e s).cases = L.trunc v :: s.cases := by simp [Stmt.cases, hv]
  rw [hcs]
  simp only [Stmt.ok, Stmt.defs, Stmt.labels, Stmt.need, hv, hw, Option.isSome_some, true_and, List.nodup_cons]
  constructor
  · rintro ⟨h1, h2, h3, h4, h5, h6, h7, h8⟩
    refine ⟨h1, ⟨fun h => h3 _ h (by simp), h2⟩, fun w hw => ?_, h4, h5, h6, h7, by simp at h8; omega⟩
    rcases List.mem_cons.mp hw with rfl | hw
    · exact hc
    · exact fun h => h3 w hw (by rw [List.map_append]; exact List.mem_append_left _ h)
  · rintro ⟨h1, ⟨h2, h2'⟩, h3, h4, h5, h6, h7, h8⟩
    refine ⟨h1, h2', fun w hw h => ?_, h4, h5, h6, h7, by simp; omega⟩
    rw [List.map_append] at h
    rcases List.mem_append.mp h with h | h
    · exact h3 w (List.mem_cons_of_mem _ hw) h
    · simp only [List.map_cons, List.map_nil, List.mem_singleton] at h
      subst h
      exact h2 hw

theorem acc_default {s : Stmt L} {bc : Option (Nat × Nat)} {ci : Nat} {g : GS} (hci : ci ≠ 0) (hp : 1 ≤ g.lab) (hd : g.d = 0) :
    SAcc F s bc ci ⟨g.lab + 1, g.cs, g.lab, g.gotos⟩ ↔ SAcc F (.default s) bc ci g := by
  show (_ ∧ _ ∧ _ ∧ _ ∧ _ ∧ _ ∧ _ ∧ _) ↔ (_ ∧ _ ∧ _ ∧ _ ∧ _ ∧ _ ∧ _ ∧ _)
  have hw : wOf ci = true := by simp [wOf, hci]
  simp only [Stmt.ok, Stmt.defs, Stmt.labels, Stmt.need, Stmt.cases, hw, true_and]
  constructor
  · rintro ⟨h1, h2, h3, h4, h5, h6, h7, h8⟩
    have := h4 (by omega)
    exact ⟨h1, h2, h3, fun h => absurd hd h, by omega, h6, h7, h8⟩
  · rintro ⟨h1, h2, h3, h4, h5, h6, h7, h8⟩
    exact ⟨h1, h2, h3, fun _ => by omega, by omega, h6, h7, h8⟩

theorem acc_label {s : Stmt L} {bc : Option (Nat × Nat)} {ci n l : Nat} {g g1 : GS} (hA : Added n true g l g1) : SAcc F s bc ci g1 ↔ SAcc F (.label n s) bc ci g := by
  show (_ ∧ _ ∧ _ ∧ _ ∧ _ ∧ _ ∧ _ ∧ _) ↔ (_ ∧ _ ∧ _ ∧ _ ∧ _ ∧ _ ∧ _ ∧ _)
  simp only [Stmt.ok, Stmt.defs, Stmt.labels, Stmt.need, Stmt.cases, List.nodup_cons, hA.cs, hA.d']
  constructor
  · rintro ⟨h1, h2, h3, h4, h5, h6, h7, h8⟩
    refine ⟨h1, h2, h3, h4, h5, ⟨fun h => h7 n h ((hA.dn n).mpr (.inr ⟨rfl, rfl⟩)), h6⟩, fun m hm => ?_, h8⟩
    rcases List.mem_cons.mp hm with rfl | hm
    · exact hA.ndn rfl
    · exact fun h => h7 m hm ((hA.dn m).mpr (.inl h))
  · rintro ⟨h1, h2, h3, h4, h5, ⟨h6, h6'⟩, h7, h8⟩
    refine ⟨h1, h2, h3, h4, h5, h6', fun m hm h => ?_, h8⟩
    rcases (hA.dn m).mp h with h | ⟨-, h⟩
    · exact h7 m (List.mem_cons_of_mem _ hm) h
    · subst h
      exact h6 hm

theorem post_label {s : Stmt L} {n l : Nat} {g g1 g2 : GS} (hA : Added n true g l g1) (h : SPost s g1 g2) : SPost (.label n s) g g2 := by
  obtain ⟨a1, a2, a3, a4, a5⟩ := h
  refine ⟨by rw [a1, hA.cs]; rfl, by rw [a2, hA.d']; rfl, fun m => ?_, fun m => ?_, fun m => ?_⟩
  · rw [a3, hA.dn]
    simp [Stmt.labels, or_assoc]
  · rw [a4, hA.un]
    simp [Stmt.gotos]
  · rw [a5, hA.nm]
    simp [Stmt.labels, Stmt.gotos, or_assoc]

theorem post_case {s : Stmt L} {e : L.E} {v : Int} {g g' : GS} {k : Nat} (hv : L.const e = some v) (h : SPost s ⟨k, g.cs ++ [(L.trunc v, g.lab)], g.d, g.gotos⟩ g') :
    SPost (.case e s) g g' := by
  obtain ⟨a1, a2, a3, a4, a5⟩ := h
  refine ⟨?_, a2, a3, a4, a5⟩
  rw [a1]
  simp [Stmt.cases, hv]

theorem post_default {s : Stmt L} {g g' : GS} {k : Nat} (hp : 1 ≤ g.lab) (h : SPost s ⟨k, g.cs, g.lab, g.gotos⟩ g') : SPost (.default s) g g' := by
  obtain ⟨a1, a2, a3, a4, a5⟩ := h
  refine ⟨a1, ?_, a3, a4, a5⟩
  rw [a2]
  simp only [Stmt.defs]
  constructor
  · intro; right; omega
  · intro; left; show g.lab ≠ 0; omega

theorem post_switch {b : Stmt L} {e : L.E} {g g' : GS} {k : Nat} (h : SPost b ⟨k, [], 0, g.gotos⟩ g') : SPost (.switch e b) g ⟨g'.lab, g.cs, g.d, g'.gotos⟩ := by
  obtain ⟨a1, a2, a3, a4, a5⟩ := h
  exact ⟨by simp [Stmt.cases], by simp [Stmt.defs], a3, a4, a5⟩

theorem cases_need : ∀ s : Stmt L, s.cases.length ≤ s.need := by
  intro s
  induction s with
  | cons s ss ih ih' => simp only [Stmt.cases, Stmt.need, List.length_append]; omega
  | ife c s ss ih ih' => simp only [Stmt.cases, Stmt.need, List.length_append]; omega
  | case e s ih =>
    simp only [Stmt.cases, Stmt.need, List.length_append]
    cases L.const e <;> simp <;> omega
  | block | whl | dow | ift | «for» | default | label => assumption
  | _ => simp [Stmt.cases]

/-- what the code needs to be made -/
theorem gen_ok : ∀ (s : Stmt L) (tl : Bool) (sl : Nat) (bc : Option (Nat × Nat)) (ci : Nat) (g : GS) (c : List (I L.X)) (g' : GS),
    gen F s tl sl bc ci g = .ok (c, g') → WF g → ci + g.cs.length ≤ F.maxCases → g.gotos.length ≤ F.maxGotos →
    SAcc F s bc ci g ∧ SPost s g g' ∧ g'.gotos.length ≤ F.maxGotos := by
  intro s
  have b2 : ∀ {a b : Nat}, 1 ≤ b → bOf (some (a, b)) = true ∧ cOf (some (a, b)) = true := fun {a b} h => ⟨rfl, by unfold cOf; rw [ctOf_pos h]; rfl⟩
  induction s with
  | nil | empty | expr | decl => intro tl sl bc ci g c g' h hw hl hn; cases h; exact ⟨triv_acc trivial hl, .refl _, hn⟩
  | cons s ss ih ih' =>
    intro tl sl bc ci g c g' h hw hl hn
    obtain ⟨a, ha, h⟩ := and_inv h
    obtain ⟨b, hb, h⟩ := and_inv h
    cases h
    obtain ⟨w1, -, -, -⟩ := gen_labs F _ _ _ _ _ _ _ _ ha hw
    obtain ⟨h1, h2, h3⟩ := ih _ _ _ _ _ _ _ ha hw hl hn
    have hl' : ci + a.2.cs.length ≤ F.maxCases := by
      have := (h1.2.2.2.2.2.2.2)
      have h4 := h2.len
      have := cases_need s
      omega
    obtain ⟨k1, k2, k3⟩ := ih' _ _ _ _ _ _ _ hb w1 hl' h3
    exact ⟨(Acc.two h2).mpr ⟨h1, k1⟩, h2.two k2, k3⟩
  | block ss ih => intro tl sl bc ci g c g' h hw hl hn; exact ih _ _ _ _ _ _ _ h hw hl hn
  | ret e =>
    intro tl sl bc ci g c g' h hw hl hn
    simp only [gen] at h
    split at h
    · cases h
    · rename_i hx
      cases h
      refine ⟨triv_acc ?_ hl, .refl _, hn⟩
      show e.isSome = !F.retVoid
      cases h1 : e.isSome <;> cases h2 : F.retVoid <;> simp_all
  | whl e b ih =>
    intro tl sl bc ci g c g' h hw hl hn
    obtain ⟨a, ha, h⟩ := and_inv h
    cases h
    have := ih _ _ _ _ _ _ _ ha (hw.bump 2 _ _) hl hn
    unfold SAcc at this
    rw [(b2 hw.pos).1, (b2 hw.pos).2] at this
    exact this
  | dow b e ih =>
    intro tl sl bc ci g c g' h hw hl hn
    obtain ⟨a, ha, h⟩ := and_inv h
    cases h
    have := ih _ _ _ _ _ _ _ ha (hw.bump 3 _ _) hl hn
    unfold SAcc at this
    rw [(b2 (Nat.le_add_left 1 _)).1, (b2 (Nat.le_add_left 1 _)).2] at this
    exact this
  | ift e s ih =>
    intro tl sl bc ci g c g' h hw hl hn
    obtain ⟨a, ha, h⟩ := and_inv h
    cases h
    have := ih _ _ _ _ _ _ _ ha (hw.bump 2 _ _) hl hn
    exact this
  | ife e s s' ih ih' =>
    intro tl sl bc ci g c g' h hw hl hn
    obtain ⟨a, ha, h⟩ := and_inv h
    obtain ⟨b, hb, h⟩ := and_inv h
    cases h
    obtain ⟨w1, -, -, -⟩ := gen_labs F _ _ _ _ _ _ _ _ ha (hw.bump 2 _ _)
    obtain ⟨h1, h2, h3⟩ := ih _ _ _ _ _ _ _ ha (hw.bump 2 _ _) hl hn
    have hl' : ci + a.2.cs.length ≤ F.maxCases := by
      have := (h1.2.2.2.2.2.2.2)
      have h4 := h2.len
      have := cases_need s
      omega
    obtain ⟨k1, k2, k3⟩ := ih' _ _ _ _ _ _ _ hb w1 hl' h3
    exact ⟨(Acc.two h2).mpr ⟨h1, k1⟩, h2.two k2, k3⟩
  | «for» i e1 e3 b ih =>
    intro tl sl bc ci g c g' h hw hl hn
    obtain ⟨a, ha, h⟩ := and_inv h
    cases h
    have hcnt : 1 ≤ (plan e1 e3 sl g.lab).cnt := by
      have hp := hw.pos
      unfold plan
      cases e3 with
      | none => simp only; split <;> (simp only; omega)
      | some e => simp only; split <;> (simp only; omega)
    have := ih _ _ _ _ _ _ _ ha (hw.bump 4 _ _) hl hn
    unfold SAcc at this
    rw [(b2 hcnt).1, (b2 hcnt).2] at this
    exact this
  | brk =>
    intro tl sl bc ci g c g' h hw hl hn
    cases bc with
    | none => cases h
    | some x => cases h; exact ⟨triv_acc rfl hl, .refl _, hn⟩
  | cont =>
    intro tl sl bc ci g c g' h hw hl hn
    cases bc with
    | none => cases h
    | some x =>
      simp only [gen] at h
      split at h
      · cases h
      · rename_i hx
        cases h
        refine ⟨triv_acc ?_ hl, .refl _, hn⟩
        show cOf (some x) = true
        unfold cOf ctOf
        simp [hx]
  | switch e b ih =>
    intro tl sl bc ci g c g' h hw hl hn
    simp only [gen] at h
    split at h
    · cases h
    obtain ⟨a, ha, h⟩ := and_inv h
    cases h
    rename_i hm
    obtain ⟨h1, h2, h3⟩ := ih _ _ _ _ _ _ _ ha (hw.bump 2 _ _) (by show ci + g.cs.length + 1 + 0 ≤ _; omega) hn
    exact ⟨acc_switch.mp h1, post_switch h2, h3⟩
  | case e s ih =>
    intro tl sl bc ci g c g' h hw hl hn
    simp only [gen] at h
    split at h
    · cases h
    rename_i hci
    cases hv : L.const e with
    | none => rw [hv] at h; cases h
    | some v =>
      simp only [hv] at h
      split at h
      · cases h
      rename_i hc
      rw [hasCase_iff] at hc
      split at h
      · cases h
      rename_i hm
      obtain ⟨a, ha, h⟩ := and_inv h
      cases h
      obtain ⟨h1, h2, h3⟩ := ih _ _ _ _ _ _ _ ha (hw.bump 1 _ _) (by simp; omega) hn
      exact ⟨(acc_case hv hci hc).mp h1, post_case hv h2, h3⟩
  | default s ih =>
    intro tl sl bc ci g c g' h hw hl hn
    simp only [gen] at h
    split at h
    · cases h
    rename_i hci
    split at h
    · cases h
    rename_i hd
    obtain ⟨a, ha, h⟩ := and_inv h
    cases h
    obtain ⟨h1, h2, h3⟩ := ih _ _ _ _ _ _ _ ha (hw.bump 1 _ _) hl hn
    exact ⟨(acc_default hci hw.pos (by omega)).mp h1, post_default hw.pos h2, h3⟩
  | goto n =>
    intro tl sl bc ci g c g' h hw hl hn
    obtain ⟨a, ha, h⟩ := and_inv h
    cases h
    have hA := addG_ok hw ha
    refine ⟨triv_acc trivial hl, ⟨by rw [hA.cs]; simp [Stmt.cases], by rw [hA.d']; simp [Stmt.defs], fun m => ?_, fun m => ?_, fun m => ?_⟩, addG_len ha hn⟩
    · rw [hA.dn]; simp [Stmt.labels]
    · rw [hA.un]; simp [Stmt.gotos]
    · rw [hA.nm]; simp [Stmt.gotos, Stmt.labels]
  | label n s ih =>
    intro tl sl bc ci g c g' h hw hl hn
    obtain ⟨a, ha, h⟩ := and_inv h
    obtain ⟨b, hb, h⟩ := and_inv h
    cases h
    have hA := addG_ok hw ha
    obtain ⟨h1, h2, h3⟩ := ih _ _ _ _ _ _ _ hb hA.wf (by rw [hA.cs]; exact hl) (addG_len ha hn)
    exact ⟨(acc_label hA).mp h1, post_label hA h2, h3⟩

theorem and_inv_error {α β : Type} {x : Except Err α} {f : α → Except Err β} {e : Err} (h : Except.and x f = .error e) : x = .error e ∨ ∃ a, x = .ok a ∧ f a = .error e := by
  cases x with
  | error e' => cases h; exact .inl rfl
  | ok a => exact .inr ⟨a, rfl, h⟩

/-- the names fit, given what came before -/
def Fit (F : Fx) (s : Stmt L) (g : GS) : Prop := ∃ N : List Nat, N.length ≤ F.maxGotos ∧ (∀ n ∈ names g.gotos, n ∈ N) ∧ ∀ n, n ∈ s.labels ∨ n ∈ s.gotos → n ∈ N

theorem addG_fit {n : Nat} {d : Bool} {g : GS} {e : Err} (hw : WF g) (h : addG F n d g = .error e) {N : List Nat} (hN : N.length ≤ F.maxGotos) (hs : ∀ n ∈ names g.gotos, n ∈ N)
    (hn : n ∈ N) : d = true ∧ dn g.gotos n := by
  rcases addG_error h with h | ⟨h, h'⟩
  · exact h
  · exfalso
    have h1 : (n :: names g.gotos).Nodup := List.nodup_cons.mpr ⟨h, hw.names⟩
    have h2 := h1.length_le_of_subset (l₂ := N) (fun m hm => by
      rcases List.mem_cons.mp hm with rfl | hm
      · exact hn
      · exact hs m hm)
    simp only [List.length_cons, names, List.length_map] at h2
    omega

theorem gen_err : ∀ (s : Stmt L) (tl : Bool) (sl : Nat) (bc : Option (Nat × Nat)) (ci : Nat) (g : GS) (er : Err),
    gen F s tl sl bc ci g = .error er → WF g → ci + g.cs.length ≤ F.maxCases → g.gotos.length ≤ F.maxGotos → SAcc F s bc ci g → Fit F s g → False := by
  intro s
  have b2 : ∀ {a b : Nat}, 1 ≤ b → bOf (some (a, b)) = true ∧ cOf (some (a, b)) = true := fun {a b} h => ⟨rfl, by unfold cOf; rw [ctOf_pos h]; rfl⟩
  induction s with
  | nil | empty | expr | decl => intro tl sl bc ci g c h hw hl hn; cases h
  | cons s ss ih ih' =>
    intro tl sl bc ci g er h hw hl hn ha hf
    obtain ⟨N, f1, f2, f3⟩ := hf
    have f3' : ∀ n, n ∈ s.labels ∨ n ∈ s.gotos → n ∈ N := fun n hn => f3 n (by simp only [Stmt.labels, Stmt.gotos, List.mem_append]; exact hn.imp .inl .inl)
    have f3'' : ∀ n, n ∈ ss.labels ∨ n ∈ ss.gotos → n ∈ N := fun n hn => f3 n (by simp only [Stmt.labels, Stmt.gotos, List.mem_append]; exact hn.imp .inr .inr)
    have hs : SAcc F s bc ci g := by
      obtain ⟨a1, a2, a3, a4, a5, a6, a7, a8⟩ := ha
      simp only [Stmt.cases, Stmt.defs, Stmt.labels, Stmt.need, List.nodup_append, List.mem_append] at a2 a3 a4 a5 a6 a7 a8
      exact ⟨a1.1, a2.1, fun v hv => a3 v (.inl hv), fun h => by have := a4 h; omega, by omega, a6.1, fun n hn => a7 n (.inl hn), by omega⟩
    rcases and_inv_error h with h | ⟨a, h1, h⟩
    · exact ih _ _ _ _ _ _ h hw hl hn hs ⟨N, f1, f2, f3'⟩
    · obtain ⟨w1, -, -, -⟩ := gen_labs F _ _ _ _ _ _ _ _ h1 hw
      obtain ⟨k1, k2, k3⟩ := gen_ok _ _ _ _ _ _ _ _ h1 hw hl hn
      rcases and_inv_error h with h | ⟨b, h2, h⟩
      · have hss := ((Acc.two k2).mp ha).2
        refine ih' _ _ _ _ _ _ h w1 (Nat.le_trans (Nat.le_add_right _ _) hss.2.2.2.2.2.2.2) k3 hss ⟨N, f1, fun n hn => ?_, f3''⟩
        rcases (k2.2.2.2.2 n).mp hn with h | h
        · exact f2 n h
        · exact f3' n h
      · cases h
  | block ss ih => intro tl sl bc ci g er h hw hl hn ha hf; exact ih _ _ _ _ _ _ h hw hl hn ha hf
  | ret e =>
    intro tl sl bc ci g er h hw hl hn ha hf
    simp only [gen] at h
    split at h
    · rename_i hx
      have : e.isSome = !F.retVoid := ha.1
      rw [hx] at this
      cases h2 : F.retVoid <;> rw [h2] at this <;> cases this
    · cases h
  | whl e b ih =>
    intro tl sl bc ci g er h hw hl hn ha hf
    rcases and_inv_error h with h | ⟨a, h1, h⟩
    · refine ih _ _ _ _ _ _ h (hw.bump 2 _ _) hl hn ?_ hf
      unfold SAcc
      rw [(b2 hw.pos).1, (b2 hw.pos).2]
      exact ha
    · cases h
  | dow b e ih =>
    intro tl sl bc ci g er h hw hl hn ha hf
    rcases and_inv_error h with h | ⟨a, h1, h⟩
    · refine ih _ _ _ _ _ _ h (hw.bump 3 _ _) hl hn ?_ hf
      unfold SAcc
      rw [(b2 (Nat.le_add_left 1 _)).1, (b2 (Nat.le_add_left 1 _)).2]
      exact ha
    · cases h
  | ift e s ih =>
    intro tl sl bc ci g er h hw hl hn ha hf
    rcases and_inv_error h with h | ⟨a, h1, h⟩
    · exact ih _ _ _ _ _ _ h (hw.bump 2 _ _) hl hn ha hf
    · cases h
  | ife e s ss ih ih' =>
    intro tl sl bc ci g er h hw hl hn ha hf
    obtain ⟨N, f1, f2, f3⟩ := hf
    have f3' : ∀ n, n ∈ s.labels ∨ n ∈ s.gotos → n ∈ N := fun n hn => f3 n (by simp only [Stmt.labels, Stmt.gotos, List.mem_append]; exact hn.imp .inl .inl)
    have f3'' : ∀ n, n ∈ ss.labels ∨ n ∈ ss.gotos → n ∈ N := fun n hn => f3 n (by simp only [Stmt.labels, Stmt.gotos, List.mem_append]; exact hn.imp .inr .inr)
    have hs : SAcc F s bc ci g := by
      obtain ⟨a1, a2, a3, a4, a5, a6, a7, a8⟩ := ha
      simp only [Stmt.cases, Stmt.defs, Stmt.labels, Stmt.need, List.nodup_append, List.mem_append] at a2 a3 a4 a5 a6 a7 a8
      exact ⟨a1.1, a2.1, fun v hv => a3 v (.inl hv), fun h => by have := a4 h; omega, by omega, a6.1, fun n hn => a7 n (.inl hn), by omega⟩
    have hw' := hw.bump 2 g.cs g.d
    rcases and_inv_error h with h | ⟨a, h1, h⟩
    · exact ih _ _ _ _ _ _ h hw' hl hn hs ⟨N, f1, f2, f3'⟩
    · obtain ⟨w1, -, -, -⟩ := gen_labs F _ _ _ _ _ _ _ _ h1 hw'
      obtain ⟨k1, k2, k3⟩ := gen_ok _ _ _ _ _ _ _ _ h1 hw' hl hn
      rcases and_inv_error h with h | ⟨b, h2, h⟩
      · have hss := ((Acc.two k2).mp ha).2
        refine ih' _ _ _ _ _ _ h w1 (Nat.le_trans (Nat.le_add_right _ _) hss.2.2.2.2.2.2.2) k3 hss ⟨N, f1, fun n hn => ?_, f3''⟩
        rcases (k2.2.2.2.2 n).mp hn with h | h
        · exact f2 n h
        · exact f3' n h
      · cases h
  | «for» i e1 e3 b ih =>
    intro tl sl bc ci g er h hw hl hn ha hf
    have hcnt : 1 ≤ (plan e1 e3 sl g.lab).cnt := by
      have hp := hw.pos
      unfold plan
      cases e3 with
      | none => simp only; split <;> (simp only; omega)
      | some e => simp only; split <;> (simp only; omega)
    rcases and_inv_error h with h | ⟨a, h1, h⟩
    · refine ih _ _ _ _ _ _ h (hw.bump 4 _ _) hl hn ?_ hf
      unfold SAcc
      rw [(b2 hcnt).1, (b2 hcnt).2]
      exact ha
    · cases h
  | brk =>
    intro tl sl bc ci g er h hw hl hn ha hf
    cases bc with
    | none => have : false = true := ha.1; cases this
    | some x => cases h
  | cont =>
    intro tl sl bc ci g er h hw hl hn ha hf
    cases bc with
    | none => have : false = true := ha.1; cases this
    | some x =>
      simp only [gen] at h
      split at h
      · rename_i hx
        have : cOf (some x) = true := ha.1
        unfold cOf ctOf at this
        simp [hx] at this
      · cases h
  | switch e b ih =>
    intro tl sl bc ci g er h hw hl hn ha hf
    simp only [gen] at h
    split at h
    · have := ha.2.2.2.2.2.2.2
      simp only [Stmt.need] at this
      omega
    · rcases and_inv_error h with h | ⟨a, h1, h⟩
      · exact ih _ _ _ _ _ _ h (hw.bump 2 _ _) (by show ci + g.cs.length + 1 + 0 ≤ _; omega) hn (acc_switch.mpr ha) hf
      · cases h
  | case e s ih =>
    intro tl sl bc ci g er h hw hl hn ha hf
    simp only [gen] at h
    split at h
    · rename_i hci
      have : wOf ci = true := ha.1.1
      simp [wOf, hci] at this
    rename_i hci
    cases hv : L.const e with
    | none =>
      have := ha.1.2.1
      rw [hv] at this
      cases this
    | some v =>
      simp only [hv] at h
      have hcs : (Stmt.case e s).cases = L.trunc v :: s.cases := by simp [Stmt.cases, hv]
      have hc : L.trunc v ∉ g.cs.map (·.1) := ha.2.2.1 _ (by rw [hcs]; simp)
      rw [if_neg (by rw [hasCase_iff]; exact hc)] at h
      have h8 := ha.2.2.2.2.2.2.2
      simp only [Stmt.need] at h8
      rw [if_neg (by omega)] at h
      rcases and_inv_error h with h | ⟨a, h1, h⟩
      · exact ih _ _ _ _ _ _ h (hw.bump 1 _ _) (by simp; omega) hn ((acc_case hv hci hc).mpr ha) hf
      · cases h
  | default s ih =>
    intro tl sl bc ci g er h hw hl hn ha hf
    simp only [gen] at h
    split at h
    · rename_i hci
      have : wOf ci = true := ha.1.1
      simp [wOf, hci] at this
    rename_i hci
    split at h
    · rename_i hd
      have := ha.2.2.2.1 hd
      simp [Stmt.defs] at this
    rename_i hd
    rcases and_inv_error h with h | ⟨a, h1, h⟩
    · exact ih _ _ _ _ _ _ h (hw.bump 1 _ _) hl hn ((acc_default hci hw.pos (by omega)).mpr ha) hf
    · cases h
  | goto n =>
    intro tl sl bc ci g er h hw hl hn ha hf
    obtain ⟨N, f1, f2, f3⟩ := hf
    rcases and_inv_error h with h | ⟨a, h1, h⟩
    · obtain ⟨h1, -⟩ := addG_fit hw h f1 f2 (f3 n (by simp [Stmt.gotos]))
      cases h1
    · cases h
  | label n s ih =>
    intro tl sl bc ci g er h hw hl hn ha hf
    obtain ⟨N, f1, f2, f3⟩ := hf
    rcases and_inv_error h with h | ⟨a, h1, h⟩
    · obtain ⟨-, h1⟩ := addG_fit hw h f1 f2 (f3 n (by simp [Stmt.labels]))
      exact ha.2.2.2.2.2.2.1 n (by simp [Stmt.labels]) h1
    · have hA := addG_ok hw h1
      rcases and_inv_error h with h | ⟨b, h2, h⟩
      · refine ih _ _ _ _ _ _ h hA.wf (by rw [hA.cs]; exact hl) (addG_len h1 hn) ((acc_label hA).mpr ha) ⟨N, f1, fun m hm => ?_, fun m hm => f3 m ?_⟩
        · rcases (hA.nm m).mp hm with h | h
          · exact f2 m h
          · exact f3 m (.inl (by simp [Stmt.labels, h]))
        · simp only [Stmt.labels, Stmt.gotos, List.mem_cons]
          exact hm.imp .inr id
      · cases h

end

end Smlr.Stmt
