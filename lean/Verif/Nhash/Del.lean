import Verif.Nhash.Tree
set_option autoImplicit false
/-! Deleting the root of a tree. -/
namespace Smlr.Nhash

/-- take away the rightmost node -/
def popMax (p : Nat) (k : UInt32) (c : Cell) (l : T) : T → (Nat × UInt32 × Cell) × T
  | .nil => ((p, k, c), l)
  | .node p' k' c' l' r' => ((popMax p' k' c' l' r').1, .node p k c l (popMax p' k' c' l' r').2)

/-- take away the leftmost node -/
def popMin (p : Nat) (k : UInt32) (c : Cell) (r : T) : T → (Nat × UInt32 × Cell) × T
  | .nil => ((p, k, c), r)
  | .node p' k' c' l' r' => ((popMin p' k' c' r' l').1, .node p k c (popMin p' k' c' r' l').2 r)

theorem load_of {h : Heap} {p : Nat} {nd : Node} (hp : p ≠ 0) (hn : h p = some nd) : load h p = some nd := by
  unfold load; rw [if_neg hp]; exact hn

theorem popMax_cells (p : Nat) (k : UInt32) (c : Cell) (l r : T) :
    (T.node p k c l r).cells = (popMax p k c l r).2.cells ++ [((popMax p k c l r).1.2.1, (popMax p k c l r).1.2.2.items (popMax p k c l r).1.1)] := by
  induction r generalizing p k c l with
  | nil => rfl
  | node p' k' c' l' r' _ ih =>
    have := ih p' k' c' l'
    simp only [T.cells, popMax] at this ⊢
    rw [this]; simp

theorem popMin_cells (p : Nat) (k : UInt32) (c : Cell) (l r : T) :
    (T.node p k c l r).cells = ((popMin p k c r l).1.2.1, (popMin p k c r l).1.2.2.items (popMin p k c r l).1.1) :: (popMin p k c r l).2.cells := by
  induction l generalizing p k c r with
  | nil => rfl
  | node p' k' c' l' r' ih _ =>
    have := ih p' k' c' r'
    simp only [T.cells, popMin] at this ⊢
    rw [this]; simp

theorem popMax_perm (p : Nat) (k : UInt32) (c : Cell) (l r : T) :
    (T.node p k c l r).ptrs.Perm ((popMax p k c l r).1.1 :: ((popMax p k c l r).1.2.2.ptrs ++ (popMax p k c l r).2.ptrs)) := by
  induction r generalizing p k c l with
  | nil => simp only [T.ptrs, popMax, List.append_nil]; exact .refl _
  | node p' k' c' l' r' _ ih =>
    have := ih p' k' c' l'
    show (p :: (c.ptrs ++ (l.ptrs ++ (T.node p' k' c' l' r').ptrs))).Perm ((popMax p' k' c' l' r').1.1 :: ((popMax p' k' c' l' r').1.2.2.ptrs ++ (p :: (c.ptrs ++ (l.ptrs ++ (popMax p' k' c' l' r').2.ptrs)))))
    generalize popMax p' k' c' l' r' = m at *
    generalize (T.node p' k' c' l' r').ptrs = x at *
    refine ((((this.append_left l.ptrs).append_left c.ptrs).cons p)).trans ?_
    rw [List.perm_iff_count]
    intro a
    simp only [List.count_append, List.count_cons]
    omega

theorem popMin_perm (p : Nat) (k : UInt32) (c : Cell) (l r : T) :
    (T.node p k c l r).ptrs.Perm ((popMin p k c r l).1.1 :: ((popMin p k c r l).1.2.2.ptrs ++ (popMin p k c r l).2.ptrs)) := by
  induction l generalizing p k c r with
  | nil => simp only [T.ptrs, popMin, List.nil_append]; exact .refl _
  | node p' k' c' l' r' ih _ =>
    have := ih p' k' c' r'
    show (p :: (c.ptrs ++ ((T.node p' k' c' l' r').ptrs ++ r.ptrs))).Perm ((popMin p' k' c' r' l').1.1 :: ((popMin p' k' c' r' l').1.2.2.ptrs ++ (p :: (c.ptrs ++ ((popMin p' k' c' r' l').2.ptrs ++ r.ptrs)))))
    generalize popMin p' k' c' r' l' = m at *
    generalize (T.node p' k' c' l' r').ptrs = x at *
    refine ((((this.append_right r.ptrs).append_left c.ptrs).cons p)).trans ?_
    rw [List.perm_iff_count]
    intro a
    simp only [List.count_append, List.count_cons]
    omega

theorem rightmost_spec {h : Heap} {p : Nat} {k : UInt32} {c : Cell} {l r : T} (n z0 : Nat) (hr : Rep h (.node p k c l r)) (hnd : (T.node p k c l r).ptrs.Nodup)
    (hn : (T.node p k c l r).size ≤ n) :
    ∃ z a, rightmost h n z0 p = some (z, (popMax p k c l r).1.1) ∧
      CellRep h (popMax p k c l r).1.1 (popMax p k c l r).1.2.1 (popMax p k c l r).1.2.2 a 0 ∧
      ((z = z0 ∧ (popMax p k c l r) = ((p, k, c), l) ∧ a = l.root) ∨
       (∃ nz, z ∈ (popMax p k c l r).2.ptrs ∧ z ≠ 0 ∧ h z = some nz ∧ Rep (h.set z (some { nz with right := a })) (popMax p k c l r).2 ∧ (popMax p k c l r).2.root = p)) := by
  induction r generalizing p k c l n z0 with
  | nil =>
    cases n with
    | zero => simp [T.size] at hn
    | succ n =>
      obtain ⟨nd, h1, _, h2, h3, h4⟩ := hr.1.get
      exact ⟨z0, l.root, by simp [rightmost, h1, h3, T.root, popMax], hr.1, .inl ⟨rfl, rfl, rfl⟩⟩
  | node p' k' c' l' r' _ ih =>
    cases n with
    | zero => simp [T.size] at hn
    | succ n =>
      obtain ⟨hc, hl, hr'⟩ := hr
      obtain ⟨nd, h1, h1', h2, h3, h4⟩ := hc.get
      have hpne : p' ≠ 0 := hr'.1.1
      have hnd' : (T.node p' k' c' l' r').ptrs.Nodup := by
        rw [T.ptrs, List.nodup_cons, List.nodup_append, List.nodup_append] at hnd; exact hnd.2.2.1.2.1
      have hn' : (T.node p' k' c' l' r').size ≤ n := by rw [T.size] at hn; omega
      have hstep : rightmost h (n + 1) z0 p = rightmost h n p p' := by
        simp [rightmost, h1, h3, T.root, hpne]
      obtain ⟨z, a, e1, e2, e3⟩ := ih (p := p') (k := k') (c := c') (l := l') n p hr' hnd' hn'
      have hperm := popMax_perm p' k' c' l' r'
      have hmem : ∀ q, q ∈ (T.node p' k' c' l' r').ptrs ↔ _ := fun q => hperm.mem_iff
      have hpp : p ∉ (T.node p' k' c' l' r').ptrs := by
        rw [T.ptrs, List.nodup_cons] at hnd; grind
      have hcp : p ∉ c.ptrs := by rw [T.ptrs, List.nodup_cons] at hnd; grind
      have hlp : p ∉ l.ptrs := by rw [T.ptrs, List.nodup_cons] at hnd; grind
      refine ⟨z, a, by rw [hstep, e1]; rfl, e2, .inr ?_⟩
      rcases e3 with ⟨f1, f2, f3⟩ | ⟨nz, f1, f2, f3, f4, f5⟩
      · subst f1
        refine ⟨nd, by simp [popMax, T.ptrs], hc.1, h1', ?_, rfl⟩
        simp only [popMax, f2]
        refine ⟨?_, hl.frame fun q hq => Heap.set_ne fun e => hlp (e ▸ hq), hr'.2.1.frame fun q hq => Heap.set_ne fun e => hpp ?_⟩
        · rw [f3]; exact hc.setRight hcp h1' _
        · rw [T.ptrs]; grind
      · have hzm : z ∈ (T.node p' k' c' l' r').ptrs := (hmem z).mpr (by grind)
        refine ⟨nz, by simp only [popMax, T.ptrs]; grind, f2, f3, ?_, rfl⟩
        simp only [popMax]
        rw [T.ptrs, List.nodup_cons, List.nodup_append, List.nodup_append] at hnd
        refine ⟨?_, hl.frame fun q hq => Heap.set_ne ?_, f4⟩
        · rw [f5]; exact hc.frame fun q hq => Heap.set_ne (by grind)
        · grind

theorem leftmost_spec {h : Heap} {p : Nat} {k : UInt32} {c : Cell} {l r : T} (n z0 : Nat) (hr : Rep h (.node p k c l r)) (hnd : (T.node p k c l r).ptrs.Nodup)
    (hn : (T.node p k c l r).size ≤ n) :
    ∃ z a, leftmost h n z0 p = some (z, (popMin p k c r l).1.1) ∧
      CellRep h (popMin p k c r l).1.1 (popMin p k c r l).1.2.1 (popMin p k c r l).1.2.2 0 a ∧
      ((z = z0 ∧ (popMin p k c r l) = ((p, k, c), r) ∧ a = r.root) ∨
       (∃ nz, z ∈ (popMin p k c r l).2.ptrs ∧ z ≠ 0 ∧ h z = some nz ∧ Rep (h.set z (some { nz with left := a })) (popMin p k c r l).2 ∧ (popMin p k c r l).2.root = p)) := by
  induction l generalizing p k c r n z0 with
  | nil =>
    cases n with
    | zero => simp [T.size] at hn
    | succ n =>
      obtain ⟨nd, h1, _, h2, h3, h4⟩ := hr.1.get
      exact ⟨z0, r.root, by simp [leftmost, h1, h2, T.root, popMin], hr.1, .inl ⟨rfl, rfl, rfl⟩⟩
  | node p' k' c' l' r' ih _ =>
    cases n with
    | zero => simp [T.size] at hn
    | succ n =>
      obtain ⟨hc, hl', hr⟩ := hr
      obtain ⟨nd, h1, h1', h2, h3, h4⟩ := hc.get
      have hpne : p' ≠ 0 := hl'.1.1
      have hnd' : (T.node p' k' c' l' r').ptrs.Nodup := by
        rw [T.ptrs, List.nodup_cons, List.nodup_append, List.nodup_append] at hnd; exact hnd.2.2.1.1
      have hn' : (T.node p' k' c' l' r').size ≤ n := by rw [T.size] at hn; omega
      have hstep : leftmost h (n + 1) z0 p = leftmost h n p p' := by
        simp [leftmost, h1, h2, T.root, hpne]
      obtain ⟨z, a, e1, e2, e3⟩ := ih (p := p') (k := k') (c := c') (r := r') n p hl' hnd' hn'
      have hperm := popMin_perm p' k' c' l' r'
      have hmem : ∀ q, q ∈ (T.node p' k' c' l' r').ptrs ↔ _ := fun q => hperm.mem_iff
      have hpp : p ∉ (T.node p' k' c' l' r').ptrs := by
        rw [T.ptrs, List.nodup_cons] at hnd; grind
      have hcp : p ∉ c.ptrs := by rw [T.ptrs, List.nodup_cons] at hnd; grind
      have hrp : p ∉ r.ptrs := by rw [T.ptrs, List.nodup_cons] at hnd; grind
      refine ⟨z, a, by rw [hstep, e1]; rfl, e2, .inr ?_⟩
      rcases e3 with ⟨f1, f2, f3⟩ | ⟨nz, f1, f2, f3, f4, f5⟩
      · subst f1
        refine ⟨nd, by simp [popMin, T.ptrs], hc.1, h1', ?_, rfl⟩
        simp only [popMin, f2]
        refine ⟨?_, hl'.2.2.frame fun q hq => Heap.set_ne fun e => hpp ?_, hr.frame fun q hq => Heap.set_ne fun e => hrp (e ▸ hq)⟩
        · rw [f3]; exact hc.setLeft hcp h1' _
        · rw [T.ptrs]; grind
      · have hzm : z ∈ (T.node p' k' c' l' r').ptrs := (hmem z).mpr (by grind)
        refine ⟨nz, by simp only [popMin, T.ptrs]; grind, f2, f3, ?_, rfl⟩
        simp only [popMin]
        rw [T.ptrs, List.nodup_cons, List.nodup_append, List.nodup_append] at hnd
        refine ⟨?_, f4, hr.frame fun q hq => Heap.set_ne ?_⟩
        · rw [f5]; exact hc.frame fun q hq => Heap.set_ne (by grind)
        · grind

theorem setLeft_eq {h : Heap} {p : Nat} {nd : Node} (hp : p ≠ 0) (hn : h p = some nd) (x : Nat) : setLeft h p x = some (h.set p (some { nd with left := x })) := by
  unfold setLeft; rw [load_of hp hn]; rfl
theorem setRight_eq {h : Heap} {p : Nat} {nd : Node} (hp : p ≠ 0) (hn : h p = some nd) (x : Nat) : setRight h p x = some (h.set p (some { nd with right := x })) := by
  unfold setRight; rw [load_of hp hn]; rfl

theorem root_node (p : Nat) (k : UInt32) (c : Cell) (l r : T) : (T.node p k c l r).root = p := rfl
theorem root_nil : T.nil.root = 0 := rfl

theorem promote_spec {h : Heap} {p : Nat} {k : UInt32} {c : Cell} {l r : T} (n : Nat) (hr : Rep h (.node p k c l r)) (hnd : (T.node p k c l r).ptrs.Nodup)
    (hn : (T.node p k c l r).size ≤ n) :
    ∃ t' h', promote n h p = some (t'.root, h') ∧ Rep h' t' ∧ t'.cells = l.cells ++ r.cells ∧ t'.ptrs.Perm (l.ptrs ++ r.ptrs) ∧ (∀ q, q ∉ l.ptrs ++ r.ptrs → h' q = h q) := by
  obtain ⟨hc, hl, hr'⟩ := hr
  obtain ⟨nd, h1, h1', h2, h3, h4⟩ := hc.get
  rw [T.ptrs, List.nodup_cons] at hnd
  cases l with
  | node lp lk lc ll lr =>
    have hnl : (T.node lp lk lc ll lr).size ≤ n := by rw [T.size] at hn; omega
    have hndl : (T.node lp lk lc ll lr).ptrs.Nodup := by
      rw [List.nodup_append, List.nodup_append] at hnd; exact hnd.2.2.1.1
    obtain ⟨z, a, e1, e2, e3⟩ := rightmost_spec n p hl hndl hnl
    have hperm := popMax_perm lp lk lc ll lr
    have hcells := popMax_cells lp lk lc ll lr
    have hndm := hperm.nodup_iff.mp hndl
    have hlr : ∀ q ∈ (T.node lp lk lc ll lr).ptrs, q ∉ r.ptrs := by
      rw [List.nodup_append, List.nodup_append] at hnd; intro q hq hq'; exact hnd.2.2.1.2.2 q hq q hq' rfl
    have hpl : p ∉ (T.node lp lk lc ll lr).ptrs := by grind
    have hmem : ∀ q, q ∈ (T.node lp lk lc ll lr).ptrs ↔ _ := fun q => hperm.mem_iff
    have hlpmem : lp ∈ (T.node lp lk lc ll lr).ptrs := by simp [T.ptrs]
    generalize popMax lp lk lc ll lr = m at *
    obtain ⟨⟨mp, mk, mc⟩, l'⟩ := m
    simp only at *
    rw [List.nodup_cons] at hndm
    have hlp : lp ≠ 0 := hl.1.1
    have hmr : mp ∉ r.ptrs := hlr mp ((hmem mp).mpr (by simp))
    have hml' : mp ∉ l'.ptrs := by grind
    have hmcp : mp ∉ mc.ptrs := by grind
    rcases e3 with ⟨f1, f2, f3⟩ | ⟨nz, f1, f2, f3, f4, f5⟩
    · cases f2
      subst f1
      obtain ⟨md, g1, g1', g2, g3, g4⟩ := e2.get
      refine ⟨.node lp lk lc ll r, h.set lp (some { md with right := r.root }), ?_, ⟨?_, hl.2.1.frame fun q hq => Heap.set_ne fun e => hml' (e ▸ hq), hr'.frame fun q hq => Heap.set_ne fun e => hmr (e ▸ hq)⟩, ?_, ?_, ?_⟩
      · simp only [promote, h1, Option.bind_eq_bind, Option.bind_some, h2, root_node, root_nil, ne_eq, hlp, not_false_eq_true, if_true, e1, not_true, if_false, h3, setRight_eq hlp g1' r.root]
      · rw [f3] at e2; exact e2.setRight hmcp g1' _
      · rw [hcells]; simp [T.cells]
      · refine (List.Perm.trans ?_ (hperm.append_right r.ptrs).symm)
        simp [T.ptrs]
      · intro q hq
        exact Heap.set_ne fun e => hq (by rw [e]; exact List.mem_append_left _ hlpmem)
    · obtain ⟨md, g1, g1', g2, g3, g4⟩ := e2.get
      have hzm : z ≠ mp := fun e => hml' (e ▸ f1)
      have hzr : z ∉ r.ptrs := hlr z ((hmem z).mpr (by grind))
      have hzp : z ≠ p := fun e => hpl (e ▸ (hmem z).mpr (by grind))
      have hzc : z ∉ mc.ptrs := fun hz => by rw [List.nodup_append] at hndm; exact hndm.2.2.2 z hz z f1 rfl
      let hA : Heap := h.set z (some { nz with right := a })
      have g5 : hA mp = some md := (Heap.set_ne (Ne.symm hzm)).trans g1'
      have e2' : CellRep hA mp mk mc a 0 := e2.frame fun q hq => Heap.set_ne (by grind)
      let h2' : Heap := hA.set mp (some { md with left := lp })
      have g6 : h2' mp = some { md with left := lp } := Heap.set_eq
      refine ⟨.node mp mk mc l' r, h2'.set mp (some { md with left := lp, right := r.root }), ?_, ⟨?_, ?_, ?_⟩, ?_, ?_, ?_⟩
      · simp only [promote, h1, Option.bind_eq_bind, Option.bind_some, h2, root_node, root_nil, ne_eq, hlp, not_false_eq_true, if_true, e1, hzp, g1, g2, h3]
        rw [setRight_eq f2 f3]
        simp only [Option.bind_some]
        rw [setLeft_eq e2.1 g5]
        simp only [Option.bind_some]
        rw [setRight_eq e2.1 g6]
        rfl
      · rw [f5]
        have := (e2'.setLeft hmcp g5 lp).setRight hmcp g6 r.root
        exact this
      · exact f4.frame fun q hq => have hne : q ≠ mp := fun e => hml' (e ▸ hq); (Heap.set_ne hne).trans (Heap.set_ne hne)
      · exact hr'.frame fun q hq => have hne : q ≠ mp := fun e => hmr (e ▸ hq); have hnz : q ≠ z := fun e => hzr (e ▸ hq); ((Heap.set_ne hne).trans (Heap.set_ne hne)).trans (Heap.set_ne hnz)
      · rw [hcells]; simp [T.cells]
      · refine (List.Perm.trans ?_ (hperm.append_right r.ptrs).symm)
        simp [T.ptrs]
      · intro q hq
        have hmq : q ≠ mp := fun e => hq (by rw [e]; exact List.mem_append_left _ ((hmem mp).mpr (by simp)))
        have hzq : q ≠ z := fun e => hq (by rw [e]; exact List.mem_append_left _ ((hmem z).mpr (by grind)))
        exact ((Heap.set_ne hmq).trans (Heap.set_ne hmq)).trans (Heap.set_ne hzq)
  | nil =>
    cases r with
    | nil =>
      exact ⟨.nil, h, by simp [promote, h1, h2, h3, T.root], trivial, rfl, .refl _, fun _ _ => rfl⟩
    | node lp lk lc rl rr =>
      have hnl : (T.node lp lk lc rl rr).size ≤ n := by rw [T.size] at hn; omega
      have hndl : (T.node lp lk lc rl rr).ptrs.Nodup := by
        rw [List.nodup_append, List.nodup_append] at hnd; exact hnd.2.2.1.2.1
      obtain ⟨z, a, e1, e2, e3⟩ := leftmost_spec n p hr' hndl hnl
      have hperm := popMin_perm lp lk lc rl rr
      have hcells := popMin_cells lp lk lc rl rr
      have hndm := hperm.nodup_iff.mp hndl
      have hpl : p ∉ (T.node lp lk lc rl rr).ptrs := by grind
      have hmem : ∀ q, q ∈ (T.node lp lk lc rl rr).ptrs ↔ _ := fun q => hperm.mem_iff
      have hlpmem : lp ∈ (T.node lp lk lc rl rr).ptrs := by simp [T.ptrs]
      generalize popMin lp lk lc rr rl = m at *
      obtain ⟨⟨mp, mk, mc⟩, l'⟩ := m
      simp only at *
      rw [List.nodup_cons] at hndm
      have hlp : lp ≠ 0 := hr'.1.1
      have hml' : mp ∉ l'.ptrs := by grind
      have hmcp : mp ∉ mc.ptrs := by grind
      rcases e3 with ⟨f1, f2, f3⟩ | ⟨nz, f1, f2, f3, f4, f5⟩
      · cases f2
        subst f1
        obtain ⟨md, g1, g1', g2, g3, g4⟩ := e2.get
        refine ⟨.node lp lk lc .nil rr, h.set lp (some { md with left := 0 }), ?_, ⟨?_, trivial, hr'.2.2.frame fun q hq => Heap.set_ne fun e => hml' (e ▸ hq)⟩, ?_, ?_, ?_⟩
        · simp only [promote, h1, Option.bind_eq_bind, Option.bind_some, h2, root_node, root_nil, ne_eq, hlp, not_false_eq_true, if_true, e1, not_true, if_false, h3, setLeft_eq hlp g1' 0]
        · rw [f3] at e2; exact e2.setLeft hmcp g1' _
        · rw [hcells]; simp [T.cells]
        · refine (List.Perm.trans ?_ (hperm.append_left T.nil.ptrs).symm)
          simp [T.ptrs]
        · intro q hq
          exact Heap.set_ne fun e => hq (by rw [e]; exact List.mem_append_right _ hlpmem)
      · obtain ⟨md, g1, g1', g2, g3, g4⟩ := e2.get
        have hzm : z ≠ mp := fun e => hml' (e ▸ f1)
        have hzp : z ≠ p := fun e => hpl (e ▸ (hmem z).mpr (by grind))
        have hzc : z ∉ mc.ptrs := fun hz => by rw [List.nodup_append] at hndm; exact hndm.2.2.2 z hz z f1 rfl
        let hA : Heap := h.set z (some { nz with left := a })
        have g5 : hA mp = some md := (Heap.set_ne (Ne.symm hzm)).trans g1'
        have e2' : CellRep hA mp mk mc 0 a := e2.frame fun q hq => Heap.set_ne (by grind)
        let h2' : Heap := hA.set mp (some { md with right := lp })
        have g6 : h2' mp = some { md with right := lp } := Heap.set_eq
        refine ⟨.node mp mk mc .nil l', h2'.set mp (some { md with right := lp, left := 0 }), ?_, ⟨?_, trivial, ?_⟩, ?_, ?_, ?_⟩
        · simp only [promote, h1, Option.bind_eq_bind, Option.bind_some, h2, h3, root_node, root_nil, ne_eq, hlp, not_false_eq_true, not_true, if_false, if_true, e1, hzp, g1, g3]
          rw [setLeft_eq f2 f3]
          simp only [Option.bind_some]
          rw [setRight_eq e2.1 g5]
          simp only [Option.bind_some]
          rw [setLeft_eq e2.1 g6]
          rfl
        · rw [f5]
          have := (e2'.setRight hmcp g5 lp).setLeft hmcp g6 0
          exact this
        · exact f4.frame fun q hq => have hne : q ≠ mp := fun e => hml' (e ▸ hq); (Heap.set_ne hne).trans (Heap.set_ne hne)
        · rw [hcells]; simp [T.cells]
        · refine (List.Perm.trans ?_ (hperm.append_left T.nil.ptrs).symm)
          simp [T.ptrs]
        · intro q hq
          have hmq : q ≠ mp := fun e => hq (by rw [e]; exact List.mem_append_right _ ((hmem mp).mpr (by simp)))
          have hzq : q ≠ z := fun e => hq (by rw [e]; exact List.mem_append_right _ ((hmem z).mpr (by grind)))
          exact ((Heap.set_ne hmq).trans (Heap.set_ne hmq)).trans (Heap.set_ne hzq)

end Smlr.Nhash
