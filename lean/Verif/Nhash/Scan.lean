import Verif.Nhash.Rem
set_option autoImplicit false
/-! `HTT_scan` and `HTT_kill`. -/
namespace Smlr.Nhash

/-- the order in which items are visited -/
def T.post : T → List Nat
  | .nil => []
  | .node p _ c l r => l.post ++ (r.post ++ (c.items p).map Prod.snd)

def T.items (t : T) : List (Name × Nat) := t.cells.flatMap Prod.snd

theorem post_perm (t : T) : t.post.Perm (t.items.map Prod.snd) := by
  induction t with
  | nil => exact .refl _
  | node p k c l r ihl ihr =>
    have : (T.node p k c l r).items = l.items ++ (c.items p ++ r.items) := by simp [T.items, T.cells]
    rw [this, List.map_append, List.map_append, T.post]
    exact ihl.append ((List.perm_append_comm).trans (ihr.append_left _))

/-- the heap after the visit of `ps` -/
def wiped (wipe : Bool) (h : Heap) (ps : List Nat) : Heap := fun q => if wipe = true ∧ q ∈ ps then none else h q

theorem wiped_other {wipe : Bool} {h : Heap} {ps : List Nat} {q : Nat} (hq : q ∉ ps) : wiped wipe h ps q = h q := if_neg fun e => hq e.2

theorem wiped_append (wipe : Bool) (h : Heap) (a b : List Nat) : wiped wipe (wiped wipe h a) b = wiped wipe h (a ++ b) := by
  funext q
  unfold wiped
  cases wipe <;> simp
  by_cases h1 : q ∈ a <;> by_cases h2 : q ∈ b <;> simp [h1, h2]

theorem wiped_perm (wipe : Bool) (h : Heap) {a b : List Nat} (hp : a.Perm b) : wiped wipe h a = wiped wipe h b := by
  funext q
  unfold wiped
  simp only [hp.mem_iff]

theorem visit_spec {wipe : Bool} {t : Tab} {p : Nat} {nd : Node} (hp : p ≠ 0) (hn : t.heap p = some nd) :
    visit wipe t p = some { t with heap := wiped wipe t.heap [p], log := t.log ++ [p] } := by
  unfold visit
  rw [load_of hp hn]
  simp only [Option.bind_eq_bind, Option.bind_some]
  congr 2
  funext q
  unfold wiped
  cases wipe <;> simp [Heap.set]

theorem scanList_spec (wipe : Bool) {t : Tab} {k : UInt32} {its : List (Name × Nat)} {a : Nat} (hc : Chain t.heap k a its) (hnd : (its.map Prod.snd).Nodup) (n : Nat) (hn : its.length < n) :
    scanList wipe n t a = some { t with heap := wiped wipe t.heap (its.map Prod.snd), log := t.log ++ its.map Prod.snd } := by
  induction its generalizing t a n with
  | nil =>
    cases n with
    | zero => simp at hn
    | succ n =>
      cases hc
      have : wiped wipe t.heap [] = t.heap := by funext q; exact wiped_other (by simp)
      simp [scanList, this]
  | cons x its ih =>
    cases n with
    | zero => simp at hn
    | succ n =>
      obtain ⟨h1, h2, nx, r, h3, h4⟩ := hc
      subst h1
      rw [List.map_cons, List.nodup_cons] at hnd
      have hc' : Chain (wiped wipe t.heap [x.2]) k nx its := h4.frame fun q hq => wiped_other fun e => by
        rw [List.mem_singleton] at e; exact hnd.1 (e ▸ hq)
      simp only [scanList, h2, if_false, load_of h2 h3, Option.bind_eq_bind, Option.bind_some, visit_spec h2 h3]
      rw [ih (t := { t with heap := wiped wipe t.heap [x.2], log := t.log ++ [x.2] }) hc' hnd.2 n (by simp at hn; omega)]
      simp only [wiped_append, List.map_cons, List.singleton_append, List.append_assoc]

theorem scanNode_spec (wipe : Bool) (tr : T) {t : Tab} (hr : Rep t.heap tr) (hnd : tr.ptrs.Nodup) (n : Nat) (hn : tr.ptrs.length < n) :
    scanNode wipe n t tr.root = some { t with heap := wiped wipe t.heap tr.ptrs, log := t.log ++ tr.post } := by
  induction tr generalizing t n with
  | nil =>
    cases n with
    | zero => simp at hn
    | succ n =>
      have : wiped wipe t.heap [] = t.heap := by funext q; exact wiped_other (by simp)
      simp [scanNode, T.root, T.ptrs, T.post, this]
  | node p k c l r ihl ihr =>
    cases n with
    | zero => simp at hn
    | succ n =>
      simp only [T.ptrs, List.length_cons, List.length_append] at hn
      have hnd' := hnd
      simp only [T.ptrs] at hnd'
      rw [List.nodup_cons, List.nodup_append, List.nodup_append] at hnd'
      obtain ⟨hp1, hcn, ⟨hln, hrn, hlr⟩, hclr⟩ := hnd'
      have hpl : p ∉ l.ptrs := fun h => hp1 (List.mem_append_right _ (List.mem_append_left _ h))
      have hpr : p ∉ r.ptrs := fun h => hp1 (List.mem_append_right _ (List.mem_append_right _ h))
      have hpc : p ∉ c.ptrs := fun h => hp1 (List.mem_append_left _ h)
      obtain ⟨hc, hl, hrr⟩ := hr
      obtain ⟨nd, e1, e2, e3, e4, e5⟩ := hc.get
      have hp := hc.1
      have e2l : (wiped wipe t.heap l.ptrs) p = some nd := (wiped_other hpl).trans e2
      have hr2 : Rep (wiped wipe t.heap l.ptrs) r := hrr.frame fun q hq => wiped_other fun h => hlr q h q hq rfl
      have e2r : (wiped wipe t.heap (l.ptrs ++ r.ptrs)) p = some nd := (wiped_other (by simp [hpl, hpr])).trans e2
      have hc2 : CellRep (wiped wipe t.heap (l.ptrs ++ r.ptrs)) p k c l.root r.root := hc.frame fun q hq => wiped_other fun h => by
        rcases List.mem_cons.mp hq with rfl | hq
        · exact (List.mem_append.mp h).elim hpl hpr
        · exact hclr q hq q h rfl
      simp only [scanNode, root_node, hp, if_false, e1, Option.bind_eq_bind, Option.bind_some, e3]
      rw [ihl hl hln n (by omega)]
      simp only [Option.bind_some, load_of hp e2l, e4]
      rw [ihr (t := { t with heap := wiped wipe t.heap l.ptrs, log := t.log ++ l.post }) hr2 hrn n (by omega)]
      simp only [Option.bind_some, wiped_append, load_of hp e2r]
      cases c with
      | real nm =>
        have hb : nd.word &&& 1 = 0 := by
          have h3 := hc.2.2; simp only at h3; rw [e2] at h3; cases h3; exact even_bit k hc.2.1
        simp only [hb, ne_eq, not_true, if_false]
        rw [visit_spec (t := { t with heap := wiped wipe t.heap (l.ptrs ++ r.ptrs), log := t.log ++ l.post ++ r.post }) hp e2r]
        simp only [wiped_append, T.post, T.ptrs, Cell.ptrs, Cell.items, List.map_cons, List.map_nil, List.append_assoc, List.nil_append]
        congr 2
        exact wiped_perm _ _ (by rw [List.perm_iff_count]; intro a; simp only [List.count_append, List.count_cons, List.count_nil]; omega)
      | fake its =>
        obtain ⟨hd, h4, h5, h6⟩ := hc.2.2
        rw [e2] at h4; cases h4
        obtain ⟨hd', h4', h5', _⟩ := hc2.2.2
        rw [e2r] at h4'; cases h4'
        simp only [odd_bit, ne_eq, not_false_eq_true, if_true, headOf, Option.bind_some]
        rw [scanList_spec wipe (t := { t with heap := wiped wipe t.heap (l.ptrs ++ r.ptrs), log := t.log ++ l.post ++ r.post }) h5' hcn n (by simp only [Cell.ptrs, List.length_map] at hn; omega)]
        simp only [Option.bind_some, wiped_append]
        have e2f : (wiped wipe t.heap (l.ptrs ++ r.ptrs ++ its.map Prod.snd)) p = some ⟨l.root, r.root, k ||| 1, .ptr hd⟩ :=
          (wiped_other (by simp only [Cell.ptrs] at hpc; simp only [List.mem_append, not_or]; exact ⟨⟨hpl, hpr⟩, hpc⟩)).trans e2
        rw [load_of hp e2f]
        simp only [Option.bind_some, T.post, T.ptrs, Cell.ptrs, Cell.items, List.append_assoc]
        have hw : wiped wipe t.heap (p :: (its.map Prod.snd ++ (l.ptrs ++ r.ptrs))) = wiped wipe t.heap ((l.ptrs ++ (r.ptrs ++ its.map Prod.snd)) ++ [p]) :=
          wiped_perm _ _ (by rw [List.perm_iff_count]; intro a; simp only [List.count_append, List.count_cons, List.count_nil]; omega)
        rw [hw]
        cases wipe with
        | false =>
          simp only [Bool.false_eq_true, if_false]
          congr 2
        | true =>
          simp only [if_true]
          congr 2
          generalize l.ptrs ++ (r.ptrs ++ its.map Prod.snd) = A
          rw [← wiped_append]
          funext q; simp [wiped, Heap.set]

/-- the trees from `i` on -/
theorem scanTrees_spec (wipe : Bool) (ts : Nat → T) (n : Nat) (hn : ∀ i, (ts i).ptrs.length < n) (hnd : ∀ i, (ts i).ptrs.Nodup) (hd : ∀ i j, i ≠ j → ∀ q ∈ (ts i).ptrs, q ∉ (ts j).ptrs)
    (k i : Nat) (t : Tab) (hroot : ∀ j, t.tree j = (ts j).root) (hr : ∀ j, i ≤ j → Rep t.heap (ts j)) :
    ∃ t', scanTrees wipe n k i t = some t' ∧ t'.tree = t.tree ∧ t'.log = t.log ++ (List.range' i k).flatMap (fun j => (ts j).post) ∧
      t'.heap = wiped wipe t.heap ((List.range' i k).flatMap (fun j => (ts j).ptrs)) := by
  induction k generalizing i t with
  | zero =>
    refine ⟨t, rfl, rfl, by simp, ?_⟩
    funext q; exact (wiped_other (by simp)).symm
  | succ k ih =>
    have h1 := scanNode_spec wipe (ts i) (hr i (Nat.le_refl i)) (hnd i) n (hn i)
    obtain ⟨t', a1, a2, a3, a4⟩ := ih (i + 1) { t with heap := wiped wipe t.heap (ts i).ptrs, log := t.log ++ (ts i).post } hroot
      (fun j hj => (hr j (by omega)).frame fun q hq => wiped_other (hd j i (by omega) q hq))
    refine ⟨t', ?_, a2, ?_, ?_⟩
    · simp only [scanTrees, hroot, h1, Option.bind_eq_bind, Option.bind_some]
      exact a1
    · rw [a3]; simp [List.range'_succ]
    · rw [a4]; simp only [List.range'_succ, List.flatMap_cons, wiped_append]

theorem index_lt (red : Bool) (u : UInt32) : index red u < numTrees red := by
  unfold index numTrees
  cases red
  · simp only [Bool.false_eq_true, if_false, UInt32.toNat_and]
    exact Nat.lt_of_le_of_lt Nat.and_le_right (by decide)
  · simp only [if_true, UInt32.toNat_and]
    exact Nat.lt_of_le_of_lt Nat.and_le_right (by decide)

theorem cells_nodup {red : Bool} {i : Nat} {cs : List (UInt32 × List (Name × Nat))} (hs : cs.Pairwise (fun a b => a.1 < b.1)) (hc : ∀ x ∈ cs, CellOk red i x) :
    (cs.flatMap Prod.snd).Nodup := by
  induction cs with
  | nil => simp
  | cons c cs ih =>
    rw [List.pairwise_cons] at hs
    rw [List.flatMap_cons, List.nodup_append]
    refine ⟨(List.pairwise_map.mp (hc c List.mem_cons_self).1).imp fun h e => h (congrArg _ e), ih hs.2 fun x hx => hc x (List.mem_cons_of_mem _ hx), ?_⟩
    intro a ha b hb e
    subst e
    obtain ⟨c', hc', ha'⟩ := List.mem_flatMap.mp hb
    have h1 := ((hc c List.mem_cons_self).2 a ha).1
    have h2 := ((hc c' (List.mem_cons_of_mem _ hc')).2 a ha').1
    exact UInt32.lt_ne (hs.1 c' hc') (h1.symm.trans h2)

theorem Inv.all_nodup {red : Bool} {t : Tab} {ts : Nat → T} (hI : Inv red t ts) (k i : Nat) : ((List.range' i k).flatMap (fun j => (ts j).items)).Nodup := by
  induction k generalizing i with
  | zero => simp
  | succ k ih =>
    rw [List.range'_succ, List.flatMap_cons, List.nodup_append]
    refine ⟨cells_nodup (hI.sorted i) (hI.cell i), ih (i + 1), ?_⟩
    intro a ha b hb e
    subst e
    obtain ⟨j, hj, ha'⟩ := List.mem_flatMap.mp hb
    obtain ⟨c, hc, hac⟩ := List.mem_flatMap.mp ha
    obtain ⟨c', hc', hac'⟩ := List.mem_flatMap.mp ha'
    have h1 := ((hI.cell i c hc).2 a hac).2
    have h2 := ((hI.cell j c' hc').2 a hac').2
    rw [List.mem_range'] at hj
    obtain ⟨v, _, hj⟩ := hj
    omega

theorem Inv.all_mem {red : Bool} {t : Tab} {ts : Nat → T} (hI : Inv red t ts) (x : Name × Nat) :
    x ∈ (List.range' 0 (numTrees red)).flatMap (fun j => (ts j).items) ↔ Has red ts x := by
  constructor
  · intro h
    obtain ⟨j, _, h⟩ := List.mem_flatMap.mp h
    obtain ⟨c, hc, hx⟩ := List.mem_flatMap.mp h
    have := ((hI.cell j c hc).2 x hx).2
    exact ⟨c, by rw [this]; exact hc, hx⟩
  · rintro ⟨c, hc, hx⟩
    refine List.mem_flatMap.mpr ⟨index red (hashString x.1), ?_, List.mem_flatMap.mpr ⟨c, hc, hx⟩⟩
    rw [List.mem_range']
    exact ⟨index red (hashString x.1), index_lt _ _, by omega⟩

theorem flatMap_perm {α β : Type} (l : List α) (f g : α → List β) (h : ∀ a, (f a).Perm (g a)) : (l.flatMap f).Perm (l.flatMap g) := by
  induction l with
  | nil => exact .refl _
  | cons a l ih => rw [List.flatMap_cons, List.flatMap_cons]; exact (h a).append ih

/-- every item is visited once -/
theorem Inv.scan {red : Bool} {t : Tab} {ts : Nat → T} (hI : Inv red t ts) (wipe : Bool) (n : Nat) (hn : ∀ i, (ts i).ptrs.length < n) (d : List (Name × Nat)) (hd : d.Nodup)
    (hm : ∀ x, x ∈ d ↔ Has red ts x) :
    ∃ t' ps, scan red wipe n t = some t' ∧ t'.log = t.log ++ ps ∧ ps.Perm (d.map Prod.snd) ∧ t'.tree = t.tree ∧
      t'.heap = wiped wipe t.heap ((List.range' 0 (numTrees red)).flatMap (fun j => (ts j).ptrs)) := by
  obtain ⟨t', a1, a2, a3, a4⟩ := scanTrees_spec wipe ts n hn hI.nodup hI.disj (numTrees red) 0 t hI.root (fun j _ => hI.rep j)
  refine ⟨t', _, a1, a3, ?_, a2, a4⟩
  have h1 : d.Perm ((List.range' 0 (numTrees red)).flatMap (fun j => (ts j).items)) := by
    rw [List.perm_ext_iff_of_nodup hd (hI.all_nodup _ _)]
    intro x; rw [hm, hI.all_mem]
  refine List.Perm.trans ?_ (h1.map Prod.snd).symm
  rw [List.map_flatMap]
  exact flatMap_perm _ _ _ fun j => post_perm (ts j)

end Smlr.Nhash
