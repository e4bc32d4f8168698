import Verif.Nhash.Inv
set_option autoImplicit false
/-! The operations on the table. -/
namespace Smlr.Nhash

theorem Chain.relink {h h1 : Heap} {k : UInt32} {x : List (Name × Nat)} {n1 : Name} {q1 a b : Nat} {z y : List (Name × Nat)} {nd : Node}
    (hc : Chain h k a (x ++ (n1, q1) :: z)) (hx : ∀ q ∈ x.map Prod.snd, h1 q = h q) (hn : h q1 = some nd) (hn1 : h1 q1 = some { nd with left := b }) (hy : Chain h1 k b y) :
    Chain h1 k a (x ++ (n1, q1) :: y) := by
  induction x generalizing a with
  | nil =>
    obtain ⟨e1, e2, nx, r, e3, _⟩ := hc
    simp only at e3
    rw [hn] at e3; cases e3
    exact ⟨e1, e2, b, r, hn1, hy⟩
  | cons v x ih =>
    obtain ⟨e1, e2, nx, r, e3, e4⟩ := hc
    exact ⟨e1, e2, nx, r, (hx _ (by simp)).trans e3, ih e4 fun q hq => hx q (by simp only [List.map_cons, List.mem_cons]; exact .inr hq)⟩

theorem Chain.suffix {h : Heap} {k : UInt32} {x z : List (Name × Nat)} {a : Nat} (hc : Chain h k a (x ++ z)) : ∃ b, Chain h k b z := by
  induction x generalizing a with
  | nil => exact ⟨a, hc⟩
  | cons v x ih => obtain ⟨_, _, nx, r, _, e4⟩ := hc; exact ih e4

theorem Chain.zero_iff {h : Heap} {k : UInt32} {z : List (Name × Nat)} {a : Nat} (hc : Chain h k a z) : a = 0 ↔ z = [] := by
  cases z with
  | nil => exact ⟨fun _ => rfl, fun _ => hc⟩
  | cons v z => exact ⟨fun e => absurd (hc.1 ▸ e) hc.2.1, fun e => by cases e⟩

theorem size_le (t : T) : t.size ≤ t.ptrs.length := by
  induction t with
  | nil => simp [T.size]
  | node p k c l r ihl ihr => simp only [T.size, T.ptrs, List.length_cons, List.length_append]; omega

/-- the search for the node of a name -/
theorem Inv.find {red : Bool} {t : Tab} {ts : Nat → T} (hI : Inv red t ts) (nm : Name) (n : Nat) (hn : (ts (index red (hashString nm))).ptrs.length < n) :
    findNode t.heap (keyOf (hashString nm)) n (t.tree (index red (hashString nm))) 0 false =
      some (((ts (index red (hashString nm))).sub (keyOf (hashString nm))).root, ((ts (index red (hashString nm))).find (keyOf (hashString nm)) 0 false).2) := by
  rw [hI.root, findNode_spec _ (hI.rep _) _ _ _ (Nat.lt_of_le_of_lt (size_le _) hn), find_fst]

theorem Inv.sub_len {red : Bool} {t : Tab} {ts : Nat → T} (_hI : Inv red t ts) {i : Nat} {u : UInt32} {p : Nat} {k : UInt32} {c : Cell} {l r : T} (he : (ts i).sub u = .node p k c l r) :
    (T.node p k c l r).ptrs.length ≤ (ts i).ptrs.length := by
  rw [← he, (ptrs_perm u (ts i)).length_eq, List.length_append]; omega

theorem Inv.sub_mem {red : Bool} {t : Tab} {ts : Nat → T} (_hI : Inv red t ts) {i : Nat} {u : UInt32} {q : Nat} (hq : q ∈ ((ts i).sub u).ptrs) : q ∈ (ts i).ptrs :=
  (ptrs_perm u (ts i)).mem_iff.mpr (List.mem_append_right _ hq)

theorem Inv.sub_nodup {red : Bool} {t : Tab} {ts : Nat → T} (hI : Inv red t ts) (i : Nat) (u : UInt32) : ((ts i).sub u).ptrs.Nodup ∧ ((ts i).outer u).Nodup ∧ ∀ q ∈ ((ts i).sub u).ptrs, q ∉ (ts i).outer u := by
  have := (ptrs_perm u (ts i)).nodup_iff.mp (hI.nodup i)
  rw [List.nodup_append] at this
  exact ⟨this.2.1, this.1, fun q h1 h2 => this.2.2 q h2 q h1 rfl⟩

theorem Inv.sub_cells {red : Bool} {t : Tab} {ts : Nat → T} (hI : Inv red t ts) (i : Nat) (u : UInt32) :
    ((ts i).sub u).cells.Pairwise (fun a b => a.1 < b.1) ∧ ∀ x ∈ ((ts i).sub u).cells, CellOk red i x := by
  obtain ⟨a, b, h1, h2, h3, h4⟩ := cells_ctx u (ts i) (hI.sorted i)
  have hs := hI.sorted i
  have hc := hI.cell i
  rw [h1] at hs hc
  rw [List.pairwise_append, List.pairwise_append] at hs
  exact ⟨hs.1.2.1, fun x hx => hc x (by simp [hx])⟩

/-- the two kinds of node as the code tells them apart -/
theorem node_real {h : Heap} {p : Nat} {k : UInt32} {nm : Name} {l r : T} (hr : Rep h (.node p k (.real nm) l r)) :
    load h p = some ⟨l.root, r.root, k, .name nm⟩ ∧ nameOf h p = some nm ∧ k &&& 1 = 0 := by
  obtain ⟨⟨h1, h2, h3⟩, _⟩ := hr
  have h4 := load_of h1 h3
  exact ⟨h4, by unfold nameOf; rw [h4]; rfl, even_bit k h2⟩

theorem node_fake {h : Heap} {p : Nat} {k : UInt32} {its : List (Name × Nat)} {l r : T} (hr : Rep h (.node p k (.fake its) l r)) :
    ∃ hd, load h p = some ⟨l.root, r.root, k ||| 1, .ptr hd⟩ ∧ Chain h k hd its ∧ 2 ≤ its.length := by
  obtain ⟨⟨h1, h2, hd, h3, h4, h5⟩, _⟩ := hr
  exact ⟨hd, load_of h1 h3, h4, h5⟩

/-- `internal_get` -/
theorem Inv.get {red : Bool} {t : Tab} {ts : Nat → T} (hI : Inv red t ts) (nm : Name) (n : Nat) (hn : (ts (index red (hashString nm))).ptrs.length < n) :
    ∃ q, get red n t nm = some q ∧ ((q = 0 ∧ ∀ p, ¬ Has red ts (nm, p)) ∨ (q ≠ 0 ∧ Has red ts (nm, q))) := by
  have hf := hI.find nm n hn
  have hhas := hI.has_iff nm
  have hrep := (hI.rep (index red (hashString nm))).sub (keyOf (hashString nm))
  rcases sub_key (keyOf (hashString nm)) (ts (index red (hashString nm))) with e | ⟨p, c, l, r, e⟩
  · refine ⟨0, ?_, .inl ⟨rfl, fun q hq => ?_⟩⟩
    · unfold Nhash.get; simp only [hf, e, root_nil, Option.bind_eq_bind, Option.bind_some, if_true]
    · obtain ⟨p, c, l, r, e', _⟩ := (hhas q).mp hq
      rw [e] at e'; cases e'
  · have hsl := hI.sub_len e
    rw [e] at hrep
    have hp : p ≠ 0 := hrep.1.1
    cases c with
    | real nm' =>
      obtain ⟨h1, h2, h3⟩ := node_real hrep
      refine ⟨if nm' = nm then p else 0, ?_, ?_⟩
      · unfold Nhash.get; simp only [hf, e, root_node, Option.bind_eq_bind, Option.bind_some, hp, if_false, h1, h3, if_true, h2]
      · by_cases hnn : nm' = nm
        · rw [if_pos hnn]
          exact .inr ⟨hp, (hhas p).mpr ⟨p, _, l, r, e, by simp [Cell.items, hnn]⟩⟩
        · rw [if_neg hnn]
          refine .inl ⟨rfl, fun q hq => ?_⟩
          obtain ⟨p, c, l, r, e', hm⟩ := (hhas q).mp hq
          rw [e] at e'; cases e'
          simp only [Cell.items, List.mem_singleton, Prod.mk.injEq] at hm
          exact hnn hm.1.symm
    | fake its =>
      obtain ⟨hd, h1, h2, h3⟩ := node_fake hrep
      have hlen : its.length < n := by
        simp only [T.ptrs, Cell.ptrs, List.length_cons, List.length_append, List.length_map] at hsl; omega
      have hg : ∀ q, findName t.heap nm n hd 0 = some q → Nhash.get red n t nm = some q.1 := by
        intro q hq
        unfold Nhash.get; simp only [hf, e, root_node, Option.bind_eq_bind, Option.bind_some, hp, if_false, h1, odd_bit, headOf, hq]
      rcases findName_spec (nm := nm) h2 n 0 hlen with ⟨g1, g2⟩ | ⟨x, q, y, g1, g2, g3⟩
      · refine ⟨0, hg _ g2, .inl ⟨rfl, fun q hq => ?_⟩⟩
        obtain ⟨p, c, l, r, e', hm⟩ := (hhas q).mp hq
        rw [e] at e'; cases e'
        exact g1 (List.mem_map.mpr ⟨_, hm, rfl⟩)
      · refine ⟨q, hg _ g3, .inr ⟨?_, (hhas q).mpr ⟨p, _, l, r, e, by simp [Cell.items, g1]⟩⟩⟩
        exact (h2.ptr_some q (by simp [g1])).1

end Smlr.Nhash
