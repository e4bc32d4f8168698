import Verif.Nhash.Put
set_option autoImplicit false
/-! Deletion. -/
namespace Smlr.Nhash

/-- what a deletion comes to -/
def DelRes (red : Bool) (n : Nat) (t : Tab) (ts : Nat → T) (nm : Name) : Prop :=
  (del red n t nm = some (0, t) ∧ ∀ p, ¬ Has red ts (nm, p)) ∨
  ∃ q t' ts', Has red ts (nm, q) ∧ del red n t nm = some (1, t') ∧ Inv red t' ts' ∧ (∀ x, Has red ts' x ↔ x ≠ (nm, q) ∧ Has red ts x) ∧ t'.log = t.log ++ [q] ∧ t'.heap q = none ∧
    (∀ j, (ts' j).ptrs.length ≤ (ts j).ptrs.length)

/-- `shrink_node`: the tree with the remaining item in place of the fake node -/
theorem shrink_tab {red : Bool} {t : Tab} {tr : T} {h : Heap} {f q : Nat} {nm : Name} {l r : T} {its : List (Name × Nat)} {a b : Nat} {rs : Rest} (w : UInt32) (u : UInt32)
    (hroot : t.tree (index red w) = tr.root) (hr : Rep h tr) (he : tr.sub u = .node f u (.fake its) l r) (hnd : tr.ptrs.Nodup)
    (hf : ∀ q ∈ tr.outer u, t.heap q = h q) (hlr : ∀ q ∈ l.ptrs ++ r.ptrs, t.heap q = h q)
    (hq : q ∈ its.map Prod.snd) (hq1 : t.heap q = some ⟨a, b, u, .name nm⟩) (hf1 : t.heap f = some ⟨l.root, r.root, u ||| 1, rs⟩) :
    ∃ t2, shrinkNode red t f q (tr.find u 0 false).2.1 (tr.find u 0 false).2.2 w = some t2 ∧ Rep t2.heap (T.repl u (.node q u (.real nm) l r) tr) ∧
      (∀ j, t2.tree j = if j = index red w then (T.repl u (.node q u (.real nm) l r) tr).root else t.tree j) ∧ t2.log = t.log ∧
      (∀ v, v ∉ tr.outer u → v ≠ q → v ≠ f → t2.heap v = t.heap v) := by
  have hsub := hr.sub u
  have hperm := ptrs_perm u tr
  have hnd' := hperm.nodup_iff.mp hnd
  rw [he] at hsub hperm hnd'
  rw [List.nodup_append] at hnd'
  obtain ⟨hn1, hn2, hn3⟩ := hnd'
  have hn2' := hn2
  simp only [T.ptrs, Cell.ptrs] at hn2'
  rw [List.nodup_cons, List.nodup_append] at hn2'
  have hf0 : f ≠ 0 := hsub.1.1
  have hfq : f ≠ q := fun e => hn2'.1 (e ▸ List.mem_append_left _ hq)
  have hqp : q ∈ (T.node f u (.fake its) l r).ptrs := by simp only [T.ptrs, Cell.ptrs]; exact List.mem_cons_of_mem _ (List.mem_append_left _ hq)
  have hq0 : q ≠ 0 := (hsub.ptr_some q hqp).1
  have hqlr : q ∉ l.ptrs ++ r.ptrs := fun h => hn2'.2.2.2 q hq q h rfl
  let h1 : Heap := t.heap.set q (some ⟨l.root, b, u, .name nm⟩)
  have k1 : h1 q = some ⟨l.root, b, u, .name nm⟩ := Heap.set_eq
  let h2 : Heap := h1.set q (some ⟨l.root, r.root, u, .name nm⟩)
  have k2 : ∀ v, v ≠ q → h2 v = t.heap v := fun v hv => (Heap.set_ne hv).trans (Heap.set_ne hv)
  have hrep' : Rep h2 (.node q u (.real nm) l r) := by
    refine ⟨⟨hq0, hsub.1.2.1, Heap.set_eq⟩, hsub.2.1.frame fun v hv => ?_, hsub.2.2.frame fun v hv => ?_⟩
    · rw [k2 v (fun e => hqlr (e ▸ List.mem_append_left _ hv))]; exact hlr v (List.mem_append_left _ hv)
    · rw [k2 v (fun e => hqlr (e ▸ List.mem_append_right _ hv))]; exact hlr v (List.mem_append_right _ hv)
  have hss : ∀ v ∈ (T.node q u (.real nm) l r).ptrs, v ∈ (T.node f u (.fake its) l r).ptrs ∧ v ≠ f := by
    intro v hv
    simp only [T.ptrs, Cell.ptrs, List.nil_append, List.mem_cons] at hv
    rcases hv with rfl | hv
    · exact ⟨hqp, Ne.symm hfq⟩
    · exact ⟨by simp only [T.ptrs]; exact List.mem_cons_of_mem _ (List.mem_append_right _ hv), fun e => hn2'.1 (e ▸ List.mem_append_right _ hv)⟩
  have hqo : q ∉ tr.outer u := fun h => hn3 q h q hqp rfl
  have hfo : f ∉ tr.outer u := fun h => hn3 f h f (by simp [T.ptrs]) rfl
  obtain ⟨t2, g1, g2, g3, g4, g5⟩ := link_tab (red := red) (t := { t with heap := h2 }) (s' := .node q u (.real nm) l r) w u hroot hr
    (fun v hv => (k2 v fun e => hqo (e ▸ hv)).trans (hf v hv)) hrep' (fun v hv hv' => hn3 v hv' v (hss v hv).1 rfl) hn1
  refine ⟨{ t2 with heap := t2.heap.set f none }, ?_, ?_, g3, g4, ?_⟩
  · unfold shrinkNode
    simp only [load_of hf0 hf1, Option.bind_eq_bind, Option.bind_some]
    have e1 : setLeft t.heap q l.root = some h1 := setLeft_eq hq0 hq1 _
    have e2 : setRight h1 q r.root = some h2 := setRight_eq hq0 k1 _
    rw [e1, Option.bind_some, e2, Option.bind_some]
    simp only [root_node] at g1
    rw [g1]; rfl
  · refine g2.frame fun v hv => Heap.set_ne fun e => ?_
    subst e
    rcases List.mem_append.mp ((repl_perm u tr _).mem_iff.mp hv) with h | h
    · exact hfo h
    · exact (hss v h).2 rfl
  · intro v a b c
    exact ((Heap.set_ne c).trans (g5 v a)).trans (k2 v b)

/-- removal of an item behind another -/
theorem Chain.remove {h : Heap} {k : UInt32} {x z : List (Name × Nat)} {n1 nm : Name} {q1 q a : Nat} (hc : Chain h k a (x ++ (n1, q1) :: (nm, q) :: z))
    (hnd : ((x ++ (n1, q1) :: (nm, q) :: z).map Prod.snd).Nodup) :
    ∃ nd nq, h q1 = some nd ∧ h q = some nq ∧ q ≠ 0 ∧ q1 ≠ 0 ∧ nd.word = k ∧ nd.rest = .name n1 ∧ (nq.left = 0 ↔ z = []) ∧
      Chain (h.set q1 (some { nd with left := nq.left })) k a (x ++ (n1, q1) :: z) := by
  obtain ⟨b, e1, e2, nx, r, e3, e4, e5, nx', r', e6, e7⟩ := hc.suffix
  simp only at e3 e6
  refine ⟨_, _, e3, e6, e5, e2, rfl, rfl, e7.zero_iff, hc.relink (fun v hv => Heap.set_ne fun e => ?_) e3 Heap.set_eq (e7.frame fun v hv => Heap.set_ne fun e => ?_)⟩
  · subst e
    rw [List.map_append, List.nodup_append] at hnd
    exact hnd.2.2 v hv v (by simp) rfl
  · subst e
    rw [List.map_append, List.nodup_append] at hnd
    simp only [List.map_cons, List.nodup_cons, List.mem_cons, not_or] at hnd
    exact hnd.2.1.1.2 hv

theorem Inv.del_finish {red : Bool} {t t2 : Tab} {ts : Nat → T} (hI : Inv red t ts) (n : Nat) (nm : Name) (q : Nat) (s' : T) (i : Nat) (u : UInt32)
    (hi : index red (hashString nm) = i) (hu : keyOf (hashString nm) = u) (hq : Has red ts (nm, q))
    (hroot : ∀ j, t2.tree j = if j = i then (T.repl u s' (ts i)).root else t.tree j)
    (hrep : Rep t2.heap (T.repl u s' (ts i)))
    (hframe : ∀ q, q ∉ (ts i).ptrs → t2.heap q = t.heap q) (hlog : t2.log = t.log)
    (hsub : ∀ v ∈ s'.ptrs, v ∈ ((ts i).sub u).ptrs) (hqn : q ∉ s'.ptrs) (hqs : q ∈ ((ts i).sub u).ptrs)
    (hnd : s'.ptrs.Nodup)
    (hsort : s'.cells.Pairwise (fun a b => a.1 < b.1))
    (hkeys : ∀ x ∈ s'.cells, x.1 = u ∨ ∃ y ∈ ((ts i).sub u).cells, x.1 = y.1)
    (hcell : ∀ x ∈ s'.cells, CellOk red i x)
    (hs : ∀ x, (∃ c ∈ s'.cells, x ∈ c.2) ↔ x ≠ (nm, q) ∧ ∃ c ∈ ((ts i).sub u).cells, x ∈ c.2)
    (hdel : del red n t nm = some (1, { t2 with heap := t2.heap.set q none, log := t2.log ++ [q] })) : DelRes red n t ts nm := by
  obtain ⟨_, _, hnd3⟩ := hI.sub_nodup i u
  have hI2 := hI.update (t' := t2) i u s' [] hroot hrep (fun q h _ => hframe q h) (by simp) (fun v hv => .inl (hsub v hv)) hnd hsort hkeys hcell
  refine .inr ⟨q, _, _, hq, hdel, hI2.other none (t2.log ++ [q]) ?_, hI.has_del i u s' (nm, q) hi hu hs, by rw [hlog], Heap.set_eq, ?_⟩
  · intro j hj
    unfold upd at hj
    split at hj
    · rcases List.mem_append.mp ((repl_perm _ _ _).mem_iff.mp hj) with h | h
      · exact hnd3 q hqs h
      · exact hqn h
    · next hji => exact hI.disj j i hji q hj (hI.sub_mem hqs)
  · intro j
    unfold upd
    split
    · next hj =>
      rw [hj, (repl_perm _ _ _).length_eq, (ptrs_perm u (ts i)).length_eq, List.length_append, List.length_append]
      have := List.Nodup.length_le_of_subset hnd hsub
      omega
    · exact Nat.le_refl _

/-- `internal_del` -/
theorem Inv.del {red : Bool} {t : Tab} {ts : Nat → T} (hI : Inv red t ts) (nm : Name) (n : Nat) (hn : (ts (index red (hashString nm))).ptrs.length < n) : DelRes red n t ts nm := by
  have hf := hI.find nm n hn
  have hhas := hI.has_iff nm
  have hrepT := hI.rep (index red (hashString nm))
  have hrep := hrepT.sub (keyOf (hashString nm))
  have hrootT := hI.root (index red (hashString nm))
  have hndT := hI.nodup (index red (hashString nm))
  obtain ⟨hnd1, hnd2, hnd3⟩ := hI.sub_nodup (index red (hashString nm)) (keyOf (hashString nm))
  obtain ⟨hsrt, hcok⟩ := hI.sub_cells (index red (hashString nm)) (keyOf (hashString nm))
  have hout : ∀ q ∈ (ts (index red (hashString nm))).outer (keyOf (hashString nm)), q ∈ (ts (index red (hashString nm))).ptrs := fun q hq => (ptrs_perm _ _).mem_iff.mpr (List.mem_append_left _ hq)
  have hsl := fun p k c l r => hI.sub_len (i := index red (hashString nm)) (u := keyOf (hashString nm)) (p := p) (k := k) (c := c) (l := l) (r := r)
  have hsm := fun q => hI.sub_mem (i := index red (hashString nm)) (u := keyOf (hashString nm)) (q := q)
  have hfin := fun t2 q s' => hI.del_finish (t2 := t2) n nm q s' (index red (hashString nm)) (keyOf (hashString nm)) rfl rfl
  have hdel : Nhash.del red n t nm = Nhash.del red n t nm := rfl
  conv at hdel => rhs; unfold Nhash.del
  simp only [hf, Option.bind_eq_bind, Option.bind_some] at hdel
  generalize hw : hashString nm = w at *
  generalize hu : keyOf w = u at *
  generalize hidx : index red w = i at *
  rcases sub_key u (ts i) with e | ⟨p, c, l, r, e⟩
  · left
    refine ⟨?_, fun q hq => ?_⟩
    · rw [hdel]; simp only [e, root_nil, if_true]
    · obtain ⟨p, c, l, r, e', _⟩ := (hhas q).mp hq
      rw [e] at e'; cases e'
  · have hsl := hsl p u c l r e
    rw [e] at hrep hsrt hcok hnd1 hnd3 hfin
    have hp : p ≠ 0 := hrep.1.1
    have hpin : p ∈ (ts i).ptrs := hsm p (by rw [e]; simp [T.ptrs])
    simp only [e, root_node, hp, if_false] at hdel
    cases c with
    | real nm' =>
      obtain ⟨h1, h2, h3⟩ := node_real hrep
      simp only [h1, Option.bind_some, h3, ne_eq, not_true, if_false, h2] at hdel
      by_cases hnn : nm' = nm
      · subst hnn
        simp only [not_true, if_false] at hdel
        obtain ⟨s', h', a1, a2, a3, a4, a5⟩ := promote_spec n hrep hnd1 (by have := size_le (T.node p u (.real nm') l r); omega)
        simp only [a1, Option.bind_some] at hdel
        have hnd1' := hnd1
        simp only [T.ptrs, Cell.ptrs, List.nil_append] at hnd1'
        rw [List.nodup_cons] at hnd1'
        have hss : ∀ v ∈ s'.ptrs, v ∈ (T.node p u (.real nm') l r).ptrs := fun v hv => by
          simp only [T.ptrs, Cell.ptrs, List.nil_append]; exact List.mem_cons_of_mem _ (a4.mem_iff.mp hv)
        obtain ⟨t2, g1, g2, g3, g4, g5⟩ := link_tab (red := red) (t := { t with heap := h' }) (s' := s') w u (by rw [hidx]; exact hrootT) hrepT
          (fun q hq => a5 q fun h => hnd3 q (by simp only [T.ptrs, Cell.ptrs, List.nil_append]; exact List.mem_cons_of_mem _ h) hq) a2 (fun q hq => hnd3 q (hss q hq)) hnd2
        rw [g1, Option.bind_some] at hdel
        rw [hidx] at g3
        have hp2 : t2.heap p = some ⟨l.root, r.root, u, .name nm'⟩ := by
          rw [g5 p (hnd3 p (by simp [T.ptrs]))]
          exact (a5 p hnd1'.1).trans hrep.1.2.2
        rw [load_of hp hp2, Option.bind_some] at hdel
        refine hfin t2 p s' ((hhas p).mpr ⟨p, _, l, r, e, by simp [Cell.items]⟩) g3 g2 ?_ g4 hss ?_ (by simp [T.ptrs]) (a4.nodup_iff.mpr hnd1'.2) ?_ ?_ ?_ ?_ hdel
        · intro v hv
          rw [g5 v (fun h => hv (hout v h))]
          exact a5 v fun h => hv (hsm v (by rw [e]; simp only [T.ptrs, Cell.ptrs, List.nil_append]; exact List.mem_cons_of_mem _ h))
        · exact fun h => hnd1'.1 (a4.mem_iff.mp h)
        · rw [a3]
          simp only [T.cells] at hsrt
          exact hsrt.sublist ((List.Sublist.refl _).append (List.sublist_cons_self _ _))
        · rw [a3]
          intro x hx
          exact .inr ⟨x, by rw [T.cells]; rcases List.mem_append.mp hx with h | h <;> simp [h], rfl⟩
        · rw [a3]
          intro x hx
          exact hcok x (by rw [T.cells]; rcases List.mem_append.mp hx with h | h <;> simp [h])
        · intro x
          rw [a3, T.cells, ex_swap]
          simp only [Cell.items, List.mem_singleton]
          constructor
          · rintro ⟨c, hc, hx⟩
            refine ⟨fun ex => ?_, .inl ⟨c, hc, hx⟩⟩
            rw [ex] at hx
            have hk := ((hcok c (by rw [T.cells]; rcases List.mem_append.mp hc with h | h <;> simp [h])).2 _ hx).1
            simp only [hw, hu] at hk
            simp only [T.cells] at hsrt
            rw [List.pairwise_append, List.pairwise_cons] at hsrt
            rcases List.mem_append.mp hc with h | h
            · exact UInt32.lt_ne (hsrt.2.2 c h _ List.mem_cons_self) hk.symm
            · exact UInt32.lt_ne (hsrt.2.1.1 c h) hk
          · rintro ⟨hne, h | h⟩
            · exact h
            · exact absurd h hne
      · left
        rw [hdel]
        simp only [hnn, not_false_eq_true, if_true]
        refine ⟨trivial, fun q hq => ?_⟩
        obtain ⟨p, c, l, r, e', hm⟩ := (hhas q).mp hq
        rw [e] at e'; cases e'
        simp only [Cell.items, List.mem_singleton, Prod.mk.injEq] at hm
        exact hnn hm.1.symm
    | fake its =>
      obtain ⟨hd, h1, h2, h3⟩ := node_fake hrep
      have hlen' : its.length < n := by
        simp only [T.ptrs, Cell.ptrs, List.length_cons, List.length_append, List.length_map] at hsl; omega
      have hph : t.heap p = some ⟨l.root, r.root, u ||| 1, .ptr hd⟩ := by unfold load at h1; rw [if_neg hp] at h1; exact h1
      have hnd1' := hnd1
      simp only [T.ptrs, Cell.ptrs] at hnd1'
      rw [List.nodup_cons, List.nodup_append] at hnd1'
      simp only [h1, Option.bind_some, odd_bit, ne_eq, not_false_eq_true, if_true, headOf] at hdel
      obtain ⟨hcn, hck⟩ := hcok (u, its) (by simp [T.cells, Cell.items])
      simp only at hcn hck
      -- what remains to be said of the items
      have hsw : ∀ (p' : Nat) (c' : Cell) (q : Nat) (x y : List (Name × Nat)), its = x ++ (nm, q) :: y → c'.items p' = x ++ y →
          (∀ z ∈ (T.node p' u c' l r).cells, CellOk red i z) ∧ (∀ z, (∃ c ∈ (T.node p' u c' l r).cells, z ∈ c.2) ↔ z ≠ (nm, q) ∧ ∃ c ∈ (T.node p u (.fake its) l r).cells, z ∈ c.2) := by
        intro p' c' q x y hits hc'
        have hsubl : List.Sublist (x ++ y) its := by rw [hits]; exact (List.Sublist.refl _).append (List.sublist_cons_self _ _)
        refine ⟨swap_cell hcok ⟨?_, ?_⟩, fun z => ?_⟩
        · simp only [hc']; exact hcn.sublist (hsubl.map _)
        · simp only [hc']; exact fun z hz => hck z (hsubl.subset hz)
        · rw [T.cells, T.cells, ex_swap, ex_swap, hc']
          simp only [Cell.items]
          have hnm : (nm, q) ∉ x ++ y := by
            intro h
            rw [hits, List.map_append, List.map_cons, List.nodup_append, List.nodup_cons] at hcn
            rcases List.mem_append.mp h with h | h
            · exact hcn.2.2 nm (List.mem_map.mpr ⟨_, h, rfl⟩) nm List.mem_cons_self rfl
            · exact hcn.2.1.1 (List.mem_map.mpr ⟨_, h, rfl⟩)
          constructor
          · rintro (⟨c, hc, hx⟩ | h)
            · refine ⟨fun ex => ?_, .inl ⟨c, hc, hx⟩⟩
              rw [ex] at hx
              have hk := ((hcok c (by rw [T.cells]; rcases List.mem_append.mp hc with h | h <;> simp [h])).2 _ hx).1
              simp only [hw, hu] at hk
              simp only [T.cells] at hsrt
              rw [List.pairwise_append, List.pairwise_cons] at hsrt
              rcases List.mem_append.mp hc with h | h
              · exact UInt32.lt_ne (hsrt.2.2 c h _ List.mem_cons_self) hk.symm
              · exact UInt32.lt_ne (hsrt.2.1.1 c h) hk
            · exact ⟨fun ex => hnm (ex ▸ h), .inr (hsubl.subset h)⟩
          · rintro ⟨hne, h | h⟩
            · exact .inl h
            · refine .inr ?_
              rw [hits] at h
              rcases List.mem_append.mp h with h | h
              · exact List.mem_append_left _ h
              · rcases List.mem_cons.mp h with h | h
                · exact absurd h hne
                · exact List.mem_append_right _ h
      rcases findName_spec (nm := nm) h2 n 0 hlen' with ⟨g1, g2⟩ | ⟨x, q, y, g1, g2, g3⟩
      · left
        rw [hdel, g2]
        simp only [Option.bind_some, if_true]
        refine ⟨trivial, fun q hq => ?_⟩
        obtain ⟨p, c, l, r, e', hm⟩ := (hhas q).mp hq
        rw [e] at e'; cases e'
        exact g1 (List.mem_map.mpr ⟨_, hm, rfl⟩)
      · have hqi : q ∈ its.map Prod.snd := by simp [g1]
        have hqs : q ∈ (T.node p u (.fake its) l r).ptrs := by simp only [T.ptrs, Cell.ptrs]; exact List.mem_cons_of_mem _ (List.mem_append_left _ hqi)
        have hqT : q ∈ (ts i).ptrs := hsm q (by rw [e]; exact hqs)
        obtain ⟨hq0, hqa⟩ := hI.ptr_some hqT
        have hqp : q ≠ p := fun ex => hnd1'.1 (ex ▸ List.mem_append_left _ hqi)
        have hqlr : q ∉ l.ptrs ++ r.ptrs := fun h => hnd1'.2.2.2 q hqi q h rfl
        have hhq : Has red ts (nm, q) := (hhas q).mpr ⟨p, _, l, r, e, by simp [Cell.items, g1]⟩
        have hplr : p ∉ l.ptrs ++ r.ptrs := fun h => hnd1'.1 (List.mem_append_right _ h)
        have hfin := fun t2 => hfin t2 q
        rw [g3] at hdel
        simp only [Option.bind_some, hq0, if_false] at hdel
        -- a fake node with one item less
        have hless : ∀ (s'' : List (Name × Nat)), List.Sublist s'' its → q ∉ s''.map Prod.snd →
            (∀ v ∈ (T.node p u (.fake s'') l r).ptrs, v ∈ (T.node p u (.fake its) l r).ptrs) ∧ q ∉ (T.node p u (.fake s'') l r).ptrs ∧ (T.node p u (.fake s'') l r).ptrs.Nodup := by
          intro s'' hsu hqn
          have hsub' : List.Sublist (T.node p u (.fake s'') l r).ptrs (T.node p u (.fake its) l r).ptrs := by
            simp only [T.ptrs, Cell.ptrs]
            exact ((hsu.map _).append (List.Sublist.refl _)).cons_cons _
          refine ⟨fun v hv => hsub'.subset hv, ?_, hnd1.sublist hsub'⟩
          simp only [T.ptrs, Cell.ptrs, List.mem_cons, not_or]
          exact ⟨hqp, fun h => (List.mem_append.mp h).elim hqn hqlr⟩
        -- the remaining item alone
        have hone : ∀ (nm1 : Name) (q1 : Nat), q1 ∈ its.map Prod.snd → q1 ≠ q →
            (∀ v ∈ (T.node q1 u (.real nm1) l r).ptrs, v ∈ (T.node p u (.fake its) l r).ptrs) ∧ q ∉ (T.node q1 u (.real nm1) l r).ptrs ∧ (T.node q1 u (.real nm1) l r).ptrs.Nodup := by
          intro nm1 q1 hq1 hq1q
          simp only [T.ptrs, Cell.ptrs, List.nil_append, List.mem_cons, not_or, List.nodup_cons]
          refine ⟨fun v hv => ?_, ⟨Ne.symm hq1q, hqlr⟩, fun h => hnd1'.2.2.2 q1 hq1 q1 h rfl, hnd1'.2.2.1⟩
          rcases hv with rfl | hv
          · exact .inr (List.mem_append_left _ hq1)
          · exact .inr (List.mem_append_right _ hv)
        rcases List.eq_nil_or_concat x with hx | ⟨x0, v, hx⟩
        · -- the first item
          subst hx
          rw [List.nil_append] at g1
          simp only [List.map_nil, List.getLast?_nil, Option.getD_none, if_true] at hdel
          subst g1
          obtain ⟨b1, b2, nx, rr, b3, b4⟩ := h2
          simp only at b1 b2 b3
          cases y with
          | nil => simp at h3
          | cons y1 y =>
            obtain ⟨n2, q2⟩ := y1
            obtain ⟨c1, c2, nx2, rr2, c3, c4⟩ := b4
            simp only at c1 c2 c3
            subst c1
            have hnxi : nx ∈ (((nm, q) :: (n2, nx) :: y).map Prod.snd) := by simp
            have hnxp : nx ≠ p := fun ex => hnd1'.1 (List.mem_append_left _ (ex ▸ hnxi))
            have hnxq : nx ≠ q := fun ex => by have := hnd1'.2.1; simp [ex] at this
            let h1 : Heap := t.heap.set p (some ⟨l.root, r.root, u ||| 1, .ptr nx⟩)
            have k1 : ∀ v, v ≠ p → h1 v = t.heap v := fun v hv => Heap.set_ne hv
            have k2 : h1 nx = some ⟨nx2, rr2, u, .name n2⟩ := (k1 nx hnxp).trans c3
            simp only [load_of b2 b3, Option.bind_some] at hdel
            have hl1 : load h1 nx = some ⟨nx2, rr2, u, .name n2⟩ := load_of c2 k2
            rw [show load (t.heap.set p (some ⟨l.root, r.root, u ||| 1, .ptr nx⟩)) nx = some ⟨nx2, rr2, u, .name n2⟩ from hl1] at hdel
            simp only [Option.bind_some] at hdel
            by_cases hz : nx2 = 0
            · have hy : y = [] := c4.zero_iff.mp hz
              subst hy
              obtain ⟨t2, j1, j2, j3, j4, j5⟩ := shrink_tab (red := red) (t := { t with heap := h1 }) (q := nx) w u (by rw [hidx]; exact hrootT) hrepT e hndT
                (fun v hv => k1 v fun ex => hnd3 p (by simp [T.ptrs]) (ex ▸ hv)) (fun v hv => k1 v fun ex => hplr (ex ▸ hv)) hnxi k2 (Heap.set_eq)
              rw [if_pos hz] at hdel
              rw [hidx] at j3
              have hq2 : t2.heap q = some ⟨nx, rr, u, .name nm⟩ := by
                rw [j5 q (hnd3 q hqs) (Ne.symm hnxq) hqp]; exact (k1 q hqp).trans b3
              rw [show shrinkNode red { tree := t.tree, heap := t.heap.set p (some ⟨l.root, r.root, u ||| 1, .ptr nx⟩), log := t.log } p nx (T.find u (ts i) 0 false).2.1 (T.find u (ts i) 0 false).2.2 w = some t2 from j1,
                Option.bind_some, load_of hq0 hq2, Option.bind_some] at hdel
              obtain ⟨o1, o2, o3⟩ := hone n2 nx hnxi hnxq
              obtain ⟨s1, s2⟩ := hsw nx (.real n2) q [] [(n2, nx)] rfl rfl
              refine hfin t2 (.node nx u (.real n2) l r) hhq j3 j2 ?_ j4 o1 o2 hqs o3 (swap_sort hsrt) swap_keys s1 s2 hdel
              intro v hv
              rw [j5 v (fun h => hv (hout v h)) (fun ex => hv ?_) (fun ex => hv (ex ▸ hpin))]
              · exact k1 v fun ex => hv (ex ▸ hpin)
              · exact ex ▸ hsm nx (by rw [e]; exact o1 nx (by simp [T.ptrs]))
            · rw [if_neg hz] at hdel
              obtain ⟨o1, o2, o3⟩ := hless ((n2, nx) :: y) (List.sublist_cons_self _ _) (by
                have := hnd1'.2.1; rw [List.map_cons, List.nodup_cons] at this; exact this.1)
              obtain ⟨s1, s2⟩ := hsw p (.fake ((n2, nx) :: y)) q [] ((n2, nx) :: y) rfl rfl
              have hy : y ≠ [] := fun h => hz (c4.zero_iff.mpr h)
              have hpc : ∀ v ∈ (((n2, nx) :: y).map Prod.snd), v ≠ p := fun v hv ex => hnd1'.1 (List.mem_append_left _ (ex ▸ (by rw [List.map_cons]; exact List.mem_cons_of_mem _ hv)))
              have hrep' : Rep h1 (.node p u (.fake ((n2, nx) :: y)) l r) := by
                refine ⟨⟨hp, hrep.1.2.1, nx, Heap.set_eq, ?_, ?_⟩, hrep.2.1.frame fun v hv => k1 v fun ex => hplr (ex ▸ List.mem_append_left _ hv), hrep.2.2.frame fun v hv => k1 v fun ex => hplr (ex ▸ List.mem_append_right _ hv)⟩
                · exact Chain.frame (h := t.heap) ⟨rfl, c2, nx2, rr2, c3, c4⟩ fun v hv => k1 v (hpc v hv)
                · cases y with
                  | nil => exact absurd rfl hy
                  | cons _ _ => simp
              obtain ⟨j1, j2⟩ := hrepT.repl_same (h1 := h1) (u := u) (fun v hv => k1 v fun ex => hnd3 p (by simp [T.ptrs]) (ex ▸ hv)) hrep' (by rw [e]; rfl)
              have hq2 : h1 q = some ⟨nx, rr, u, .name nm⟩ := (k1 q hqp).trans b3
              simp only [Option.bind_some] at hdel
              rw [show load (t.heap.set p (some ⟨l.root, r.root, u ||| 1, .ptr nx⟩)) q = some ⟨nx, rr, u, .name nm⟩ from load_of hq0 hq2, Option.bind_some] at hdel
              refine hfin { t with heap := h1 } (.node p u (.fake ((n2, nx) :: y)) l r) hhq ?_ j1 (fun v hv => k1 v fun ex => hv (ex ▸ hpin)) rfl o1 o2 hqs o3 (swap_sort hsrt) swap_keys s1 s2 hdel
              intro j
              show t.tree j = _
              split
              · next hj => rw [hj, j2, hrootT]
              · rfl
        · -- an item behind another
          obtain ⟨n1, q1⟩ := v
          rw [List.concat_eq_append] at hx
          subst hx
          have hgl : ((x0 ++ [(n1, q1)]).map Prod.snd).getLast?.getD 0 = q1 := by simp
          rw [hgl] at hdel
          have g1' : its = x0 ++ (n1, q1) :: (nm, q) :: y := by rw [g1]; simp
          have hq1i : q1 ∈ its.map Prod.snd := by simp [g1']
          have hq1s : q1 ∈ (T.node p u (.fake its) l r).ptrs := by simp only [T.ptrs, Cell.ptrs]; exact List.mem_cons_of_mem _ (List.mem_append_left _ hq1i)
          have hq1T : q1 ∈ (ts i).ptrs := hsm q1 (by rw [e]; exact hq1s)
          have hq1p : q1 ≠ p := fun ex => hnd1'.1 (ex ▸ List.mem_append_left _ hq1i)
          have hq1lr : q1 ∉ l.ptrs ++ r.ptrs := fun h => hnd1'.2.2.2 q1 hq1i q1 h rfl
          have hits := hnd1'.2.1
          rw [g1'] at hits
          have hq1q : q1 ≠ q := by
            rw [List.map_append, List.nodup_append] at hits
            simp only [List.map_cons, List.nodup_cons, List.mem_cons, not_or] at hits
            exact hits.2.1.1.1
          obtain ⟨nd, nq, d1, d2, d3, d4, d5, d6, d7, d8⟩ := Chain.remove (g1' ▸ h2) hits
          simp only [d4, if_false, load_of d3 d2, Option.bind_some, setLeft_eq d4 d1] at hdel
          let h1 : Heap := t.heap.set q1 (some { nd with left := nq.left })
          have k1 : ∀ v, v ≠ q1 → h1 v = t.heap v := fun v hv => Heap.set_ne hv
          have hq2 : h1 q = some nq := (k1 q (Ne.symm hq1q)).trans d2
          by_cases hz : nq.left = 0 ∧ hd = q1
          · have hy : y = [] := d7.mp hz.1
            subst hy
            have hx0 : x0 = [] := by
              cases x0 with
              | nil => rfl
              | cons v x0 =>
                rw [g1'] at h2
                have : q1 = v.2 := hz.2.symm.trans h2.1
                simp [this] at hits
            subst hx0
            have g1'' : its = [(n1, q1), (nm, q)] := g1'
            rw [if_pos hz] at hdel
            have hk2 : h1 q1 = some ⟨nq.left, nd.right, u, .name n1⟩ := by
              rw [← d5, ← d6]; exact Heap.set_eq
            obtain ⟨t2, j1, j2, j3, j4, j5⟩ := shrink_tab (red := red) (t := { t with heap := h1 }) (q := q1) w u (by rw [hidx]; exact hrootT) hrepT e hndT
              (fun v hv => k1 v fun ex => hnd3 q1 hq1s (ex ▸ hv)) (fun v hv => k1 v fun ex => hq1lr (ex ▸ hv)) hq1i hk2 ((k1 p (Ne.symm hq1p)).trans hph)
            rw [hidx] at j3
            have hq3 : t2.heap q = some nq := by
              rw [j5 q (hnd3 q hqs) (Ne.symm hq1q) hqp]; exact hq2
            rw [show shrinkNode red { tree := t.tree, heap := t.heap.set q1 (some { nd with left := nq.left }), log := t.log } p q1 (T.find u (ts i) 0 false).2.1 (T.find u (ts i) 0 false).2.2 w = some t2 from j1,
              Option.bind_some, load_of hq0 hq3, Option.bind_some] at hdel
            obtain ⟨o1, o2, o3⟩ := hone n1 q1 hq1i hq1q
            obtain ⟨s1, s2⟩ := hsw q1 (.real n1) q [(n1, q1)] [] g1'' rfl
            refine hfin t2 (.node q1 u (.real n1) l r) hhq j3 j2 ?_ j4 o1 o2 hqs o3 (swap_sort hsrt) swap_keys s1 s2 hdel
            intro v hv
            rw [j5 v (fun h => hv (hout v h)) (fun ex => hv (ex ▸ hq1T)) (fun ex => hv (ex ▸ hpin))]
            exact k1 v fun ex => hv (ex ▸ hq1T)
          · rw [if_neg hz] at hdel
            have hsubl : List.Sublist (x0 ++ (n1, q1) :: y) its := by
              rw [g1']; exact (List.Sublist.refl _).append ((List.sublist_cons_self _ _).cons_cons _)
            obtain ⟨o1, o2, o3⟩ := hless (x0 ++ (n1, q1) :: y) hsubl (by
              intro h
              rw [List.map_append, List.nodup_append] at hits
              simp only [List.map_append, List.map_cons, List.mem_append, List.mem_cons, List.nodup_cons, not_or] at h hits
              rcases h with h | h | h
              · exact hits.2.2 q h q (.inr (.inl rfl)) rfl
              · exact hq1q h.symm
              · exact hits.2.1.2.1 h)
            obtain ⟨s1, s2⟩ := hsw p (.fake (x0 ++ (n1, q1) :: y)) q (x0 ++ [(n1, q1)]) y g1 (by simp [Cell.items])
            have hrep' : Rep h1 (.node p u (.fake (x0 ++ (n1, q1) :: y)) l r) := by
              refine ⟨⟨hp, hrep.1.2.1, hd, (k1 p (Ne.symm hq1p)).trans hph, d8, ?_⟩, hrep.2.1.frame fun v hv => k1 v fun ex => hq1lr (ex ▸ List.mem_append_left _ hv), hrep.2.2.frame fun v hv => k1 v fun ex => hq1lr (ex ▸ List.mem_append_right _ hv)⟩
              cases y with
              | cons _ _ => simp; omega
              | nil =>
                cases x0 with
                | cons _ _ => simp
                | nil =>
                  rw [g1'] at h2
                  exact absurd ⟨d7.mpr rfl, h2.1⟩ hz
            obtain ⟨j1, j2⟩ := hrepT.repl_same (h1 := h1) (u := u) (fun v hv => k1 v fun ex => hnd3 q1 hq1s (ex ▸ hv)) hrep' (by rw [e]; rfl)
            simp only [Option.bind_some] at hdel
            rw [show load (t.heap.set q1 (some { nd with left := nq.left })) q = some nq from load_of hq0 hq2, Option.bind_some] at hdel
            refine hfin { t with heap := h1 } (.node p u (.fake (x0 ++ (n1, q1) :: y)) l r) hhq ?_ j1 (fun v hv => k1 v fun ex => hv (ex ▸ hq1T)) rfl o1 o2 hqs o3 (swap_sort hsrt) swap_keys s1 s2 hdel
            intro j
            show t.tree j = _
            split
            · next hj => rw [hj, j2, hrootT]
            · rfl

end Smlr.Nhash
