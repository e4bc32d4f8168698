import Verif.Nhash.Ops
set_option autoImplicit false
/-! Insertion. -/
namespace Smlr.Nhash

theorem swap_sort {l r : List (UInt32 × List (Name × Nat))} {u : UInt32} {a b : List (Name × Nat)} (h : (l ++ (u, a) :: r).Pairwise (fun a b => a.1 < b.1)) :
    (l ++ (u, b) :: r).Pairwise (fun a b => a.1 < b.1) := by
  rw [List.pairwise_append, List.pairwise_cons] at *
  refine ⟨h.1, h.2.1, fun x hx y hy => ?_⟩
  rcases List.mem_cons.mp hy with rfl | hy
  · exact h.2.2 x hx (u, a) List.mem_cons_self
  · exact h.2.2 x hx y (List.mem_cons_of_mem _ hy)

theorem swap_keys {l r : List (UInt32 × List (Name × Nat))} {u : UInt32} {a b : List (Name × Nat)} : ∀ x ∈ (l ++ (u, b) :: r), x.1 = u ∨ ∃ y ∈ (l ++ (u, a) :: r), x.1 = y.1 := by
  intro x hx
  rcases List.mem_append.mp hx with hx | hx
  · exact .inr ⟨x, by simp [hx], rfl⟩
  · rcases List.mem_cons.mp hx with rfl | hx
    · exact .inl rfl
    · exact .inr ⟨x, by simp [hx], rfl⟩

theorem swap_cell {P : UInt32 × List (Name × Nat) → Prop} {l r : List (UInt32 × List (Name × Nat))} {u : UInt32} {a b : List (Name × Nat)} (h : ∀ x ∈ (l ++ (u, a) :: r), P x) (hb : P (u, b)) :
    ∀ x ∈ (l ++ (u, b) :: r), P x := by
  intro x hx
  rcases List.mem_append.mp hx with hx | hx
  · exact h x (by simp [hx])
  · rcases List.mem_cons.mp hx with rfl | hx
    · exact hb
    · exact h x (by simp [hx])

theorem ex_swap {l r : List (UInt32 × List (Name × Nat))} {u : UInt32} {a : List (Name × Nat)} (x : Name × Nat) :
    (∃ c ∈ l ++ (u, a) :: r, x ∈ c.2) ↔ (∃ c ∈ l ++ r, x ∈ c.2) ∨ x ∈ a := by
  constructor
  · rintro ⟨c, hc, hx⟩
    rcases List.mem_append.mp hc with hc | hc
    · exact .inl ⟨c, by simp [hc], hx⟩
    · rcases List.mem_cons.mp hc with rfl | hc
      · exact .inr hx
      · exact .inl ⟨c, by simp [hc], hx⟩
  · rintro (⟨c, hc, hx⟩ | hx)
    · exact ⟨c, by rcases List.mem_append.mp hc with h | h <;> simp [h], hx⟩
    · exact ⟨(u, a), by simp, hx⟩

/-- `internal_put` -/
theorem Inv.put {red : Bool} {t : Tab} {ts : Nat → T} (hI : Inv red t ts) (nm : Name) (item fresh n : Nat) (hn : (ts (index red (hashString nm))).ptrs.length < n)
    (hi0 : item ≠ 0) (hia : t.heap item ≠ none) (hin : ∀ j, item ∉ (ts j).ptrs) (hf0 : fresh ≠ 0) (hfa : t.heap fresh = none) :
    (∃ q, put red n t item nm fresh = some (q, t) ∧ q ≠ 0 ∧ Has red ts (nm, q)) ∨
    ((∀ p, ¬ Has red ts (nm, p)) ∧ ∃ t' ts', put red n t item nm fresh = some (0, t') ∧ Inv red t' ts' ∧ (∀ x, Has red ts' x ↔ x = (nm, item) ∨ Has red ts x) ∧ t'.log = t.log ∧
      (∀ j, (ts' j).ptrs.length ≤ (ts j).ptrs.length + 2)) := by
  have hf := hI.find nm n hn
  have hhas := hI.has_iff nm
  have hrepT := hI.rep (index red (hashString nm))
  have hrep := hrepT.sub (keyOf (hashString nm))
  have hrootT := hI.root (index red (hashString nm))
  obtain ⟨hnd1, hnd2, hnd3⟩ := hI.sub_nodup (index red (hashString nm)) (keyOf (hashString nm))
  obtain ⟨hsrt, hcok⟩ := hI.sub_cells (index red (hashString nm)) (keyOf (hashString nm))
  have hfn : ∀ j, fresh ∉ (ts j).ptrs := fun j hj => (hI.ptr_some hj).2 hfa
  have hfi : fresh ≠ item := fun e => hia (e ▸ hfa)
  have hout : ∀ q ∈ (ts (index red (hashString nm))).outer (keyOf (hashString nm)), q ∈ (ts (index red (hashString nm))).ptrs := fun q hq => (ptrs_perm _ _).mem_iff.mpr (List.mem_append_left _ hq)
  have hii : index red (hashString (nm, item).1) = index red (hashString nm) := rfl
  have hlen : ∀ s' : T, s'.ptrs.length ≤ ((ts (index red (hashString nm))).sub (keyOf (hashString nm))).ptrs.length + 2 →
      ∀ j, (upd ts (index red (hashString nm)) (T.repl (keyOf (hashString nm)) s' (ts (index red (hashString nm)))) j).ptrs.length ≤ (ts j).ptrs.length + 2 := by
    intro s' hs' j
    unfold upd
    split
    · next hj =>
      rw [hj, (repl_perm _ _ _).length_eq, (ptrs_perm (keyOf (hashString nm)) (ts (index red (hashString nm)))).length_eq, List.length_append, List.length_append]; omega
    · omega
  obtain ⟨inode, hinode⟩ : ∃ nd, t.heap item = some nd := by
    cases h : t.heap item with
    | none => exact absurd h hia
    | some nd => exact ⟨nd, rfl⟩
  have hupd := fun t' : Tab => hI.update (t' := t') (index red (hashString nm)) (keyOf (hashString nm))
  have hput := hI.has_put (index red (hashString nm)) (keyOf (hashString nm))
  have hsl := fun p k c l r => hI.sub_len (i := index red (hashString nm)) (u := keyOf (hashString nm)) (p := p) (k := k) (c := c) (l := l) (r := r)
  have hsm := fun q => hI.sub_mem (i := index red (hashString nm)) (u := keyOf (hashString nm)) (q := q)
  have hkk : keyOf (keyOf (hashString nm)) = keyOf (hashString nm) := keyOf_keyOf _
  have hor := or_one (hashString nm)
  unfold Nhash.put
  simp only [hf, Option.bind_eq_bind, Option.bind_some]
  generalize hw : hashString nm = w at *
  generalize hu : keyOf w = u at *
  generalize hidx : index red w = i at *
  have hii : index red (hashString (nm, item).1) = i := by rw [hw, hidx]
  rcases sub_key u (ts i) with e | ⟨p, c, l, r, e⟩
  · -- no node
    right
    refine ⟨fun q hq => ?_, ?_⟩
    · obtain ⟨p, c, l, r, e', _⟩ := (hhas q).mp hq
      rw [e] at e'; cases e'
    · simp only [e, root_nil, if_true, load_of hi0 hinode, Option.bind_some]
      obtain ⟨t2, g1, g2, g3, g4, g5⟩ := link_tab (red := red) (t := { t with heap := t.heap.set item (some ⟨0, 0, u, .name nm⟩) })
        (s' := .node item u (.real nm) .nil .nil) w u (by rw [hidx]; exact hrootT) hrepT
        (fun q hq => Heap.set_ne fun e => hin i (e ▸ hout q hq)) ⟨⟨hi0, hkk, Heap.set_eq⟩, trivial, trivial⟩
        (fun q hq hq' => by simp [T.ptrs, Cell.ptrs] at hq; subst hq; exact hin i (hout _ hq')) hnd2
      simp only [root_node] at g1
      rw [hidx] at g3
      refine ⟨t2, _, by rw [g1]; rfl, hupd t2 (.node item u (.real nm) .nil .nil) [item] g3 g2 ?_ ?_ ?_ ?_ ?_ ?_ ?_, ?_, g4, hlen _ ?_⟩
      · intro q hq hq'
        rw [g5 q (fun h => hq (hout q h))]
        exact Heap.set_ne (by simpa using hq')
      · intro q hq; simp at hq; subst hq; exact hin
      · intro q hq; simp [T.ptrs, Cell.ptrs] at hq; simp [hq]
      · simp [T.ptrs, Cell.ptrs]
      · simp [T.cells]
      · intro x hx; simp [T.cells] at hx; simp [hx]
      · intro x hx; simp [T.cells, Cell.items] at hx; subst hx
        exact ⟨by simp, fun y hy => by simp at hy; subst hy; exact ⟨by rw [hw, hu], hii⟩⟩
      · refine hput _ (nm, item) hii fun x => ?_
        rw [e]; simp [T.cells, Cell.items]
      · simp [T.ptrs, Cell.ptrs]
  · have hsl := hsl p u c l r e
    rw [e] at hrep hsrt hcok hnd1 hnd3
    have hp : p ≠ 0 := hrep.1.1
    have hpin : p ∈ (ts i).ptrs := hsm p (by rw [e]; simp [T.ptrs])
    have hip : item ≠ p := fun e => hin i (e ▸ hpin)
    have hfp : fresh ≠ p := fun e => hfn i (e ▸ hpin)
    simp only [e, root_node, hp, if_false]
    cases c with
    | real nm' =>
      obtain ⟨h1, h2, h3⟩ := node_real hrep
      simp only [h1, Option.bind_some, h3, if_true, h2]
      by_cases hnn : nm' = nm
      · left
        rw [if_pos hnn]
        exact ⟨p, rfl, hp, (hhas p).mpr ⟨p, _, l, r, e, by simp [Cell.items, hnn]⟩⟩
      · right
        rw [if_neg hnn]
        refine ⟨fun q hq => ?_, ?_⟩
        · obtain ⟨p, c, l, r, e', hm⟩ := (hhas q).mp hq
          rw [e] at e'; cases e'
          simp only [Cell.items, List.mem_singleton, Prod.mk.injEq] at hm
          exact hnn hm.1.symm
        · have hpn : t.heap p = some ⟨l.root, r.root, u, .name nm'⟩ := hrep.1.2.2
          let h1 : Heap := t.heap.set fresh (some ⟨l.root, r.root, w ||| 1, .ptr p⟩)
          have k1 : h1 p = some ⟨l.root, r.root, u, .name nm'⟩ := (Heap.set_ne (Ne.symm hfp)).trans hpn
          let h2 : Heap := h1.set p (some ⟨item, r.root, u, .name nm'⟩)
          have k2 : h2 p = some ⟨item, r.root, u, .name nm'⟩ := Heap.set_eq
          let h3 : Heap := h2.set p (some ⟨item, 0, u, .name nm'⟩)
          have k3 : h3 item = some inode := ((Heap.set_ne hip).trans (Heap.set_ne hip)).trans ((Heap.set_ne (Ne.symm hfi)).trans hinode)
          let h4 : Heap := h3.set item (some ⟨0, 0, u, .name nm⟩)
          have k4 : ∀ q, q ≠ fresh → q ≠ p → q ≠ item → h4 q = t.heap q := fun q a b c =>
            (Heap.set_ne c).trans ((Heap.set_ne b).trans ((Heap.set_ne b).trans (Heap.set_ne a)))
          have k5 : h4 p = some ⟨item, 0, u, .name nm'⟩ := (Heap.set_ne (Ne.symm hip)).trans Heap.set_eq
          have k6 : h4 item = some ⟨0, 0, u, .name nm⟩ := Heap.set_eq
          have k7 : h4 fresh = some ⟨l.root, r.root, w ||| 1, .ptr p⟩ :=
            (Heap.set_ne hfi).trans ((Heap.set_ne hfp).trans ((Heap.set_ne hfp).trans Heap.set_eq))
          have hsp : ∀ q ∈ l.ptrs ++ r.ptrs, q ≠ fresh ∧ q ≠ p ∧ q ≠ item := by
            intro q hq
            have hq' : q ∈ (ts i).ptrs := hsm q (by rw [e]; simp only [T.ptrs]; simp at hq ⊢; rcases hq with h | h <;> simp [h])
            refine ⟨fun e => hfn i (e ▸ hq'), fun e => ?_, fun e => hin i (e ▸ hq')⟩
            rw [T.ptrs, List.nodup_cons] at hnd1
            exact hnd1.1 (e ▸ List.mem_append_right _ hq)
          obtain ⟨t2, g1, g2, g3, g4, g5⟩ := link_tab (red := red) (t := { t with heap := h4 })
            (s' := .node fresh u (.fake [(nm', p), (nm, item)]) l r) w u (by rw [hidx]; exact hrootT) hrepT
            (fun q hq => k4 q (fun e => hfn i (e ▸ hout q hq)) (fun e' => hnd3 p (by simp [T.ptrs]) (e' ▸ hq)) (fun e => hin i (e ▸ hout q hq)))
            ⟨⟨hf0, hkk, p, by rw [← hor]; exact k7, ⟨rfl, hp, item, 0, k5, rfl, hi0, 0, 0, k6, rfl⟩, by simp⟩,
              hrep.2.1.frame fun q hq => (have h := hsp q (List.mem_append_left _ hq); k4 q h.1 h.2.1 h.2.2),
              hrep.2.2.frame fun q hq => (have h := hsp q (List.mem_append_right _ hq); k4 q h.1 h.2.1 h.2.2)⟩
            (fun q hq hq' => by
              simp only [T.ptrs, Cell.ptrs, List.map_cons, List.map_nil, List.cons_append, List.nil_append, List.mem_cons] at hq
              rcases hq with rfl | rfl | rfl | hq
              · exact hfn i (hout _ hq')
              · exact hnd3 q (by simp [T.ptrs]) hq'
              · exact hin i (hout _ hq')
              · exact hnd3 q (by rw [T.ptrs]; exact List.mem_cons_of_mem _ (List.mem_append_right _ hq)) hq') hnd2
          simp only [root_node] at g1
          rw [hidx] at g3
          refine ⟨t2, _, ?_, hupd t2 (.node fresh u (.fake [(nm', p), (nm, item)]) l r) [item, fresh] g3 g2 ?_ ?_ ?_ ?_ ?_ ?_ ?_, ?_, g4, hlen _ ?_⟩
          · have e1 : setLeft h1 p item = some h2 := setLeft_eq hp k1 item
            have e2 : setRight h2 p 0 = some h3 := setRight_eq hp k2 0
            have e3 : load h3 item = some inode := load_of hi0 k3
            show ((setLeft h1 p item).bind fun h => (setRight h p 0).bind fun h => (load h item).bind fun _ =>
              (link red { tree := t.tree, heap := h.set item (some ⟨0, 0, u, .name nm⟩), log := t.log } w (T.find u (ts i) 0 false).2.1 (T.find u (ts i) 0 false).2.2 fresh).bind fun t => some (0, t)) = _
            rw [e1, Option.bind_some, e2, Option.bind_some, e3, Option.bind_some]
            exact congrArg (fun x => Option.bind x _) g1
          · intro q hq hq'
            simp only [List.mem_cons, List.not_mem_nil, or_false, not_or] at hq'
            rw [g5 q (fun h => hq (hout q h))]
            exact k4 q hq'.2 (fun e => hq (e ▸ hpin)) hq'.1
          · intro q hq
            simp only [List.mem_cons, List.not_mem_nil, or_false] at hq
            rcases hq with rfl | rfl
            · exact hin
            · exact hfn
          · intro q hq
            rw [e]
            simp only [T.ptrs, Cell.ptrs, List.map_cons, List.map_nil, List.cons_append, List.nil_append, List.mem_cons] at hq ⊢
            rcases hq with h | h | h | h
            · right; simp [h]
            · left; exact .inl h
            · right; simp [h]
            · left; exact .inr h
          · simp only [T.ptrs, Cell.ptrs, List.map_cons, List.map_nil, List.cons_append, List.nil_append, List.nodup_cons, List.mem_cons, not_or] at hnd1 ⊢
            exact ⟨⟨hfp, hfi, fun h => (hsp _ h).1 rfl⟩, ⟨Ne.symm hip, hnd1.1⟩, fun h => (hsp _ h).2.2 rfl, hnd1.2⟩
          · exact swap_sort hsrt
          · rw [e]; exact swap_keys
          · refine swap_cell hcok ?_
            have := (hcok (u, [(nm', p)]) (by simp [T.cells, Cell.items])).2 (nm', p) (by simp)
            refine ⟨by simp [Cell.items]; exact hnn, fun y hy => ?_⟩
            simp only [Cell.items, List.mem_cons, List.not_mem_nil, or_false] at hy
            rcases hy with rfl | rfl
            · exact this
            · exact ⟨by rw [hw, hu], hii⟩
          · refine hput _ (nm, item) hii fun x => ?_
            rw [e, T.cells, T.cells, ex_swap, ex_swap]
            simp only [Cell.items, List.mem_cons, List.not_mem_nil, or_false]
            grind
          · rw [e]; simp [T.ptrs, Cell.ptrs]
    | fake its =>
      obtain ⟨hd, h1, h2, h3⟩ := node_fake hrep
      have hlen' : its.length < n := by
        simp only [T.ptrs, Cell.ptrs, List.length_cons, List.length_append, List.length_map] at hsl; omega
      simp only [h1, Option.bind_some, odd_bit, if_false, headOf]
      rcases findName_spec (nm := nm) h2 n 0 hlen' with ⟨g1, g2⟩ | ⟨x, q, y, g1, g2, g3⟩
      · right
        refine ⟨fun q hq => ?_, ?_⟩
        · obtain ⟨p, c, l, r, e', hm⟩ := (hhas q).mp hq
          rw [e] at e'; cases e'
          exact g1 (List.mem_map.mpr ⟨_, hm, rfl⟩)
        · obtain ⟨x, v, hxv⟩ : ∃ x v, its = x ++ [v] := ⟨its.dropLast, its.getLast (by intro h; simp [h] at h3), (List.dropLast_concat_getLast _).symm⟩
          obtain ⟨n1, q1⟩ := v
          subst hxv
          have hlast : ((x ++ [(n1, q1)]).map Prod.snd).getLast?.getD 0 = q1 := by simp
          rw [hlast] at g2
          have hq1 : q1 ∈ (T.node p u (.fake (x ++ [(n1, q1)])) l r).ptrs := by simp [T.ptrs, Cell.ptrs]
          have hq1i : q1 ∈ (ts i).ptrs := hsm q1 (by rw [e]; exact hq1)
          have hq10 : q1 ≠ 0 := (hI.ptr_some hq1i).1
          have hiq : item ≠ q1 := fun e => hin i (e ▸ hq1i)
          obtain ⟨nd, hnd⟩ : ∃ nd, t.heap q1 = some nd := by
            cases h : t.heap q1 with
            | none => exact absurd h (hI.ptr_some hq1i).2
            | some nd => exact ⟨nd, rfl⟩
          let h4 : Heap := t.heap.set item (some ⟨0, 0, u, .name nm⟩)
          have k1 : h4 q1 = some nd := (Heap.set_ne (Ne.symm hiq)).trans hnd
          let h5 : Heap := h4.set q1 (some { nd with left := item })
          have k2 : ∀ q, q ≠ item → q ≠ q1 → h5 q = t.heap q := fun q a b => (Heap.set_ne b).trans (Heap.set_ne a)
          have k3 : h5 item = some ⟨0, 0, u, .name nm⟩ := (Heap.set_ne hiq).trans Heap.set_eq
          have hnd1' := hnd1
          simp only [T.ptrs, Cell.ptrs, List.map_append, List.map_cons, List.map_nil] at hnd1'
          rw [List.nodup_cons, List.nodup_append, List.nodup_append] at hnd1'
          have hpq : p ≠ q1 := fun e => hnd1'.1 (by simp [e])
          have hlr : ∀ q ∈ l.ptrs ++ r.ptrs, q ≠ q1 := fun q hq e => hnd1'.2.2.2 q1 (by simp) q hq e.symm
          have hxq : ∀ q ∈ x.map Prod.snd, q ≠ q1 := fun q hq e => hnd1'.2.1.2.2 q hq q1 (by simp) e
          have hitm : ∀ q ∈ (T.node p u (.fake (x ++ [(n1, q1)])) l r).ptrs, q ≠ item := fun q hq e' => hin i (e' ▸ hsm q (by rw [e]; exact hq))
          have hchain : Chain h5 u hd (x ++ (n1, q1) :: [(nm, item)]) := by
            refine h2.relink (fun q hq => k2 q (hitm q ?_) (hxq q hq)) hnd Heap.set_eq ⟨rfl, hi0, 0, 0, k3, rfl⟩
            simp only [T.ptrs, Cell.ptrs, List.map_append]; simp at hq ⊢; exact .inr (.inl hq)
          have hrep' : Rep h5 (.node p u (.fake (x ++ (n1, q1) :: [(nm, item)])) l r) := by
            obtain ⟨⟨a1, a2, a3, a4, a5, a6⟩, hrl, hrr⟩ := hrep
            have : a3 = hd := by
              have := load_of a1 a4
              rw [h1] at this; cases this; rfl
            subst this
            refine ⟨⟨a1, a2, a3, (k2 p (Ne.symm hip) hpq).trans a4, hchain, by simp⟩, hrl.frame fun q hq => k2 q (hitm q ?_) (hlr q ?_), hrr.frame fun q hq => k2 q (hitm q ?_) (hlr q ?_)⟩
            · simp [T.ptrs, hq]
            · simp [hq]
            · simp [T.ptrs, hq]
            · simp [hq]
          obtain ⟨g4, g5⟩ := hrepT.repl_same (h1 := h5) (t' := .node p u (.fake (x ++ (n1, q1) :: [(nm, item)])) l r) (u := u)
            (fun q hq => k2 q (fun e => hin i (e ▸ hout q hq)) (fun e => hnd3 q1 hq1 (e ▸ hq))) hrep' (by rw [e]; rfl)
          rw [g2]
          simp only [Option.bind_some, if_true, load_of hi0 hinode]
          refine ⟨{ t with heap := h5 }, _, ?_, hupd { t with heap := h5 } (.node p u (.fake (x ++ (n1, q1) :: [(nm, item)])) l r) [item] ?_ g4 ?_ ?_ ?_ ?_ ?_ ?_ ?_, ?_, rfl, hlen _ ?_⟩
          · exact congrArg (fun x => Option.bind x _) (setLeft_eq hq10 k1 item)
          · intro j
            show t.tree j = _
            split
            · next hj => rw [hj, g5, hrootT]
            · rfl
          · intro q hq hq'
            exact k2 q (by simpa using hq') (fun e => hq (e ▸ hq1i))
          · intro q hq; simp at hq; subst hq; exact hin
          · intro q hq
            rw [e]
            simp only [T.ptrs, Cell.ptrs, List.map_append, List.map_cons, List.map_nil, List.mem_cons, List.mem_append, List.not_mem_nil, or_false] at hq ⊢
            grind
          · have hp1 : (T.node p u (.fake (x ++ (n1, q1) :: [(nm, item)])) l r).ptrs.Perm (item :: (T.node p u (.fake (x ++ [(n1, q1)])) l r).ptrs) := by
              rw [List.perm_iff_count]; intro a
              simp only [T.ptrs, Cell.ptrs, List.map_append, List.map_cons, List.map_nil, List.count_append, List.count_cons, List.count_nil]; omega
            exact hp1.nodup_iff.mpr (List.nodup_cons.mpr ⟨fun h => hitm _ h rfl, hnd1⟩)
          · exact swap_sort hsrt
          · rw [e]; exact swap_keys
          · refine swap_cell hcok ?_
            obtain ⟨b1, b2⟩ := hcok (u, x ++ [(n1, q1)]) (by simp [T.cells, Cell.items])
            simp only at b1 b2
            have hx2 : x ++ (n1, q1) :: [(nm, item)] = (x ++ [(n1, q1)]) ++ [(nm, item)] := by simp
            refine ⟨?_, fun y hy => ?_⟩
            · simp only [Cell.items]
              rw [hx2, List.map_append, List.nodup_append]
              refine ⟨b1, by simp, fun a ha b hb e => g1 ?_⟩
              simp at hb; subst hb; exact e ▸ ha
            · simp only [Cell.items, hx2] at hy
              rcases List.mem_append.mp hy with hy | hy
              · exact b2 y hy
              · simp at hy; subst hy; exact ⟨by rw [hw, hu], hii⟩
          · refine hput _ (nm, item) hii fun z => ?_
            rw [e, T.cells, T.cells, ex_swap, ex_swap]
            simp only [Cell.items, List.mem_append, List.mem_cons, List.not_mem_nil, or_false]
            grind
          · rw [e]; simp [T.ptrs, Cell.ptrs]; omega
      · left
        have hq0 : q ≠ 0 := (h2.ptr_some q (by simp [g1])).1
        rw [g3]
        simp only [Option.bind_some, hq0, if_false]
        exact ⟨q, rfl, hq0, (hhas q).mpr ⟨p, _, l, r, e, by simp [Cell.items, g1]⟩⟩

end Smlr.Nhash
