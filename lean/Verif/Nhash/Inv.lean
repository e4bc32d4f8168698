import Verif.Nhash.Del
set_option autoImplicit false
/-! What holds of a table in memory, and what keeps it. -/
namespace Smlr.Nhash

def CellOk (red : Bool) (i : Nat) (x : UInt32 × List (Name × Nat)) : Prop :=
  (x.2.map Prod.fst).Nodup ∧ ∀ y ∈ x.2, keyOf (hashString y.1) = x.1 ∧ index red (hashString y.1) = i

/-- `ts` are the trees of the table -/
structure Inv (red : Bool) (t : Tab) (ts : Nat → T) : Prop where
  root : ∀ i, t.tree i = (ts i).root
  rep : ∀ i, Rep t.heap (ts i)
  nodup : ∀ i, (ts i).ptrs.Nodup
  disj : ∀ i j, i ≠ j → ∀ q ∈ (ts i).ptrs, q ∉ (ts j).ptrs
  sorted : ∀ i, (ts i).cells.Pairwise (fun a b => a.1 < b.1)
  cell : ∀ i, ∀ x ∈ (ts i).cells, CellOk red i x

/-- the item is in the table -/
def Has (red : Bool) (ts : Nat → T) (x : Name × Nat) : Prop := ∃ c ∈ (ts (index red (hashString x.1))).cells, x ∈ c.2

theorem Chain.ptr_some {h : Heap} {k : UInt32} {its : List (Name × Nat)} {a : Nat} (hc : Chain h k a its) : ∀ q ∈ its.map Prod.snd, q ≠ 0 ∧ h q ≠ none := by
  induction its generalizing a with
  | nil => simp
  | cons x its ih =>
    obtain ⟨h1, h2, nx, r, h3, h4⟩ := hc
    intro q hq
    rw [List.map_cons, List.mem_cons] at hq
    rcases hq with rfl | hq
    · exact ⟨h2, by rw [h3]; simp⟩
    · exact ih h4 q hq

theorem Rep.ptr_some {h : Heap} {t : T} (hr : Rep h t) : ∀ q ∈ t.ptrs, q ≠ 0 ∧ h q ≠ none := by
  induction t with
  | nil => simp [T.ptrs]
  | node p k c l r ihl ihr =>
    intro q hq
    simp only [T.ptrs, List.mem_cons, List.mem_append] at hq
    rcases hq with rfl | hq | hq | hq
    · obtain ⟨nd, _, h2, _⟩ := hr.1.get; exact ⟨hr.1.1, by rw [h2]; simp⟩
    · obtain ⟨_, _, h3⟩ := hr.1
      cases c with
      | real nm => simp [Cell.ptrs] at hq
      | fake its => obtain ⟨hd, _, h5, _⟩ := h3; exact h5.ptr_some q hq
    · exact ihl hr.2.1 q hq
    · exact ihr hr.2.2 q hq

theorem Inv.ptr_some {red : Bool} {t : Tab} {ts : Nat → T} (hI : Inv red t ts) {i q : Nat} (hq : q ∈ (ts i).ptrs) : q ≠ 0 ∧ t.heap q ≠ none := (hI.rep i).ptr_some q hq

/-- memory that does not belong to the table -/
theorem Inv.other {red : Bool} {t : Tab} {ts : Nat → T} (hI : Inv red t ts) {q : Nat} (v : Option Node) (lg : List Nat) (hq : ∀ j, q ∉ (ts j).ptrs) :
    Inv red { t with heap := t.heap.set q v, log := lg } ts :=
  ⟨hI.root, fun i => (hI.rep i).frame fun p hp => Heap.set_ne fun e => hq i (e ▸ hp), hI.nodup, hI.disj, hI.sorted, hI.cell⟩

theorem UInt32.lt_ne {a b : UInt32} (h : a < b) : a ≠ b := fun e => by rw [e, UInt32.lt_iff_toNat_lt] at h; omega

/-- the item can only be in the cell of its hash value -/
theorem Inv.has_iff {red : Bool} {t : Tab} {ts : Nat → T} (hI : Inv red t ts) (nm : Name) (q : Nat) :
    Has red ts (nm, q) ↔ ∃ p c l r, (ts (index red (hashString nm))).sub (keyOf (hashString nm)) = .node p (keyOf (hashString nm)) c l r ∧ (nm, q) ∈ c.items p := by
  have hs := hI.sorted (index red (hashString nm))
  have hcell := hI.cell (index red (hashString nm))
  unfold Has
  simp only
  generalize ht : ts (index red (hashString nm)) = tr at *
  obtain ⟨a, b, h1, _, h3, h4⟩ := cells_ctx (keyOf (hashString nm)) tr hs
  constructor
  · rintro ⟨c, hc, hm⟩
    have hk := (hcell c hc).2 _ hm
    simp only at hk
    rw [h1, List.mem_append, List.mem_append] at hc
    rcases hc with (hc | hc) | hc
    · exact absurd hk.1.symm (UInt32.lt_ne (h3 c hc))
    · rcases sub_key (keyOf (hashString nm)) tr with e | ⟨p, ce, l, r, e⟩
      · rw [e] at hc; simp [T.cells] at hc
      · refine ⟨p, ce, l, r, e, ?_⟩
        rw [h1, e] at hs
        rw [e] at hc
        simp only [T.cells] at hs hc
        rw [List.pairwise_append, List.pairwise_append, List.pairwise_append, List.pairwise_cons] at hs
        rw [List.mem_append, List.mem_cons] at hc
        rcases hc with hc | rfl | hc
        · exact absurd hk.1.symm (UInt32.lt_ne (hs.1.2.1.2.2 c hc _ List.mem_cons_self))
        · exact hm
        · exact absurd hk.1 (UInt32.lt_ne (hs.1.2.1.2.1.1 c hc))
    · exact absurd hk.1 (UInt32.lt_ne (h4 c hc))
  · rintro ⟨p, c, l, r, e, hm⟩
    exact ⟨(keyOf (hashString nm), c.items p), by rw [h1, e]; simp [T.cells], hm⟩

def upd (ts : Nat → T) (i : Nat) (t : T) : Nat → T := fun j => if j = i then t else ts j

theorem Inv.update {red : Bool} {t t' : Tab} {ts : Nat → T} (hI : Inv red t ts) (i : Nat) (u : UInt32) (s' : T) (N : List Nat)
    (hroot : ∀ j, t'.tree j = if j = i then (T.repl u s' (ts i)).root else t.tree j)
    (hrep : Rep t'.heap (T.repl u s' (ts i)))
    (hframe : ∀ q, q ∉ (ts i).ptrs → q ∉ N → t'.heap q = t.heap q)
    (hN : ∀ q ∈ N, ∀ j, q ∉ (ts j).ptrs)
    (hsub : ∀ q ∈ s'.ptrs, q ∈ ((ts i).sub u).ptrs ∨ q ∈ N)
    (hnd : s'.ptrs.Nodup)
    (hsort : s'.cells.Pairwise (fun a b => a.1 < b.1))
    (hkeys : ∀ x ∈ s'.cells, x.1 = u ∨ ∃ y ∈ ((ts i).sub u).cells, x.1 = y.1)
    (hcell : ∀ x ∈ s'.cells, CellOk red i x) :
    Inv red t' (upd ts i (T.repl u s' (ts i))) := by
  obtain ⟨a, b, h1, h2, h3, h4⟩ := cells_ctx u (ts i) (hI.sorted i)
  have hp := ptrs_perm u (ts i)
  have hp' := repl_perm u (ts i) s'
  have hndi := hp.nodup_iff.mp (hI.nodup i)
  rw [List.nodup_append] at hndi
  have hsubi : ∀ q ∈ (T.repl u s' (ts i)).ptrs, q ∈ (ts i).ptrs ∨ q ∈ N := by
    intro q hq
    have := hp'.mem_iff.mp hq
    have h5 := hp.mem_iff (a := q)
    rcases List.mem_append.mp this with h | h
    · exact .inl (h5.mpr (List.mem_append_left _ h))
    · rcases hsub q h with h | h
      · exact .inl (h5.mpr (List.mem_append_right _ h))
      · exact .inr h
  have hout : ∀ q ∈ (ts i).outer u, q ∈ (ts i).ptrs := fun q hq => hp.mem_iff.mpr (List.mem_append_left _ hq)
  refine ⟨?_, ?_, ?_, ?_, ?_, ?_⟩
  · intro j; rw [hroot]; unfold upd; split
    · rfl
    · exact hI.root j
  · intro j; unfold upd; split
    · exact hrep
    · next hj =>
      refine (hI.rep j).frame fun q hq => hframe q (fun hq' => hI.disj j i hj q hq hq') (fun hq' => hN q hq' j hq)
  · intro j; unfold upd; split
    · refine hp'.nodup_iff.mpr (List.nodup_append.mpr ⟨hndi.1, hnd, ?_⟩)
      intro q hq q' hq' e
      subst e
      rcases hsub q hq' with h | h
      · exact hndi.2.2 q hq q h rfl
      · exact hN q h i (hout q hq)
    · exact hI.nodup j
  · intro j k hjk q hq
    unfold upd at *
    split at hq
    · next hj =>
      subst hj
      rw [if_neg (Ne.symm hjk)]
      rcases hsubi q hq with h | h
      · exact hI.disj _ _ hjk q h
      · exact hN q h k
    · next hj =>
      split
      · next hk =>
        subst hk
        intro hq'
        rcases hsubi q hq' with h | h
        · exact hI.disj _ _ hjk q hq h
        · exact hN q h j hq
      · exact hI.disj _ _ hjk q hq
  · intro j; unfold upd; split
    · rw [h2]
      have hs := hI.sorted i
      rw [h1, List.pairwise_append, List.pairwise_append] at hs
      rw [List.pairwise_append, List.pairwise_append]
      refine ⟨⟨hs.1.1, hsort, ?_⟩, hs.2.1, ?_⟩
      · intro x hx y hy
        rcases hkeys y hy with e | ⟨z, hz, e⟩
        · rw [e]; exact h3 x hx
        · rw [e]; exact hs.1.2.2 x hx z hz
      · intro x hx y hy
        rcases List.mem_append.mp hx with hx | hx
        · exact hs.2.2 x (List.mem_append_left _ hx) y hy
        · rcases hkeys x hx with e | ⟨z, hz, e⟩
          · rw [e]; exact h4 y hy
          · rw [e]; exact hs.2.2 z (List.mem_append_right _ hz) y hy
    · exact hI.sorted j
  · intro j; unfold upd; split
    · next hj =>
      subst hj
      rw [h2]
      intro x hx
      have := hI.cell j
      rw [h1] at this
      rcases List.mem_append.mp hx with hx | hx
      · rcases List.mem_append.mp hx with hx | hx
        · exact this x (List.mem_append_left _ (List.mem_append_left _ hx))
        · exact hcell x hx
      · exact this x (List.mem_append_right _ hx)
    · exact hI.cell j

theorem ex_append {α β : Type} (a b c : List (α × List β)) (x : β) :
    (∃ v ∈ a ++ b ++ c, x ∈ v.2) ↔ (∃ v ∈ a, x ∈ v.2) ∨ (∃ v ∈ b, x ∈ v.2) ∨ (∃ v ∈ c, x ∈ v.2) := by
  constructor
  · rintro ⟨v, hv, hx⟩
    rcases List.mem_append.mp hv with hv | hv
    · rcases List.mem_append.mp hv with hv | hv
      · exact .inl ⟨v, hv, hx⟩
      · exact .inr (.inl ⟨v, hv, hx⟩)
    · exact .inr (.inr ⟨v, hv, hx⟩)
  · rintro (⟨v, hv, hx⟩ | ⟨v, hv, hx⟩ | ⟨v, hv, hx⟩)
    · exact ⟨v, by simp [hv], hx⟩
    · exact ⟨v, by simp [hv], hx⟩
    · exact ⟨v, by simp [hv], hx⟩

/-- items after an insertion -/
theorem Inv.has_put {red : Bool} {t : Tab} {ts : Nat → T} (hI : Inv red t ts) (i : Nat) (u : UInt32) (s' : T) (y : Name × Nat) (hy : index red (hashString y.1) = i)
    (hs : ∀ x, (∃ c ∈ s'.cells, x ∈ c.2) ↔ x = y ∨ ∃ c ∈ ((ts i).sub u).cells, x ∈ c.2) (x : Name × Nat) :
    Has red (upd ts i (T.repl u s' (ts i))) x ↔ x = y ∨ Has red ts x := by
  obtain ⟨a, b, h1, h2, h3, h4⟩ := cells_ctx u (ts i) (hI.sorted i)
  unfold Has upd
  by_cases e : index red (hashString x.1) = i
  · rw [if_pos e, e, h2, h1]
    have := hs x
    rw [ex_append, ex_append, this]
    constructor
    · rintro (h | (h | h) | h)
      · exact .inr (.inl h)
      · exact .inl h
      · exact .inr (.inr (.inl h))
      · exact .inr (.inr (.inr h))
    · rintro (h | (h | h | h))
      · exact .inr (.inl (.inl h))
      · exact .inl h
      · exact .inr (.inl (.inr h))
      · exact .inr (.inr h)
  · rw [if_neg e]
    have : x ≠ y := fun e' => e (e' ▸ hy)
    exact ⟨.inr, fun h => h.resolve_left this⟩

/-- items after a deletion -/
theorem Inv.has_del {red : Bool} {t : Tab} {ts : Nat → T} (hI : Inv red t ts) (i : Nat) (u : UInt32) (s' : T) (y : Name × Nat) (hy : index red (hashString y.1) = i)
    (hu : keyOf (hashString y.1) = u)
    (hs : ∀ x, (∃ c ∈ s'.cells, x ∈ c.2) ↔ x ≠ y ∧ ∃ c ∈ ((ts i).sub u).cells, x ∈ c.2) (x : Name × Nat) :
    Has red (upd ts i (T.repl u s' (ts i))) x ↔ x ≠ y ∧ Has red ts x := by
  obtain ⟨a, b, h1, h2, h3, h4⟩ := cells_ctx u (ts i) (hI.sorted i)
  have hc := hI.cell i
  unfold Has upd
  by_cases e : index red (hashString x.1) = i
  · rw [if_pos e, e, h2, h1]
    rw [h1] at hc
    have := hs x
    have ha : ∀ c ∈ a, y ∉ c.2 := fun c hca hyc => UInt32.lt_ne (h3 c hca) (by rw [← ((hc c (by simp [hca])).2 y hyc).1, hu])
    have hb : ∀ c ∈ b, y ∉ c.2 := fun c hca hyc => UInt32.lt_ne (h4 c hca) (by rw [← ((hc c (by simp [hca])).2 y hyc).1, hu])
    rw [ex_append, ex_append, this]
    constructor
    · rintro (⟨c, h, h'⟩ | h | ⟨c, h, h'⟩)
      · exact ⟨fun e => ha c h (e ▸ h'), .inl ⟨c, h, h'⟩⟩
      · exact ⟨h.1, .inr (.inl h.2)⟩
      · exact ⟨fun e => hb c h (e ▸ h'), .inr (.inr ⟨c, h, h'⟩)⟩
    · rintro ⟨hn, (h | h | h)⟩
      · exact .inl h
      · exact .inr (.inl ⟨hn, h⟩)
      · exact .inr (.inr h)
  · rw [if_neg e]
    have : x ≠ y := fun e' => e (e' ▸ hy)
    exact ⟨fun h => ⟨this, h⟩, And.right⟩

/-- the new subtree is linked -/
theorem link_tab {red : Bool} {t : Tab} {tr s' : T} {h : Heap} (w : UInt32) (u : UInt32) (hroot : t.tree (index red w) = tr.root) (hr : Rep h tr)
    (hf : ∀ q ∈ tr.outer u, t.heap q = h q) (hr' : Rep t.heap s') (hd : ∀ q ∈ s'.ptrs, q ∉ tr.outer u) (hnd : (tr.outer u).Nodup) :
    ∃ t2, link red t w (tr.find u 0 false).2.1 (tr.find u 0 false).2.2 s'.root = some t2 ∧ Rep t2.heap (T.repl u s' tr) ∧
      (∀ j, t2.tree j = if j = index red w then (T.repl u s' tr).root else t.tree j) ∧ t2.log = t.log ∧ (∀ q, q ∉ tr.outer u → t2.heap q = t.heap q) := by
  rcases Rep.repl_link 0 false hr hf hr' hd hnd with ⟨e1, e2⟩ | ⟨f, ls, nd, e1, e2, e3, e4, e5, e6⟩
  · rw [e1]
    simp only [link, if_true]
    exact ⟨_, rfl, by rw [e2]; exact hr', fun j => by rw [e2], rfl, fun _ _ => rfl⟩
  · rw [e1]
    simp only [link, e3, if_false]
    have htree : ∀ j, t.tree j = if j = index red w then (T.repl u s' tr).root else t.tree j := by
      intro j; split
      · next hj => rw [hj, e5, hroot]
      · rfl
    cases ls with
    | true =>
      rw [if_pos rfl, setLeft_eq e3 e4]
      exact ⟨_, rfl, e6, htree, rfl, fun q hq => Heap.set_ne fun e => hq (e ▸ e2)⟩
    | false =>
      rw [if_neg (by simp), setRight_eq e3 e4]
      exact ⟨_, rfl, e6, htree, rfl, fun q hq => Heap.set_ne fun e => hq (e ▸ e2)⟩

end Smlr.Nhash
