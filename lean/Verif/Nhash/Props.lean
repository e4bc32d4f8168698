import Verif.Nhash.Scan
import Verif.Nhash.Spec
set_option autoImplicit false
/-! C33: the hash table of the preprocessor behaves like a dictionary. -/
namespace Smlr.Nhash

theorem lookup_some {d : Dict} (hd : (d.map Prod.fst).Nodup) (nm : Name) (q : Nat) : d.lookup nm = some q ↔ (nm, q) ∈ d := by
  induction d with
  | nil => simp [Dict.lookup]
  | cons x d ih =>
    rw [List.map_cons, List.nodup_cons] at hd
    by_cases e : x.1 = nm
    · have : Dict.lookup (x :: d) nm = some x.2 := by simp [Dict.lookup, List.find?_cons, e]
      rw [this]
      constructor
      · intro h; cases h; rw [← e]; exact List.mem_cons_self
      · intro h
        rcases List.mem_cons.mp h with h | h
        · rw [← h]
        · exact absurd (List.mem_map.mpr ⟨_, h, rfl⟩) (e ▸ hd.1)
    · have : Dict.lookup (x :: d) nm = Dict.lookup d nm := by simp [Dict.lookup, List.find?_cons, e]
      rw [this, ih hd.2]
      constructor
      · exact List.mem_cons_of_mem _
      · intro h
        rcases List.mem_cons.mp h with h | h
        · exact absurd (by rw [← h]) e
        · exact h

theorem lookup_none {d : Dict} (hd : (d.map Prod.fst).Nodup) (nm : Name) : d.lookup nm = none ↔ ∀ q, (nm, q) ∉ d := by
  constructor
  · intro h q hq
    rw [(lookup_some hd nm q).mpr hq] at h; cases h
  · intro h
    cases hl : d.lookup nm with
    | none => rfl
    | some q => exact absurd ((lookup_some hd nm q).mp hl) (h q)

/-- the table holds the dictionary, with at most `m` nodes in each tree -/
def Sim (red : Bool) (t : Tab) (d : Dict) (m : Nat) : Prop :=
  ∃ ts, Inv red t ts ∧ (d.map Prod.fst).Nodup ∧ (∀ x, x ∈ d ↔ Has red ts x) ∧ ∀ j, (ts j).ptrs.length ≤ m

theorem nodup_of_names {d : Dict} (hd : (d.map Prod.fst).Nodup) : d.Nodup := (List.pairwise_map.mp hd).imp fun h e => h (congrArg _ e)

theorem sim_init (red : Bool) (h : Heap) : Sim red (init h) [] 0 :=
  ⟨fun _ => .nil, ⟨fun _ => rfl, fun _ => trivial, fun _ => by simp [T.ptrs], fun _ _ _ _ h => by simp [T.ptrs] at h, fun _ => by simp [T.cells], fun _ _ h => by simp [T.cells] at h⟩,
    by simp, fun x => by simp [Has, T.cells], fun _ => by simp [T.ptrs]⟩

theorem sim_step {red : Bool} {t : Tab} {d : Dict} {m : Nat} (hS : Sim red t d m) (op : Op) (hok : okOp t op) (fuel : Nat) (hf : m < fuel) :
    ∃ o t' d', exec red fuel t op = some (o, t') ∧ Step d op o d' ∧ Sim red t' d' (m + 2) := by
  obtain ⟨ts, hI, hd, hm, hl⟩ := hS
  have hlen : ∀ j, (ts j).ptrs.length < fuel := fun j => Nat.lt_of_le_of_lt (hl j) hf
  have hmono : ∀ j, (ts j).ptrs.length ≤ m + 2 := fun j => Nat.le_trans (hl j) (by omega)
  cases op with
  | get nm =>
    obtain ⟨q, h1, h2⟩ := hI.get nm fuel (hlen _)
    refine ⟨.ptr q, t, d, by simp [exec, h1], ?_, ts, hI, hd, hm, hmono⟩
    rcases h2 with ⟨rfl, h2⟩ | ⟨_, h2⟩
    · exact .get_none d nm ((lookup_none hd nm).mpr fun q hq => h2 q ((hm _).mp hq))
    · exact .get_some d nm q ((lookup_some hd nm q).mpr ((hm _).mpr h2))
  | put nm item fresh junk =>
    obtain ⟨i0, ia, f0, fi, fa⟩ := hok
    rw [Option.isNone_iff_eq_none] at ia fa
    have hin : ∀ j, item ∉ (ts j).ptrs := fun j hj => (hI.ptr_some hj).2 ia
    have hI' := hI.other (some junk) t.log hin
    rcases hI'.put nm item fresh fuel (hlen _) i0 (by simp [Heap.set]) hin f0 (by simp only [Heap.set, fi, if_false]; exact fa) with ⟨q, h1, h2, h3⟩ | ⟨h1, t', ts', h2, h3, h4, h5, h6⟩
    · exact ⟨.ptr q, _, d, by simp only [exec, h1]; rfl, .put_old d nm item fresh q junk ((lookup_some hd nm q).mpr ((hm _).mpr h3)), ts, hI', hd, hm, hmono⟩
    · have hnone : ∀ q, (nm, q) ∉ d := fun q hq => h1 q ((hm _).mp hq)
      refine ⟨.ptr 0, t', d ++ [(nm, item)], by simp only [exec, h2]; rfl, .put_new d nm item fresh junk ((lookup_none hd nm).mpr hnone), ts', h3, ?_, ?_, ?_⟩
      · rw [List.map_append, List.nodup_append]
        refine ⟨hd, by simp, fun a ha b hb e => ?_⟩
        simp at hb
        obtain ⟨y, hy, e'⟩ := List.mem_map.mp ha
        exact hnone y.2 (by rw [← hb, ← e, ← e']; exact hy)
      · intro x
        rw [h4, List.mem_append, hm, List.mem_singleton, Or.comm]
      · intro j
        exact Nat.le_trans (h6 j) (by have := hl j; omega)
  | del nm =>
    rcases hI.del nm fuel (hlen _) with ⟨h1, h2⟩ | ⟨q, t', ts', h1, h2, h3, h4, h5, h6, h7⟩
    · exact ⟨.ret 0 [], t, d, by simp [exec, h1], .del_none d nm ((lookup_none hd nm).mpr fun q hq => h2 q ((hm _).mp hq)), ts, hI, hd, hm, hmono⟩
    · have hq : (nm, q) ∈ d := (hm _).mpr h1
      refine ⟨.ret 1 [q], t', d.filter (fun x => x.1 ≠ nm), by simp [exec, h2, h5], .del_some d nm q ((lookup_some hd nm q).mpr hq), ts', h3, ?_, ?_, ?_⟩
      · exact hd.sublist (List.filter_sublist.map _)
      · intro x
        rw [h4, List.mem_filter, hm]
        constructor
        · rintro ⟨a, b⟩
          refine ⟨fun e => ?_, a⟩
          simp only [decide_not, Bool.not_eq_eq_eq_not, Bool.not_true, decide_eq_false_iff_not] at b
          exact b (by rw [e])
        · rintro ⟨a, b⟩
          refine ⟨b, ?_⟩
          simp only [decide_not, Bool.not_eq_eq_eq_not, Bool.not_true, decide_eq_false_iff_not]
          intro e
          have hx : (nm, x.2) ∈ d := by rw [← e]; exact (hm x).mpr b
          have h8 := (lookup_some hd nm x.2).mpr hx
          rw [(lookup_some hd nm q).mpr hq] at h8
          cases h8
          exact a (Prod.ext e rfl)
      · intro j
        exact Nat.le_trans (h7 j) (hmono j)
  | scan =>
    obtain ⟨t', ps, h1, h2, h3, h4, h5⟩ := hI.scan false fuel hlen d (nodup_of_names hd) hm
    have h6 : t'.heap = t.heap := by rw [h5]; funext q; simp [wiped]
    refine ⟨.seen ps, t', d, by simp [exec, h1, h2], .scan d ps h3, ts, ⟨fun i => by rw [h4]; exact hI.root i, fun i => by rw [h6]; exact hI.rep i, hI.nodup, hI.disj, hI.sorted, hI.cell⟩, hd, hm, hmono⟩

theorem sim_hist {red : Bool} (ops : List Op) {t : Tab} {d : Dict} {m : Nat} (hS : Sim red t d m) (fuel : Nat) (hf : m + 2 * ops.length < fuel) (hv : Valid red fuel t ops) :
    ∃ os t' d', hist red fuel t ops = some (os, t') ∧ Steps d ops os d' ∧ Sim red t' d' (m + 2 * ops.length) := by
  induction ops generalizing t d m with
  | nil => exact ⟨[], t, d, rfl, .nil d, hS⟩
  | cons op ops ih =>
    rw [List.length_cons] at hf
    obtain ⟨o, t1, d1, h1, h2, h3⟩ := sim_step hS op hv.1 fuel (by omega)
    have hv' := hv.2
    rw [h1] at hv'
    obtain ⟨os, t2, d2, h4, h5, h6⟩ := ih h3 (by omega) hv'
    refine ⟨o :: os, t2, d2, by simp [hist, h1, h4], .cons d d1 d2 op o ops os h2 h5, ?_⟩
    rw [List.length_cons]
    have : m + 2 * (ops.length + 1) = m + 2 + 2 * ops.length := by omega
    rw [this]; exact h6

/-- **C33.** For every history of calls on an empty table: no call goes through a dangling or null pointer or loops for ever, and each one returns, gives to `deldata` and shows to
`action` what the dictionary says.  `fuel` only has to be large enough -/
theorem c33_dictionary (red : Bool) (h : Heap) (ops : List Op) (fuel : Nat) (hf : 2 * ops.length < fuel) (hv : Valid red fuel (init h) ops) :
    ∃ os t d, hist red fuel (init h) ops = some (os, t) ∧ Steps [] ops os d := by
  obtain ⟨os, t, d, h1, h2, _⟩ := sim_hist ops (sim_init red h) fuel (by omega) hv
  exact ⟨os, t, d, h1, h2⟩

/-- **C33.** `HTT_kill` after any history: the items in the dictionary are given to `deldata`, each of them once, and no memory is used after it was freed -/
theorem c33_kill (red : Bool) (h : Heap) (ops : List Op) (fuel : Nat) (hf : 2 * ops.length < fuel) (hv : Valid red fuel (init h) ops) (os : List Obs) (t : Tab)
    (hh : hist red fuel (init h) ops = some (os, t)) :
    ∃ d t' ps, Steps [] ops os d ∧ scan red true fuel t = some t' ∧ t'.log = t.log ++ ps ∧ ps.Perm (d.map Prod.snd) ∧ ∀ q ∈ ps, t'.heap q = none := by
  obtain ⟨os', t1, d, h1, h2, ts, hI, hd, hm, hl⟩ := sim_hist ops (sim_init red h) fuel (by omega) hv
  rw [hh] at h1
  cases h1
  obtain ⟨t', ps, g1, g2, g3, g4, g5⟩ := hI.scan true fuel (fun j => Nat.lt_of_le_of_lt (hl j) (by omega)) d (nodup_of_names hd) hm
  refine ⟨d, t', ps, h2, g1, g2, g3, fun q hq => ?_⟩
  have hq' := (g3.mem_iff).mp hq
  obtain ⟨x, hx, rfl⟩ := List.mem_map.mp hq'
  have hx' := (hI.all_mem x).mpr ((hm x).mp hx)
  obtain ⟨j, hj, hx'⟩ := List.mem_flatMap.mp hx'
  rw [g5]
  refine if_pos ⟨rfl, List.mem_flatMap.mpr ⟨j, hj, ?_⟩⟩
  have : ∀ tr : T, x ∈ tr.items → x.2 ∈ tr.ptrs := by
    intro tr
    induction tr with
    | nil => intro h; simp [T.items, T.cells] at h
    | node p k c l r ihl ihr =>
      intro h
      have e : (T.node p k c l r).items = l.items ++ (c.items p ++ r.items) := by simp [T.items, T.cells]
      rw [e] at h
      simp only [T.ptrs, List.mem_cons, List.mem_append] at h ⊢
      rcases h with h | h | h
      · exact .inr (.inr (.inl (ihl h)))
      · cases c with
        | real nm => simp only [Cell.items, List.mem_singleton] at h; rw [h]; exact .inl rfl
        | fake its => exact .inr (.inl (List.mem_map.mpr ⟨x, h, rfl⟩))
      · exact .inr (.inr (.inr (ihr h)))
  exact this (ts j) hx'

/-! ### cases -/

/-- "ab" and "`r" have the same hash value -/
def nmA : Name := [0x61, 0x62]
def nmB : Name := [0x60, 0x72]
/-- and "ib" has another one, in the same tree -/
def nmC : Name := [0x69, 0x62]

example : hashString nmA = hashString nmB ∧ nmA ≠ nmB ∧ index false (hashString nmA) = index false (hashString nmC) ∧ hashString nmA < hashString nmC := by decide +kernel

def exJunk : Node := ⟨7, 7, 7, .ptr 7⟩
def exOps : List Op := [.put nmA 10 20 exJunk, .put nmC 11 21 exJunk, .put nmB 12 22 exJunk, .get nmB, .put nmB 13 23 exJunk, .scan, .del nmA, .get nmA, .get nmB, .del nmB, .get nmC, .del nmB]

example : Valid false 100 (init fun _ => none) exOps := by decide +kernel

example : ∃ t, hist false 100 (init fun _ => none) exOps =
    some ([.ptr 0, .ptr 0, .ptr 0, .ptr 12, .ptr 12, .seen [11, 10, 12], .ret 1 [10], .ptr 0, .ptr 12, .ret 1 [12], .ptr 11, .ret 0 []], t) := ⟨_, rfl⟩

end Smlr.Nhash
