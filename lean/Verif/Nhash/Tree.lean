import Verif.Nhash.Model
set_option autoImplicit false
/-! The trees that are in memory, as data. -/
namespace Smlr.Nhash

/-- a true item, or the list of a fake one -/
inductive Cell
  | real (nm : Name)
  | fake (its : List (Name × Nat))

inductive T
  | nil
  | node (p : Nat) (k : UInt32) (c : Cell) (l r : T)

def Cell.ptrs : Cell → List Nat
  | .real _ => []
  | .fake its => its.map Prod.snd

def Cell.items (p : Nat) : Cell → List (Name × Nat)
  | .real nm => [(nm, p)]
  | .fake its => its

namespace T

def root : T → Nat
  | nil => 0
  | node p _ _ _ _ => p

def ptrs : T → List Nat
  | nil => []
  | node p _ c l r => p :: (c.ptrs ++ (l.ptrs ++ r.ptrs))

/-- hash values and items from left to right -/
def cells : T → List (UInt32 × List (Name × Nat))
  | nil => []
  | node p k c l r => l.cells ++ (k, c.items p) :: r.cells

def size : T → Nat
  | nil => 0
  | node _ _ _ l r => l.size + r.size + 1

/-- the subtree for a hash value with its father -/
def find (u : UInt32) : T → Nat → Bool → T × Nat × Bool
  | nil, f, ls => (nil, f, ls)
  | node p k c l r, f, ls => if u = k then (node p k c l r, f, ls) else if u < k then l.find u p true else r.find u p false

/-- the subtree for a hash value -/
def sub (u : UInt32) : T → T
  | nil => nil
  | node p k c l r => if u = k then node p k c l r else if u < k then l.sub u else r.sub u

/-- replace it -/
def repl (u : UInt32) (t' : T) : T → T
  | nil => t'
  | node p k c l r => if u = k then t' else if u < k then node p k c (repl u t' l) r else node p k c l (repl u t' r)

/-- the pointers around it -/
def outer (u : UInt32) : T → List Nat
  | nil => []
  | node p k c l r => if u = k then [] else if u < k then p :: (c.ptrs ++ (l.outer u ++ r.ptrs)) else p :: (c.ptrs ++ (l.ptrs ++ r.outer u))

end T

/-- the list of a fake node -/
def Chain (h : Heap) (k : UInt32) : Nat → List (Name × Nat) → Prop
  | a, [] => a = 0
  | a, x :: its => a = x.2 ∧ x.2 ≠ 0 ∧ ∃ nx r, h x.2 = some ⟨nx, r, k, .name x.1⟩ ∧ Chain h k nx its

/-- a node in memory with the given sons -/
def CellRep (h : Heap) (p : Nat) (k : UInt32) (c : Cell) (a b : Nat) : Prop :=
  p ≠ 0 ∧ keyOf k = k ∧
  match c with
  | .real nm => h p = some ⟨a, b, k, .name nm⟩
  | .fake its => ∃ head, h p = some ⟨a, b, k ||| 1, .ptr head⟩ ∧ Chain h k head its ∧ 2 ≤ its.length

/-- a tree in memory -/
def Rep (h : Heap) : T → Prop
  | .nil => True
  | .node p k c l r => CellRep h p k c l.root r.root ∧ Rep h l ∧ Rep h r

/-! bits -/

theorem keyOf_keyOf (u : UInt32) : keyOf (keyOf u) = keyOf u := by
  unfold keyOf; rw [UInt32.and_assoc, UInt32.and_self]

theorem keyOf_or (k : UInt32) (h : keyOf k = k) : keyOf (k ||| 1) = k := by
  unfold keyOf at *
  apply UInt32.eq_of_toBitVec_eq
  have h := congrArg UInt32.toBitVec h
  simp only [UInt32.toBitVec_and, UInt32.toBitVec_or, UInt32.toBitVec_not] at *
  generalize k.toBitVec = x at *
  apply BitVec.eq_of_getLsbD_eq
  intro i hi
  have h := congrArg (fun b => b.getLsbD i) h
  simp only [BitVec.getLsbD_and, BitVec.getLsbD_or, BitVec.getLsbD_not] at *
  revert h
  cases x.getLsbD i <;> cases (UInt32.toBitVec 1).getLsbD i <;> simp [hi]

theorem or_one (u : UInt32) : u ||| 1 = keyOf u ||| 1 := by
  unfold keyOf
  apply UInt32.eq_of_toBitVec_eq
  simp only [UInt32.toBitVec_and, UInt32.toBitVec_or, UInt32.toBitVec_not]
  generalize u.toBitVec = x at *
  apply BitVec.eq_of_getLsbD_eq
  intro i hi
  simp only [BitVec.getLsbD_and, BitVec.getLsbD_or, BitVec.getLsbD_not]
  cases x.getLsbD i <;> cases (UInt32.toBitVec 1).getLsbD i <;> simp [hi]

theorem even_bit (k : UInt32) (h : keyOf k = k) : k &&& 1 = 0 := by
  rw [← h]; unfold keyOf
  rw [UInt32.and_assoc]
  have : (~~~(1 : UInt32)) &&& 1 = 0 := by decide
  rw [this]; simp

theorem odd_bit (k : UInt32) : (k ||| 1) &&& 1 ≠ 0 := by
  intro h
  have h := congrArg (fun b => b.toBitVec.getLsbD 0) h
  simp at h

/-! frames -/

theorem Chain.frame {h h' : Heap} {k : UInt32} {its : List (Name × Nat)} {a : Nat} (hc : Chain h k a its) (hf : ∀ q ∈ its.map Prod.snd, h' q = h q) : Chain h' k a its := by
  induction its generalizing a with
  | nil => exact hc
  | cons x its ih =>
    obtain ⟨h1, h2, nx, r, h3, h4⟩ := hc
    exact ⟨h1, h2, nx, r, (hf _ (by simp)).trans h3, ih h4 fun q hq => hf q (by simp at hq ⊢; exact .inr hq)⟩

theorem CellRep.frame {h h' : Heap} {p : Nat} {k : UInt32} {c : Cell} {a b : Nat} (hc : CellRep h p k c a b) (hf : ∀ q ∈ p :: c.ptrs, h' q = h q) : CellRep h' p k c a b := by
  obtain ⟨h1, h2, h3⟩ := hc
  refine ⟨h1, h2, ?_⟩
  cases c with
  | real nm => exact (hf p (by simp)).trans h3
  | fake its =>
    obtain ⟨hd, h4, h5, h6⟩ := h3
    exact ⟨hd, (hf p (by simp)).trans h4, h5.frame fun q hq => hf q (List.mem_cons_of_mem _ hq), h6⟩

theorem Rep.frame {h h' : Heap} {t : T} (hr : Rep h t) (hf : ∀ q ∈ t.ptrs, h' q = h q) : Rep h' t := by
  induction t with
  | nil => trivial
  | node p k c l r ihl ihr =>
    obtain ⟨h1, h2, h3⟩ := hr
    refine ⟨h1.frame fun q hq => hf q ?_, ihl h2 fun q hq => hf q ?_, ihr h3 fun q hq => hf q ?_⟩ <;> simp only [T.ptrs, List.mem_cons, List.mem_append] at * <;> grind

theorem Heap.set_ne {h : Heap} {p q : Nat} {v : Option Node} (hn : q ≠ p) : (h.set p v) q = h q := if_neg hn
theorem Heap.set_eq {h : Heap} {p : Nat} {v : Option Node} : (h.set p v) p = v := if_pos rfl

theorem CellRep.get {h : Heap} {p : Nat} {k : UInt32} {c : Cell} {a b : Nat} (hc : CellRep h p k c a b) :
    ∃ nd, load h p = some nd ∧ h p = some nd ∧ nd.left = a ∧ nd.right = b ∧ keyOf nd.word = k := by
  obtain ⟨h1, h2, h3⟩ := hc
  unfold load
  rw [if_neg h1]
  cases c with
  | real nm => exact ⟨_, h3, h3, rfl, rfl, h2⟩
  | fake its => obtain ⟨hd, h4, _⟩ := h3; exact ⟨_, h4, h4, rfl, rfl, keyOf_or k h2⟩

/-- change of a son -/
theorem CellRep.setLeft {h : Heap} {p : Nat} {k : UInt32} {c : Cell} {a b : Nat} {nd : Node} (hc : CellRep h p k c a b) (hp : p ∉ c.ptrs) (hn : h p = some nd) (x : Nat) :
    CellRep (h.set p (some { nd with left := x })) p k c x b := by
  obtain ⟨h1, h2, h3⟩ := hc
  refine ⟨h1, h2, ?_⟩
  cases c with
  | real nm =>
    rw [hn] at h3; cases h3; exact Heap.set_eq
  | fake its =>
    obtain ⟨hd, h4, h5, h6⟩ := h3
    rw [hn] at h4; cases h4
    exact ⟨hd, Heap.set_eq, h5.frame fun q hq => Heap.set_ne fun e => hp (e ▸ hq), h6⟩

theorem CellRep.setRight {h : Heap} {p : Nat} {k : UInt32} {c : Cell} {a b : Nat} {nd : Node} (hc : CellRep h p k c a b) (hp : p ∉ c.ptrs) (hn : h p = some nd) (x : Nat) :
    CellRep (h.set p (some { nd with right := x })) p k c a x := by
  obtain ⟨h1, h2, h3⟩ := hc
  refine ⟨h1, h2, ?_⟩
  cases c with
  | real nm =>
    rw [hn] at h3; cases h3; exact Heap.set_eq
  | fake its =>
    obtain ⟨hd, h4, h5, h6⟩ := h3
    rw [hn] at h4; cases h4
    exact ⟨hd, Heap.set_eq, h5.frame fun q hq => Heap.set_ne fun e => hp (e ▸ hq), h6⟩

theorem Rep.root_ne {h : Heap} {t : T} (hr : Rep h t) (hn : t ≠ .nil) : t.root ≠ 0 := by
  cases t with
  | nil => exact absurd rfl hn
  | node p k c l r => exact hr.1.1

/-! searching -/

theorem find_fst (u : UInt32) (t : T) (f : Nat) (ls : Bool) : (t.find u f ls).1 = t.sub u := by
  induction t generalizing f ls with
  | nil => rfl
  | node p k c l r ihl ihr =>
    simp only [T.find, T.sub]
    split
    · rfl
    · split
      · exact ihl _ _
      · exact ihr _ _

theorem findNode_spec {h : Heap} {t : T} (u : UInt32) (hr : Rep h t) (n f : Nat) (ls : Bool) (hn : t.size < n) :
    findNode h u n t.root f ls = some ((t.find u f ls).1.root, (t.find u f ls).2) := by
  induction t generalizing n f ls with
  | nil =>
    cases n with
    | zero => simp at hn
    | succ n => simp [findNode, T.root, T.find]
  | node p k c l r ihl ihr =>
    cases n with
    | zero => simp at hn
    | succ n =>
      obtain ⟨nd, h1, _, h2, h3, h4⟩ := hr.1.get
      simp only [T.size] at hn
      have hp : p ≠ 0 := hr.1.1
      simp only [findNode, T.root, hp, if_false, h1, Option.bind_eq_bind, Option.bind_some, h4, T.find]
      by_cases hk : u = k
      · rw [if_pos hk, if_pos hk]
      · rw [if_neg hk, if_neg hk]
        by_cases hl : u < k
        · rw [if_pos hl, if_pos hl, h2]; exact ihl hr.2.1 _ _ _ (by omega)
        · rw [if_neg hl, if_neg hl, h3]; exact ihr hr.2.2 _ _ _ (by omega)

theorem findName_spec {h : Heap} {k : UInt32} {nm : Name} {its : List (Name × Nat)} {a : Nat} (hc : Chain h k a its) (n pn : Nat) (hn : its.length < n) :
    (nm ∉ its.map Prod.fst ∧ findName h nm n a pn = some (0, ((its.map Prod.snd).getLast?).getD pn)) ∨
    (∃ x q y, its = x ++ (nm, q) :: y ∧ nm ∉ x.map Prod.fst ∧ findName h nm n a pn = some (q, ((x.map Prod.snd).getLast?).getD pn)) := by
  induction its generalizing a n pn with
  | nil =>
    cases n with
    | zero => simp at hn
    | succ n => cases hc; exact .inl ⟨by simp, by simp [findName]⟩
  | cons x its ih =>
    cases n with
    | zero => simp at hn
    | succ n =>
      obtain ⟨nm', q⟩ := x
      obtain ⟨h1, h2, nx, r, h3, h4⟩ := hc
      simp only at h1 h2 h3
      subst h1
      have hl : load h a = some ⟨nx, r, k, .name nm'⟩ := by unfold load; rw [if_neg h2]; exact h3
      have hs : nameOf h a = some nm' := by unfold nameOf; rw [hl]; rfl
      by_cases e : nm' = nm
      · subst e
        exact .inr ⟨[], a, its, rfl, by simp, by simp [findName, h2, hs]⟩
      · have hg : findName h nm (n + 1) a pn = findName h nm n nx a := by simp [findName, h2, hs, e, hl]
        rw [hg]
        simp only [List.length_cons] at hn
        rcases ih h4 n a (by omega) with ⟨g1, g2⟩ | ⟨x, q', y, g1, g2, g3⟩
        · refine .inl ⟨by simp at g1 ⊢; exact ⟨fun h => e h.symm, g1⟩, ?_⟩
          rw [g2]; congr 2
          cases its with
          | nil => rfl
          | cons b bs => simp [List.getLast?_cons]
        · refine .inr ⟨(nm', a) :: x, q', y, by rw [g1]; rfl, by simp at g2 ⊢; exact ⟨fun h => e h.symm, g2⟩, ?_⟩
          rw [g3]; congr 2
          cases x with
          | nil => rfl
          | cons b bs => simp [List.getLast?_cons]

/-! replacing a subtree -/

theorem ptrs_perm (u : UInt32) (t : T) : t.ptrs.Perm (t.outer u ++ (t.sub u).ptrs) := by
  induction t with
  | nil => exact .refl _
  | node p k c l r ihl ihr =>
    simp only [T.ptrs, T.outer, T.sub]
    split
    · exact .refl _
    · split
      · rw [List.cons_append]
        refine .cons _ ?_
        rw [List.append_assoc, List.append_assoc]
        refine .append_left _ ?_
        refine (ihl.append_right _).trans ?_
        rw [List.append_assoc]
        exact .append_left _ List.perm_append_comm
      · rw [List.cons_append]
        refine .cons _ ?_
        rw [List.append_assoc, List.append_assoc]
        exact .append_left _ (.append_left _ ihr)

theorem repl_perm (u : UInt32) (t t' : T) : (T.repl u t' t).ptrs.Perm (t.outer u ++ t'.ptrs) := by
  induction t with
  | nil => exact .refl _
  | node p k c l r ihl ihr =>
    simp only [T.repl, T.outer]
    split
    · exact .refl _
    · split
      · simp only [T.ptrs]
        rw [List.cons_append]
        refine .cons _ ?_
        rw [List.append_assoc, List.append_assoc]
        refine .append_left _ ?_
        refine (ihl.append_right _).trans ?_
        rw [List.append_assoc]
        exact .append_left _ List.perm_append_comm
      · simp only [T.ptrs]
        rw [List.cons_append]
        refine .cons _ ?_
        rw [List.append_assoc, List.append_assoc]
        exact .append_left _ (.append_left _ ihr)

theorem cells_ctx (u : UInt32) (t : T) (hs : t.cells.Pairwise (fun a b => a.1 < b.1)) :
    ∃ a b, t.cells = a ++ (t.sub u).cells ++ b ∧ (∀ t', (T.repl u t' t).cells = a ++ t'.cells ++ b) ∧ (∀ x ∈ a, x.1 < u) ∧ (∀ x ∈ b, u < x.1) := by
  induction t with
  | nil => exact ⟨[], [], rfl, fun t' => by simp [T.repl], by simp, by simp⟩
  | node p k c l r ihl ihr =>
    simp only [T.cells] at hs
    have hs' := hs
    rw [List.pairwise_append, List.pairwise_cons] at hs
    obtain ⟨hl, ⟨hr1, hr⟩, hlr⟩ := hs
    simp only [T.sub, T.repl]
    by_cases hk : u = k
    · simp only [if_pos hk]
      exact ⟨[], [], by simp, fun t' => by simp, by simp, by simp⟩
    · simp only [if_neg hk]
      by_cases hlt : u < k
      · simp only [if_pos hlt]
        obtain ⟨a, b, h1, h2, h3, h4⟩ := ihl hl
        refine ⟨a, b ++ (k, c.items p) :: r.cells, by simp [T.cells, h1], fun t' => by simp [T.cells, h2], h3, ?_⟩
        intro x hx
        rcases List.mem_append.mp hx with hx | hx
        · exact h4 x hx
        · rcases List.mem_cons.mp hx with rfl | hx
          · exact hlt
          · exact UInt32.lt_trans hlt (hr1 x hx)
      · simp only [if_neg hlt]
        have hgt : k < u := by
          rw [UInt32.lt_iff_toNat_lt] at *
          have : u.toNat ≠ k.toNat := fun e => hk (UInt32.toNat_inj.mp e)
          omega
        obtain ⟨a, b, h1, h2, h3, h4⟩ := ihr hr
        refine ⟨l.cells ++ (k, c.items p) :: a, b, by simp [T.cells, h1], fun t' => by simp [T.cells, h2], ?_, h4⟩
        intro x hx
        rcases List.mem_append.mp hx with hx | hx
        · exact UInt32.lt_trans (hlr x hx _ (List.mem_cons_self)) hgt
        · rcases List.mem_cons.mp hx with rfl | hx
          · exact hgt
          · exact h3 x hx

theorem sub_key (u : UInt32) (t : T) : t.sub u = .nil ∨ ∃ p c l r, t.sub u = .node p u c l r := by
  induction t with
  | nil => exact .inl rfl
  | node p k c l r ihl ihr =>
    simp only [T.sub]
    split
    · next h => subst h; exact .inr ⟨p, c, l, r, rfl⟩
    · split
      · exact ihl
      · exact ihr

theorem Rep.sub {h : Heap} {t : T} (u : UInt32) (hr : Rep h t) : Rep h (t.sub u) := by
  induction t with
  | nil => trivial
  | node p k c l r ihl ihr =>
    simp only [T.sub]
    split
    · exact hr
    · split
      · exact ihl hr.2.1
      · exact ihr hr.2.2

/-- a subtree is changed and its root stays -/
theorem Rep.repl_same {h h1 : Heap} {t t' : T} {u : UInt32} (hr : Rep h t) (hf : ∀ q ∈ t.outer u, h1 q = h q) (hr' : Rep h1 t') (hroot : t'.root = (t.sub u).root) :
    Rep h1 (T.repl u t' t) ∧ (T.repl u t' t).root = t.root := by
  induction t with
  | nil => exact ⟨hr', hroot⟩
  | node p k c l r ihl ihr =>
    obtain ⟨hc, hl, hrr⟩ := hr
    simp only [T.repl, T.sub, T.outer] at *
    by_cases hk : u = k
    · simp only [if_pos hk] at *; exact ⟨hr', hroot⟩
    · simp only [if_neg hk] at *
      by_cases hlt : u < k
      · simp only [if_pos hlt] at *
        have ⟨a, b⟩ := ihl hl (fun q hq => hf q (by grind)) hroot
        refine ⟨⟨?_, a, hrr.frame fun q hq => hf q (by grind)⟩, rfl⟩
        rw [b]; exact hc.frame fun q hq => hf q (by grind)
      · simp only [if_neg hlt] at *
        have ⟨a, b⟩ := ihr hrr (fun q hq => hf q (by grind)) hroot
        refine ⟨⟨?_, hl.frame fun q hq => hf q (by grind), a⟩, rfl⟩
        rw [b]; exact hc.frame fun q hq => hf q (by grind)

/-- a subtree is linked in the place of another: either it is the whole tree, or its father is changed -/
theorem Rep.repl_link {h h1 : Heap} {t t' : T} {u : UInt32} (f0 : Nat) (ls0 : Bool) (hr : Rep h t) (hf : ∀ q ∈ t.outer u, h1 q = h q) (hr' : Rep h1 t')
    (hd : ∀ q ∈ t'.ptrs, q ∉ t.outer u) (hnd : (t.outer u).Nodup) :
    (t.find u f0 ls0 = (t, f0, ls0) ∧ T.repl u t' t = t') ∨
    (∃ f ls nd, (t.find u f0 ls0).2 = (f, ls) ∧ f ∈ t.outer u ∧ f ≠ 0 ∧ h1 f = some nd ∧ (T.repl u t' t).root = t.root ∧
      Rep (h1.set f (some (if ls then { nd with left := t'.root } else { nd with right := t'.root }))) (T.repl u t' t)) := by
  induction t generalizing f0 ls0 with
  | nil => exact .inl ⟨rfl, rfl⟩
  | node p k c l r ihl ihr =>
    obtain ⟨hc, hl, hrr⟩ := hr
    simp only [T.repl, T.find, T.outer] at *
    by_cases hk : u = k
    · simp only [if_pos hk] at *; exact .inl ⟨trivial, trivial⟩
    · simp only [if_neg hk] at *
      right
      by_cases hlt : u < k
      · simp only [if_pos hlt] at *
        have hpf : h1 p = h p := hf p (by simp)
        obtain ⟨nd, _, hnd1, _, _, _⟩ := hc.get
        have hc1 : CellRep h1 p k c l.root r.root := hc.frame fun q hq => hf q (by grind)
        have hr1 : Rep h1 r := hrr.frame fun q hq => hf q (by grind)
        rw [List.nodup_cons, List.nodup_append, List.nodup_append] at hnd
        rcases ihl p true hl (fun q hq => hf q (by grind)) (fun q hq => by have := hd q hq; grind) hnd.2.2.1.1 with ⟨e1, e2⟩ | ⟨f, ls, nf, e1, e2, e3, e4, e5, e6⟩
        · refine ⟨p, true, nd, by rw [e1], by simp, hc.1, by rw [hpf, hnd1], rfl, ?_⟩
          rw [e2]
          refine ⟨hc1.setLeft (by grind) (by rw [hpf, hnd1]) _, hr'.frame fun q hq => Heap.set_ne ?_, hr1.frame fun q hq => Heap.set_ne ?_⟩
          · have := hd q hq; grind
          · grind
        · refine ⟨f, ls, nf, e1, by grind, e3, e4, rfl, ?_⟩
          refine ⟨?_, e6, hr1.frame fun q hq => Heap.set_ne ?_⟩
          · rw [e5]; exact hc1.frame fun q hq => Heap.set_ne (by grind)
          · grind
      · simp only [if_neg hlt] at *
        have hpf : h1 p = h p := hf p (by simp)
        obtain ⟨nd, _, hnd1, _, _, _⟩ := hc.get
        have hc1 : CellRep h1 p k c l.root r.root := hc.frame fun q hq => hf q (by grind)
        have hl1 : Rep h1 l := hl.frame fun q hq => hf q (by grind)
        rw [List.nodup_cons, List.nodup_append, List.nodup_append] at hnd
        rcases ihr p false hrr (fun q hq => hf q (by grind)) (fun q hq => by have := hd q hq; grind) hnd.2.2.1.2.1 with ⟨e1, e2⟩ | ⟨f, ls, nf, e1, e2, e3, e4, e5, e6⟩
        · refine ⟨p, false, nd, by rw [e1], by simp, hc.1, by rw [hpf, hnd1], rfl, ?_⟩
          rw [e2]
          refine ⟨hc1.setRight (by grind) (by rw [hpf, hnd1]) _, hl1.frame fun q hq => Heap.set_ne ?_, hr'.frame fun q hq => Heap.set_ne ?_⟩
          · grind
          · have := hd q hq; grind
        · refine ⟨f, ls, nf, e1, by grind, e3, e4, rfl, ?_⟩
          refine ⟨?_, hl1.frame fun q hq => Heap.set_ne ?_, e6⟩
          · rw [e5]; exact hc1.frame fun q hq => Heap.set_ne (by grind)
          · grind

end Smlr.Nhash
