import Verif.Stmt.Spec
set_option autoImplicit false
/-! When a piece of code does what a statement says, and the simulation. -/
namespace Smlr.Stmt
open Spec

section
variable {L : Lang} {σ : Type} (sem : List L.X → σ → Option (Int × σ)) (code : List (I L.X))

/-- no label is there twice -/
def Uniq : Prop := ∀ p q l : Nat, code[p]? = some (I.lab l) → code[q]? = some (I.lab l) → p = q

/-! ### steps without effect -/

inductive LeadN : Nat → Nat → Nat → Prop
  | refl (p : Nat) : LeadN 0 p p
  | lab {n p q l : Nat} (h : code[p]? = some (.lab l)) (h' : LeadN n (p + 1) q) : LeadN (n + 1) p q
  | jmp {n p q r l : Nat} (h : code[p]? = some (.jmp l)) (h' : code[q]? = some (.lab l)) (h'' : LeadN n q r) : LeadN (n + 1) p r

def Lead (p q : Nat) : Prop := ∃ n, LeadN code n p q
def LeadP (p q : Nat) : Prop := ∃ n, LeadN code (n + 1) p q

variable {code}

theorem LeadN.trans {n m p q r : Nat} (h : LeadN code n p q) (h' : LeadN code m q r) : LeadN code (n + m) p r := by
  induction h with
  | refl => rwa [Nat.zero_add]
  | @lab n p q l h _ ih => rw [show n + 1 + m = n + m + 1 by omega]; exact .lab h (ih h')
  | @jmp n p q r l h g _ ih => rw [show n + 1 + m = n + m + 1 by omega]; exact .jmp h g (ih h')

theorem Lead.refl (p : Nat) : Lead code p p := ⟨0, .refl p⟩
theorem Lead.trans {p q r : Nat} (h : Lead code p q) (h' : Lead code q r) : Lead code p r := by
  obtain ⟨n, h⟩ := h
  obtain ⟨m, h'⟩ := h'
  exact ⟨_, h.trans h'⟩
theorem LeadP.lead {p q : Nat} (h : LeadP code p q) : Lead code p q := by
  obtain ⟨n, h⟩ := h
  exact ⟨_, h⟩
theorem Lead.transP {p q r : Nat} (h : Lead code p q) (h' : LeadP code q r) : LeadP code p r := by
  obtain ⟨n, h⟩ := h
  obtain ⟨m, h'⟩ := h'
  exact ⟨n + m, h.trans h'⟩
theorem LeadP.trans {p q r : Nat} (h : LeadP code p q) (h' : Lead code q r) : LeadP code p r := by
  obtain ⟨n, h⟩ := h
  obtain ⟨m, h'⟩ := h'
  exact ⟨n + m, by have := h.trans h'; rwa [show n + 1 + m = n + m + 1 by omega] at this⟩
theorem leadP_lab {p l : Nat} (h : code[p]? = some (.lab l)) : LeadP code p (p + 1) := ⟨0, .lab h (.refl _)⟩
theorem leadP_jmp {p q l : Nat} (h : code[p]? = some (.jmp l)) (h' : code[q]? = some (.lab l)) : LeadP code p q := ⟨0, .jmp h h' (.refl _)⟩

/-! ### runs of the machine -/

variable (code)

/-- `n` steps; all states on the way are in `Q` -/
inductive Go (Q : σ → Prop) : Nat → Mc σ → Mc σ → Prop
  | refl (m : Mc σ) (h : Q m.st) : Go Q 0 m m
  | step {n : Nat} {m m1 m2 : Mc σ} (h : Q m.st) (hs : mstep sem code m = some m1) (h' : Go Q n m1 m2) : Go Q (n + 1) m m2

variable {sem code}

theorem Go.trans {Q : σ → Prop} {n k : Nat} {a b c : Mc σ} (h : Go sem code Q n a b) (h' : Go sem code Q k b c) : Go sem code Q (n + k) a c := by
  induction h with
  | refl => rwa [Nat.zero_add]
  | @step n m m1 m2 h hs _ ih => rw [show n + 1 + k = n + k + 1 by omega]; exact .step h hs (ih h')

theorem Go.mono {Q R : σ → Prop} (hQ : ∀ s, Q s → R s) {n : Nat} {a b : Mc σ} (h : Go sem code Q n a b) : Go sem code R n a b := by
  induction h with
  | refl m h => exact .refl m (hQ _ h)
  | step h hs _ ih => exact .step (hQ _ h) hs ih

theorem find_lab (hU : Uniq code) {p l : Nat} (h : code[p]? = some (.lab l)) : find code l = some p := by
  unfold find
  have hp : p < code.length := by
    rcases Nat.lt_or_ge p code.length with h' | h'
    · exact h'
    · rw [List.getElem?_eq_none h'] at h; cases h
  have hg : code[p] = .lab l := by rw [List.getElem?_eq_getElem hp] at h; exact Option.some.inj h
  rw [List.findIdx?_eq_some_iff_getElem]
  refine ⟨hp, by rw [hg]; simp, fun j hj => ?_⟩
  have hj' : j < code.length := by omega
  cases hc : code[j] with
  | lab m =>
    by_cases e : m = l
    · subst e
      have := hU j p m (by rw [List.getElem?_eq_getElem hj', hc]) h
      omega
    · simp [e]
  | _ => simp

theorem step_lab {m : Mc σ} {l : Nat} (h : code[m.pc]? = some (.lab l)) : mstep sem code m = some { m with pc := m.pc + 1 } := by
  unfold mstep; rw [h]

theorem step_jmp (hU : Uniq code) {m : Mc σ} {l p : Nat} (h : code[m.pc]? = some (.jmp l)) (hp : code[p]? = some (.lab l)) : mstep sem code m = some { m with pc := p } := by
  unfold mstep; rw [h]; simp only [find_lab hU hp, Option.map_some]

theorem LeadN.go (hU : Uniq code) {n p q : Nat} (h : LeadN code n p q) (acc : Option Int) (st : σ) : Go sem code (· = st) n ⟨p, acc, st⟩ ⟨q, acc, st⟩ := by
  induction h with
  | refl => exact .refl _ rfl
  | lab h _ ih => exact .step rfl (step_lab h) ih
  | jmp h g _ ih => exact .step rfl (step_jmp hU h g) ih

/-! ### conditions -/

variable (code)

/-- the code at `p` goes to the label `l` if the condition is zero, else to `q` -/
def CN (c : Option L.E) (l p q : Nat) : Prop :=
  match c with
  | none => q = p
  | some e =>
    match L.const e with
    | some v => if L.trunc v = 0 then code[p]? = some (.jmp l) else q = p
    | none => (code[p]? = some (.ifNot (L.rpn e) l) ∧ q = p + 1) ∨ (code[p]? = some (.evalR (L.rpn e)) ∧ code[p + 1]? = some (.jz l) ∧ q = p + 2)

/-- the code at `p` goes to the label `l` if the condition is not zero, else to `q` -/
def CY (e : L.E) (l p q : Nat) : Prop :=
  match L.const e with
  | some v => if L.trunc v = 0 then q = p else code[p]? = some (.jmp l)
  | none => (code[p]? = some (.ifYes (L.rpn e) l) ∧ q = p + 1) ∨ (code[p]? = some (.evalR (L.rpn e)) ∧ code[p + 1]? = some (.jnz l) ∧ q = p + 2)

/-- the code at `pc` tests the condition of a loop: the body is at `q`, the end is at `p1` -/
def Test (c : Option L.E) (q p1 pc : Nat) : Prop :=
  (∃ l t u z, LeadP code pc t ∧ CN code c l t u ∧ Lead code u q ∧ code[z]? = some (.lab l) ∧ Lead code z p1) ∨ (condZero c = true ∧ LeadP code pc p1)

/-- the code at `pc` is what is behind the body of a loop -/
def Back (c e : Option L.E) (q p1 pc : Nat) : Prop :=
  match e with
  | none => Test code c q p1 pc
  | some e => ∃ t, Lead code pc t ∧ code[t]? = some (.eval (L.rpn e)) ∧ Test code c q p1 (t + 1)

variable {code}

theorem Test.lead {c : Option L.E} {q p1 pc pc' : Nat} (h : Test code c q p1 pc) (hl : Lead code pc' pc) : Test code c q p1 pc' := by
  rcases h with ⟨l, t, u, z, h1, h2⟩ | ⟨h1, h2⟩
  · exact .inl ⟨l, t, u, z, hl.transP h1, h2⟩
  · exact .inr ⟨h1, hl.transP h2⟩

theorem Back.lead {c e : Option L.E} {q p1 pc pc' : Nat} (h : Back code c e q p1 pc) (hl : Lead code pc' pc) : Back code c e q p1 pc' := by
  cases e with
  | none => exact Test.lead h hl
  | some e =>
    obtain ⟨t, h1, h2⟩ := h
    exact ⟨t, hl.trans h1, h2⟩

/-! ### statements -/

variable (code)
/-- `ep` is the place of the epilogue, `G` gives the label of a label -/
structure Ctx (L : Lang) where
  body : Stmt L
  isMain : Bool
  G : Nat → Nat
  ep : Nat
  /-- where the code of the body ends -/
  pe : Nat

variable (X : Ctx L)

/-- the initialisation of `for`, from `p` to `q` -/
def InitAt : Init L → Nat → Nat → Prop
  | .none, p, q => q = p
  | .expr e, p, q => code[p]? = some (.eval (L.rpn e)) ∧ q = p + 1
  | .decl es, p, q => (∀ i e, es[i]? = some e → code[p + i]? = some (.eval e)) ∧ q = p + es.length

/-- The code from `p` to `p'` does what the statement says; `bt` and `ct` are the labels for `break` and `continue`, `cs` and `ds` are the labels of `case` and `default` for the innermost
`switch` around. -/
inductive C : Stmt L → Option Nat → Option Nat → Nat → Nat → List (Int × Nat) → List Nat → Prop
  | nil {bt ct : Option Nat} {p : Nat} : C .nil bt ct p p [] []
  | cons {s ss : Stmt L} {bt ct : Option Nat} {p q r : Nat} {cs cs' : List (Int × Nat)} {ds ds' : List Nat} (h : C s bt ct p q cs ds) (h' : C ss bt ct q r cs' ds') :
      C (.cons s ss) bt ct p r (cs ++ cs') (ds ++ ds')
  | decl {es : List (List L.X)} {bt ct : Option Nat} {p : Nat} (h : ∀ i e, es[i]? = some e → code[p + i]? = some (.eval e)) : C (.decl es) bt ct p (p + es.length) [] []
  | empty {bt ct : Option Nat} {p : Nat} : C .empty bt ct p p [] []
  | expr {e : L.E} {bt ct : Option Nat} {p : Nat} (h : code[p]? = some (.eval (L.rpn e))) : C (.expr e) bt ct p (p + 1) [] []
  | block {s : Stmt L} {bt ct : Option Nat} {p q : Nat} {cs : List (Int × Nat)} {ds : List Nat} (h : C s bt ct p q cs ds) : C (.block s) bt ct p q cs ds
  | ret0 {bt ct : Option Nat} {p q : Nat} (h : Lead code p X.ep) : C (.ret none) bt ct p q [] []
  | ret {e : L.E} {bt ct : Option Nat} {p q : Nat} (h : code[p]? = some (.evalR (L.rpn e))) (h' : Lead code (p + 1) X.ep) : C (.ret (some e)) bt ct p q [] []
  | whl {c : L.E} {b : Stmt L} {bt ct : Option Nat} {la lc p q r t z p' : Nat} {cs : List (Int × Nat)} {ds : List Nat} (ht : Test code (some c) q p' p)
      (hb : C b (some la) (some lc) q r cs ds) (hr : Back code (some c) none q p' r) (hc : code[t]? = some (.lab lc)) (hc' : Back code (some c) none q p' t)
      (ha : code[z]? = some (.lab la)) (ha' : Lead code z p') : C (.whl c b) bt ct p p' cs ds
  | for {i : Init L} {c e : Option L.E} {b : Stmt L} {bt ct : Option Nat} {la lc p0 p q r t z p' : Nat} {cs : List (Int × Nat)} {ds : List Nat} (hi : InitAt code i p0 p)
      (ht : Test code c q p' p)
      (hb : C b (some la) (some lc) q r cs ds) (hr : Back code c e q p' r) (hc : code[t]? = some (.lab lc)) (hc' : Back code c e q p' t)
      (ha : code[z]? = some (.lab la)) (ha' : Lead code z p') : C (.for i c e b) bt ct p0 p' cs ds
  | dow {c : L.E} {b : Stmt L} {bt ct : Option Nat} {la lb lc p q r t z s p' : Nat} {cs : List (Int × Nat)} {ds : List Nat} (hp : Lead code p q) (hl : code[s]? = some (.lab lb))
      (hl' : Lead code s q) (hb : C b (some la) (some lc) q r cs ds) {u v : Nat} (hr : LeadP code r u) (hy : CY code c lb u v) (hv : Lead code v p')
      (hc : code[t]? = some (.lab lc)) (hc' : LeadP code t u) (ha : code[z]? = some (.lab la)) (ha' : Lead code z p') : C (.dow b c) bt ct p p' cs ds
  | ift {c : L.E} {a : Stmt L} {bt ct : Option Nat} {l p q r z p' : Nat} {cs : List (Int × Nat)} {ds : List Nat} (h : CN code (some c) l p q) (hz : code[z]? = some (.lab l))
      (hz' : Lead code z p') (ha : C a bt ct q r cs ds) (hr : Lead code r p') : C (.ift c a) bt ct p p' cs ds
  | ife {c : L.E} {a b : Stmt L} {bt ct : Option Nat} {l p q r z u v p' : Nat} {cs cs' : List (Int × Nat)} {ds ds' : List Nat} (h : CN code (some c) l p q)
      (hz : code[z]? = some (.lab l)) (hz' : Lead code z u) (ha : C a bt ct q r cs ds) (hr : Lead code r p') (hb : C b bt ct u v cs' ds') (hv : Lead code v p') :
      C (.ife c a b) bt ct p p' (cs ++ cs') (ds ++ ds')
  | brk {l : Nat} {ct : Option Nat} {p q : Nat} (h : code[p]? = some (.jmp l)) : C .brk (some l) ct p q [] []
  | cont {l : Nat} {bt : Option Nat} {p q : Nat} (h : code[p]? = some (.jmp l)) : C .cont bt (some l) p q [] []
  | switch {e : L.E} {b : Stmt L} {bt ct : Option Nat} {lb ls p r z y p' : Nat} {cs : List (Int × Nat)} {ds : List Nat} (he : code[p]? = some (.evalR (L.rpn e)))
      (hj : code[p + 1]? = some (.jmp ls)) (hs : code[y]? = some (.lab ls)) (hcs : ∀ i c, cs[i]? = some c → code[y + 1 + i]? = some (.je c.1 c.2))
      (hd : match ds with | [] => Lead code (y + 1 + cs.length) p' | l :: _ => code[y + 1 + cs.length]? = some (.jmp l))
      {q : Nat} (hb : C b (some lb) ct q r cs ds) (hz : code[z]? = some (.lab lb)) (hz' : Lead code z p') (hr : Lead code r p') : C (.switch e b) bt ct p p' [] []
  | case {e : L.E} {s : Stmt L} {v : Int} {l : Nat} {bt ct : Option Nat} {p q : Nat} {cs : List (Int × Nat)} {ds : List Nat} (hv : L.const e = some v) (hl : code[p]? = some (.lab l))
      (h : C s bt ct (p + 1) q cs ds) : C (.case e s) bt ct p q ((L.trunc v, l) :: cs) ds
  | default {s : Stmt L} {l : Nat} {bt ct : Option Nat} {p q : Nat} {cs : List (Int × Nat)} {ds : List Nat} (hl : code[p]? = some (.lab l)) (h : C s bt ct (p + 1) q cs ds) :
      C (.default s) bt ct p q cs (l :: ds)
  | goto {n : Nat} {bt ct : Option Nat} {p q : Nat} (hn : (X.body.seek (.label n) .stop).isSome = true) (h : code[p]? = some (.jmp (X.G n))) : C (.goto n) bt ct p q [] []
  | label {n : Nat} {s : Stmt L} {bt ct : Option Nat} {p q : Nat} {cs : List (Int × Nat)} {ds : List Nat} (hl : code[p]? = some (.lab (X.G n))) (h : C s bt ct (p + 1) q cs ds) :
      C (.label n s) bt ct p q cs ds

/-- the code at `p` does what the continuation says -/
def MK : Cont L → Nat → Option Nat → Option Nat → Prop
  | .stop, p, bt, ct => bt = none ∧ ct = none ∧ Lead code p X.pe
  | .seq ss k, p, bt, ct => ∃ p0 q cs ds, Lead code p p0 ∧ C code X ss bt ct p0 q cs ds ∧ MK k q bt ct
  | .loop c e b k, p, bt, ct => ∃ la lc q r p1 z t cs ds bt' ct', bt = some la ∧ ct = some lc ∧ C code X b bt ct q r cs ds ∧ Back code c e q p1 r ∧
      code[t]? = some (.lab lc) ∧ Back code c e q p1 t ∧ code[z]? = some (.lab la) ∧ Lead code z p1 ∧ Back code c e q p1 p ∧ MK k p1 bt' ct'
  | .dow b c k, p, bt, ct => ∃ la lb lc q r p1 z t s u v cs ds bt' ct', bt = some la ∧ ct = some lc ∧ C code X b bt ct q r cs ds ∧ LeadP code r u ∧ CY code c lb u v ∧ Lead code v p1 ∧
      code[s]? = some (.lab lb) ∧ Lead code s q ∧ code[t]? = some (.lab lc) ∧ LeadP code t u ∧ code[z]? = some (.lab la) ∧ Lead code z p1 ∧ LeadP code p u ∧ MK k p1 bt' ct'
  | .switch k, p, bt, ct => ∃ l p1 bt' z, bt = some l ∧ code[z]? = some (.lab l) ∧ Lead code z p1 ∧ Lead code p p1 ∧ MK k p1 bt' ct

theorem MK.lead {k : Cont L} {p p' : Nat} {bt ct : Option Nat} (h : MK code X k p bt ct) (hl : Lead code p' p) : MK code X k p' bt ct := by
  cases k with
  | stop => obtain ⟨h1, h2, h3⟩ := h; exact ⟨h1, h2, hl.trans h3⟩
  | seq ss k => obtain ⟨p0, q, cs, ds, h1, h2⟩ := h; exact ⟨p0, q, cs, ds, hl.trans h1, h2⟩
  | loop c e b k =>
    obtain ⟨la, lc, q, r, p1, z, t, cs, ds, bt', ct', h1, h2, h3, h4, h5, h6, h7, h8, h9, h10⟩ := h
    exact ⟨la, lc, q, r, p1, z, t, cs, ds, bt', ct', h1, h2, h3, h4, h5, h6, h7, h8, h9.lead hl, h10⟩
  | dow b c k =>
    obtain ⟨la, lb, lc, q, r, p1, z, t, s, u, v, cs, ds, bt', ct', h1, h2, h3, h4, h5, h6, h7, h8, h9, h10, h11, h12, h13, h14⟩ := h
    exact ⟨la, lb, lc, q, r, p1, z, t, s, u, v, cs, ds, bt', ct', h1, h2, h3, h4, h5, h6, h7, h8, h9, h10, h11, h12, hl.transP h13, h14⟩
  | switch k => obtain ⟨l, p1, bt', z, h1, h2, h3, h4, h5⟩ := h; exact ⟨l, p1, bt', z, h1, h2, h3, hl.trans h4, h5⟩

end

/-- the first entry of a value -/
def firstCase (v : Int) : List (Int × Nat) → Option Nat
  | [] => none
  | c :: cs => if c.1 = v then some c.2 else firstCase v cs

theorem firstCase_append (v : Int) (a b : List (Int × Nat)) : firstCase v (a ++ b) = (firstCase v a).or (firstCase v b) := by
  induction a with
  | nil => rfl
  | cons c a ih =>
    rw [List.cons_append, firstCase, firstCase]
    split
    · rfl
    · exact ih

section
variable {L : Lang} {code : List (I L.X)} {X : Ctx L}

/-- the label of a target -/
def labOf (X : Ctx L) (t : Target) (cs : List (Int × Nat)) (ds : List Nat) : Option Nat :=
  match t with
  | .case v => firstCase v cs
  | .default => ds.head?
  | .label n => some (X.G n)

def NoLab (X : Ctx L) (t : Target) (cs : List (Int × Nat)) (ds : List Nat) : Prop := (∃ n, t = .label n) ∨ labOf X t cs ds = none

/-- a place that can be jumped to -/
def Place (code : List (I L.X)) (X : Ctx L) (x : Stmt L × Cont L) (l : Nat) : Prop :=
  ∃ z bt ct q cs ds, code[z]? = some (.lab l) ∧ C code X x.1 bt ct (z + 1) q cs ds ∧ MK code X x.2 q bt ct

/-- what `seek` finds is where the label is -/
theorem seek_place (t : Target) {s : Stmt L} {bt ct : Option Nat} {p q : Nat} {cs : List (Int × Nat)} {ds : List Nat} (h : C code X s bt ct p q cs ds) :
    ∀ {k : Cont L}, MK code X k q bt ct →
      (∀ x, s.seek t k = some x → ∃ l, labOf X t cs ds = some l ∧ Place code X x l) ∧
      (s.seek t k = none → NoLab X t cs ds) := by
  have triv : NoLab X t [] [] := by cases t <;> simp [NoLab, labOf, firstCase]
  have app : ∀ {s s' : Stmt L} {k k' : Cont L} {cs cs' : List (Int × Nat)} {ds ds' : List Nat},
      ((∀ x, s.seek t k = some x → ∃ l, labOf X t cs ds = some l ∧ Place code X x l) ∧
        (s.seek t k = none → NoLab X t cs ds)) →
      ((∀ x, s'.seek t k' = some x → ∃ l, labOf X t cs' ds' = some l ∧ Place code X x l) ∧
        (s'.seek t k' = none → NoLab X t cs' ds')) →
      (∀ x, (s.seek t k).or (s'.seek t k') = some x → ∃ l, labOf X t (cs ++ cs') (ds ++ ds') = some l ∧ Place code X x l) ∧
        ((s.seek t k).or (s'.seek t k') = none → NoLab X t (cs ++ cs') (ds ++ ds')) := by
    intro s s' k k' cs cs' ds ds' h1 h2
    cases hs : s.seek t k with
    | some x =>
      obtain ⟨l, hl, hp⟩ := h1.1 x hs
      refine ⟨fun y hy => ?_, fun h => by simp at h⟩
      simp only [Option.some_or, Option.some.injEq] at hy
      subst hy
      refine ⟨l, ?_, hp⟩
      cases t with
      | case v => simp only [labOf] at hl ⊢; rw [firstCase_append, hl]; rfl
      | default => simp only [labOf] at hl ⊢; rw [List.head?_append, hl]; rfl
      | label n => exact hl
    | none =>
      simp only [Option.none_or]
      rcases h1.2 hs with ⟨n, rfl⟩ | h1'
      · exact ⟨fun x hx => h2.1 x hx, fun _ => .inl ⟨n, rfl⟩⟩
      have e : labOf X t (cs ++ cs') (ds ++ ds') = labOf X t cs' ds' := by
        cases t with
        | case v => simp only [labOf] at h1' ⊢; rw [firstCase_append, h1']; rfl
        | default => simp only [labOf] at h1' ⊢; rw [List.head?_append, h1']; rfl
        | label n => rfl
      unfold NoLab
      rw [e]
      exact h2
  induction h with
  | nil | decl | empty | expr | ret0 | ret | brk | cont | goto => intro k _; exact ⟨fun x hx => (by simp [Stmt.seek] at hx), fun _ => triv⟩
  | cons h h' ih ih' =>
    intro k hk
    exact app (ih (k := .seq _ k) ⟨_, _, _, _, .refl _, h', hk⟩) (ih' hk)
  | block h ih => intro k hk; exact ih hk
  | whl ht hb hr hc hc' ha ha' ih => intro k hk; exact ih ⟨_, _, _, _, _, _, _, _, _, _, _, rfl, rfl, hb, hr, hc, hc', ha, ha', hr, hk⟩
  | «for» hi ht hb hr hc hc' ha ha' ih => intro k hk; exact ih ⟨_, _, _, _, _, _, _, _, _, _, _, rfl, rfl, hb, hr, hc, hc', ha, ha', hr, hk⟩
  | dow hp hl hl' hb hr hy hv hc hc' ha ha' ih => intro k hk; exact ih ⟨_, _, _, _, _, _, _, _, _, _, _, _, _, _, _, rfl, rfl, hb, hr, hy, hv, hl, hl', hc, hc', ha, ha', hr, hk⟩
  | ift h hz hz' ha hr ih => intro k hk; exact ih (hk.lead _ _ hr)
  | ife h hz hz' ha hr hb hv iha ihb => intro k hk; exact app (iha (hk.lead _ _ hr)) (ihb (hk.lead _ _ hv))
  | @switch e b bt ct lb ls p r z y p' cs ds he hj hs hcs hd q hb hz hz' hr ih =>
    intro k hk
    cases t with
    | label n =>
      have := ih (k := .switch k) ⟨_, _, _, _, rfl, hz, hz', hr, hk⟩
      exact ⟨this.1, fun _ => .inl ⟨n, rfl⟩⟩
    | _ => exact ⟨fun x hx => (by simp [Stmt.seek] at hx), fun _ => triv⟩
  | @case e s v l bt ct p q cs ds hv hl h ih =>
    intro k hk
    simp only [Stmt.seek, hv, Option.map_some, Option.some.injEq]
    by_cases e : Target.case (L.trunc v) = t
    · rw [if_pos e]
      subst e
      refine ⟨fun x hx => ?_, fun h => by cases h⟩
      cases hx
      exact ⟨l, by simp [labOf, firstCase], _, _, _, _, _, _, hl, h, hk⟩
    · rw [if_neg e]
      have e1 : labOf X t ((L.trunc v, l) :: cs) ds = labOf X t cs ds := by
        cases t with
        | case w => simp only [labOf, firstCase]; rw [if_neg (fun h => e (by rw [h]))]
        | _ => rfl
      unfold NoLab
      rw [e1]
      exact ih hk
  | @default s l bt ct p q cs ds hl h ih =>
    intro k hk
    simp only [Stmt.seek]
    by_cases e : t = .default
    · rw [if_pos e]
      subst e
      refine ⟨fun x hx => ?_, fun h => by cases h⟩
      cases hx
      exact ⟨l, rfl, _, _, _, _, _, _, hl, h, hk⟩
    · rw [if_neg e]
      have e1 : labOf X t cs (l :: ds) = labOf X t cs ds := by
        cases t with
        | default => exact absurd rfl e
        | _ => rfl
      unfold NoLab
      rw [e1]
      exact ih hk
  | @label n s bt ct p q cs ds hl h ih =>
    intro k hk
    simp only [Stmt.seek]
    by_cases e : t = .label n
    · rw [if_pos e]
      subst e
      refine ⟨fun x hx => ?_, fun h => by cases h⟩
      cases hx
      exact ⟨_, rfl, _, _, _, _, _, _, hl, h, hk⟩
    · rw [if_neg e]
      exact ih hk

end

end Smlr.Stmt
