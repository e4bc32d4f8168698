import Verif.Stmt.Final
set_option autoImplicit false
/-! C26, C27: the code made for a function body does what the body says. -/
namespace Smlr.Stmt
open Spec

section
variable {L : Lang} {isMain void : Bool} {mc mg n lab0 : Nat} {s : Stmt L} {rest : List (Tok L)} {code : List (I L.X)}

/-- The body of a function is compiled if and only if it meets the constraints of C and the tables are large enough (`MAX_CASES`, `MAX_GOTO_LABELS`).
`s.wf true` says that the tree is written without ambiguity (each `else` at the nearest `if`); `n` is the fuel of the model. -/
theorem c26_accepts (hw : s.wf true) (hn : 2 * s.toks.length + 2 ≤ n) :
    (∃ code, fxn isMain void mc mg n lab0 (s.toks ++ .k .rbrace :: rest) = .ok code) ↔ Valid void s ∧ s.need ≤ mc ∧ NamesFit s mg := accepts hw hn

/-- No label is there twice, and where a jump goes there is a label. -/
theorem c26_labels (hw : s.wf true) (hn : 2 * s.toks.length + 2 ≤ n) (h : fxn isMain void mc mg n lab0 (s.toks ++ .k .rbrace :: rest) = .ok code) :
    (∀ p q l : Nat, code[p]? = some (I.lab l) → code[q]? = some (I.lab l) → p = q) ∧
    (∀ l : Nat, (I.jmp l ∈ code ∨ I.jz l ∈ code ∨ I.jnz l ∈ code ∨ (∃ e, I.ifNot e l ∈ code) ∨ (∃ e, I.ifYes e l ∈ code) ∨ ∃ v, I.je v l ∈ code) → I.lab l ∈ code) := by
  obtain ⟨h1, h2⟩ := labels_ok hw hn h
  refine ⟨uniq_of_nodup _ h1, fun l hl => ?_⟩
  have hm : l ∈ tgts code := by
    rw [tgts, List.mem_filterMap]
    rcases hl with h | h | h | ⟨e, h⟩ | ⟨e, h⟩ | ⟨v, h⟩
    · exact ⟨_, h, rfl⟩
    · exact ⟨_, h, rfl⟩
    · exact ⟨_, h, rfl⟩
    · exact ⟨_, h, rfl⟩
    · exact ⟨_, h, rfl⟩
    · exact ⟨_, h, rfl⟩
  obtain ⟨i, hi, e⟩ := List.mem_filterMap.mp (h2 l hm)
  cases i with
  | lab m => cases e; exact hi
  | _ => cases e

variable {σ : Type} {sem : List L.X → σ → Option (Int × σ)}

/-- The code does what the body says, for every meaning `sem` of expressions (it may have effects on a state of any type, which may hold the history of all that was done, and may not come to an end):
- the states that the body goes through are the states that the code goes through;
- the body ends with a state and a value if and only if the code runs to its end with this state and value;
- the body gets stuck in an expression that does not end if and only if the code does.
So a loop that never ends goes through the same states for ever.
Not covered (`hr`): a function other than `main` whose last statement is a `while` or `for` with a body that ends, not in braces, with `return`; see `c26_loop_return_defect`. -/
theorem c26_run_partial (hw : s.wf true) (hn : 2 * s.toks.length + 2 ≤ n) (h : fxn isMain void mc mg n lab0 (s.toks ++ .k .rbrace :: rest) = .ok code)
    (hr : isMain = true ∨ loopRet s = false) (hc : ConstOk sem) (hz : ∀ st, sem L.zero st = some (0, st)) (st0 : σ) (acc : Option Int) :
    (∀ st, (∃ n c, after sem isMain s n (.run s .stop st0) = some c ∧ c.st = st) ↔ ∃ k m, mafter sem code k ⟨0, acc, st0⟩ = some m ∧ m.st = st) ∧
    (∀ r st, (∃ n, after sem isMain s n (.run s .stop st0) = some (.done r st)) → ∃ k m, mafter sem code k ⟨0, acc, st0⟩ = some m ∧ m.pc = code.length ∧ m.st = st ∧ ∀ v, r = some v → m.acc = some v) ∧
    (∀ k m, mafter sem code k ⟨0, acc, st0⟩ = some m → m.pc = code.length → ∃ n r, after sem isMain s n (.run s .stop st0) = some (.done r m.st) ∧ ∀ v, r = some v → m.acc = some v) ∧
    (∀ st, (∃ n c, after sem isMain s n (.run s .stop st0) = some c ∧ (∀ r st, c ≠ .done r st) ∧ step sem isMain s c = none ∧ c.st = st) ↔
      ∃ k m, mafter sem code k ⟨0, acc, st0⟩ = some m ∧ m.pc < code.length ∧ mstep sem code m = none ∧ m.st = st) := by
  obtain ⟨X, rfl, rfl, hU, hE, hb⟩ := fxn_rel hw hn h hr
  have hm : Match code X (.run X.body .stop st0) ⟨0, acc, st0⟩ := by
    obtain ⟨q, cs, ds, h1, h2⟩ := hb
    exact ⟨rfl, 0, q, none, none, cs, ds, .refl _, h1, h2⟩
  have fwd := forward hU hc hE hz hb
  have bwd := fun k m' => backward hU hc hE hz hb k _ _ _ m' (Nat.le_refl _) hm
  refine ⟨fun st => ⟨?_, ?_⟩, ?_, ?_, fun st => ⟨?_, ?_⟩⟩
  · rintro ⟨n, c, h1, rfl⟩
    obtain ⟨k, m, h2, h3⟩ := fwd n _ c _ hm h1
    exact ⟨k, m, h2, match_st h3⟩
  · rintro ⟨k, m, h1, rfl⟩
    exact (bwd k m h1).1
  · rintro r st ⟨n, h1⟩
    obtain ⟨k, m, h2, h3, h4, h5⟩ := fwd n _ _ _ hm h1
    exact ⟨k, m, h2, h4, h3, h5⟩
  · intro k m h1 h2
    obtain ⟨n, c, h3, h4, h5, ⟨r, st, rfl, h7, h8⟩ | ⟨-, h7⟩⟩ := (bwd k m h1).2 (mstep_end h2)
    · exact ⟨n, r, by rw [h3, ← h4]; rfl, h8⟩
    · omega
  · rintro ⟨n, c, h1, h2, h3, rfl⟩
    obtain ⟨k, m, h4, h5⟩ := fwd n _ c _ hm h1
    have hs := sim hU hc hE hz h5 h2 hb
    rw [h3] at hs
    obtain ⟨j, mh, g1, g2, g3⟩ := hs
    exact ⟨k + j, mh, by rw [mafter_add, h4]; exact g1.after, g3, g2, (g1.mid j mh (Nat.le_refl _) g1.after).1⟩
  · rintro ⟨k, m, h1, h2, h3, rfl⟩
    obtain ⟨n, c, h4, h5, h6, ⟨r, st, rfl, h7, h8⟩ | ⟨h7, h8⟩⟩ := (bwd k m h1).2 h3
    · omega
    · exact ⟨n, c, h4, h7, h6, h5⟩

/-- The defect: `void f(void) { for (;;) return; }` returns at once, its code runs for ever: at the `}` of the function `return` makes no jump, and is followed by the jump back to the start of
the loop (smlrc.c:8950-8953). -/
theorem c26_loop_return_defect (st0 : σ) (acc : Option Int) :
    ∃ s : Stmt L, s.wf true ∧ Valid true s ∧ (∃ n, after sem false s n (.run s .stop st0) = some (.done none st0)) ∧
      ∃ code, fxn false true mc mg 100 lab0 (s.toks ++ [.k .rbrace]) = .ok code ∧ ∀ k, ∃ m, mafter sem code k ⟨0, acc, st0⟩ = some m ∧ m.pc < 2 := by
  refine ⟨.cons (.for .none none none (.ret none)) .nil, ⟨rfl, ⟨rfl, rfl⟩, rfl⟩, ⟨⟨rfl, trivial⟩, .nil, fun _ h => by cases h⟩, ⟨4, rfl⟩,
    [.lab (lab0 + 2), .jmp (lab0 + 2), .lab (lab0 + 2 + 3), .lab lab0], ?_, fun k => ?_⟩
  · rw [fxn_run (s := .cons (.for .none none none (.ret none)) .nil) (rest := []) ⟨rfl, ⟨rfl, rfl⟩, rfl⟩ (by simp [Stmt.toks, Init.toks, optToks])]
    rfl
  · have : mafter sem [I.lab (lab0 + 2), .jmp (lab0 + 2), .lab (lab0 + 2 + 3), .lab lab0] k ⟨0, acc, st0⟩ = some ⟨k % 2, acc, st0⟩ := by
      induction k with
      | zero => rfl
      | succ k ih =>
        rw [mafter_add, ih]
        have hk : k % 2 = 0 ∨ k % 2 = 1 := by omega
        rcases hk with hk | hk
        · rw [hk, show (k + 1) % 2 = 1 by omega]
          rfl
        · rw [hk, show (k + 1) % 2 = 0 by omega]
          have : find [I.lab (X := L.X) (lab0 + 2), .jmp (lab0 + 2), .lab (lab0 + 2 + 3), .lab lab0] (lab0 + 2) = some 0 := by
            simp [find, List.findIdx?_cons]
          simp [mafter, mstep, this]
    exact ⟨_, this, Nat.mod_lt _ (by omega)⟩

/-! ### switch -/

/-- what stands before a statement of a `switch` -/
inductive Lb (L : Lang)
  | plain
  | case (e : L.E)
  | default

def Lb.put : Lb L → Stmt L → Stmt L
  | .plain, s => s
  | .case e, s => .case e s
  | .default, s => .default s

def Lb.val : Lb L → Option Int
  | .case e => (L.const e).map L.trunc
  | _ => none

def Lb.isDef : Lb L → Bool
  | .default => true
  | _ => false

/-- a list of statements with labels -/
def items : List (Lb L × Stmt L) → Stmt L
  | [] => .nil
  | x :: xs => .cons (x.1.put x.2) (items xs)

/-- where to go in the list: `p` tells the label; the statement and those behind it -/
def entry (p : Lb L → Bool) : List (Lb L × Stmt L) → Option (Stmt L × Stmt L)
  | [] => none
  | x :: xs => if p x.1 then some (x.2, items xs) else entry p xs

/-- no labels of the `switch` deeper in the statement -/
def noCase (s : Stmt L) : Prop := s.cases = [] ∧ s.defs = 0

theorem seek_none (t : Target) (ht : ∀ n, t ≠ .label n) : ∀ (s : Stmt L) (k : Cont L), (match t with | .case v => v ∉ s.cases | .default => s.defs = 0 | .label _ => False) → s.seek t k = none := by
  cases t with
  | label n => exact absurd rfl (ht n)
  | case v =>
    intro s
    induction s with
    | cons s ss ih ih' =>
      intro k h
      simp only [Stmt.cases, List.mem_append, not_or] at h
      simp only [Stmt.seek]
      rw [ih _ h.1, ih' _ h.2]; rfl
    | ife e s ss ih ih' =>
      intro k h
      simp only [Stmt.cases, List.mem_append, not_or] at h
      simp only [Stmt.seek]
      rw [ih _ h.1, ih' _ h.2]; rfl
    | block s ih => intro k h; exact ih _ h
    | whl e s ih => intro k h; exact ih _ h
    | dow s e ih => intro k h; exact ih _ h
    | ift e s ih => intro k h; exact ih _ h
    | «for» i e1 e3 s ih => intro k h; exact ih _ h
    | case e s ih =>
      intro k h
      simp only [Stmt.cases, List.mem_append, not_or] at h
      simp only [Stmt.seek]
      rw [if_neg, ih _ h.2]
      intro hx
      cases hc : L.const e with
      | none => rw [hc] at hx; cases hx
      | some w =>
        rw [hc] at hx h
        simp only [Option.map_some, Option.some.injEq, Target.case.injEq] at hx
        exact h.1 (by simp [hx])
    | default s ih => intro k h; simp only [Stmt.seek]; rw [if_neg (by simp)]; exact ih _ h
    | label n s ih => intro k h; simp only [Stmt.seek]; rw [if_neg (by simp)]; exact ih _ h
    | _ => intros; rfl
  | default =>
    intro s
    induction s with
    | cons s ss ih ih' =>
      intro k h
      simp only [Stmt.defs] at h
      simp only [Stmt.seek]
      rw [ih _ (by show s.defs = 0; omega), ih' _ (by show ss.defs = 0; omega)]; rfl
    | ife e s ss ih ih' =>
      intro k h
      simp only [Stmt.defs] at h
      simp only [Stmt.seek]
      rw [ih _ (by show s.defs = 0; omega), ih' _ (by show ss.defs = 0; omega)]; rfl
    | block s ih => intro k h; exact ih _ h
    | whl e s ih => intro k h; exact ih _ h
    | dow s e ih => intro k h; exact ih _ h
    | ift e s ih => intro k h; exact ih _ h
    | «for» i e1 e3 s ih => intro k h; exact ih _ h
    | case e s ih =>
      intro k h
      simp only [Stmt.seek]
      rw [if_neg]
      · exact ih _ h
      · intro hx
        cases hc : L.const e with
        | none => rw [hc] at hx; cases hx
        | some w => rw [hc] at hx; simp at hx
    | default s ih => intro k h; simp [Stmt.defs] at h
    | label n s ih => intro k h; simp only [Stmt.seek]; rw [if_neg (by simp)]; exact ih _ h
    | _ => intros; rfl

/-- What `switch` selects, for a body that is a list of statements with labels: the first with the label of the value, else the one with `default`, else what is behind the `switch`; from there on
one statement after the other. -/
theorem c27_sections (xs : List (Lb L × Stmt L)) (hx : ∀ x ∈ xs, noCase x.2) (k : Cont L) (v : Int) (st : σ) :
    select (.block (items xs)) k v st =
      match (entry (fun l => l.val == some v) xs).or (entry (fun l => l.isDef) xs) with
      | some x => .run x.1 (.seq x.2 (.switch k)) st
      | none => .run .nil k st := by
  have hs : ∀ (t : Target) (p : Lb L → Bool) (hp : ∀ l : Lb L, p l = true ↔ (match t with | .case v => l.val = some v | .default => l.isDef = true | .label _ => False)),
      (∀ n, t ≠ .label n) → ∀ xs : List (Lb L × Stmt L), (∀ x ∈ xs, noCase x.2) → ∀ k : Cont L, (items xs).seek t k = (entry p xs).map fun x => (x.1, .seq x.2 k) := by
    intro t p hp ht xs
    induction xs with
    | nil => intros; rfl
    | cons x xs ih =>
      intro hx k
      have h1 := hx x (by simp)
      have hrec := ih (fun y hy => hx y (by simp [hy])) k
      have hn : x.2.seek t (.seq (items xs) k) = none := by
        refine seek_none t ht x.2 _ ?_
        cases t with
        | case v => simp [h1.1]
        | default => exact h1.2
        | label n => exact absurd rfl (ht n)
      simp only [items, Stmt.seek, entry]
      by_cases hpx : p x.1 = true
      · rw [if_pos hpx]
        have hq := (hp x.1).mp hpx
        have : (x.1.put x.2).seek t (.seq (items xs) k) = some (x.2, .seq (items xs) k) := by
          obtain ⟨l, y⟩ := x
          cases t with
          | label n => exact absurd rfl (ht n)
          | case v =>
            cases l with
            | plain => cases hq
            | default => cases hq
            | case e =>
              have hq : (L.const e).map L.trunc = some v := hq
              cases hc : L.const e with
              | none => rw [hc] at hq; cases hq
              | some w =>
                rw [hc] at hq
                simp only [Option.map_some, Option.some.injEq] at hq
                simp [Lb.put, Stmt.seek, hc, hq]
          | default =>
            cases l with
            | plain => cases hq
            | default => simp [Lb.put, Stmt.seek]
            | case e => cases hq
        rw [this]; rfl
      · rw [if_neg hpx]
        have hq : ¬ _ := fun h => hpx ((hp x.1).mpr h)
        have : (x.1.put x.2).seek t (.seq (items xs) k) = none := by
          obtain ⟨l, y⟩ := x
          cases l with
          | plain => exact hn
          | default =>
            cases t with
            | label n => exact absurd rfl (ht n)
            | default => exact absurd rfl hq
            | case v => simp only [Lb.put, Stmt.seek]; rw [if_neg (by simp)]; exact hn
          | case e =>
            simp only [Lb.put, Stmt.seek]
            rw [if_neg]
            · exact hn
            · intro hx
              cases hc : L.const e with
              | none => rw [hc] at hx; cases hx
              | some w =>
                rw [hc] at hx
                simp only [Option.map_some, Option.some.injEq] at hx
                subst hx
                exact hq (by simp [Lb.val, hc])
        rw [this]
        exact hrec
  unfold select
  have e1 := hs (.case v) (fun l => l.val == some v) (fun l => by simp) (by simp) xs hx (.switch k)
  have e2 := hs .default (fun l => l.isDef) (fun l => by simp) (by simp) xs hx (.switch k)
  show (match ((items xs).seek (.case v) (.switch k)).or ((items xs).seek .default (.switch k)) with
    | some x => Conf.run x.1 x.2 st
    | none => .run .nil k st) = _
  rw [e1, e2]
  cases entry (fun l => l.val == some v) xs with
  | some x => rfl
  | none =>
    cases entry (fun l => l.isDef) xs with
    | some x => rfl
    | none => rfl

/-- the statement occurs in the other -/
inductive Within (t : Stmt L) : Stmt L → Prop
  | refl : Within t t
  | cons1 {s ss : Stmt L} (h : Within t s) : Within t (.cons s ss)
  | cons2 {s ss : Stmt L} (h : Within t ss) : Within t (.cons s ss)
  | block {s : Stmt L} (h : Within t s) : Within t (.block s)
  | whl {c : L.E} {s : Stmt L} (h : Within t s) : Within t (.whl c s)
  | dow {c : L.E} {s : Stmt L} (h : Within t s) : Within t (.dow s c)
  | ift {c : L.E} {s : Stmt L} (h : Within t s) : Within t (.ift c s)
  | ife1 {c : L.E} {s s' : Stmt L} (h : Within t s) : Within t (.ife c s s')
  | ife2 {c : L.E} {s s' : Stmt L} (h : Within t s') : Within t (.ife c s s')
  | for {i : Init L} {c e : Option L.E} {s : Stmt L} (h : Within t s) : Within t (.for i c e s)
  | switch {e : L.E} {s : Stmt L} (h : Within t s) : Within t (.switch e s)
  | case {e : L.E} {s : Stmt L} (h : Within t s) : Within t (.case e s)
  | default {s : Stmt L} (h : Within t s) : Within t (.default s)
  | label {m : Nat} {s : Stmt L} (h : Within t s) : Within t (.label m s)

theorem within_ok {t s : Stmt L} (h : Within t s) : ∀ {b c w : Bool}, s.ok void b c w → ∃ b' c' w', t.ok void b' c' w' := by
  induction h with
  | refl => exact fun h => ⟨_, _, _, h⟩
  | cons1 _ ih => exact fun h => ih h.1
  | cons2 _ ih => exact fun h => ih h.2
  | block _ ih => exact fun h => ih h
  | whl _ ih => exact fun h => ih h
  | dow _ ih => exact fun h => ih h
  | ift _ ih => exact fun h => ih h
  | ife1 _ ih => exact fun h => ih h.1
  | ife2 _ ih => exact fun h => ih h.2
  | «for» _ ih => exact fun h => ih h
  | switch _ ih => exact fun h => ih h.1
  | case _ ih => exact fun h => ih h.2.2
  | default _ ih => exact fun h => ih h.2
  | label _ ih => exact fun h => ih h

/-- In a function that is compiled, no `switch` has a value twice or a second `default`, and all its labels are constants; labels of a `switch` inside it do not count (`Stmt.cases`). -/
theorem c27_no_duplicates (hw : s.wf true) (hn : 2 * s.toks.length + 2 ≤ n) (h : fxn isMain void mc mg n lab0 (s.toks ++ .k .rbrace :: rest) = .ok code) {e : L.E} {b : Stmt L}
    (hs : Within (.switch e b) s) : b.cases.Nodup ∧ b.defs ≤ 1 := by
  obtain ⟨b', c', w', h1⟩ := within_ok hs ((accepts hw hn).mp ⟨_, h⟩).1.1
  exact ⟨h1.2.1, h1.2.2⟩

/-- On the values: `switch` finds a label exactly if the value is one of its labels, and `default` exactly if there is one. -/
theorem c27_seek (t : Target) (ht : ∀ m, t ≠ .label m) : ∀ (s : Stmt L) (k : Cont L),
    (s.seek t k).isSome = true ↔ (match t with | .case v => v ∈ s.cases | .default => s.defs ≠ 0 | .label _ => False) := by
  intro s k
  constructor
  · intro h
    cases t with
    | label m => exact absurd rfl (ht m)
    | case v =>
      rcases Classical.em (v ∈ s.cases) with h' | h'
      · exact h'
      · rw [seek_none (.case v) (by simp) s k h'] at h; cases h
    | default =>
      intro h'
      rw [seek_none .default (by simp) s k h'] at h
      cases h
  · cases t with
    | label m => exact absurd rfl (ht m)
    | case v =>
      intro h
      induction s generalizing k with
      | cons s ss ih ih' =>
        simp only [Stmt.seek, Option.isSome_or, Bool.or_eq_true]
        rcases List.mem_append.mp h with h | h
        · exact .inl (ih _ h)
        · exact .inr (ih' _ h)
      | ife e s ss ih ih' =>
        simp only [Stmt.seek, Option.isSome_or, Bool.or_eq_true]
        rcases List.mem_append.mp h with h | h
        · exact .inl (ih _ h)
        · exact .inr (ih' _ h)
      | block s ih => exact ih _ h
      | whl e s ih => exact ih _ h
      | dow s e ih => exact ih _ h
      | ift e s ih => exact ih _ h
      | «for» i e1 e3 s ih => exact ih _ h
      | case e s ih =>
        simp only [Stmt.seek]
        split
        · rfl
        · rename_i hx
          refine ih _ ?_
          rcases List.mem_append.mp h with h | h
          · exfalso
            cases hc : L.const e with
            | none => rw [hc] at h; cases h
            | some w =>
              rw [hc] at h hx
              simp only [Option.map_some, Option.toList_some, List.mem_singleton] at h
              exact hx (by rw [h]; rfl)
          · exact h
      | default s ih =>
        simp only [Stmt.seek]
        split
        · rfl
        · exact ih _ h
      | label m s ih =>
        simp only [Stmt.seek]
        split
        · rfl
        · exact ih _ h
      | _ => cases h
    | default =>
      intro h
      induction s generalizing k with
      | cons s ss ih ih' =>
        simp only [Stmt.seek, Option.isSome_or, Bool.or_eq_true]
        have h : s.defs + ss.defs ≠ 0 := h
        by_cases hs : s.defs = 0
        · exact .inr (ih' _ (show ss.defs ≠ 0 by omega))
        · exact .inl (ih _ hs)
      | ife e s ss ih ih' =>
        simp only [Stmt.seek, Option.isSome_or, Bool.or_eq_true]
        have h : s.defs + ss.defs ≠ 0 := h
        by_cases hs : s.defs = 0
        · exact .inr (ih' _ (show ss.defs ≠ 0 by omega))
        · exact .inl (ih _ hs)
      | block s ih => exact ih _ h
      | whl e s ih => exact ih _ h
      | dow s e ih => exact ih _ h
      | ift e s ih => exact ih _ h
      | «for» i e1 e3 s ih => exact ih _ h
      | case e s ih =>
        simp only [Stmt.seek]
        split
        · rfl
        · exact ih _ h
      | default s ih =>
        simp only [Stmt.seek]
        rw [if_pos trivial]
        rfl
      | label m s ih =>
        simp only [Stmt.seek]
        split
        · rfl
        · exact ih _ h
      | _ => exact absurd rfl h

/-- The code of a function that is a `switch` does what is selected: the states it goes through are, behind those of the value, those of the selected statement and of what is behind it. -/
theorem c27_switch_partial {e : L.E} {b : Stmt L} (hw : (Stmt.cons (.switch e b) s).wf true) (hn : 2 * (Stmt.cons (.switch e b) s).toks.length + 2 ≤ n)
    (h : fxn isMain void mc mg n lab0 ((Stmt.cons (.switch e b) s).toks ++ .k .rbrace :: rest) = .ok code) (hr : isMain = true ∨ loopRet (.cons (.switch e b) s) = false)
    (hc : ConstOk sem) (hz : ∀ st, sem L.zero st = some (0, st)) (st0 st1 : σ) (acc : Option Int) (v : Int) (hv : sem (L.rpn e) st0 = some (v, st1)) :
    (∀ st, ((∃ n c, after sem isMain (.cons (.switch e b) s) n (select b (.seq s .stop) v st1) = some c ∧ c.st = st) ∨ st = st0) ↔ ∃ k m, mafter sem code k ⟨0, acc, st0⟩ = some m ∧ m.st = st) ∧
    (∀ r st, (∃ n, after sem isMain (.cons (.switch e b) s) n (select b (.seq s .stop) v st1) = some (.done r st)) →
      ∃ k m, mafter sem code k ⟨0, acc, st0⟩ = some m ∧ m.pc = code.length ∧ m.st = st ∧ ∀ v, r = some v → m.acc = some v) := by
  have H := c26_run_partial hw hn h hr hc hz st0 acc
  have two : ∀ n, after sem isMain (.cons (.switch e b) s) (n + 2) (.run (.cons (.switch e b) s) .stop st0) =
      after sem isMain (.cons (.switch e b) s) n (select b (.seq s .stop) v st1) := by
    intro n
    show (Option.map _ (sem (L.rpn e) st0)).bind _ = _
    rw [hv]
    rfl
  refine ⟨fun st => ?_, fun r st ⟨n, h1⟩ => H.2.1 r st ⟨n + 2, by rw [two]; exact h1⟩⟩
  rw [← H.1 st]
  constructor
  · rintro (⟨n, c, h1, h2⟩ | rfl)
    · exact ⟨n + 2, c, by rw [two]; exact h1, h2⟩
    · exact ⟨0, _, rfl, rfl⟩
  · rintro ⟨n, c, h1, h2⟩
    match n with
    | 0 => cases h1; exact .inr h2.symm
    | 1 => cases h1; exact .inr h2.symm
    | n + 2 => rw [two] at h1; exact .inl ⟨n, c, h1, h2⟩

end

/-! ### examples -/

/-- expressions are numbers: constants if not negative, else something that is evaluated -/
def exL : Lang := ⟨Int, Int, fun e => [e], fun e => if 0 ≤ e then some e else none, fun _ => false, id, [0]⟩

/-- the state is the history; a negative number `e` has the value of its count in the history, up to three -/
def exSem : List Int → List Int → Option (Int × List Int)
  | [e], st => if 0 ≤ e then some (e, st) else some ((3 : Int) - (st.filter (· == e)).length, e :: st)
  | _, _ => none

theorem exSem_const : ConstOk (L := exL) exSem := by
  intro (e : Int) v h (st : List Int)
  have h : (if (0 : Int) ≤ e then some e else none) = some v := h
  show (if (0 : Int) ≤ e then some (e, st) else some ((3 : Int) - (st.filter (· == e)).length, e :: st)) = some (v, st)
  by_cases he : (0 : Int) ≤ e
  · rw [if_pos he] at h ⊢
    cases h
    rfl
  · rw [if_neg he] at h
    cases h

/-- `{ while (-1) { switch (-2) { case 3: -3; case 2: continue; default: break; } if (-4) goto x; } x: return 7; }` -/
def exS : Stmt exL :=
  .cons (.whl (-1 : Int) (.block (.cons (.switch (-2 : Int) (.block (items [(.case (3 : Int), .expr (-3 : Int)), (.case (2 : Int), .cont), (.default, .brk)])))
    (.cons (.ift (-4 : Int) (.goto 5)) .nil)))) (.cons (.label 5 (.ret (some (7 : Int)))) .nil)

theorem exS_wf : exS.wf true := by simp [exS, Stmt.wf, items, Lb.put]

example : exS.wf true ∧ Valid false exS ∧ loopRet exS = false ∧ exS.need = 3 := by
  refine ⟨exS_wf, ?_, rfl, by decide⟩
  · refine ⟨?_, by simp [exS, Stmt.labels, items, Lb.put], ?_⟩
    · simp [exS, Stmt.ok, items, Lb.put, exL, Stmt.cases, Stmt.defs]
    · simp [exS, Stmt.labels, Stmt.gotos, items, Lb.put]

example : NamesFit exS 16 := ⟨[5], by decide, by simp [exS, Stmt.labels, Stmt.gotos, items, Lb.put]⟩

def exCode : List (I Int) :=
  [.lab 3, .evalR [-1], .jz 4, .evalR [-2], .jmp 6, .lab 7, .eval [-3], .lab 8, .jmp 3, .lab 9, .jmp 5, .jmp 5, .lab 6, .je 3 7, .je 2 8, .jmp 9, .lab 5,
   .evalR [-4], .jz 10, .jmp 12, .lab 10, .jmp 3, .lab 4, .lab 12, .evalR [7], .lab 1]

example : fxn (L := exL) false false 128 16 100 1 (exS.toks ++ [.k .rbrace]) = .ok exCode := by
  rw [fxn_run (rest := []) exS_wf (by simp [exS, Stmt.toks, items, Lb.put, optToks])]
  rfl

/-- the body and the code go through the same histories, and end alike -/
example : ∃ n st, after (L := exL) exSem false exS n (.run exS .stop []) = some (.done (some 7) st) ∧
    ∃ k m, mafter exSem exCode k ⟨0, none, []⟩ = some m ∧ m.pc = exCode.length ∧ m.st = st ∧ m.acc = some 7 :=
  ⟨35, [-4, -2, -1, -2, -1, -3, -2, -1], rfl, 39, ⟨26, some 7, [-4, -2, -1, -2, -1, -3, -2, -1]⟩, rfl, rfl, rfl, rfl⟩

/-- a value twice in a `switch`: not compiled -/
example : ¬ ∃ code, fxn (L := exL) false true 128 16 100 1 ((Stmt.cons (.switch (-1 : Int) (.block (items [(.case (1 : Int), .brk), (.case (1 : Int), .brk)]))) .nil).toks ++ [.k .rbrace]) = .ok code := by
  rw [c26_accepts (rest := []) (by simp [Stmt.wf, items, Lb.put]) (by simp [Stmt.toks, items, Lb.put])]
  rintro ⟨⟨h, -⟩, -⟩
  have := h.1.2.1
  simp [Stmt.cases, items, Lb.put, exL] at this

example : Within (.switch (-2 : Int) (.block (items [(.case (3 : Int), .expr (-3 : Int)), (.case (2 : Int), .cont), (.default, .brk)]))) exS := .cons1 (.whl (.block (.cons1 .refl)))

example (k : Cont exL) (st : Unit) :
    select (.block (items [(Lb.case (3 : Int), .expr (-3 : Int)), (.default, .brk), (.case (2 : Int), .cont)])) k 2 st = .run .cont (.seq .nil (.switch k)) st ∧
    select (.block (items [(Lb.case (3 : Int), .expr (-3 : Int)), (.default, .brk), (.case (2 : Int), .cont)])) k 9 st = .run .brk (.seq (items [(.case (2 : Int), .cont)]) (.switch k)) st := by
  constructor
  · rw [c27_sections _ (by simp [noCase, Stmt.cases, Stmt.defs])]; rfl
  · rw [c27_sections _ (by simp [noCase, Stmt.cases, Stmt.defs])]; rfl

end Smlr.Stmt
