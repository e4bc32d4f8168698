import Verif.Prep.Spec
set_option autoImplicit false
namespace Smlr.Prep

theorem run_append (a b : List Line) : ∀ (s : St) (env : Env), run s env (a ++ b) =
    match run s env a with
    | .error e => .error e
    | .ok (s, env, out) => match run s env b with
      | .error e => .error e
      | .ok (s, env, out') => .ok (s, env, out ++ out') := by
  induction a with
  | nil =>
    intro s env
    simp only [List.nil_append, run]
    cases run s env b with
    | error e => rfl
    | ok x => rfl
  | cons l a ih =>
    intro s env
    simp only [List.cons_append, run]
    cases step s env l with
    | error e => rfl
    | ok x =>
      obtain ⟨s1, e1, o1⟩ := x
      simp only [ih]
      cases run s1 e1 a with
      | error e => rfl
      | ok y =>
        obtain ⟨s2, e2, o2⟩ := y
        simp only
        cases run s2 e2 b with
        | error e => rfl
        | ok z => simp

theorem run_ok_append {a b : List Line} {s s1 s2 : St} {env e1 e2 : Env} {o1 o2 : List Nat} (h1 : run s env a = .ok (s1, e1, o1)) (h2 : run s1 e1 b = .ok (s2, e2, o2)) :
    run s env (a ++ b) = .ok (s2, e2, o1 ++ o2) := by
  rw [run_append, h1]; simp only [h2]

theorem run_err_append {a b : List Line} {s s1 : St} {env e1 : Env} {o1 : List Nat} {x : Err} (h1 : run s env a = .ok (s1, e1, o1)) (h2 : run s1 e1 b = .error x) :
    run s env (a ++ b) = .error x := by
  rw [run_append, h1]; simp only [h2]

theorem run_err_left {a b : List Line} {s : St} {env : Env} {x : Err} (h1 : run s env a = .error x) : run s env (a ++ b) = .error x := by
  rw [run_append, h1]

theorem run_one (s : St) (env : Env) (l : Line) (s1 : St) (e1 : Env) (o1 : List Nat) (h : step s env l = .ok (s1, e1, o1)) (ls : List Line) :
    run s env (l :: ls) = match run s1 e1 ls with
      | .error e => .error e
      | .ok (s, env, out') => .ok (s, env, o1 ++ out') := by
  simp only [run, h]
  rfl

/-- in a skipped place nothing has an effect, as long as the stack suffices -/
theorem cond_dead (c : Cond) (stk : List (Nat × Nat)) (env : Env) (h : stk.length < stackSize) :
    ∃ n, n ≤ 1 ∧ step ⟨0, stk⟩ env c.line = .ok (⟨0, (0, n) :: stk⟩, env, []) := by
  have hb : ∀ b, b2n b ≤ 1 := by intro b; cases b <;> decide
  cases c with
  | ifdef n => exact ⟨_, hb (env n), by simp only [Cond.line, step, push]; rw [if_neg (by omega)]; simp⟩
  | ifndef n => exact ⟨_, hb (!env n), by simp only [Cond.line, step, push]; rw [if_neg (by omega)]; simp⟩
  | ifExpr => exact ⟨0, by omega, by simp only [Cond.line, step, push, if_true]; rw [if_neg (by omega)]; simp⟩

mutual
theorem dead_group (g : Group) (stk : List (Nat × Nat)) (env : Env) (h : stk.length + g.depth ≤ stackSize) :
    run ⟨0, stk⟩ env g.lines = .ok (⟨0, stk⟩, env, []) := by
  match g with
  | .nil => rfl
  | .plain l r =>
    simp only [Group.lines, Group.depth] at *
    have hs : step ⟨0, stk⟩ env l.line = .ok (⟨0, stk⟩, env, []) := by cases l <;> rfl
    rw [run_one _ _ _ _ _ _ hs, dead_group r stk env h]
    rfl
  | .cond c b t r =>
    simp only [Group.lines, Group.depth] at *
    obtain ⟨n, hn, hs⟩ := cond_dead c stk env (by omega)
    rw [run_one _ _ _ _ _ _ hs]
    have h1 := dead_group b ((0, n) :: stk) env (by simp only [List.length_cons]; omega)
    have h2 := dead_tail t n hn stk env (by omega)
    have h3 := dead_group r stk env (by omega)
    rw [run_ok_append h1 (run_ok_append h2 h3)]
    rfl
theorem dead_tail (t : Tail) (n : Nat) (hn : n ≤ 1) (stk : List (Nat × Nat)) (env : Env) (h : stk.length + 1 + t.depth ≤ stackSize) :
    run ⟨0, (0, n) :: stk⟩ env t.lines = .ok (⟨0, stk⟩, env, []) := by
  match t with
  | .endif => rfl
  | .els b =>
    simp only [Tail.lines, Tail.depth] at *
    have hs : step ⟨0, (0, n) :: stk⟩ env .els = .ok (⟨0, (0, 2 + b2n (n = 0)) :: stk⟩, env, []) := by
      simp only [step, pop, push]
      rw [if_neg (by omega), if_neg (by omega)]; simp
    rw [run_one _ _ _ _ _ _ hs, run_ok_append (dead_group b ((0, 2 + b2n (n = 0)) :: stk) env (by simp only [List.length_cons]; omega))
      (s2 := ⟨0, stk⟩) (e2 := env) (o2 := []) rfl]
    rfl
  | .elif b t =>
    simp only [Tail.lines, Tail.depth] at *
    have hs : step ⟨0, (0, n) :: stk⟩ env .elif = .ok (⟨0, (0, 0) :: stk⟩, env, []) := by
      simp only [step, pop, push, if_true]
      rw [if_neg (by omega)]; simp
    rw [run_one _ _ _ _ _ _ hs, run_ok_append (dead_group b ((0, 0) :: stk) env (by simp only [List.length_cons]; omega))
      (dead_tail t 0 (by omega) stk env (by omega))]
    rfl
end

theorem cond_live (c : Cond) (taken : Bool) (stk : List (Nat × Nat)) (env : Env) (h : stk.length < stackSize) (hc : c.holds env = some taken) :
    step ⟨1, stk⟩ env c.line = .ok (⟨b2n taken, (1, b2n taken) :: stk⟩, env, []) := by
  have hb : ∀ b, 1 &&& b2n b = b2n b := by intro b; cases b <;> rfl
  cases c with
  | ifdef n =>
    cases hc
    simp only [Cond.line, step, push]; rw [if_neg (by omega)]; simp only [hb]
  | ifndef n =>
    cases hc
    simp only [Cond.line, step, push]; rw [if_neg (by omega)]; simp only [hb]
  | ifExpr => cases hc

theorem els_step (live n : Nat) (hn : n ≤ 1) (o : Nat) (stk : List (Nat × Nat)) (env : Env) (h : stk.length < stackSize) :
    step ⟨live, (o, n) :: stk⟩ env .els = .ok (⟨o &&& (2 + b2n (n = 0)), (o, 2 + b2n (n = 0)) :: stk⟩, env, []) := by
  simp only [step, pop, push]
  rw [if_neg (by omega), if_neg (by omega)]

mutual
theorem live_group (g : Group) (stk : List (Nat × Nat)) (env : Env) (h : stk.length + g.depth ≤ stackSize) (env' : Env) (out : List Nat)
    (hs : g.sem env = some (env', out)) : run ⟨1, stk⟩ env g.lines = .ok (⟨1, stk⟩, env', out) := by
  match g with
  | .nil => simp only [Group.sem, Option.some.injEq, Prod.mk.injEq] at hs; rw [← hs.1, ← hs.2]; rfl
  | .plain l r =>
    simp only [Group.lines, Group.depth] at *
    cases l with
    | text t =>
      simp only [Group.sem] at hs
      split at hs
      · cases hs
      · rename_i e o hr
        cases hs
        have := live_group r stk env h _ _ hr
        rw [run_one _ _ _ _ _ _ (show step ⟨1, stk⟩ env (Plain.text t).line = .ok (⟨1, stk⟩, env, [t]) from rfl), this]
        rfl
    | define n =>
      simp only [Group.sem] at hs
      split at hs
      · cases hs
      · rename_i he
        have := live_group r stk (env.set n true) h _ _ hs
        rw [run_one _ _ _ _ _ _ (show step ⟨1, stk⟩ env (Plain.define n).line = .ok (⟨1, stk⟩, env.set n true, []) by
          simp only [Plain.line, step]; rw [if_neg (by decide), if_neg he]), this]
        rfl
    | undef n =>
      simp only [Group.sem] at hs
      have := live_group r stk (env.set n false) h _ _ hs
      rw [run_one _ _ _ _ _ _ (show step ⟨1, stk⟩ env (Plain.undef n).line = .ok (⟨1, stk⟩, env.set n false, []) from rfl), this]
      rfl
    | other => simp only [Group.sem] at hs; cases hs
  | .cond c b t r =>
    simp only [Group.lines, Group.depth] at *
    simp only [Group.sem] at hs
    split at hs
    · cases hs
    · rename_i taken hc
      split at hs
      · cases hs
      · rename_i e1 o1 hbt
        split at hs
        · cases hs
        · rename_i e2 o2 hr
          cases hs
          rw [run_one _ _ _ _ _ _ (cond_live c taken stk env (by omega) hc)]
          have h3 := live_group r stk e1 (by omega) _ _ hr
          cases taken with
          | true =>
            simp only [if_true] at hbt
            split at hbt
            · rename_i hp
              have h1 := live_group b ((1, 1) :: stk) env (by simp only [List.length_cons]; omega) _ _ hbt
              have h2 := taken_tail t hp stk e1 (by omega)
              have := run_ok_append h1 (run_ok_append h2 h3)
              rw [show b2n true = 1 from rfl, this]
              rfl
            · cases hbt
          | false =>
            simp only [Bool.false_eq_true, if_false] at hbt
            have h1 := dead_group b ((1, 0) :: stk) env (by simp only [List.length_cons]; omega)
            have h2 := live_tail t stk env (by omega) _ _ hbt
            have := run_ok_append h1 (run_ok_append h2 h3)
            rw [show b2n false = 0 from rfl, this]
            rfl
theorem live_tail (t : Tail) (stk : List (Nat × Nat)) (env : Env) (h : stk.length + 1 + t.depth ≤ stackSize) (env' : Env) (out : List Nat)
    (hs : t.sem env = some (env', out)) : run ⟨0, (1, 0) :: stk⟩ env t.lines = .ok (⟨1, stk⟩, env', out) := by
  match t with
  | .endif => simp only [Tail.sem, Option.some.injEq, Prod.mk.injEq] at hs; rw [← hs.1, ← hs.2]; rfl
  | .els b =>
    simp only [Tail.lines, Tail.depth, Tail.sem] at *
    rw [run_one _ _ _ _ _ _ (els_step 0 0 (by omega) 1 stk env (by omega))]
    have h1 := live_group b ((1, 3) :: stk) env (by simp only [List.length_cons]; omega) _ _ hs
    have := run_ok_append h1 (s2 := ⟨1, stk⟩) (e2 := env') (o2 := []) (b := [.endif]) rfl
    rw [show (1 &&& (2 + b2n (decide (0 = 0))) : Nat) = 1 from rfl, show 2 + b2n (decide (0 = 0)) = 3 from rfl, this]
    simp
  | .elif b t => simp only [Tail.sem] at hs; cases hs
theorem taken_tail (t : Tail) (hp : t.plainEnd = true) (stk : List (Nat × Nat)) (env : Env) (h : stk.length + 1 + t.depth ≤ stackSize) :
    run ⟨1, (1, 1) :: stk⟩ env t.lines = .ok (⟨1, stk⟩, env, []) := by
  match t with
  | .endif => rfl
  | .els b =>
    simp only [Tail.lines, Tail.depth] at *
    rw [run_one _ _ _ _ _ _ (els_step 1 1 (by omega) 1 stk env (by omega))]
    have h1 := dead_group b ((1, 2) :: stk) env (by simp only [List.length_cons]; omega)
    have := run_ok_append h1 (s2 := ⟨1, stk⟩) (e2 := env) (o2 := []) (b := [.endif]) rfl
    rw [show (1 &&& (2 + b2n (decide (1 = 0))) : Nat) = 0 from rfl, show 2 + b2n (decide (1 = 0)) = 2 from rfl, this]
    rfl
  | .elif b t => simp only [Tail.plainEnd] at hp; cases hp
end

/-! ### depth -/

theorem run_split {a b : List Line} {s s2 : St} {env e2 : Env} {o : List Nat} (h : run s env (a ++ b) = .ok (s2, e2, o)) :
    ∃ s1 e1 o1 o2, run s env a = .ok (s1, e1, o1) ∧ run s1 e1 b = .ok (s2, e2, o2) ∧ o = o1 ++ o2 := by
  rw [run_append] at h
  split at h
  · cases h
  · rename_i s1 e1 o1 h1
    split at h
    · cases h
    · rename_i s3 e3 o3 h3
      cases h
      exact ⟨s1, e1, o1, o3, h1, h3, rfl⟩

theorem run_cons {l : Line} {ls : List Line} {s s2 : St} {env e2 : Env} {o : List Nat} (h : run s env (l :: ls) = .ok (s2, e2, o)) :
    ∃ s1 e1 o1 o2, step s env l = .ok (s1, e1, o1) ∧ run s1 e1 ls = .ok (s2, e2, o2) ∧ o = o1 ++ o2 := by
  simp only [run] at h
  split at h
  · cases h
  · rename_i s1 e1 o1 h1
    split at h
    · cases h
    · rename_i s3 e3 o3 h3
      cases h
      exact ⟨s1, e1, o1, o3, h1, h3, rfl⟩

theorem push_stack {s s' : St} {n : Nat} (h : push s n = .ok s') : s'.stack = (s.live, n) :: s.stack ∧ s.stack.length < stackSize ∧ s'.live = s.live &&& n := by
  unfold push at h
  split at h
  · cases h
  · cases h; exact ⟨rfl, by omega, rfl⟩

theorem plain_stack {l : Plain} {s s' : St} {env e' : Env} {o : List Nat} (h : step s env l.line = .ok (s', e', o)) : s' = s := by
  cases l <;> simp only [Plain.line, step] at h
  · split at h
    · cases h; rfl
    · split at h
      · cases h
      · cases h; rfl
  · split at h <;> (cases h; rfl)
  · cases h; rfl
  · split at h
    · cases h; rfl
    · cases h

theorem cond_stack {c : Cond} {s s' : St} {env e' : Env} {o : List Nat} (h : step s env c.line = .ok (s', e', o)) :
    ∃ n, n < 2 ∧ s'.stack = (s.live, n) :: s.stack ∧ s.stack.length < stackSize := by
  have hb : ∀ b, b2n b < 2 := by intro b; cases b <;> decide
  cases c <;> simp only [Cond.line, step] at h
  · split at h
    · cases h
    · rename_i n _ s1 h1
      cases h
      have := push_stack h1
      exact ⟨_, hb (env n), this.1, this.2.1⟩
  · split at h
    · cases h
    · rename_i n _ s1 h1
      cases h
      have := push_stack h1
      exact ⟨_, hb (!env n), this.1, this.2.1⟩
  · split at h
    · split at h
      · cases h
      · rename_i s1 h1
        cases h
        have := push_stack h1
        exact ⟨0, by decide, this.1, this.2.1⟩
    · cases h

theorem els_stack {s s' : St} {env e' : Env} {o : List Nat} (h : step s env .els = .ok (s', e', o)) :
    ∃ x n stk, s.stack = x :: stk ∧ x.2 < 2 ∧ 2 ≤ n.2 ∧ s'.stack = n :: stk ∧ stk.length < stackSize := by
  simp only [step] at h
  cases hs : s.stack with
  | nil => simp only [pop, hs] at h; cases h
  | cons x stk =>
    simp only [pop, hs] at h
    split at h
    · cases h
    · split at h
      · cases h
      · rename_i h2 s1 h1
        cases h
        have := push_stack h1
        exact ⟨x, _, stk, rfl, by omega, by simp, this.1, this.2.1⟩

theorem endif_stack {s s' : St} {env e' : Env} {o : List Nat} (h : step s env .endif = .ok (s', e', o)) : ∃ x, s.stack = x :: s'.stack := by
  simp only [step] at h
  cases hs : s.stack with
  | nil => simp only [pop, hs] at h; cases h
  | cons x stk =>
    simp only [pop, hs] at h
    cases h
    exact ⟨x, rfl⟩

theorem elif_stack {s s' : St} {env e' : Env} {o : List Nat} (h : step s env .elif = .ok (s', e', o)) :
    ∃ x n stk, s.stack = x :: stk ∧ s'.stack = n :: stk ∧ stk.length < stackSize := by
  simp only [step] at h
  split at h
  · cases hs : s.stack with
    | nil => simp only [pop, hs] at h; cases h
    | cons x stk =>
      simp only [pop, hs] at h
      split at h
      · cases h
      · rename_i s1 h1
        cases h
        have := push_stack h1
        exact ⟨x, _, stk, rfl, this.1, this.2.1⟩
  · cases h

mutual
theorem depth_group (g : Group) (s s' : St) (env e' : Env) (o : List Nat) (hl : s.stack.length ≤ stackSize) (h : run s env g.lines = .ok (s', e', o)) :
    s'.stack = s.stack ∧ s.stack.length + g.depth ≤ stackSize := by
  match g with
  | .nil => cases h; exact ⟨rfl, by simpa [Group.depth] using hl⟩
  | .plain l r =>
    simp only [Group.lines, Group.depth] at *
    obtain ⟨s1, e1, o1, o2, h1, h2, _⟩ := run_cons h
    have := plain_stack h1
    subst this
    exact depth_group r _ s' e1 e' o2 hl h2
  | .cond c b t r =>
    simp only [Group.lines, Group.depth] at *
    obtain ⟨s1, e1, o1, o2, h1, h2, _⟩ := run_cons h
    obtain ⟨n, _, c1, c2⟩ := cond_stack h1
    obtain ⟨s2, e2, o3, o4, h3, h4, _⟩ := run_split h2
    obtain ⟨s3, e3, o5, o6, h5, h6, _⟩ := run_split h4
    have d1 := depth_group b s1 s2 e1 e2 o3 (by rw [c1, List.length_cons]; omega) h3
    have d2 := depth_tail t s2 s3 e2 e3 o5 (s.live, n) s.stack (by rw [d1.1, c1]) (by omega) h5
    have d3 := depth_group r s3 s' e3 e' o6 (by rw [d2.1]; exact hl) h6
    have hlen : s1.stack.length = s.stack.length + 1 := by rw [c1, List.length_cons]
    refine ⟨by rw [d3.1, d2.1], ?_⟩
    have := d3.2
    rw [d2.1] at this
    omega
theorem depth_tail (t : Tail) (s s' : St) (env e' : Env) (o : List Nat) (x : Nat × Nat) (stk : List (Nat × Nat)) (hx : s.stack = x :: stk) (hl : stk.length < stackSize) (h : run s env t.lines = .ok (s', e', o)) :
    s'.stack = stk ∧ stk.length + 1 + t.depth ≤ stackSize := by
  match t with
  | .endif =>
    simp only [Tail.lines, Tail.depth] at *
    obtain ⟨s1, e1, o1, o2, h1, h2, _⟩ := run_cons h
    obtain ⟨y, hy⟩ := endif_stack h1
    cases h2
    rw [hx] at hy
    cases hy
    exact ⟨rfl, by omega⟩
  | .els b =>
    simp only [Tail.lines, Tail.depth] at *
    obtain ⟨s1, e1, o1, o2, h1, h2, _⟩ := run_cons h
    obtain ⟨y, n, stk', g1, _, _, g2, g3⟩ := els_stack h1
    rw [hx] at g1
    cases g1
    obtain ⟨s2, e2, o3, o4, h3, h4, _⟩ := run_split h2
    have d1 := depth_group b s1 s2 e1 e2 o3 (by rw [g2, List.length_cons]; omega) h3
    obtain ⟨s3, e3, o5, o6, h5, h6, _⟩ := run_cons h4
    obtain ⟨y, hy⟩ := endif_stack h5
    cases h6
    rw [d1.1, g2] at hy
    cases hy
    refine ⟨rfl, ?_⟩
    have := d1.2
    rw [g2, List.length_cons] at this
    exact this
  | .elif b t =>
    simp only [Tail.lines, Tail.depth] at *
    obtain ⟨s1, e1, o1, o2, h1, h2, _⟩ := run_cons h
    obtain ⟨y, n, stk', g1, g2, g3⟩ := elif_stack h1
    rw [hx] at g1
    cases g1
    obtain ⟨s2, e2, o3, o4, h3, h4, _⟩ := run_split h2
    have d1 := depth_group b s1 s2 e1 e2 o3 (by rw [g2, List.length_cons]; omega) h3
    have d2 := depth_tail t s2 s' e2 e' o4 n stk (by rw [d1.1, g2]) hl h4
    refine ⟨d2.1, ?_⟩
    have := d1.2
    have := d2.2
    rw [g2, List.length_cons] at *
    omega
end

/-! ### accepted sequences are balanced -/

/-- lines that close the open conditionals; `true`: its `#else` was seen -/
inductive Closes : List Bool → List Line → Prop
  | done (g : Group) : Closes [] g.lines
  | open (g : Group) (t : Tail) (k : List Bool) (r : List Line) : Closes k r → Closes (false :: k) (g.lines ++ (t.lines ++ r))
  | els (g : Group) (k : List Bool) (r : List Line) : Closes k r → Closes (true :: k) (g.lines ++ Line.endif :: r)

theorem Closes.plain (l : Plain) {k : List Bool} {ls : List Line} (h : Closes k ls) : Closes k (l.line :: ls) := by
  cases h with
  | done g => exact .done (.plain l g)
  | «open» g t k r h => exact .open (.plain l g) t k r h
  | els g k r h => exact .els (.plain l g) k r h

theorem Closes.cond (c : Cond) {k : List Bool} {ls : List Line} (h : Closes (false :: k) ls) : Closes k (c.line :: ls) := by
  cases h with
  | «open» g t k r h =>
    cases h with
    | done g' => exact .done (.cond c g t g')
    | «open» g' t' k r h =>
      have := Closes.open (.cond c g t g') t' k r h
      simpa [Group.lines] using this
    | els g' k r h =>
      have := Closes.els (.cond c g t g') k r h
      simpa [Group.lines] using this

def flags (s : St) : List Bool := s.stack.map fun x => decide (2 ≤ x.2)

theorem flags_cons {s : St} {x : Nat × Nat} {stk : List (Nat × Nat)} (h : s.stack = x :: stk) : flags s = decide (2 ≤ x.2) :: stk.map fun x => decide (2 ≤ x.2) := by
  unfold flags; rw [h]; rfl

theorem closes_of_run (ls : List Line) : ∀ (s s' : St) (env e' : Env) (o : List Nat), run s env ls = .ok (s', e', o) → s'.stack = [] → .elif ∉ ls → Closes (flags s) ls := by
  induction ls with
  | nil =>
    intro s s' env e' o h hs _
    cases h
    unfold flags; rw [hs]
    exact .done .nil
  | cons l ls ih =>
    intro s s' env e' o h hs hne
    obtain ⟨s1, e1, o1, o2, h1, h2, _⟩ := run_cons h
    have hrec := ih s1 s' e1 e' o2 h2 hs (fun hm => hne (by simp [hm]))
    have hplain : ∀ p : Plain, p.line = l → Closes (flags s) (l :: ls) := by
      intro p hp
      subst hp
      have := plain_stack h1
      subst this
      exact hrec.plain p
    have hcond : ∀ c : Cond, c.line = l → Closes (flags s) (l :: ls) := by
      intro c hc
      subst hc
      obtain ⟨n, hn, g1, _⟩ := cond_stack h1
      rw [flags_cons g1, decide_eq_false (by simp only; omega)] at hrec
      exact hrec.cond c
    cases l with
    | ifdef n => exact hcond (.ifdef n) rfl
    | ifndef n => exact hcond (.ifndef n) rfl
    | ifExpr => exact hcond .ifExpr rfl
    | define n => exact hplain (.define n) rfl
    | undef n => exact hplain (.undef n) rfl
    | text n => exact hplain (.text n) rfl
    | other => exact hplain .other rfl
    | elif => simp at hne
    | els =>
      obtain ⟨x, n, stk, g1, g2, g3, g4, _⟩ := els_stack h1
      rw [flags_cons g4, decide_eq_true g3] at hrec
      rw [flags_cons g1, decide_eq_false (by omega)]
      cases hrec with
      | els g _ r hk =>
        have := Closes.open .nil (.els g) _ r hk
        simpa [Group.lines, Tail.lines] using this
    | endif =>
      obtain ⟨x, g1⟩ := endif_stack h1
      rw [flags_cons g1]
      by_cases hx : 2 ≤ x.2
      · rw [decide_eq_true hx]
        exact .els .nil _ _ hrec
      · rw [decide_eq_false hx]
        exact .open .nil .endif _ _ hrec

end Smlr.Prep
