import Verif.Parse.Lemmas
set_option autoImplicit false
/-! Smaller stacks make no difference but that the parser can give up. -/
namespace Smlr.Parse

/-- `m` gives up or does what `m'` does -/
def Sub {α : Type} (m m' : P α) : Prop := ∀ s, m s = .error .long ∨ m s = m' s

theorem Sub.rfl {α : Type} {m : P α} : Sub m m := fun _ => .inr _root_.rfl

theorem Sub.bind {α β : Type} {m m' : P α} {f f' : α → P β} (h : Sub m m') (hf : ∀ a, Sub (f a) (f' a)) : Sub (m >>= f) (m' >>= f') := by
  intro s
  show P.bind m f s = _ ∨ P.bind m f s = P.bind m' f' s
  unfold P.bind
  rcases h s with h | h
  · rw [h]; exact .inl _root_.rfl
  · rw [h]
    cases m' s with
    | error e => exact .inr _root_.rfl
    | ok r => exact hf r.1 r.2

theorem Sub.ite {α : Type} {b : Prop} [Decidable b] {m m' k k' : P α} (h : Sub m m') (h' : Sub k k') : Sub (if b then m else k) (if b then m' else k') := by
  split
  · exact h
  · exact h'

variable {c c' : Cap}

theorem sub_push (hS : c.S ≤ c'.S) (x : Lx) : Sub (push c x) (push c' x) := by
  intro s
  unfold push
  by_cases h : s.stk.length ≥ c.S
  · rw [if_pos h]; exact .inl rfl
  · rw [if_neg h, if_neg (by omega)]; exact .inr rfl

theorem sub_ins (hS : c.S ≤ c'.S) (pos : Nat) (x : Lx) : Sub (ins c pos x) (ins c' pos x) := by
  intro s
  unfold ins
  by_cases h : s.stk.length ≥ c.S
  · rw [if_pos h]; exact .inl rfl
  · rw [if_neg h, if_neg (by omega)]; exact .inr rfl

theorem sub_pushop (hP : c.P ≤ c'.P) (x : Lx) : Sub (pushop c x) (pushop c' x) := by
  intro s
  unfold pushop
  by_cases h : s.ops.length ≥ c.P
  · rw [if_pos h]; exact .inl rfl
  · rw [if_neg h, if_neg (by omega)]; exact .inr rfl

theorem sub_pushUnary (hS : c.S ≤ c'.S) (t : Tk) : Sub (pushUnary c t) (pushUnary c' t) := by
  unfold pushUnary
  split
  all_goals first | exact sub_push hS _ | exact (sub_push hS _).bind fun _ => sub_push hS _

theorem sub_popN (hS : c.S ≤ c'.S) : ∀ n, Sub (popN c n) (popN c' n)
  | 0 => .rfl
  | n + 1 => Sub.rfl.bind fun v => (sub_push hS v).bind fun _ => sub_popN hS n

theorem sub_popOne (hS : c.S ≤ c'.S) : Sub (popOne c) (popOne c') :=
  Sub.rfl.bind fun v => .ite ((sub_popN hS v.2).bind fun _ => sub_push hS _) (sub_push hS v)

theorem sub_popWhile (hS : c.S ≤ c'.S) (f : Tk → Bool) : ∀ n, Sub (popWhile c f n) (popWhile c' f n)
  | 0 => .rfl
  | n + 1 => Sub.rfl.bind fun _ => .ite ((sub_popOne hS).bind fun _ => sub_popWhile hS f n) .rfl

theorem sub_popAll (hS : c.S ≤ c'.S) (f : Tk → Bool) : Sub (popAll c f) (popAll c' f) := fun s => sub_popWhile hS f _ s

theorem sub_moveOps (hP : c.P ≤ c'.P) : ∀ n, Sub (moveOps c n) (moveOps c' n)
  | 0 => .rfl
  | n + 1 => Sub.rfl.bind fun v => (sub_pushop hP v).bind fun _ => sub_moveOps hP n

theorem sub_moveArg (hS : c.S ≤ c'.S) (pos : Nat) : ∀ n, Sub (moveArg c pos n) (moveArg c' pos n)
  | 0 => .rfl
  | n + 1 => Sub.rfl.bind fun v => (sub_ins hS pos v).bind fun _ => sub_moveArg hS pos n

theorem sub_all (hS : c.S ≤ c'.S) (hP : c.P ≤ c'.P) : ∀ n,
    (∀ t cs sz, Sub (exprUnary c n t cs sz) (exprUnary c' n t cs sz)) ∧ (∀ t cs sz, Sub (primary c n t cs sz) (primary c' n t cs sz)) ∧
    (∀ i t, Sub (postLoop c n i t) (postLoop c' n i t)) ∧ (∀ i b, Sub (args c n i b) (args c' n i b)) ∧ (∀ t cs, Sub (expr c n t cs) (expr c' n t cs)) ∧
    (∀ t g cs, Sub (exprLoop c n t g cs) (exprLoop c' n t g cs)) ∧ (∀ t, Sub (quest c n t) (quest c' n t))
  | 0 => ⟨fun _ _ _ => .rfl, fun _ _ _ => .rfl, fun _ _ => .rfl, fun _ _ => .rfl, fun _ _ => .rfl, fun _ _ _ => .rfl, fun _ => .rfl⟩
  | n + 1 => by
    obtain ⟨h1, h2, h3, h4, h5, h6, h7⟩ := sub_all hS hP n
    refine ⟨fun t cs sz => ?_, fun t cs sz => ?_, fun i t => ?_, fun i b => ?_, fun t cs => ?_, fun t g cs => ?_, fun t => ?_⟩
    · unfold exprUnary
      exact .ite (Sub.rfl.bind fun x => (h1 _ _ _).bind fun r => Sub.rfl.bind fun _ => (sub_pushUnary hS _).bind fun _ => .rfl)
        (Sub.rfl.bind fun i => (h2 _ _ _).bind fun p => (Sub.ite (h3 _ _) .rfl).bind fun _ => .rfl)
    · unfold primary
      split
      all_goals first
        | exact (sub_push hS _).bind fun _ => .rfl
        | exact Sub.rfl.bind fun _ => (sub_push hS _).bind fun _ => .rfl
        | exact .rfl
        | skip
      exact Sub.rfl.bind fun x => .ite
        (Sub.rfl.bind fun y => Sub.rfl.bind fun _ => Sub.rfl.bind fun z => .ite ((sub_push hS _).bind fun _ => .rfl)
          ((h1 _ _ _).bind fun r => Sub.rfl.bind fun _ => (sub_push hS _).bind fun _ => .rfl))
        ((h5 _ _).bind fun r => .rfl)
    · unfold postLoop
      split
      · exact (sub_ins hS _ _).bind fun _ => (h4 _ _).bind fun _ => (sub_push hS _).bind fun _ => Sub.rfl.bind fun x => h3 _ _
      · exact Sub.rfl.bind fun x => (h5 _ _).bind fun r => Sub.rfl.bind fun _ => Sub.rfl.bind fun _ => (sub_push hS _).bind fun _ => (sub_push hS _).bind fun _ =>
          Sub.rfl.bind fun y => h3 _ _
      · exact (sub_push hS _).bind fun _ => Sub.rfl.bind fun y => h3 _ _
      · exact (sub_push hS _).bind fun _ => Sub.rfl.bind fun y => h3 _ _
      · exact (sub_push hS _).bind fun _ => Sub.rfl.bind fun x => Sub.rfl.bind fun _ => (sub_push hS _).bind fun _ => (sub_push hS _).bind fun _ => (sub_push hS _).bind fun _ =>
          Sub.rfl.bind fun y => h3 _ _
      · exact Sub.rfl.bind fun x => Sub.rfl.bind fun _ => (sub_push hS _).bind fun _ => (sub_push hS _).bind fun _ => (sub_push hS _).bind fun _ => Sub.rfl.bind fun y => h3 _ _
      · exact .rfl
    · unfold args
      exact Sub.rfl.bind fun p => Sub.rfl.bind fun x => (h5 _ _).bind fun r => Sub.rfl.bind fun sp => (sub_moveArg hS _ _).bind fun _ => .ite
        (Sub.rfl.bind fun _ => (sub_ins hS _ _).bind fun _ => h4 _ _) .rfl
    · unfold expr
      exact (sub_pushop hP _).bind fun _ => (h1 _ _ _).bind fun r => (h6 _ _ _).bind fun r => (sub_popAll hS _).bind fun _ => .rfl
    · unfold exprLoop
      exact .ite .rfl (.ite ((sub_popAll hS _).bind fun _ => (h7 _).bind fun _ => Sub.rfl.bind fun x => (h1 _ _ _).bind fun r => Sub.rfl.bind fun _ => h6 _ _ _) .rfl)
    · unfold quest
      exact .ite (Sub.rfl.bind fun p => Sub.rfl.bind fun x => (h5 _ _).bind fun r => Sub.rfl.bind fun _ => Sub.rfl.bind fun sp => (sub_moveOps hP _).bind fun _ => sub_pushop hP _)
        (sub_pushop hP _)

/-! No input makes the parser write outside its stacks. -/

/-- the stacks are within their arrays -/
def Bd (c : Cap) (s : PS) : Prop := s.stk.length ≤ c.S ∧ s.ops.length ≤ c.P

def Keep {α : Type} (c : Cap) (m : P α) : Prop := ∀ s, Bd c s → ∀ a s', m s = .ok (a, s') → Bd c s'

theorem Keep.bind {α β : Type} {m : P α} {f : α → P β} (h : Keep c m) (hf : ∀ a, Keep c (f a)) : Keep c (m >>= f) := by
  intro s hs a s' e
  have e : P.bind m f s = .ok (a, s') := e
  unfold P.bind at e
  cases hm : m s with
  | error x => rw [hm] at e; cases e
  | ok r => rw [hm] at e; exact hf r.1 r.2 (h s hs r.1 r.2 hm) a s' e

theorem Keep.ite {α : Type} {b : Prop} [Decidable b] {m k : P α} (h : Keep c m) (h' : Keep c k) : Keep c (if b then m else k) := by
  split
  · exact h
  · exact h'

theorem Keep.pure {α : Type} {a : α} : Keep c (pure a : P α) := by
  intro s hs a s' e
  cases e
  exact hs

theorem keep_push {x : Lx} : Keep c (push c x) := by
  intro s hs a s' e
  unfold push at e
  split at e
  · cases e
  · cases e
    refine ⟨?_, hs.2⟩
    simp only [List.length_append, List.length_cons, List.length_nil]
    omega

theorem keep_ins {pos : Nat} {x : Lx} : Keep c (ins c pos x) := by
  intro s hs a s' e
  unfold ins at e
  split at e
  · cases e
  · cases e
    refine ⟨?_, hs.2⟩
    simp only [List.length_append, List.length_cons, List.length_take, List.length_drop]
    omega

theorem keep_pushop {x : Lx} : Keep c (pushop c x) := by
  intro s hs a s' e
  unfold pushop at e
  split at e
  · cases e
  · cases e
    refine ⟨hs.1, ?_⟩
    simp only [List.length_cons]
    omega

theorem keep_pop : Keep c pop := by
  intro s hs a s' e
  unfold pop at e
  split at e
  · cases e
  · rename_i x r hr
    cases e
    refine ⟨?_, hs.2⟩
    have h1 : s.stk.length = r.length + 1 := by rw [← List.length_reverse, hr]; rfl
    have := hs.1
    simp only [List.length_reverse]
    omega

theorem keep_popop : Keep c popop := by
  intro s hs a s' e
  unfold popop at e
  split at e
  · cases e
  · rename_i x r hr
    cases e
    refine ⟨hs.1, ?_⟩
    have := hs.2
    rw [hr] at this
    simp only [List.length_cons] at this ⊢
    omega

theorem keep_optop : Keep c optop := by
  intro s hs a s' e
  unfold optop at e
  split at e
  · cases e
  · cases e; exact hs

theorem keep_getToken : Keep c getToken := by
  intro s hs a s' e
  unfold getToken at e
  split at e <;> cases e <;> exact hs

theorem keep_getAfterStr : Keep c getAfterStr := by
  intro s hs a s' e
  unfold getAfterStr at e
  cases e
  exact hs

theorem keep_getSp : Keep c getSp := by
  intro s hs a s' e
  unfold getSp at e
  cases e
  exact hs

theorem keep_failIf {b : Bool} {x : Err} : Keep c (failIf b x) := by
  intro s hs a s' e
  unfold failIf at e
  split at e <;> cases e
  exact hs

theorem keep_fail {α : Type} {x : Err} : Keep c (fail x : P α) := by
  intro s hs a s' e
  cases e

theorem keep_pushUnary {t : Tk} : Keep c (pushUnary c t) := by
  unfold pushUnary
  split
  all_goals first | exact keep_push | exact keep_push.bind fun _ => keep_push

theorem keep_popN : ∀ n, Keep c (popN c n)
  | 0 => .pure
  | n + 1 => keep_popop.bind fun _ => keep_push.bind fun _ => keep_popN n

theorem keep_popOne : Keep c (popOne c) := keep_popop.bind fun v => .ite ((keep_popN v.2).bind fun _ => keep_push) keep_push

theorem keep_popWhile (f : Tk → Bool) : ∀ n, Keep c (popWhile c f n)
  | 0 => keep_fail
  | n + 1 => keep_optop.bind fun _ => .ite (keep_popOne.bind fun _ => keep_popWhile f n) .pure

theorem keep_popAll (f : Tk → Bool) : Keep c (popAll c f) := fun s => keep_popWhile f _ s

theorem keep_moveOps : ∀ n, Keep c (moveOps c n)
  | 0 => .pure
  | n + 1 => keep_pop.bind fun _ => keep_pushop.bind fun _ => keep_moveOps n

theorem keep_moveArg (pos : Nat) : ∀ n, Keep c (moveArg c pos n)
  | 0 => .pure
  | n + 1 => keep_pop.bind fun _ => keep_ins.bind fun _ => keep_moveArg pos n

theorem keep_all : ∀ n,
    (∀ t cs sz, Keep c (exprUnary c n t cs sz)) ∧ (∀ t cs sz, Keep c (primary c n t cs sz)) ∧ (∀ i t, Keep c (postLoop c n i t)) ∧ (∀ i b, Keep c (args c n i b)) ∧
    (∀ t cs, Keep c (expr c n t cs)) ∧ (∀ t g cs, Keep c (exprLoop c n t g cs)) ∧ (∀ t, Keep c (quest c n t))
  | 0 => ⟨fun _ _ _ => keep_fail, fun _ _ _ => keep_fail, fun _ _ => keep_fail, fun _ _ => keep_fail, fun _ _ => keep_fail, fun _ _ _ => keep_fail, fun _ => keep_fail⟩
  | n + 1 => by
    obtain ⟨h1, h2, h3, h4, h5, h6, h7⟩ := keep_all n
    refine ⟨fun t cs sz => ?_, fun t cs sz => ?_, fun i t => ?_, fun i b => ?_, fun t cs => ?_, fun t g cs => ?_, fun t => ?_⟩
    · unfold exprUnary
      exact .ite (keep_getToken.bind fun x => (h1 _ _ _).bind fun r => keep_failIf.bind fun _ => keep_pushUnary.bind fun _ => .pure)
        (keep_getSp.bind fun i => (h2 _ _ _).bind fun p => (Keep.ite (h3 _ _) .pure).bind fun _ => .pure)
    · unfold primary
      split
      all_goals first
        | exact keep_push.bind fun _ => keep_getToken.bind fun _ => .pure
        | exact keep_getAfterStr.bind fun _ => keep_push.bind fun _ => .pure
        | exact .pure
        | skip
      exact keep_getToken.bind fun x => .ite
        (keep_getToken.bind fun y => keep_failIf.bind fun _ => keep_getToken.bind fun z => .ite (keep_push.bind fun _ => .pure)
          ((h1 _ _ _).bind fun r => keep_failIf.bind fun _ => keep_push.bind fun _ => .pure))
        ((h5 _ _).bind fun r => keep_failIf.bind fun _ => keep_failIf.bind fun _ => keep_getToken.bind fun _ => .pure)
    · unfold postLoop
      split
      · exact keep_ins.bind fun _ => (h4 _ _).bind fun _ => keep_push.bind fun _ => keep_getToken.bind fun x => h3 _ _
      · exact keep_getToken.bind fun x => (h5 _ _).bind fun r => keep_failIf.bind fun _ => keep_failIf.bind fun _ => keep_push.bind fun _ => keep_push.bind fun _ =>
          keep_getToken.bind fun y => h3 _ _
      · exact keep_push.bind fun _ => keep_getToken.bind fun y => h3 _ _
      · exact keep_push.bind fun _ => keep_getToken.bind fun y => h3 _ _
      · exact keep_push.bind fun _ => keep_getToken.bind fun x => keep_failIf.bind fun _ => keep_push.bind fun _ => keep_push.bind fun _ => keep_push.bind fun _ =>
          keep_getToken.bind fun y => h3 _ _
      · exact keep_getToken.bind fun x => keep_failIf.bind fun _ => keep_push.bind fun _ => keep_push.bind fun _ => keep_push.bind fun _ => keep_getToken.bind fun y => h3 _ _
      · exact .pure
    · unfold args
      exact keep_getSp.bind fun p => keep_getToken.bind fun x => (h5 _ _).bind fun r => keep_getSp.bind fun sp => (keep_moveArg _ _).bind fun _ => .ite
        (keep_failIf.bind fun _ => keep_ins.bind fun _ => h4 _ _) (keep_failIf.bind fun _ => keep_failIf)
    · unfold expr
      exact keep_pushop.bind fun _ => (h1 _ _ _).bind fun r => (h6 _ _ _).bind fun r => (keep_popAll _).bind fun _ => keep_popop.bind fun _ => .pure
    · unfold exprLoop
      exact .ite .pure (.ite ((keep_popAll _).bind fun _ => (h7 _).bind fun _ => keep_getToken.bind fun x => (h1 _ _ _).bind fun r => keep_failIf.bind fun _ => h6 _ _ _) keep_fail)
    · unfold quest
      exact .ite (keep_getSp.bind fun p => keep_getToken.bind fun x => (h5 _ _).bind fun r => keep_failIf.bind fun _ => keep_getSp.bind fun sp => (keep_moveOps _).bind fun _ => keep_pushop)
        keep_pushop

end Smlr.Parse
