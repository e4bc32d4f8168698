import Verif.Init.Sound

/-! # Initialisers: what has a meaning is accepted -/
set_option autoImplicit false

namespace Smlr.Init

/-- what follows the first initialisers of a list -/
def after (l : List Ini) (tail : List Tok) : List Tok := if l = [] then tail else .comma :: (flatL l ++ tail)

theorem flatL_after (i : Ini) (l : List Ini) (tail : List Tok) : flatL (i :: l) ++ tail = flat i ++ after l tail := by
  cases l with
  | nil => simp [flatL, after]
  | cons j l => simp [flatL, after]

/-- no string literal comes next -/
def NoLit (ts : List Tok) : Prop := ∀ w s, ts.head? ≠ some (.lit w s)

theorem noLit_after (l : List Ini) (tail : List Tok) (h : NoLit tail) : NoLit (after l tail) := by
  unfold after
  split
  · exact h
  · intro w s; simp

/-- the end of a braced list -/
def fin (tc : Bool) (x : List Tok) : List Tok := tcs tc ++ .rb :: x

theorem noLit_fin (tc : Bool) (x : List Tok) : NoLit (fin tc x) := by
  intro w s
  cases tc <;> simp [fin, tcs]

theorem lits_map (w : Bool) (ps : List (List Nat)) (r : List Tok) (h : NoLit r) : lits w (ps.map (.lit w) ++ r) = some (ps.flatten, r) := by
  induction ps with
  | nil =>
    cases r with
    | nil => rfl
    | cons t r =>
      cases t
      case lit w' s => exact absurd rfl (h w' s)
      all_goals rfl
  | cons p ps ih => simp [lits, ih]

theorem scalar_complete {W n : Nat} {i : Ini} {v : V} {c : List Cell} {r : List Tok} (h : scalarOf i = some v) (hc : scalarBytes W n v = some c) (hr : NoLit r) :
    initScalar W n (flat i ++ r) = some (c, r) := by
  have h2 : NoLit (.rb :: r) := by intro w s; simp
  rw [← cells_eq] at hc
  unfold scalarOf at h
  split at h
  · cases h
    simp [initScalar, flat, opened, value, close, hc]
  · cases h
    simp [initScalar, flat, opened, value, close, hc, lits_map _ _ _ hr]
  · cases h
    simp [initScalar, flat, flatL, tcs, opened, value, close, hc]
  · cases h
    simp [initScalar, flat, flatL, tcs, opened, value, close, hc, lits_map _ _ _ h2]
  · cases h

/-- the code `f` accepts what has a meaning according to `g`, inside a braced list -/
def Accepts (f : List Tok → Option (List Cell × List Tok)) (g : Nat → List Ini → Option (Pl × List Ini)) : Prop :=
  ∀ l pl more o, plainL l = true → g o l = some (pl, more) →
    more.length < l.length ∧ plainL more = true ∧ ∀ tc x, ∃ out r, f (flatL l ++ fin tc x) = some (out, r) ∧ (r = after more (fin tc x) ∨ (more = [] ∧ r = .rb :: x))

theorem plainL_cons {i : Ini} {l : List Ini} (h : plainL (i :: l) = true) : plain i = true ∧ plainL l = true := by
  rw [plainL] at h
  simpa using h

theorem flat_ne (i : Ini) (hp : plain i = true) (r : List Tok) : ¬ Ends (flat i ++ r) := by
  cases i <;> simp [flat, Ends]

theorem flatL_ne (i : Ini) (l : List Ini) (r : List Tok) : ¬ Ends (flatL (i :: l) ++ r) := by
  cases l <;> cases i <;> simp [flatL, flat, Ends]

theorem arrLoop_step {f : List Tok → Option (List Cell × List Tok)} {br : Bool} {n fuel cnt : Nat} {ts : List Tok} (h : ¬ Ends ts) :
    arrLoop f br n (fuel + 1) cnt ts = (f ts).bind fun a =>
        if n ≠ 0 ∧ cnt + 1 ≥ n then some (a.1, cnt + 1, lastComma br a.2)
        else
          match a.2 with
          | .comma :: r => (arrLoop f br n fuel (cnt + 1) r).bind fun c => some (a.1 ++ c.1, c.2)
          | .rb :: r => (arrLoop f br n fuel (cnt + 1) (.rb :: r)).bind fun c => some (a.1 ++ c.1, c.2)
          | _ => none := by
  rw [arrLoop]
  rotate_left
  · intro r0 e; exact h (e ▸ ends_rb r0)
  rfl

/-- the end of the loop -/
def EndsAt (br : Bool) (more : List Ini) (tc : Bool) (x r : List Tok) : Prop :=
  if br then more = [] → r = .rb :: x else r = after more (fin tc x) ∨ (more = [] ∧ r = .rb :: x)

theorem lastComma_ends {br : Bool} {more : List Ini} {tc : Bool} {x r : List Tok} (h : r = after more (fin tc x) ∨ (more = [] ∧ r = .rb :: x)) : EndsAt br more tc x (lastComma br r) := by
  cases br with
  | false =>
    have : lastComma false r = r := by unfold lastComma; split <;> rfl
    rw [this]
    exact h
  | true =>
    intro hm
    subst hm
    rcases h with h | ⟨_, h⟩
    · subst h
      cases tc <;> rfl
    · subst h
      rfl

theorem arrLoop_complete {f : List Tok → Option (List Cell × List Tok)} {g : Nat → List Ini → Option (Pl × List Ini)} {sz : Nat} (hf : Accepts f g) (br : Bool) (n : Nat) :
    ∀ (k fuel cnt o : Nat) (i : Ini) (l : List Ini) (pl : Pl) (more : List Ini), plainL (i :: l) = true → (n ≠ 0 → cnt + k = n) → (n = 0 → more = []) → 0 < k → (l.length + 1 < fuel) → fill g sz k o (i :: l) = some (pl, more) →
      more.length < (i :: l).length ∧ plainL more = true ∧ ∀ tc x, ∃ out cnt' r, arrLoop f br n fuel cnt (flatL (i :: l) ++ fin tc x) = some (out, cnt', r) ∧ cnt < cnt' ∧ EndsAt br more tc x r := by
  intro k
  induction k with
  | zero => intro fuel cnt o i l pl more _ _ _ h; omega
  | succ k ih =>
    intro fuel cnt o i l pl more hp hn hn0 _ hfuel h
    rw [fill] at h
    obtain ⟨⟨p1, more1⟩, h1, h⟩ := Option.bind_eq_some_iff.mp h
    obtain ⟨⟨p2, more2⟩, h2, h⟩ := Option.bind_eq_some_iff.mp h
    simp only [Option.some.injEq, Prod.mk.injEq] at h
    obtain ⟨_, rfl⟩ := h
    obtain ⟨c1, c2, c3⟩ := hf _ _ _ _ hp h1
    obtain ⟨fuel, rfl⟩ : ∃ q, fuel = q + 1 := ⟨fuel - 1, by omega⟩
    by_cases hlast : n ≠ 0 ∧ cnt + 1 ≥ n
    · have hk : k = 0 := by have := hn hlast.1; omega
      subst hk
      simp only [fill, Option.some.injEq, Prod.mk.injEq] at h2
      obtain ⟨_, rfl⟩ := h2
      refine ⟨c1, c2, ?_⟩
      intro tc x
      obtain ⟨out, r, d1, d2⟩ := c3 tc x
      refine ⟨out, cnt + 1, lastComma br r, ?_, by omega, lastComma_ends d2⟩
      rw [arrLoop_step (flatL_ne _ _ _), d1, Option.bind_some, if_pos hlast]
    · -- what happens at the closing brace
      have stop : ∀ x, ∃ c r, arrLoop f br n fuel (cnt + 1) (.rb :: x) = some ([], cnt + 1, .rb :: x) ∧ c = cnt + 1 ∧ r = Tok.rb :: x := by
        intro x
        obtain ⟨fuel, rfl⟩ : ∃ q, fuel = q + 1 := ⟨fuel - 1, by omega⟩
        exact ⟨_, _, by rw [arrLoop], rfl, rfl⟩
      cases more1 with
      | nil =>
        have hm : more2 = [] := by
          cases k <;> simp [fill] at h2 <;> exact h2.2
        subst hm
        refine ⟨by simp, rfl, ?_⟩
        intro tc x
        obtain ⟨out, r, d1, d2⟩ := c3 tc x
        obtain ⟨_, _, s1, _, _⟩ := stop x
        refine ⟨out ++ [], cnt + 1, .rb :: x, ?_, by omega, ?_⟩
        · rw [arrLoop_step (flatL_ne _ _ _), d1, Option.bind_some, if_neg hlast]
          have hr : r = .rb :: x ∨ r = .comma :: .rb :: x := by
            rcases d2 with h | ⟨_, h⟩
            · cases tc <;> simp [after, fin, tcs] at h
              · exact Or.inl h
              · exact Or.inr h
            · exact Or.inl h
          rcases hr with rfl | rfl
          · dsimp only
            rw [s1]
            rfl
          · dsimp only
            rw [s1]
            rfl
        · cases br with
          | true => intro _; rfl
          | false => exact Or.inr ⟨rfl, rfl⟩
      | cons i1 l1 =>
        have hk : 0 < k := by
          rcases Nat.eq_zero_or_pos k with e | e
          · subst e
            simp only [fill, Option.some.injEq, Prod.mk.injEq] at h2
            by_cases hz : n = 0
            · have := hn0 hz
              rw [this] at h2
              simp at h2
            · have := hn hz
              omega
          · exact e
        simp only [List.length_cons] at c1
        obtain ⟨e1, e2, e3⟩ := ih fuel (cnt + 1) (o + sz) i1 l1 p2 more2 c2 (fun h => by have := hn h; omega) hn0 hk (by omega) h2
        simp only [List.length_cons] at e1
        refine ⟨by simp only [List.length_cons]; omega, e2, ?_⟩
        intro tc x
        obtain ⟨out, r, d1, d2⟩ := c3 tc x
        obtain ⟨out2, cnt', r2, g1, g2, g3⟩ := e3 tc x
        have hr : r = .comma :: (flatL (i1 :: l1) ++ fin tc x) := by
          rcases d2 with h | ⟨h, _⟩
          · rw [h]; simp [after]
          · cases h
        refine ⟨out ++ out2, cnt', r2, ?_, by omega, g3⟩
        rw [arrLoop_step (flatL_ne _ _ _), d1, Option.bind_some, if_neg hlast, hr]
        dsimp only
        rw [g1]
        rfl

theorem flat_len (i : Ini) : 1 ≤ (flat i).length := by
  cases i <;> simp [flat]

theorem flatL_len (l : List Ini) : l.length ≤ (flatL l).length := by
  induction l with
  | nil => simp
  | cons i l ih =>
    have := flat_len i
    cases l with
    | nil => simpa [flatL] using this
    | cons j l =>
      rw [flatL_cons _ _ (by simp)]
      simp only [List.length_append, List.length_cons] at ih ⊢
      omega

/-- a string literal for an array -/
theorem str_complete {f : List Tok → Option (List Cell × List Tok)} {n sz : Nat} {k : Option Bool} {i : Ini} {s : List Nat} {r : List Tok} (h : strOf k i = some s) (hs : n ≠ 0 → s.length ≤ n) (hr : NoLit r) :
    ∃ out, initArr f n sz k (flat i ++ r) = some (out, if n = 0 then s.length + 1 else n, r) := by
  have h2 : NoLit (.rb :: r) := by intro w s; simp
  have hlen : ¬ (n ≠ 0 ∧ s.length > n) := by
    intro ⟨a, b⟩
    have := hs a
    omega
  unfold strOf at h
  split at h
  · rename_i w p ps
    split at h
    · rename_i hk
      simp only [Option.some.injEq] at h
      subst h
      refine ⟨(p ++ ps.flatten).flatMap (fun c : Nat => le sz (c : Int)) ++ zeros ((n - (p ++ ps.flatten).length) * sz) ++ (if n = 0 then zeros sz else []), ?_⟩
      have ht : opened (flat (.lit w p ps) ++ r) = (false, .lit w p :: (ps.map (.lit w) ++ r)) := by simp [flat, opened]
      unfold initArr
      rw [ht]
      dsimp only
      rw [if_pos (by simp [strStart, hk]), lits_map _ _ _ hr, Option.bind_some]
      dsimp only
      rw [if_neg hlen]
      simp [close]
    · cases h
  · rename_i w p ps
    split at h
    · rename_i hk
      simp only [Option.some.injEq] at h
      subst h
      refine ⟨(p ++ ps.flatten).flatMap (fun c : Nat => le sz (c : Int)) ++ zeros ((n - (p ++ ps.flatten).length) * sz) ++ (if n = 0 then zeros sz else []), ?_⟩
      have ht : opened (flat (.br [.lit w p ps] false) ++ r) = (true, .lit w p :: (ps.map (.lit w) ++ .rb :: r)) := by simp [flat, flatL, tcs, opened]
      unfold initArr
      rw [ht]
      dsimp only
      rw [if_pos (by simp [strStart, hk]), lits_map _ _ _ h2, Option.bind_some]
      dsimp only
      rw [if_neg hlen]
      simp [close]
    · cases h
  · cases h

theorem strStart_plain {k : Option Bool} {i : Ini} {l : List Ini} {x : List Tok} (hp : plain i = true) (h : ∀ w p ps, i = .lit w p ps → k ≠ some w) : strStart k (flatL (i :: l) ++ x) = false := by
  cases i with
  | br m tc => cases l <;> simp [flatL, flat, strStart]
  | ex m v =>
    have : m = none := by simpa [plain] using hp
    subst this
    cases l <;> simp [flatL, flat, strStart]
  | lit w p ps =>
    have := h w p ps rfl
    cases l <;> simp [flatL, flat, strStart, this]

/-- a braced list for an array -/
theorem list_complete {f : List Tok → Option (List Cell × List Tok)} {g : Nat → List Ini → Option (Pl × List Ini)} {sz : Nat} (hf : Accepts f g) {n m : Nat} {k : Option Bool} {l : List Ini} {tc : Bool} {o : Nat} {pl : Pl}
    (hl : l ≠ []) (hp : plainL l = true) (hb : begins k (.br l tc) = false) (hm : 0 < m) (hn : n ≠ 0 → m = n) (h : fill g sz m o l = some (pl, [])) (r : List Tok) :
    ∃ out c, initArr f n sz k (flat (.br l tc) ++ r) = some (out, c, r) := by
  have ht : opened (flat (.br l tc) ++ r) = (true, flatL l ++ fin tc r) := by
    simp [flat, opened, fin]
  cases l with
  | nil => exact absurd rfl hl
  | cons i l =>
    have hp1 := plainL_cons hp
    have hs : strStart k (flatL (i :: l) ++ fin tc r) = false := by
      apply strStart_plain hp1.1
      intro w p ps e
      subst e
      simpa [begins] using hb
    have hlen := flatL_len (i :: l)
    simp only [List.length_cons] at hlen
    obtain ⟨_, _, c3⟩ := arrLoop_complete hf true n m (n + (flatL (i :: l) ++ fin tc r).length + 1) 0 o i l pl [] hp (fun h => by rw [Nat.zero_add]; exact hn h) (fun _ => rfl) hm
      (by have : 0 < (fin tc r).length := by cases tc <;> simp [fin, tcs]
          rw [List.length_append]; omega) h
    obtain ⟨out, cnt, r', d1, d2, d3⟩ := c3 tc r
    have d4 : r' = .rb :: r := d3 rfl
    subst d4
    refine ⟨out ++ zeros ((n - cnt) * sz), if n = 0 then cnt else n, ?_⟩
    unfold initArr
    rw [ht]
    dsimp only
    rw [if_neg (by rw [hs]; simp), d1, Option.bind_some]
    dsimp only
    rw [if_neg (by omega)]
    simp [close]

theorem aggr_cases {g : List Ini → Option (Pl × List Ini)} {i : Ini} {l : List Ini} {pl : Pl} {more : List Ini} (h : aggr g (i :: l) = some (pl, more)) :
    (∃ m tc, i = .br m tc ∧ m ≠ [] ∧ g m = some (pl, []) ∧ more = l) ∨ ((∀ m tc, i ≠ .br m tc) ∧ g (i :: l) = some (pl, more)) := by
  cases i with
  | br m tc =>
    left
    cases m with
    | nil => cases h
    | cons j m =>
      rw [aggr_br (by simp)] at h
      refine ⟨j :: m, tc, rfl, by simp, ?_⟩
      unfold whole at h
      split at h
      · rename_i e
        simp only [Option.some.injEq, Prod.mk.injEq] at h
        rw [e, h.1]
        exact ⟨rfl, h.2.symm⟩
      · cases h
  | ex a b => exact Or.inr ⟨fun m tc => by simp, h⟩
  | lit a b c => exact Or.inr ⟨fun m tc => by simp, h⟩

theorem not_open {i : Ini} {l : List Ini} {x : List Tok} (h : ∀ m tc, i ≠ .br m tc) : opened (flatL (i :: l) ++ x) = (false, flatL (i :: l) ++ x) := by
  cases i with
  | br m tc => exact absurd rfl (h m tc)
  | ex a b => cases l <;> simp [flatL, flat, opened]
  | lit a b c => cases l <;> simp [flatL, flat, opened]

theorem arr_complete {f : List Tok → Option (List Cell × List Tok)} {g : Nat → List Ini → Option (Pl × List Ini)} {n sz : Nat} (hf : Accepts f g) (hn : n ≠ 0) (k : Option Bool) :
    Accepts (fun ts => (initArr f n sz k ts).bind fun a => some (a.1, a.2.2)) (arrOf g n sz k) := by
  intro l pl more o hp h
  cases l with
  | nil => cases h
  | cons i l =>
    have hp1 := plainL_cons hp
    rw [arrOf] at h
    cases hs : strOf k i with
    | some s =>
      rw [hs] at h
      dsimp only at h
      split at h
      · rename_i hlen
        simp only [Option.some.injEq, Prod.mk.injEq] at h
        obtain ⟨_, rfl⟩ := h
        refine ⟨by simp, hp1.2, ?_⟩
        intro tc x
        obtain ⟨out, e⟩ := str_complete (f := f) (sz := sz) hs (fun _ => hlen) (noLit_after l (fin tc x) (noLit_fin _ _))
        refine ⟨out, _, ?_, Or.inl rfl⟩
        dsimp only
        rw [flatL_after, e]
        rfl
      · cases h
    | none =>
      rw [hs] at h
      dsimp only at h
      split at h
      · cases h
      rename_i hb
      have hb : begins k i = false := by simpa using hb
      rcases aggr_cases h with ⟨m, tc1, rfl, hm, hg, rfl⟩ | ⟨hnb, hg⟩
      · refine ⟨by simp, hp1.2, ?_⟩
        intro tc x
        obtain ⟨out, c, e⟩ := list_complete hf hm (by simpa [plain] using hp1.1) hb (Nat.pos_of_ne_zero hn) (fun _ => rfl) hg (after more (fin tc x))
        refine ⟨out, _, ?_, Or.inl rfl⟩
        dsimp only
        rw [flatL_after, e]
        rfl
      · obtain ⟨c1, c2, c3⟩ : more.length < (i :: l).length ∧ plainL more = true ∧ ∀ tc x, ∃ out cnt' r, arrLoop f false n (n + (flatL (i :: l) ++ fin tc x).length + 1) 0 (flatL (i :: l) ++ fin tc x) = some (out, cnt', r) ∧ 0 < cnt' ∧ EndsAt false more tc x r := by
          have hlen := flatL_len (i :: l)
          simp only [List.length_cons] at hlen
          have key : ∀ fuel, l.length + 1 < fuel → _ := fun fuel hfu => arrLoop_complete hf false n n fuel 0 o i l pl more hp (fun _ => Nat.zero_add _) (fun h => absurd h hn) (Nat.pos_of_ne_zero hn) hfu hg
          refine ⟨(key (l.length + 2) (by omega)).1, (key (l.length + 2) (by omega)).2.1, ?_⟩
          intro tc x
          refine (key _ ?_).2.2 tc x
          rw [List.length_append]; omega
        refine ⟨c1, c2, ?_⟩
        intro tc x
        obtain ⟨out, cnt, r, d1, d2, d3⟩ := c3 tc x
        refine ⟨out ++ zeros ((n - cnt) * sz), r, ?_, d3⟩
        have hs' : strStart k (flatL (i :: l) ++ fin tc x) = false := by
          apply strStart_plain hp1.1
          intro w p ps e
          subst e
          intro e
          rw [strOf, if_pos e] at hs
          cases hs
        dsimp only
        unfold initArr
        rw [not_open hnb]
        dsimp only
        rw [if_neg (by rw [hs']; simp), d1]
        simp [close]

theorem memLoop_step {W : Nat} {u br : Bool} {o ofs : Nat} {t : Ty} {ms : Mems} {ts : List Tok} (h : ¬ Ends ts) :
    memLoop W u br (.cons o t ms) ofs ts = (init W t ts).bind fun a =>
        let out := zeros (o - ofs) ++ a.1
        match ms, u with
        | .nil, _ => some (out, o + size t, lastComma br a.2)
        | .cons .., true => some (out, o + size t, lastComma br a.2)
        | .cons .., false =>
          match a.2 with
          | .comma :: r => (memLoop W u br ms (o + size t) r).bind fun c => some (out ++ c.1, c.2)
          | .rb :: r => (memLoop W u br ms (o + size t) (.rb :: r)).bind fun c => some (out ++ c.1, c.2)
          | _ => none := by
  rw [memLoop]
  · rfl
  · intro r0 e; exact h (e ▸ ends_rb r0)

mutual
theorem init_complete (W : Nat) : ∀ (t : Ty), WF t → Accepts (fun ts => init W t ts) (fun o l => sub W t o l) ∧ 0 < size t
  | .sc n k, hw => by
    rw [WF] at hw
    refine ⟨?_, by rw [size]; omega⟩
    intro l pl more o hp h
    dsimp only at h
    cases l with
    | nil => rw [sub] at h; cases h
    | cons i l =>
      rw [sub] at h
      obtain ⟨v, h1, h⟩ := Option.bind_eq_some_iff.mp h
      obtain ⟨c, h2, h⟩ := Option.bind_eq_some_iff.mp h
      simp only [Option.some.injEq, Prod.mk.injEq] at h
      obtain ⟨_, rfl⟩ := h
      refine ⟨by simp, (plainL_cons hp).2, ?_⟩
      intro tc x
      refine ⟨c, after l (fin tc x), ?_, Or.inl rfl⟩
      dsimp only
      rw [init, flatL_after]
      exact scalar_complete h1 h2 (noLit_after _ _ (noLit_fin _ _))
  | .arr n t, hw => by
    rw [WF] at hw
    obtain ⟨a1, a2⟩ := init_complete W t hw.2
    refine ⟨?_, by rw [size]; exact Nat.mul_pos (Nat.pos_of_ne_zero hw.1) a2⟩
    have := arr_complete (sz := size t) a1 hw.1 (kind t)
    intro l pl more o hp h
    dsimp only at h
    rw [sub] at h
    obtain ⟨b1, b2, b3⟩ := this l pl more o hp h
    refine ⟨b1, b2, ?_⟩
    intro tc x
    dsimp only
    rw [init]
    exact b3 tc x
  | .su u sz ms, hw => by
    rw [WF] at hw
    obtain ⟨a1, a2⟩ := mem_complete W u sz ms 0 hw.2
    refine ⟨?_, by rw [size]; exact a2 hw.1⟩
    intro l pl more o hp h
    dsimp only at h
    rw [sub] at h
    cases l with
    | nil => cases h
    | cons i l =>
      have hp1 := plainL_cons hp
      rcases aggr_cases h with ⟨m, tc1, rfl, hm, hg, rfl⟩ | ⟨hnb, hg⟩
      · refine ⟨by simp, hp1.2, ?_⟩
        intro tc x
        cases m with
        | nil => exact absurd rfl hm
        | cons j m =>
          obtain ⟨_, _, b3⟩ := a1 true o j m pl [] (by simpa [plain] using hp1.1) hw.1 hg
          obtain ⟨out, ofs', r, d1, d2, d3⟩ := b3 tc1 (after more (fin tc x))
          have d4 : r = .rb :: after more (fin tc x) := d3 rfl
          subst d4
          refine ⟨out ++ zeros (sz - ofs'), after more (fin tc x), ?_, Or.inl rfl⟩
          have ht : opened (flatL (.br (j :: m) tc1 :: more) ++ fin tc x) = (true, flatL (j :: m) ++ fin tc1 (after more (fin tc x))) := by
            rw [flatL_after]
            simp [flat, opened, fin]
          dsimp only
          rw [init, ht]
          dsimp only
          rw [d1, Option.bind_some]
          dsimp only
          rw [if_neg (by omega)]
          simp [close]
      · obtain ⟨b1, b2, b3⟩ := a1 false o i l pl more hp hw.1 hg
        refine ⟨b1, b2, ?_⟩
        intro tc x
        obtain ⟨out, ofs', r, d1, d2, d3⟩ := b3 tc x
        refine ⟨out ++ zeros (sz - ofs'), r, ?_, d3⟩
        dsimp only
        rw [init, not_open hnb]
        dsimp only
        rw [d1, Option.bind_some]
        simp [close]

theorem mem_complete (W : Nat) (u : Bool) (sz : Nat) : ∀ (ms : Mems) (ofs : Nat), WFs u sz ofs ms →
    (∀ (br : Bool) (o : Nat) (i : Ini) (l : List Ini) (pl : Pl) (more : List Ini), plainL (i :: l) = true → ms ≠ .nil → subs W u ms o (i :: l) = some (pl, more) →
      more.length < (i :: l).length ∧ plainL more = true ∧ ∀ tc x, ∃ out ofs' r, memLoop W u br ms ofs (flatL (i :: l) ++ fin tc x) = some (out, ofs', r) ∧ 0 < ofs' ∧ EndsAt br more tc x r) ∧
    (ms ≠ .nil → 0 < sz)
  | .nil, ofs, _ => ⟨fun _ _ _ _ _ _ _ h => absurd rfl h, fun h => absurd rfl h⟩
  | .cons m t ms, ofs, hw => by
    rw [WFs] at hw
    obtain ⟨w1, w2, w3, w4⟩ := hw
    obtain ⟨a1, a2⟩ := init_complete W t w1
    obtain ⟨a3, _⟩ := mem_complete W u sz ms (m + size t) w4
    refine ⟨?_, fun _ => by omega⟩
    intro br o i l pl more hp _ h
    rw [subs] at h
    obtain ⟨⟨p1, more1⟩, h1, h⟩ := Option.bind_eq_some_iff.mp h
    obtain ⟨c1, c2, c3⟩ := a1 _ _ _ _ hp h1
    dsimp only at h
    -- no further member
    have last : (ms = .nil ∨ u = true) → more = more1 → more.length < (i :: l).length ∧ plainL more = true ∧ ∀ tc x, ∃ out ofs' r, memLoop W u br (.cons m t ms) ofs (flatL (i :: l) ++ fin tc x) = some (out, ofs', r) ∧ 0 < ofs' ∧ EndsAt br more tc x r := by
      intro hu e
      subst e
      refine ⟨c1, c2, ?_⟩
      intro tc x
      obtain ⟨out, r, d1, d2⟩ := c3 tc x
      refine ⟨zeros (m - ofs) ++ out, m + size t, lastComma br r, ?_, by omega, lastComma_ends d2⟩
      dsimp only at d1
      rw [memLoop_step (flatL_ne _ _ _), d1]
      rcases hu with rfl | rfl
      · rfl
      · cases ms <;> rfl
    cases hu : u with
    | true =>
      subst hu
      simp only [if_true, Option.some.injEq, Prod.mk.injEq] at h
      exact last (Or.inr rfl) h.2.symm
    | false =>
      subst hu
      simp only [Bool.false_eq_true, if_false] at h
      obtain ⟨⟨p2, more2⟩, h2, h⟩ := Option.bind_eq_some_iff.mp h
      simp only [Option.some.injEq, Prod.mk.injEq] at h
      obtain ⟨_, rfl⟩ := h
      cases ms with
      | nil =>
        rw [subs] at h2
        simp only [Option.some.injEq, Prod.mk.injEq] at h2
        exact last (Or.inl rfl) h2.2.symm
      | cons m' t' ms' =>
        cases more1 with
        | nil =>
          rw [subs] at h2
          simp only [Option.some.injEq, Prod.mk.injEq] at h2
          obtain ⟨_, rfl⟩ := h2
          refine ⟨by simp, rfl, ?_⟩
          intro tc x
          obtain ⟨out, r, d1, d2⟩ := c3 tc x
          have s1 : memLoop W false br (.cons m' t' ms') (m + size t) (.rb :: x) = some ([], m + size t, .rb :: x) := by rw [memLoop]
          refine ⟨zeros (m - ofs) ++ out ++ [], m + size t, .rb :: x, ?_, by omega, ?_⟩
          · dsimp only at d1
            rw [memLoop_step (flatL_ne _ _ _), d1, Option.bind_some]
            have hr : r = .rb :: x ∨ r = .comma :: .rb :: x := by
              rcases d2 with h | ⟨_, h⟩
              · cases tc <;> simp [after, fin, tcs] at h
                · exact Or.inl h
                · exact Or.inr h
              · exact Or.inl h
            rcases hr with rfl | rfl
            · dsimp only
              rw [s1]
              rfl
            · dsimp only
              rw [s1]
              rfl
          · cases br with
            | true => intro _; rfl
            | false => exact Or.inr ⟨rfl, rfl⟩
        | cons i1 l1 =>
          simp only [List.length_cons] at c1
          obtain ⟨e1, e2, e3⟩ := a3 br o i1 l1 p2 more2 c2 (by simp) h2
          simp only [List.length_cons] at e1
          refine ⟨by simp only [List.length_cons]; omega, e2, ?_⟩
          intro tc x
          obtain ⟨out, r, d1, d2⟩ := c3 tc x
          obtain ⟨out2, ofs', r2, g1, g2, g3⟩ := e3 tc x
          have hr : r = .comma :: (flatL (i1 :: l1) ++ fin tc x) := by
            rcases d2 with h | ⟨h, _⟩
            · rw [h]; simp [after]
            · cases h
          refine ⟨zeros (m - ofs) ++ out ++ out2, ofs', r2, ?_, g2, g3⟩
          dsimp only at d1
          rw [memLoop_step (flatL_ne _ _ _), d1, Option.bind_some, hr]
          dsimp only
          rw [g1]
          rfl
end

end Smlr.Init
