import Verif.Args.Lemmas
set_option autoImplicit false
/-! C71: the command line is divided into arguments by the rules of Microsoft's library. -/
namespace Smlr.Args
open Smlr.Mem Smlr.Mem.Spec Spec

/-- the texts one after the other, each ended by a 0 -/
def flat : List Str → Str
  | [] => []
  | v :: vs => v ++ [0] ++ flat vs

/-- where they begin -/
def starts : Nat → List Str → List Nat
  | _, [] => []
  | o, v :: vs => o :: starts (o + v.length + 1) vs

theorem starts_length (vs : List Str) : ∀ o, (starts o vs).length = vs.length := by
  induction vs with
  | nil => intro o; rfl
  | cons v vs ih => intro o; simp [starts, ih]

theorem args_length {s : Str} {vs : List Str} (h : Args s vs) : (flat vs).length ≤ s.length + 1 ∧ 2 * vs.length ≤ s.length + 1 := by
  induction h with
  | nil => simp [flat]
  | white c s vs _ _ ih => simp; omega
  | last c s v hw ha =>
    obtain ⟨t, h1, h2⟩ := arg_split ha
    rw [h1]
    have ht : 0 < t.length := by
      have := congrArg List.length h1
      simp at this; omega
    simp [flat]; omega
  | arg c s v d r vs hw ha _ ih =>
    obtain ⟨t, h1, h2⟩ := arg_split ha
    have ht : 0 < t.length := by
      cases t with
      | nil =>
        rcases arg_rest ha with x | ⟨d', u, x, y⟩
        · cases x
        · cases x; cases h1; exact absurd y hw
      | cons => simp
    have hl := congrArg List.length h1
    simp only [List.length_append, List.length_cons] at hl
    simp only [flat, List.length_append, List.length_singleton, List.length_cons, List.length_nil] at *
    omega

/-- the machine reads an argument from its beginning -/
theorem arg_begin {c : UInt8} {s v r : Str} (hw : ¬ White c) (ha : Arg false (c :: s) v r) (m : Mem) (i o : Nat) (av : List Nat)
    (hc : CStr m i (c :: s)) (ho : o ≤ i ∨ i + (c :: s).length < o) :
    ∃ e, Steps ⟨m, i, o, .white, 0, av⟩ e ∧ AtEnd m i o (av ++ [o]) (c :: s) v r e := by
  by_cases hq : c = 0x22
  · subst hq
    obtain ⟨e, g1, g2⟩ := arg_run ha m i o (av ++ [o]) hc ho
    refine ⟨e, ?_, g2⟩
    -- both modes go on alike after the quote
    have s1 : step ⟨m, i, o, .white, 0, av⟩ = some ⟨m, i + 1, o, .quot, 0, av ++ [o]⟩ := by
      simp [step, hc.2.1]
    have s2 : step ⟨m, i, o, .plain, 0, av ++ [o]⟩ = some ⟨m, i + 1, o, .quot, 0, av ++ [o]⟩ := by
      simp [step, hc.2.1, backslashes]
    have hne : e ≠ ⟨m, i, o, .plain, 0, av ++ [o]⟩ := by
      intro he
      have := g2.rd
      rcases arg_rest ha with x | ⟨d, u, x, y⟩
      · subst x; rw [he] at this; simp at this
      · subst x
        have h3 := g2.src
        rw [he] at h3
        have h4 : m i = d := h3.2.1
        rw [hc.2.1] at h4
        subst h4
        exact hw y
    cases g1 with
    | refl => exact absurd rfl hne
    | step _ t _ h1 h2 =>
      have : t = ⟨m, i + 1, o, .quot, 0, av ++ [o]⟩ := Option.some.inj (h1.symm.trans s2)
      subst this
      exact .step _ _ _ s1 h2
  · obtain ⟨e, g1, g2⟩ := arg_run ha m i o (av ++ [o]) hc ho
    refine ⟨e, .step _ _ _ ?_ g1, g2⟩
    have h2 : c ≠ 0x20 ∧ c ≠ 0x09 := ⟨fun x => hw (Or.inl x), fun x => hw (Or.inr x)⟩
    simp only [step, hc.2.1, if_neg hc.1, if_neg hq, if_pos h2, if_true]
    rfl
theorem args_run {s : Str} {vs : List Str} (h : Args s vs) : ∀ (m : Mem) (i o : Nat) (av : List Nat), CStr m i s →
    (o ≤ i ∨ i + s.length < o) →
    ∃ N, ∀ k, N ≤ k → run k ⟨m, i, o, .white, 0, av⟩ = some (put m o (flat vs), av ++ starts o vs) := by
  induction h with
  | nil =>
    intro m i o av hc _
    refine ⟨1, fun k hk => ?_⟩
    obtain ⟨k, rfl⟩ : ∃ j, k = j + 1 := ⟨k - 1, by omega⟩
    have : m i = 0 := hc
    simp [run, step, this, finish, flat, starts, put]
  | white c s vs hw _ ih =>
    intro m i o av hc ho
    simp only [List.length_cons] at ho
    obtain ⟨N, hN⟩ := ih m (i + 1) o av hc.2.2 (by omega)
    refine steps_run (.one ?_) hN
    have h1 : c ≠ 0x22 := by rcases hw with rfl | rfl <;> decide
    have h2 : ¬ (c ≠ 0x20 ∧ c ≠ 0x09) := by rcases hw with rfl | rfl <;> decide
    simp only [step, hc.2.1, if_neg hc.1, if_neg h1, if_neg h2, if_true]
  | last c s v hw ha =>
    intro m i o av hc ho
    obtain ⟨e, g1, g2⟩ := arg_begin hw ha m i o av hc ho
    refine steps_run (N := 1) g1 fun k hk => ?_
    obtain ⟨k, rfl⟩ : ∃ j, k = j + 1 := ⟨k - 1, by omega⟩
    have h0 : e.m e.i = 0 := g2.src
    have hs : step e = none := by simp [step, h0]
    rw [run, hs]
    simp only [finish, if_pos g2.mode, backslashes_eq, g2.mem, g2.wr, g2.argv, flat, starts, List.append_nil, put_append, put]
  | arg c s v d u vs hw ha hr ih =>
    intro m i o av hc ho
    obtain ⟨e, g1, g2⟩ := arg_begin hw ha m i o av hc ho
    obtain ⟨t, t1, t2⟩ := arg_split ha
    have tl := congrArg List.length t1
    have y : White d := by
      rcases arg_rest ha with x | ⟨d', u', x, y⟩
      · cases x
      · cases x; exact y
    obtain ⟨e1, e2⟩ := g2.more (by simp)
    have em := g2.mem
    have eo := g2.wr
    have er := g2.rd
    have es := g2.src
    rw [e1] at em eo
    simp only [bs, List.replicate_zero, put, Nat.add_zero, List.length_cons, List.length_append] at em eo er tl ho
    have hp : CStr (put m o (v ++ [0])) (e.i + 1) u := by
      rw [put_append, ← em, ← eo]
      exact cstr_put _ _ _ _ _ es.2.2 (by simp; omega)
    obtain ⟨N, hN⟩ := ih _ _ (o + v.length + 1) (av ++ [o]) hp (by omega)
    have hst : step e = some ⟨put m o (v ++ [0]), e.i + 1, o + v.length + 1, .white, 0, av ++ [o]⟩ := by
      have h1 : d ≠ 0x22 := by rcases y with rfl | rfl <;> decide
      have h2 : d ≠ 0x5C := by rcases y with rfl | rfl <;> decide
      have h3 : d = 0x20 ∨ d = 0x09 := y
      rw [put_append, ← em, ← eo]
      have ea := g2.argv
      cases e
      simp only at e1 e2 ea es
      subst e1 e2 ea
      simp only [step, es.2.1, if_neg es.1, if_neg h1, if_neg h2, h3, put]
      simp
    have := steps_run (g1.trans (.one hst)) hN
    simpa [flat, starts, put_append, put, Nat.add_assoc] using this

theorem args_values {s : Str} {vs : List Str} (h : Args s vs) : (∀ c ∈ s, c ≠ 0) → ∀ v ∈ vs, ∀ c ∈ v, c ≠ 0 := by
  have ok : ∀ {q : Bool} {s v r : Str}, Arg q s v r → (∀ c ∈ s, c ≠ 0) → ∀ c ∈ v, c ≠ 0 := by
    intro q s v r h hs c hc
    rcases arg_mem h c hc with x | x | x
    · exact hs c x
    · subst x; decide
    · subst x; decide
  induction h with
  | nil => simp
  | white c s vs _ _ ih => intro hs; exact ih fun d hd => hs d (by simp [hd])
  | last c s v _ ha => intro hs w hw; simp only [List.mem_singleton] at hw; subst hw; exact ok ha hs
  | arg c s v d r vs _ ha _ ih =>
    intro hs w hw
    rcases List.mem_cons.1 hw with x | x
    · subst x; exact ok ha hs
    · obtain ⟨t, h1, -⟩ := arg_split ha
      exact ih (fun e he => hs e (by rw [h1]; simp [he])) w x

theorem starts_cstr (vs : List Str) (h : ∀ v ∈ vs, ∀ c ∈ v, c ≠ 0) : ∀ (m : Mem) (o k : Nat) (hk : k < vs.length),
    CStr (put m o (flat vs)) ((starts o vs)[k]'(by rw [starts_length]; exact hk)) vs[k] := by
  induction vs with
  | nil => intro m o k hk; simp at hk
  | cons v vs ih =>
    intro m o k hk
    simp only [flat, put_append (v ++ [0])]
    cases k with
    | zero =>
      simp only [starts, List.getElem_cons_zero]
      exact cstr_congr _ (put m o (v ++ [0])) _ _ (put_cstr v m o (h v (by simp))) fun a x y =>
        put_other _ _ _ _ (Or.inl (by simp at y ⊢; omega))
    | succ k =>
      simp only [starts, List.getElem_cons_succ]
      have := ih (fun w hw => h w (by simp [hw])) (put m o (v ++ [0])) (o + v.length + 1) k (by simpa using hk)
      simpa [Nat.add_assoc] using this

/-- The parser ends, and the pointers are to the arguments of the line, in order; the output is the line itself or lies before
or after it.  Nothing is written outside as many bytes as the line has with its 0. -/
theorem c71_args (m : Mem) (inn out : Nat) (s : Str) (vs : List Str) (hs : CStr m inn s) (ho : out ≤ inn ∨ inn + s.length < out)
    (h : Args s vs) : ∃ N m' argv, (∀ fuel, N ≤ fuel → argParser m fuel inn out = some (m', argv)) ∧
      ∃ hl : argv.length = vs.length, (∀ (k : Nat) (hk : k < vs.length), CStr m' (argv[k]'(by omega)) vs[k]) ∧
      ∀ a, a < out ∨ out + s.length < a → m' a = m a := by
  obtain ⟨N, hN⟩ := args_run h m inn out [] hs ho
  refine ⟨N, _, _, hN, by simp [starts_length], fun k hk => ?_, fun a ha => ?_⟩
  · simpa using starts_cstr vs (args_values h (cstr_ne _ _ _ hs)) m out k hk
  · have := (args_length h).1
    exact put_other _ _ _ _ (by omega)

/-- There are at most half as many as bytes with the 0: the array of Windows (c0.c:511) and, as there are at most 127 bytes in
DOS, the 65 places of c0.c:295 suffice, with the NULL after them. -/
theorem c71_count (s : Str) (vs : List Str) (h : Args s vs) :
    vs.length + 1 ≤ (s.length + 1) / 2 + 1 ∧ (s.length ≤ 127 → vs.length + 1 ≤ 128 / 2 + 1) := by
  have := (args_length h).2
  omega

theorem bs_split (s : Str) : ∃ n t, s = bs n ++ t ∧ t.head? ≠ some 0x5C := by
  induction s with
  | nil => exact ⟨0, [], rfl, by simp⟩
  | cons c s ih =>
    by_cases h : c = 0x5C
    · obtain ⟨n, t, rfl, ht⟩ := ih
      exact ⟨n + 1, t, by simp [h, bs, List.replicate_succ], ht⟩
    · exact ⟨0, c :: s, rfl, by simpa using h⟩

theorem arg_total (n : Nat) : ∀ (q : Bool) (s : Str), s.length ≤ n → ∃ v r, Arg q s v r := by
  induction n with
  | zero => intro q s h; have : s = [] := by simpa using h
            subst this; exact ⟨_, _, .done q⟩
  | succ n ih =>
    intro q s h
    obtain ⟨k, t, rfl, ht⟩ := bs_split s
    simp only [List.length_append, bs_length] at h
    have plain : t.head? ≠ some 0x22 → ∃ v r, Arg q (bs k ++ t) v r := by
      intro hq
      cases k with
      | succ k => obtain ⟨v, r, g⟩ := ih q t (by omega); exact ⟨_, _, .slashes q k t v r ht hq g⟩
      | zero =>
        cases t with
        | nil => exact ⟨_, _, .done q⟩
        | cons c t =>
          by_cases hw : q = false ∧ White c
          · obtain ⟨rfl, hw⟩ := hw; exact ⟨_, _, .white c t hw⟩
          · obtain ⟨v, r, g⟩ := ih q t (by simp at h; omega)
            exact ⟨_, _, .char q c t v r (by simpa using ht) (by simpa using hq) (fun x y => hw ⟨x, y⟩) g⟩
    by_cases hq : t.head? = some 0x22
    · obtain ⟨t, rfl⟩ : ∃ u, t = 0x22 :: u := by
        cases t with
        | nil => simp at hq
        | cons c u => exact ⟨u, by simpa using hq⟩
      simp only [List.length_cons] at h
      obtain ⟨j, rfl | rfl⟩ : ∃ j, k = 2 * j ∨ k = 2 * j + 1 := ⟨k / 2, by omega⟩
      · cases q with
        | false => obtain ⟨v, r, g⟩ := ih true t (by omega); exact ⟨_, _, .opening j t v r g⟩
        | true =>
          by_cases h2 : t.head? = some 0x22
          · obtain ⟨u, rfl⟩ : ∃ u, t = 0x22 :: u := by
              cases t with
              | nil => simp at h2
              | cons c u => exact ⟨u, by simpa using h2⟩
            obtain ⟨v, r, g⟩ := ih true u (by simp at h; omega)
            exact ⟨_, _, .double j u v r g⟩
          · obtain ⟨v, r, g⟩ := ih false t (by omega); exact ⟨_, _, .closing j t v r h2 g⟩
      · obtain ⟨v, r, g⟩ := ih q t (by omega); exact ⟨_, _, .quote q j t v r g⟩
    · exact plain hq

theorem args_total (n : Nat) : ∀ s : Str, s.length ≤ n → ∃ vs, Args s vs := by
  induction n with
  | zero => intro s h; have : s = [] := by simpa using h
            subst this; exact ⟨_, .nil⟩
  | succ n ih =>
    intro s h
    cases s with
    | nil => exact ⟨_, .nil⟩
    | cons c s =>
      simp only [List.length_cons] at h
      by_cases hw : White c
      · obtain ⟨vs, g⟩ := ih s (by omega); exact ⟨_, .white c s vs hw g⟩
      · obtain ⟨v, r, g⟩ := arg_total _ false (c :: s) (Nat.le_refl _)
        cases r with
        | nil => exact ⟨_, .last c s v hw g⟩
        | cons d r =>
          obtain ⟨t, h1, -⟩ := arg_split g
          have := congrArg List.length h1
          simp only [List.length_append, List.length_cons] at this
          obtain ⟨vs, g'⟩ := ih r (by omega)
          exact ⟨_, .arg c s v d r vs hw g g'⟩

/-- every line has arguments by the rules, and only one list of them -/
theorem c71_unique (s : Str) (hs : ∀ c ∈ s, c ≠ 0) : ∃ vs, Args s vs ∧ ∀ ws, Args s ws → ws = vs := by
  obtain ⟨vs, h⟩ := args_total _ s (Nat.le_refl _)
  refine ⟨vs, h, fun ws g => ?_⟩
  have hm : ∀ (s : Str), (∀ c ∈ s, c ≠ 0) → ∃ m : Mem, CStr m 0 s := fun s hs => ⟨put (fun _ => 0) 0 (s ++ [0]), put_cstr s _ 0 hs⟩
  obtain ⟨m, hc⟩ := hm s hs
  have cinj : ∀ (a b : Str) (m : Mem) (i : Nat), CStr m i a → CStr m i b → a = b := by
    intro a
    induction a with
    | nil =>
      intro b m i x y
      cases b with
      | nil => rfl
      | cons c b => have x : m i = 0 := x
                    exact absurd (y.2.1.symm.trans x) y.1
    | cons c a ih =>
      intro b m i x y
      cases b with
      | nil => have y : m i = 0 := y
               exact absurd (x.2.1.symm.trans y) x.1
      | cons d b => rw [← x.2.1, ← y.2.1, ih b m (i + 1) x.2.2 y.2.2]
  obtain ⟨N, m1, a1, h1, l1, k1, -⟩ := c71_args m 0 0 s vs hc (Or.inl (by omega)) h
  obtain ⟨M, m2, a2, h2, l2, k2, -⟩ := c71_args m 0 0 s ws hc (Or.inl (by omega)) g
  have e := (h1 (N + M) (by omega)).symm.trans (h2 (N + M) (by omega))
  simp only [Option.some.injEq, Prod.mk.injEq] at e
  obtain ⟨rfl, rfl⟩ := e
  refine List.ext_getElem (by omega) fun k x y => ?_
  exact cinj _ _ _ _ (k2 k x) (k1 k y)

theorem bs_add (a b : Nat) : bs (a + b) = bs a ++ bs b := by simp [bs, List.replicate_append_replicate]

theorem body_arg (v r : Str) (hr : r = [] ∨ ∃ d t, r = d :: t ∧ White d) : ∀ n, Arg true (body n v ++ r) (bs n ++ v) r := by
  have he : Arg false r [] r := by
    rcases hr with rfl | ⟨d, t, rfl, h⟩
    · exact .done false
    · exact .white d t h
  have hh : r.head? ≠ some 0x22 := by
    rcases hr with rfl | ⟨d, t, rfl, h⟩
    · simp
    · rcases h with rfl | rfl <;> simp
  induction v with
  | nil => intro n; simpa [body] using Arg.closing n r [] r hh he
  | cons c v ih =>
    intro n
    unfold body
    by_cases h1 : c = 0x5C
    · rw [if_pos h1]
      have := ih (n + 1)
      rw [bs_add] at this
      simpa [h1, bs] using this
    · rw [if_neg h1]
      by_cases h2 : c = 0x22
      · rw [if_pos h2]
        have := Arg.quote true n _ _ _ (ih 0)
        simpa [h2, bs] using this
      · rw [if_neg h2]
        have g := Arg.char true c _ _ _ h1 h2 (by simp) (ih 0)
        cases n with
        | zero => simpa [bs] using g
        | succ n =>
          have := Arg.slashes true n _ _ _ (by simpa using h1) (by simpa using h2) g
          simpa [bs] using this

/-- Any arguments can be passed: written with quotes, with the backslashes before quotes doubled, they come back as they were. -/
theorem c71_quoted (vs : List Str) : Args (commandLine vs) vs := by
  induction vs with
  | nil => exact .nil
  | cons v vs ih =>
    have hw : ¬ White 0x22 := by unfold White; decide
    rw [commandLine]
    refine .white 0x20 _ _ (Or.inl rfl) ?_
    have hb : ∀ r : Str, (r = [] ∨ ∃ d t, r = d :: t ∧ White d) → Arg false (0x22 :: (body 0 v ++ r)) v r := by
      intro r hr
      simpa [bs] using Arg.opening 0 _ _ _ (body_arg v r hr 0)
    cases vs with
    | nil => simpa [commandLine] using Args.last _ _ _ hw (hb [] (Or.inl rfl))
    | cons w ws =>
      rw [commandLine] at ih ⊢
      cases ih with
      | white _ _ _ _ ih => exact .arg _ _ _ _ _ _ hw (hb _ (Or.inr ⟨_, _, rfl, Or.inl rfl⟩)) ih
      | last _ _ _ h => exact absurd (Or.inl rfl) h
      | arg _ _ _ _ _ _ h => exact absurd (Or.inl rfl) h

/-! ### examples -/

/-- ` "" a"b"c d""e\" \x` in place: three arguments, the first one empty, the second `a"bc d"e\` -/
def line : Str := [0x20, 0x22, 0x22, 0x20, 0x61, 0x5C, 0x22, 0x62, 0x22, 0x63, 0x20, 0x64, 0x22, 0x22, 0x65, 0x5C, 0x5C, 0x22, 0x20, 0x5C, 0x5C, 0x78]

example : (argParser (put (fun _ => 0) 100 line) 60 100 100).map (fun r => (r.2, (List.range 16).map fun k => r.1 (100 + k))) =
    some ([100, 101, 111], [0, 0x61, 0x22, 0x62, 0x63, 0x20, 0x64, 0x22, 0x65, 0x5C, 0, 0x5C, 0x5C, 0x78, 0, 0x5C]) := by decide +kernel

/-- `\` and `a b"` -/
example : commandLine [[0x5C], [0x61, 0x20, 0x62, 0x22]] =
    [0x20, 0x22, 0x5C, 0x5C, 0x22, 0x20, 0x22, 0x61, 0x20, 0x62, 0x5C, 0x22, 0x22] := by decide +kernel

end Smlr.Args
