import Verif.Stmt.Gen
set_option autoImplicit false
/-! What the parser makes of the tokens of a statement is the code for the tree. -/
namespace Smlr.Stmt
open Spec

section
variable {L : Lang}

def lift (x : Except Err (List (I L.X) × GS)) (nx : Tok L) (rest : List (Tok L)) (c : List (I L.X)) (pre : Option (List (Int × Nat))) (st : List L.X) (lv : Nat) : Except Err (Tok L × St L) :=
  Except.and x fun a => .ok (nx, mk rest (c ++ a.1) a.2 pre st lv)

theorem lift_ok (a : List (I L.X) × GS) (nx : Tok L) (rest : List (Tok L)) (c : List (I L.X)) (pre : Option (List (Int × Nat))) (st : List L.X) (lv : Nat) :
    lift (.ok a) nx rest c pre st lv = .ok (nx, mk rest (c ++ a.1) a.2 pre st lv) := rfl
theorem lift_error (e : Err) (nx : Tok L) (rest : List (Tok L)) (c : List (I L.X)) (pre : Option (List (Int × Nat))) (st : List L.X) (lv : Nat) :
    lift (.error e) nx rest c pre st lv = .error e := rfl
theorem and_ok {α β : Type} (a : α) (f : α → Except Err β) : Except.and (.ok a) f = f a := rfl
theorem and_error {α β : Type} (e : Err) (f : α → Except Err β) : Except.and (.error e) f = .error e := rfl

/-- the table of cases -/
def real (g : GS) (pre : Option (List (Int × Nat))) : List (Int × Nat) := match pre with | none => g.cs | some p => p ++ (0, g.d) :: g.cs

theorem real_length (g : GS) (pre : Option (List (Int × Nat))) : (real g pre).length = ciOf pre + g.cs.length := by
  cases pre <;> simp [real, ciOf]; omega

theorem getCases_run (ts : List (Tok L)) (c : List (I L.X)) (g : GS) (pre : Option (List (Int × Nat))) (st : List L.X) (lv : Nat) :
    getCases (mk ts c g pre st lv) = .ok (real g pre, mk ts c g pre st lv) := rfl

theorem addCase_switch (F : Fx) (ts : List (Tok L)) (c : List (I L.X)) (g : GS) (pre : Option (List (Int × Nat))) (st : List L.X) (lv : Nat) :
    addCase F 0 0 (mk ts c g pre st lv) = if ciOf pre + g.cs.length ≥ F.maxCases then .error .table else .ok ((), mk ts c { g with cs := [], d := 0 } (some (real g pre)) st lv) := by
  rw [← real_length g pre]
  rfl

theorem addCase_case (F : Fx) (v : Int) (l : Nat) (ts : List (Tok L)) (c : List (I L.X)) (g : GS) (pre : Option (List (Int × Nat))) (st : List L.X) (lv : Nat) :
    addCase F v l (mk ts c g pre st lv) = if ciOf pre + g.cs.length ≥ F.maxCases then .error .table else .ok ((), mk ts c { g with cs := g.cs ++ [(v, l)] } pre st lv) := by
  rw [← real_length g pre]
  cases pre with
  | none => rfl
  | some p => simp only [addCase, mk, real, List.append_assoc, List.cons_append]; rfl

theorem drop_mid {α : Type} (p : List α) (x : α) (cs : List α) : (p ++ x :: cs).drop (p.length + 1) = cs := by
  rw [show p ++ x :: cs = (p ++ [x]) ++ cs by simp, List.drop_left' (by simp)]

theorem get_mid {α : Type} (p : List α) (x : α) (cs : List α) : (p ++ x :: cs)[p.length]? = some x := by
  rw [List.getElem?_append_right (Nat.le_refl _)]; simp

theorem defOf_mid (p : List (Int × Nat)) (d : Nat) (cs : List (Int × Nat)) : defOf (p ++ (0, d) :: cs) (p.length + 1) = d := by
  simp only [defOf, Nat.add_sub_cancel, get_mid]

theorem setDef_mid (p : List (Int × Nat)) (d l : Nat) (cs : List (Int × Nat)) : setDef (p ++ (0, d) :: cs) (p.length + 1) l = p ++ (0, l) :: cs := by
  simp only [setDef, Nat.add_sub_cancel, get_mid]
  rw [List.set_append_right _ _ (Nat.le_refl _)]
  simp

theorem switchEnd_mid (p : List (Int × Nat)) (d : Nat) (cs : List (Int × Nat)) (brk lbl : Nat) :
    switchEnd (L := L) p.length brk lbl (p ++ (0, d) :: cs) = swEnd brk lbl d cs := by
  simp only [switchEnd, swEnd, defOf_mid, drop_mid]

theorem setCases_switch (ts : List (Tok L)) (c : List (I L.X)) (g a : GS) (pre : Option (List (Int × Nat))) (st : List L.X) (lv : Nat) :
    setCases ((real a (some (real g pre))).take (real g pre).length) (mk ts c a (some (real g pre)) st lv) = .ok ((), mk ts c { a with cs := g.cs, d := g.d } pre st lv) := by
  have : (real a (some (real g pre))).take (real g pre).length = real g pre := by simp [real]
  rw [this]
  rfl

theorem stash_for (st r : List L.X) : (st ++ r).take ((st ++ r).length - r.length) = st ∧ (st ++ r).drop ((st ++ r).length - r.length) = r := by
  have : (st ++ r).length - r.length = st.length := by simp
  rw [this]
  simp

theorem run_all (F : Fx) : ∀ s : Stmt L,
    (s.wf false → ∀ (n : Nat) (bc : Option (Nat × Nat)) (pre : Option (List (Int × Nat))) (stash : List L.X) (lv : Nat) (g : GS) (c : List (I L.X)) (t : Tok L) (ts : List (Tok L))
      (nx : Tok L) (rest : List (Tok L)), 1 ≤ lv → 2 * s.toks.length ≤ n → s.toks = t :: ts → (s.opens = true → nx.kind ≠ .else_) →
      stmt F n t bc (ciOf pre) (mk (ts ++ nx :: rest) c g pre stash lv) =
        lift (gen F s (nx.kind == .rbrace && lv == 1 && !F.isMain) stash.length bc (ciOf pre) g) nx rest c pre stash lv) ∧
    (s.wf true → ∀ (n : Nat) (bc : Option (Nat × Nat)) (pre : Option (List (Int × Nat))) (stash : List L.X) (lv : Nat) (g : GS) (c : List (I L.X)) (t : Tok L) (ts : List (Tok L))
      (rest : List (Tok L)), 1 ≤ lv → 2 * s.toks.length + 1 ≤ n → s.toks ++ .k .rbrace :: rest = t :: ts →
      blockLoop F n t bc (ciOf pre) (mk ts c g pre stash lv) =
        lift (gen F s (lv == 1 && !F.isMain) stash.length bc (ciOf pre) g) (.k .rbrace) rest c pre stash lv) := by
  intro s
  -- fuel
  have fuel : ∀ {n k : Nat}, 2 * (k + 1) ≤ n → ∃ m, n = m + 1 ∧ 2 * k + 1 ≤ m := fun {n k} h => ⟨n - 1, by omega, by omega⟩
  induction s with
  | nil =>
    refine ⟨fun h => (by cases h), fun _ n bc pre stash lv g c t ts rest hlv hn he => ?_⟩
    simp only [Stmt.toks, List.nil_append, List.cons.injEq] at he
    obtain ⟨rfl, rfl⟩ := he
    obtain ⟨m, rfl⟩ : ∃ m, n = m + 1 := ⟨n - 1, by omega⟩
    simp only [blockLoop, pure_run, gen, lift_ok, List.append_nil]
  | cons s ss ih ih' =>
    refine ⟨fun h => ?_, fun hw n bc pre stash lv g c t ts rest hlv hn he => ?_⟩
    · cases s <;> simp [Stmt.wf] at h
    · by_cases hd : ∃ es, s = .decl es
      · obtain ⟨es, rfl⟩ := hd
        simp only [Stmt.toks, List.cons_append, List.nil_append, List.cons.injEq] at he
        obtain ⟨rfl, rfl⟩ := he
        simp only [Stmt.toks, List.cons_append, List.nil_append, List.length_cons] at hn
        obtain ⟨m, rfl⟩ : ∃ m, n = m + 1 := ⟨n - 1, by omega⟩
        obtain ⟨t, ts, ht⟩ : ∃ t ts, ss.toks ++ .k .rbrace :: rest = t :: ts := by cases ss.toks with | nil => exact ⟨_, _, rfl⟩ | cons a b => exact ⟨_, _, rfl⟩
        simp only [blockLoop, bind_run, emits_run, eb_ok, ht, getToken_run]
        rw [ih'.2 hw.2 m bc pre stash lv g _ t ts rest hlv (by omega) ht]
        simp only [gen, and_ok]
        cases gen F ss (lv == 1 && !F.isMain) stash.length bc (ciOf pre) g with
        | error e => rfl
        | ok a => simp only [lift_ok, and_ok, List.append_assoc]
      · have hs : s.wf false ∧ ss.wf true := by
          cases s with
          | decl es => exact absurd ⟨es, rfl⟩ hd
          | _ => exact hw.2
        obtain ⟨t', ts', ht, hst⟩ := wf_starts hs.1
        simp only [Stmt.toks, List.append_assoc, ht, List.cons_append, List.cons.injEq] at he
        obtain ⟨rfl, rfl⟩ := he
        simp only [Stmt.toks, List.length_append] at hn
        obtain ⟨m, rfl⟩ : ∃ m, n = m + 1 := ⟨n - 1, by omega⟩
        have h1 : 1 ≤ s.toks.length := by rw [ht]; simp
        obtain ⟨t2, ts2, ht2⟩ : ∃ t ts, ss.toks ++ .k .rbrace :: rest = t :: ts := by cases ss.toks with | nil => exact ⟨_, _, rfl⟩ | cons a b => exact ⟨_, _, rfl⟩
        have h2 : (t2.kind == .rbrace) = isNil ss ∧ t2.kind ≠ .else_ := by
          cases ss with
          | nil =>
            simp only [Stmt.toks, List.nil_append, List.cons.injEq] at ht2
            rw [← ht2.1]
            exact ⟨rfl, by simp [Tok.kind]⟩
          | cons s2 ss2 =>
            by_cases hd : ∃ es, s2 = .decl es
            · obtain ⟨es, rfl⟩ := hd
              simp only [Stmt.toks, List.cons_append, List.cons.injEq] at ht2
              rw [← ht2.1]
              exact ⟨rfl, by simp [Tok.kind]⟩
            · have hs2 : s2.wf false := by
                have := hs.2
                cases s2 with
                | decl es => exact absurd ⟨es, rfl⟩ hd
                | _ => exact this.2.1
              obtain ⟨t3, ts3, ht3, hst3⟩ := wf_starts hs2
              simp only [Stmt.toks, List.append_assoc, ht3, List.cons_append, List.cons.injEq] at ht2
              rw [← ht2.1]
              exact starts_kind hst3
          | _ => have := hs.2; simp [Stmt.wf] at this
        rw [blockLoop_starts F m hst, bind_run, ht2, ih.1 hs.1 m bc pre stash lv g c t' ts' t2 ts2 hlv (by omega) ht (fun _ => h2.2), h2.1]
        simp only [gen]
        rw [show (isNil ss && lv == 1 && !F.isMain) = (lv == 1 && !F.isMain && isNil ss) by cases isNil ss <;> simp]
        cases gen F s (lv == 1 && !F.isMain && isNil ss) stash.length bc (ciOf pre) g with
        | error e => rfl
        | ok a =>
          simp only [lift_ok, eb_ok, and_ok]
          rw [ih'.2 hs.2 m bc pre stash lv a.2 _ t2 ts2 rest hlv (by omega) ht2]
          cases gen F ss (lv == 1 && !F.isMain) stash.length bc (ciOf pre) a.2 with
          | error e => rfl
          | ok b => simp only [lift_ok, and_ok, List.append_assoc]
  | decl es => exact ⟨fun h => h.elim, fun h => h.elim⟩
  | empty =>
    refine ⟨fun _ n bc pre stash lv g c t ts nx rest hlv hn he _ => ?_, fun h => (by cases h)⟩
    simp only [Stmt.toks, List.cons.injEq] at he
    obtain ⟨rfl, rfl⟩ := he
    obtain ⟨m, rfl, -⟩ := fuel hn
    simp only [stmt, List.nil_append, getToken_run, gen, lift_ok, List.append_nil]
  | expr e =>
    refine ⟨fun _ n bc pre stash lv g c t ts nx rest hlv hn he _ => ?_, fun h => (by cases h)⟩
    simp only [Stmt.toks, List.cons.injEq] at he
    obtain ⟨rfl, rfl⟩ := he
    obtain ⟨m, rfl, -⟩ := fuel hn
    simp only [stmt, List.cons_append, List.nil_append, bind_run, parseExpr_run e .semi rfl, eb_ok, gen, lift_ok]
    rfl
  | block ss ih =>
    refine ⟨fun hw n bc pre stash lv g c t ts nx rest hlv hn he _ => ?_, fun h => (by cases h.1)⟩
    simp only [Stmt.toks, List.cons.injEq] at he
    obtain ⟨rfl, rfl⟩ := he
    simp only [Stmt.toks, List.length_cons, List.length_append, List.length_nil] at hn
    obtain ⟨m, rfl⟩ : ∃ m, n = m + 1 + 1 := ⟨n - 2, by omega⟩
    obtain ⟨t, ts, ht⟩ : ∃ t ts, ss.toks ++ .k .rbrace :: nx :: rest = t :: ts := by cases ss.toks with | nil => exact ⟨_, _, rfl⟩ | cons a b => exact ⟨_, _, rfl⟩
    rw [show ss.toks ++ [.k .rbrace] ++ nx :: rest = t :: ts by rw [← ht]; simp]
    simp only [stmt, block, bind_run, getLevel_run, setLevel_run, eb_ok, getToken_run]
    rw [ih.2 hw.2 m bc pre stash (lv + 1) g c t ts (nx :: rest) (by omega) (by omega) ht, show (lv + 1 == 1 && !F.isMain) = false by
      have : (lv + 1 == 1) = false := by simp; omega
      rw [this]; rfl]
    simp only [gen]
    cases gen F ss false stash.length bc (ciOf pre) g with
    | error e => rfl
    | ok a => simp only [lift_ok, eb_ok, getLevel_run, setLevel_run, Nat.add_sub_cancel]; rfl
  | ret e =>
    refine ⟨fun _ n bc pre stash lv g c t ts nx rest hlv hn he _ => ?_, fun h => (by cases h)⟩
    have last : ∀ c1 : List (I L.X), eb (α := Unit) (.ok ((), mk (nx :: rest) c1 g pre stash lv)) (fun _ => do
        let t ← getToken
        let lv ← getLevel
        (if t.kind == .rbrace && lv == 1 && !F.isMain then pure () else emit (.jmp F.epi))
        pure t) = .ok (nx, mk rest (c1 ++ (if (nx.kind == .rbrace && lv == 1 && !F.isMain) = true then [] else [.jmp F.epi])) g pre stash lv) := by
      intro c1
      simp only [bind_run, eb_ok, getToken_run, getLevel_run]
      split
      · simp only [pure_run, eb_ok, List.append_nil]
      · simp only [pure_run, eb_ok, emit_run]
    cases e with
    | none =>
      simp only [Stmt.toks, optToks, List.nil_append, List.cons.injEq] at he
      obtain ⟨rfl, rfl⟩ := he
      obtain ⟨m, rfl, -⟩ := fuel hn
      simp only [stmt, List.cons_append, List.nil_append]
      rw [bind_run, getToken_run, eb_ok, bind_run]
      cases hv : F.retVoid with
      | true =>
        simp only [Bool.not_true, failIf_false]
        rw [last]
        simp [gen, hv, retCode, lift_ok]
      | false => simp [gen, hv, failIf_true, eb_error, lift_error]
    | some e =>
      simp only [Stmt.toks, optToks, List.cons_append, List.nil_append, List.cons.injEq] at he
      obtain ⟨rfl, rfl⟩ := he
      obtain ⟨m, rfl, -⟩ := fuel hn
      simp only [stmt, List.cons_append, List.nil_append]
      rw [bind_run, getToken_run, eb_ok, bind_run]
      cases hv : F.retVoid with
      | true => simp [gen, hv, bind_run, failIf_true, eb_error, lift_error]
      | false =>
        have : (do
          failIf false .unexpected
          let r ← parseExpr (.expr e)
          failIf (r.2.kind != .semi) .unexpected
          (match r.1 with
          | some e => emit (.evalR (L.rpn e))
          | none => pure ()) : M L Unit) (mk (.k .semi :: nx :: rest) c g pre stash lv) = .ok ((), mk (nx :: rest) (c ++ [.evalR (L.rpn e)]) g pre stash lv) := by
          simp only [bind_run, failIf_false, eb_ok, parseExpr_run e .semi rfl]
          rfl
        refine (congrArg (fun z => eb z _) this).trans ((last _).trans ?_)
        simp [gen, hv, retCode, lift_ok]
  | whl e b ih =>
    refine ⟨fun hw n bc pre stash lv g c t ts nx rest hlv hn he ho => ?_, fun h => (by cases h.1)⟩
    simp only [Stmt.toks, List.cons.injEq] at he
    obtain ⟨rfl, rfl⟩ := he
    simp only [Stmt.toks, List.length_cons] at hn
    obtain ⟨m, rfl⟩ : ∃ m, n = m + 1 := ⟨n - 1, by omega⟩
    obtain ⟨t', ts', ht, hst⟩ := wf_starts hw.2
    simp only [stmt, List.cons_append, ht, bind_run, newLab_run, eb_ok, getToken_run, paren_run, emit_run, jumpNot_run]
    rw [ih.1 hw.2 m _ pre stash lv _ _ t' ts' nx rest hlv (by omega) ht ho]
    simp only [gen]
    cases gen F b (nx.kind == .rbrace && lv == 1 && !F.isMain) stash.length (some (g.lab + 1, g.lab)) (ciOf pre) { g with lab := g.lab + 2 } with
    | error e => rfl
    | ok a =>
      simp only [lift_ok, eb_ok, and_ok]
      split <;> simp [bind_run, pure_run, emit_run, eb_ok]
  | dow b e ih =>
    refine ⟨fun hw n bc pre stash lv g c t ts nx rest hlv hn he ho => ?_, fun h => (by cases h.1)⟩
    simp only [Stmt.toks, List.cons.injEq] at he
    obtain ⟨rfl, rfl⟩ := he
    simp only [Stmt.toks, List.length_cons, List.length_append] at hn
    obtain ⟨m, rfl⟩ : ∃ m, n = m + 1 := ⟨n - 1, by omega⟩
    obtain ⟨t', ts', ht, hst⟩ := wf_starts hw.2
    simp only [stmt, List.cons_append, ht, bind_run, newLab_run, eb_ok, getToken_run, emit_run, List.append_assoc, List.nil_append]
    rw [ih.1 hw.2 m _ pre stash lv _ _ t' ts' (.k .while_) _ hlv (by omega) ht (fun _ => by simp [Tok.kind])]
    simp only [gen]
    rw [show ((Tok.k (L := L) .while_).kind == K.rbrace && lv == 1 && !F.isMain) = false from rfl]
    cases gen F b false stash.length (some (g.lab + 2, g.lab + 1)) (ciOf pre) { g with lab := g.lab + 3 } with
    | error e => rfl
    | ok a =>
      simp only [lift_ok, eb_ok, and_ok, bind_run, getToken_run]
      simp only [Tok.kind, bne_self_eq_false, bind_run, failIf_false, eb_ok, paren_run, getToken_run, emit_run, jumpYes_run, List.append_assoc, List.cons_append, List.nil_append]
  | ift e s ih =>
    refine ⟨fun hw n bc pre stash lv g c t ts nx rest hlv hn he ho => ?_, fun h => (by cases h.1)⟩
    simp only [Stmt.toks, List.cons.injEq] at he
    obtain ⟨rfl, rfl⟩ := he
    simp only [Stmt.toks, List.length_cons] at hn
    obtain ⟨m, rfl⟩ : ∃ m, n = m + 1 := ⟨n - 1, by omega⟩
    obtain ⟨t', ts', ht, hst⟩ := wf_starts hw.2
    simp only [stmt, List.cons_append, ht, bind_run, newLab_run, eb_ok, getToken_run, paren_run, jumpNot_run]
    have hne : (nx.kind == K.else_) = false := by simpa using ho rfl
    rw [ih.1 hw.2 m _ pre stash lv _ _ t' ts' nx rest hlv (by omega) ht (fun _ => ho rfl)]
    simp only [gen]
    cases gen F s (nx.kind == .rbrace && lv == 1 && !F.isMain) stash.length bc (ciOf pre) { g with lab := g.lab + 2 } with
    | error e => rfl
    | ok a =>
      simp only [lift_ok, eb_ok, and_ok, hne]
      simp [bind_run, emit_run, pure_run, eb_ok]
  | ife e s s' ih ih' =>
    refine ⟨fun hw n bc pre stash lv g c t ts nx rest hlv hn he ho => ?_, fun h => (by cases h.1)⟩
    simp only [Stmt.toks, List.cons.injEq] at he
    obtain ⟨rfl, rfl⟩ := he
    simp only [Stmt.toks, List.length_cons, List.length_append] at hn
    obtain ⟨m, rfl⟩ : ∃ m, n = m + 1 := ⟨n - 1, by omega⟩
    obtain ⟨-, hw1, hw2, hop⟩ := hw
    obtain ⟨t', ts', ht, hst⟩ := wf_starts hw1
    obtain ⟨t2, ts2, ht2, hst2⟩ := wf_starts hw2
    simp only [stmt, List.cons_append, ht, bind_run, newLab_run, eb_ok, getToken_run, paren_run, jumpNot_run, List.append_assoc]
    rw [ih.1 hw1 m _ pre stash lv _ _ t' ts' (.k .else_) _ hlv (by omega) ht (fun h => by rw [hop] at h; cases h)]
    simp only [gen]
    rw [show ((Tok.k (L := L) .else_).kind == K.rbrace && lv == 1 && !F.isMain) = false from rfl]
    cases gen F s false stash.length bc (ciOf pre) { g with lab := g.lab + 2 } with
    | error e => rfl
    | ok a =>
      simp only [lift_ok, eb_ok, and_ok]
      rw [show ((Tok.k (L := L) .else_).kind == K.else_) = true from rfl]
      simp only [if_true, bind_run, emit_run, eb_ok, ht2, List.cons_append, getToken_run]
      rw [ih'.1 hw2 m _ pre stash lv _ _ t2 ts2 nx rest hlv (by omega) ht2 ho]
      cases gen F s' (nx.kind == .rbrace && lv == 1 && !F.isMain) stash.length bc (ciOf pre) a.2 with
      | error e => rfl
      | ok b => simp [lift_ok, eb_ok, and_ok, bind_run, emit_run, pure_run]
  | «for» i e1 e3 b ih =>
    refine ⟨fun hw n bc pre stash lv g c t ts nx rest hlv hn he ho => ?_, fun h => (by cases h.1)⟩
    simp only [Stmt.toks, List.cons.injEq] at he
    obtain ⟨rfl, rfl⟩ := he
    simp only [Stmt.toks, List.length_cons, List.length_append] at hn
    obtain ⟨m, rfl⟩ : ∃ m, n = m + 1 := ⟨n - 1, by omega⟩
    obtain ⟨t', ts', ht, hst⟩ := wf_starts hw.2
    have hb := fun bc stash g c => ih.1 hw.2 m bc pre stash lv g c t' ts' nx rest hlv (by omega) ht ho
    -- the second expression
    have second : ∀ (k : Option L.E × Tok L → M L (Tok L)) (l : Nat) (c : List (I L.X)) (g : GS) (u : Tok L) (us us' : List (Tok L)), optToks e1 ++ .k .semi :: us' = u :: us →
        (do
          let r ← parseExpr u
          failIf (r.2.kind != .semi) .unexpected
          (match r.1 with
          | some e => jumpNot e l
          | none => pure ())
          k r : M L (Tok L)) (mk us c g pre stash lv) = k (e1, .k .semi) (mk us' (c ++ jnOpt e1 l) g pre stash lv) := by
      intro k l c g u us us' hu
      cases e1 with
      | none =>
        simp only [optToks, List.nil_append, List.cons.injEq] at hu
        obtain ⟨rfl, rfl⟩ := hu
        simp only [bind_run, parseExpr_none .semi rfl, eb_ok, jnOpt, List.append_nil]
        rfl
      | some e =>
        simp only [optToks, List.cons_append, List.nil_append, List.cons.injEq] at hu
        obtain ⟨rfl, rfl⟩ := hu
        simp only [bind_run, parseExpr_run e .semi rfl, eb_ok, jnOpt]
        rw [show ((Tok.k (L := L) .semi).kind != K.semi) = false from rfl, failIf_false, eb_ok, bind_run, jumpNot_run, eb_ok]
    have third : ∀ (k : Option L.E × Tok L → M L (Tok L)) (c : List (I L.X)) (g : GS) (us' : List (Tok L)),
        (do
          let t ← getToken
          let r ← parseExpr t
          failIf (r.2.kind != .rpar) .unexpected
          k r : M L (Tok L)) (mk (optToks e3 ++ .k .rpar :: us') c g pre stash lv) = k (e3, .k .rpar) (mk us' c g pre stash lv) := by
      intro k c g us'
      cases e3 with
      | none =>
        simp only [optToks, List.nil_append, bind_run, getToken_run, eb_ok, parseExpr_none .rpar rfl]
        rfl
      | some e =>
        simp only [optToks, List.cons_append, List.nil_append, bind_run, getToken_run, eb_ok, parseExpr_run e .rpar rfl]
        rfl
    obtain ⟨u, us, hu⟩ : ∃ u us, optToks e1 ++ .k .semi :: (optToks e3 ++ .k .rpar :: (b.toks ++ nx :: rest)) = u :: us := by cases e1 <;> exact ⟨_, _, rfl⟩
    simp only [stmt, List.cons_append, List.append_assoc]
    rw [hu]
    rw [bind_run, newLab_run, eb_ok, bind_run, newLab_run, eb_ok, bind_run, newLab_run, eb_ok, bind_run, newLab_run, eb_ok, bind_run, getToken_run, eb_ok, bind_run,
      show ((Tok.k (L := L) .lpar).kind != K.lpar) = false from rfl, failIf_false, eb_ok, bind_run, forInit_run, eb_ok, bind_run, emit_run, eb_ok]
    refine (second _ _ _ _ _ _ _ hu).trans ((third _ _ _ _).trans ?_)
    rw [bind_run, getStash_run, eb_ok, bind_run]
    simp only [gen, plan, ht, List.cons_append]
    cases e3 with
    | none =>
      simp only
      split
      · simp only [bind_run, getToken_run, eb_ok, hb, Nat.add_zero]
        cases gen F b (nx.kind == .rbrace && lv == 1 && !F.isMain) stash.length (some (g.lab + 3, g.lab + 3)) (ciOf pre) { g with lab := g.lab + 4 } with
        | error e => rfl
        | ok a => simp [lift_ok, eb_ok, and_ok, bind_run, emit_run, pure_run, Nat.add_assoc]
      · simp only [bind_run, getToken_run, eb_ok, hb, Nat.add_zero]
        cases gen F b (nx.kind == .rbrace && lv == 1 && !F.isMain) stash.length (some (g.lab + 3, g.lab)) (ciOf pre) { g with lab := g.lab + 4 } with
        | error e => rfl
        | ok a => simp [lift_ok, eb_ok, and_ok, bind_run, emit_run, pure_run, Nat.add_assoc]
    | some e =>
      simp only
      split
      · simp only [bind_run, getToken_run, eb_ok, setStash_run, hb, List.length_append]
        cases gen F b (nx.kind == .rbrace && lv == 1 && !F.isMain) (stash.length + (L.rpn e).length) (some (g.lab + 3, g.lab + 1)) (ciOf pre) { g with lab := g.lab + 4 } with
        | error e => rfl
        | ok a =>
          have := stash_for stash (L.rpn e)
          simp only [lift_ok, eb_ok, and_ok, bind_run, getStash_run, setStash_run, emit_run, this]
          split <;> simp [bind_run, emit_run, pure_run, eb_ok, Nat.add_assoc]
      · simp only [bind_run, getToken_run, eb_ok, emits_run, hb, Nat.add_zero]
        cases gen F b (nx.kind == .rbrace && lv == 1 && !F.isMain) stash.length (some (g.lab + 3, g.lab + 1)) (ciOf pre) { g with lab := g.lab + 4 } with
        | error e => rfl
        | ok a => simp [lift_ok, eb_ok, and_ok, bind_run, emit_run, pure_run, Nat.add_assoc]
  | brk =>
    refine ⟨fun _ n bc pre stash lv g c t ts nx rest hlv hn he _ => ?_, fun h => (by cases h)⟩
    simp only [Stmt.toks, List.cons.injEq] at he
    obtain ⟨rfl, rfl⟩ := he
    obtain ⟨m, rfl, -⟩ := fuel hn
    simp only [stmt, List.cons_append, List.nil_append, bind_run, getToken_run, eb_ok, gen]
    rw [show ((Tok.k (L := L) .semi).kind != K.semi) = false from rfl]
    simp only [failIf_false, eb_ok, getToken_run]
    cases bc <;> rfl
  | cont =>
    refine ⟨fun _ n bc pre stash lv g c t ts nx rest hlv hn he _ => ?_, fun h => (by cases h)⟩
    simp only [Stmt.toks, List.cons.injEq] at he
    obtain ⟨rfl, rfl⟩ := he
    obtain ⟨m, rfl, -⟩ := fuel hn
    simp only [stmt, List.cons_append, List.nil_append, bind_run, getToken_run, eb_ok, gen]
    rw [show ((Tok.k (L := L) .semi).kind != K.semi) = false from rfl]
    simp only [failIf_false, eb_ok, getToken_run]
    cases bc with
    | none => rfl
    | some x => simp only; split <;> rfl
  | switch e b ih =>
    refine ⟨fun hw n bc pre stash lv g c t ts nx rest hlv hn he ho => ?_, fun h => (by cases h.1)⟩
    simp only [Stmt.toks, List.cons.injEq] at he
    obtain ⟨rfl, rfl⟩ := he
    simp only [Stmt.toks, List.length_cons] at hn
    obtain ⟨m, rfl⟩ : ∃ m, n = m + 1 := ⟨n - 1, by omega⟩
    obtain ⟨t', ts', ht, hst⟩ := wf_starts hw.2
    simp only [stmt, List.cons_append, ht, bind_run, getCases_run, newLab_run, eb_ok, getToken_run, paren_run, emit_run, addCase_switch, gen]
    split
    · rfl
    · rw [eb_ok, show (real g pre).length + 1 = ciOf (some (real { g with lab := g.lab + 1 + 1 } pre)) from rfl, bind_run,
        ih.1 hw.2 m _ (some (real { g with lab := g.lab + 1 + 1 } pre)) stash lv _ _ t' ts' nx rest hlv (by omega) ht ho, show ciOf (some (real { g with lab := g.lab + 1 + 1 } pre)) = ciOf pre + g.cs.length + 1 by rw [← real_length]; rfl]
      cases gen F b (nx.kind == .rbrace && lv == 1 && !F.isMain) stash.length (some (g.lab, cntTarget bc)) (ciOf pre + g.cs.length + 1) { g with lab := g.lab + 2, cs := [], d := 0 } with
      | error e => rfl
      | ok a =>
        rw [show real { g with lab := g.lab + 1 + 1 } pre = real g pre from rfl]
        simp only [lift_ok, eb_ok, and_ok, bind_run, getCases_run, emits_run, setCases_switch, pure_run]
        rw [show real a.2 (some (real g pre)) = real g pre ++ (0, a.2.d) :: a.2.cs from rfl, switchEnd_mid]
        simp
  | case e s ih =>
    refine ⟨fun hw n bc pre stash lv g c t ts nx rest hlv hn he ho => ?_, fun h => (by cases h.1)⟩
    simp only [Stmt.toks, List.cons.injEq] at he
    obtain ⟨rfl, rfl⟩ := he
    simp only [Stmt.toks, List.length_cons] at hn
    obtain ⟨m, rfl⟩ : ∃ m, n = m + 1 := ⟨n - 1, by omega⟩
    obtain ⟨t', ts', ht, hst⟩ := wf_starts hw.2
    cases pre with
    | none => rfl
    | some p =>
      have h0 : (ciOf (some p) == 0) = false := by simp [ciOf]
      have h0' : ¬ ciOf (some p) = 0 := by simp [ciOf]
      simp only [stmt, List.cons_append, ht, bind_run, h0, failIf_false, eb_ok, getToken_run, parseExpr_run e .colon rfl, gen, if_neg h0']
      rw [show ((Tok.k (L := L) .colon).kind != K.colon) = false from rfl]
      simp only [failIf_false, eb_ok]
      cases hv : L.const e with
      | none => rfl
      | some v =>
        simp only [bind_run, getCases_run, eb_ok]
        rw [show (real g (some p)).drop (ciOf (some p)) = g.cs from drop_mid p (0, g.d) g.cs]
        cases hh : hasCase g.cs (L.trunc v) with
        | true => rfl
        | false =>
          simp only [failIf_false, eb_ok, bind_run, newLab_run, addCase_case, if_neg (show ¬ (false = true) by simp)]
          split
          · rfl
          · simp only [eb_ok, bind_run, emit_run, getToken_run]
            rw [ih.1 hw.2 m bc (some p) stash lv _ _ t' ts' nx rest hlv (by omega) ht ho]
            cases gen F s (nx.kind == .rbrace && lv == 1 && !F.isMain) stash.length bc (ciOf (some p)) { g with lab := g.lab + 1, cs := g.cs ++ [(L.trunc v, g.lab)] } with
            | error e => rfl
            | ok a => simp [lift_ok, and_ok]
  | default s ih =>
    refine ⟨fun hw n bc pre stash lv g c t ts nx rest hlv hn he ho => ?_, fun h => (by cases h.1)⟩
    simp only [Stmt.toks, List.cons.injEq] at he
    obtain ⟨rfl, rfl⟩ := he
    simp only [Stmt.toks, List.length_cons] at hn
    obtain ⟨m, rfl⟩ : ∃ m, n = m + 1 := ⟨n - 1, by omega⟩
    obtain ⟨t', ts', ht, hst⟩ := wf_starts hw.2
    cases pre with
    | none => rfl
    | some p =>
      have h0 : (ciOf (some p) == 0) = false := by simp [ciOf]
      have h0' : ¬ ciOf (some p) = 0 := by simp [ciOf]
      simp only [stmt, List.cons_append, ht, bind_run, h0, failIf_false, eb_ok, getCases_run, gen, if_neg h0']
      rw [show defOf (real g (some p)) (ciOf (some p)) = g.d from defOf_mid p g.d g.cs]
      by_cases hd : g.d = 0
      · rw [show (g.d != 0) = false by simp [hd], if_neg (by simp [hd])]
        simp only [failIf_false, eb_ok, bind_run, getToken_run, show (Tok.k (L := L) .colon).kind = K.colon from rfl, bne_self_eq_false, newLab_run]
        rw [show setDef (real g (some p)) (ciOf (some p)) g.lab = p ++ (0, g.lab) :: g.cs from setDef_mid p g.d g.lab g.cs,
          show setCases (p ++ (0, g.lab) :: g.cs) (mk (ts' ++ nx :: rest) c { g with lab := g.lab + 1 } (some p) stash lv) =
            .ok ((), mk (ts' ++ nx :: rest) c { g with lab := g.lab + 1, d := g.lab } (some p) stash lv) from rfl]
        simp only [eb_ok, bind_run, emit_run]
        rw [ih.1 hw.2 m bc (some p) stash lv _ _ t' ts' nx rest hlv (by omega) ht ho]
        cases gen F s (nx.kind == .rbrace && lv == 1 && !F.isMain) stash.length bc (ciOf (some p)) { g with lab := g.lab + 1, d := g.lab } with
        | error e => rfl
        | ok a => simp [lift_ok, and_ok]
      · rw [show (g.d != 0) = true by simp [hd], if_pos hd]
        rfl
  | goto k =>
    refine ⟨fun _ n bc pre stash lv g c t ts nx rest hlv hn he _ => ?_, fun h => (by cases h)⟩
    simp only [Stmt.toks, List.cons.injEq] at he
    obtain ⟨rfl, rfl⟩ := he
    obtain ⟨m, rfl, -⟩ := fuel hn
    simp only [stmt, List.cons_append, List.nil_append, bind_run, getToken_run, eb_ok, gen, addGoto_run]
    cases addG F k false g with
    | error e => rfl
    | ok a => rfl
  | label k s ih =>
    refine ⟨fun hw n bc pre stash lv g c t ts nx rest hlv hn he ho => ?_, fun h => (by cases h.1)⟩
    simp only [Stmt.toks, List.cons.injEq] at he
    obtain ⟨rfl, rfl⟩ := he
    simp only [Stmt.toks, List.length_cons] at hn
    obtain ⟨m, rfl⟩ : ∃ m, n = m + 1 := ⟨n - 1, by omega⟩
    obtain ⟨t', ts', ht, hst⟩ := wf_starts hw.2
    simp only [stmt, ht, List.cons_append, bind_run, gen, addGoto_run]
    cases addG F k true g with
    | error e => rfl
    | ok a =>
      simp only [and_ok, eb_ok, bind_run, emit_run, getToken_run]
      rw [ih.1 hw.2 m bc pre stash lv a.2 _ t' ts' nx rest hlv (by omega) ht ho]
      cases gen F s (nx.kind == .rbrace && lv == 1 && !F.isMain) stash.length bc (ciOf pre) a.2 with
      | error e => rfl
      | ok b => simp [lift_ok, and_ok]

end

end Smlr.Stmt
