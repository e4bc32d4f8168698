import Verif.Cg.Jump
set_option autoImplicit false
/-! The labels of the code of expressions. -/
namespace Smlr.Cg
variable {W : Nat}

/-- the labels of an expression -/
def E.labels : E → List Int
  | .num _ | .glob _ | .loc _ => []
  | .deref _ e | .un _ e | .inc _ _ e | .padd _ _ _ e => e.labels
  | .bin _ l r | .cmp _ l r | .asg _ l r | .asgo _ _ l r | .comma l r => l.labels ++ r.labels
  | .land lab l r | .lor lab l r => l.labels ++ r.labels ++ [lab]
  | .cond lab c a b => c.labels ++ b.labels ++ [lab] ++ a.labels ++ [lab + 1]

theorem labs_app (a b : List Ins) : labs (a ++ b) = labs a ++ labs b := List.filterMap_append
theorem labs_cons_lab (l : Int) (a : List Ins) : labs (.lab l :: a) = l :: labs a := rfl

theorem labs_p2 (i : I2) (d t : Opd) : labs (p2 W i d t) = [] := by
  unfold p2
  repeat' split
  all_goals rfl

theorem labs_i1 (i : I1) (o : Opd) (a : List Ins) : labs (.i1 i o :: a) = labs a := rfl
theorem labs_i0 (i : I0) (a : List Ins) : labs (.i0 i :: a) = labs a := rfl
theorem labs_nil : labs [] = [] := rfl
theorem labs_mul (d s t : Opd) (a : List Ins) : labs (.imul3 d s t :: a) = labs a := rfl
theorem labs_jcc (c : Cc) (l : Int) (a : List Ins) : labs (.jcc c l :: a) = labs a := rfl
theorem labs_jmp (l : Int) (a : List Ins) : labs (.jmp l :: a) = labs a := rfl

macro "nolab" "[" ts:Lean.Parser.Tactic.simpLemma,* "]" : tactic =>
  `(tactic| (repeat' split) <;> simp [labs_app, labs_p2, labs_i1, labs_i0, labs_nil, labs_mul, labs_jcc, labs_jmp, $ts,*])

theorem labs_extendA (sz : Int) : labs (extendA W sz) = [] := by unfold extendA; nolab []
theorem labs_readA (sz : Int) (a : Adr) : labs (readA W sz a) = [] := by unfold readA; simp [labs_app, labs_p2, labs_extendA]
theorem labs_readC (sz : Int) (a : Adr) : labs (readC W sz a) = [] := by unfold readC; nolab []
theorem labs_genUn (k : Tok) (sz : Int) (t : T) (n : Int) : labs (genUn W k sz t n) = [] := by
  have h : ∀ b, labs (toB W b) = [] := fun b => by unfold toB; nolab []
  unfold genUn
  split
  · rfl
  · rw [labs_app, h]
    split <;> simp [incDec, postIncDec, postAddSub, labs_app, labs_p2, labs_i1, labs_extendA, labs_readA, labs_nil]
theorem labs_loadA (sz : Int) (t : T) : labs (loadA W sz t) = [] := by unfold loadA; nolab [labs_readA, readInd]
theorem labs_alu (i : I2) (sz : Int) (t : T) : labs (alu W i sz t) = [] := by unfold alu; nolab [labs_readC]
theorem labs_mulA (sz : Int) (t : T) : labs (mulA W sz t) = [] := by unfold mulA; nolab [labs_readC]
theorem labs_divA (g m : Bool) (sz : Int) (t : T) : labs (divA W g m sz t) = [] := by
  unfold divA
  simp only [labs_app]
  have h1 : labs (if g = true then if W = 2 then [.i0 .cwd] else [.i0 .cdq] else p2 W .mov .dx (.imm 0)) = [] := by nolab []
  have h3 : labs (if m = true then p2 W .mov .ax .dx else []) = [] := by nolab []
  rw [h1, h3]
  nolab [labs_readC]
theorem labs_shiftA (i : I2) (t : T) : labs (shiftA W i t) = [] := by unfold shiftA; nolab []
theorem labs_operA (o : Ar) (sz : Int) (t : T) : labs (operA W o sz t) = [] := by
  cases o <;> simp [operA, labs_alu, labs_mulA, labs_divA, labs_shiftA]
theorem labs_cmpEnd (c : Cc) (n : Option T) : labs (cmpEnd W c n) = [] := by unfold cmpEnd; nolab []
theorem labs_saveR (sz : Int) (t : T) : labs (saveR W sz t) = [] := by unfold saveR; nolab [readCInd, labs_readC]
theorem labs_store (sz : Int) (t : T) : labs (store W sz t) = [] := by unfold store; rw [labs_app, labs_extendA]; nolab []
theorem labs_genBin (k : Tok) (v : Int) (l r : T) (n : Option T) : labs (genBin W k v l r n) = [] := by
  unfold genBin
  split
  · simp only [labs_app, labs_loadA, labs_store]
    nolab []
  all_goals simp [labs_app, labs_saveR, labs_loadA, labs_operA, labs_store, labs_alu, labs_cmpEnd, labs_nil]
theorem labs_jumpIf (nz : Bool) (l : Int) : labs (jumpIf W nz l) = [] := by unfold jumpIf; simp [labs_app, labs_p2, labs_jcc, labs_nil]

/-- the labels of a stack -/
def slabs (s : List T) : List Int := s.filterMap fun t => match t.1 with
  | .logAnd | .logOr => some t.2
  | _ => none

theorem slabs_app (a b : List T) : slabs (a ++ b) = slabs a ++ slabs b := List.filterMap_append

theorem slabs_cons (t : T) (a : List T) : (slabs a).Sublist (slabs (t :: a)) := by
  show (slabs a).Sublist (slabs ([t] ++ a))
  rw [slabs_app]
  exact List.sublist_append_right _ _

theorem sub2 {a : List T} {x : List Int} (t u : T) (h : x.Sublist (slabs a)) : x.Sublist (slabs (t :: u :: a)) := (h.trans (slabs_cons _ _)).trans (slabs_cons _ _)

/-- the labels that the code defines are on the stack -/
theorem gen_labs : ∀ (n : Nat) (s : List T), s.length ≤ n → ∀ code, gen W s = some code → (labs code).Sublist (slabs s) := by
  intro n
  induction n with
  | zero => intro s hn code h; cases s with
    | nil => cases h; exact List.Sublist.refl _
    | cons t s => cases hn
  | succ n ih =>
    intro s hn code h
    have one : ∀ {t : T} {r : List T} {pre : List Ins}, (t :: r).length ≤ n + 1 → labs pre = [] → (gen W r).map (pre ++ ·) = some code → (labs code).Sublist (slabs (t :: r)) := by
      intro t r pre hl hp hg
      obtain ⟨c, h1, rfl⟩ := Option.map_eq_some_iff.mp hg
      rw [labs_app, hp]
      exact (ih r (by simpa using hl) c h1).trans (slabs_cons _ _)
    have two : ∀ {t u : T} {r : List T} {pre : List Ins}, (t :: u :: r).length ≤ n + 1 → labs pre = [] → (gen W r).map (pre ++ ·) = some code → (labs code).Sublist (slabs (t :: u :: r)) := by
      intro t u r pre hl hp hg
      obtain ⟨c, h1, rfl⟩ := Option.map_eq_some_iff.mp hg
      rw [labs_app, hp]
      exact sub2 _ _ (ih r (by simp at hl; omega) c h1)
    have three : ∀ {t u v : T} {r : List T} {pre : List Ins}, (t :: u :: v :: r).length ≤ n + 1 → labs pre = [] → (gen W r).map (pre ++ ·) = some code → (labs code).Sublist (slabs (t :: u :: v :: r)) := by
      intro t u v r pre hl hp hg
      obtain ⟨c, h1, rfl⟩ := Option.map_eq_some_iff.mp hg
      rw [labs_app, hp]
      exact (sub2 _ _ (ih r (by simp at hl; omega) c h1)).trans (slabs_cons _ _)
    unfold gen at h
    split at h
    case h_1 => cases h; exact List.Sublist.refl _
    case h_14 | h_15 =>
      obtain ⟨c, h1, rfl⟩ := Option.map_eq_some_iff.mp h
      rw [labs_cons_lab]
      exact (ih _ (by simpa using hn) c h1).cons_cons _
    case h_12 => exact one hn (by split <;> exact labs_jumpIf _ _) h
    all_goals first
      | (exact (ih _ (by simpa using hn) _ h).trans (slabs_cons _ _))
      | (exact two hn (labs_genUn _ _ _ _) h)
      | (exact three hn (labs_genUn _ _ _ _) h)
      | (exact three hn (labs_genBin _ _ _ _ _) h)
      | (exact one hn (labs_p2 _ _ _) h)
      | (exact one hn (pre := [.i1 _ _]) rfl h)
      | (exact one hn (pre := [.jmp _]) rfl h)
      | (exact one hn (by nolab []) h)
      | cases h

theorem slabs_dropLast (F : List T) : (slabs F.dropLast).Sublist (slabs F) := (List.dropLast_sublist F).filterMap _

theorem slabs_unF (ind : Bool) (tok : Tok) (sz : Int) (c : Cls) (F : List T) (h1 : tok ≠ .logAnd) (h2 : tok ≠ .logOr) : (slabs (unF ind tok sz c F)).Sublist (slabs F) := by
  have h : ∀ k : T, k.1.isOp = true → slabs [(tok, sz), k] = [] := by
    rintro ⟨k, v⟩ hk
    cases tok <;> first | exact absurd rfl h1 | exact absurd rfl h2 | (cases k <;> first | rfl | cases hk)
  unfold unF
  split
  · rw [h _ (by cases ind <;> rfl)]; exact List.nil_sublist _
  · rw [h _ (by cases ind <;> rfl)]; exact List.nil_sublist _
  · rw [slabs_app, h _ (by cases ind <;> rfl), List.append_nil]

theorem slabs_postF (sub : Bool) (sz n : Int) (c : Cls) (F : List T) : (slabs (postF (if sub then .psub else .padd) sz n c F)).Sublist (slabs F) := by
  unfold postF
  split
  · cases sub <;> exact List.nil_sublist _
  · cases sub <;> exact List.nil_sublist _
  · rw [slabs_app]
    cases sub <;> exact (List.append_nil _).symm ▸ List.Sublist.refl _

theorem slabs_binF (tok : Tok) (L R : Info) (Fl Fr : List T) (h1 : tok ≠ .logAnd) (h2 : tok ≠ .logOr) (hl : L.typ.isOp = true) (hr : R.typ.isOp = true) :
    (slabs (binF tok L R Fl Fr)).Sublist (slabs Fl ++ slabs Fr) := by
  have h : ∀ k k' : T, (k.1.isOp = true ∨ k.1 = .opStk ∨ k.1 = .opIStk) → k'.1.isOp = true → ∀ sz, slabs [(tok, sz), k, k'] = [] := by
    rintro ⟨k, v⟩ ⟨k', v'⟩ hk hk' sz
    have a1 : slabs [(tok, sz)] = [] := by cases tok <;> first | exact absurd rfl h1 | exact absurd rfl h2 | rfl
    have a2 : slabs [(k, v)] = [] := by
      rcases hk with hk | hk | hk
      · cases k <;> first | rfl | cases hk
      · cases hk; rfl
      · cases hk; rfl
    have a3 : slabs [(k', v')] = [] := by cases k' <;> first | rfl | cases hk'
    have : slabs [(tok, sz), (k, v), (k', v')] = slabs [(tok, sz)] ++ (slabs [(k, v)] ++ slabs [(k', v')]) := by
      rw [← slabs_app, ← slabs_app]; rfl
    rw [this, a1, a2, a3]; rfl
  have dd : ∀ F, (slabs F.dropLast.dropLast).Sublist (slabs F) := fun F => (slabs_dropLast _).trans (slabs_dropLast _)
  unfold binF
  rw [slabs_app, slabs_app, h _ _ (ltyp_ok L R hl) hr, List.append_nil]
  refine List.Sublist.append ?_ ?_
  · unfold lpart
    split
    · exact List.nil_sublist _
    · split
      · rw [slabs_app]
        have : slabs [(Tok.push, 0)] = [] := rfl
        rw [this, List.append_nil]
        split
        · exact dd _
        · exact List.Sublist.refl _
      · split
        · exact dd _
        · exact List.Sublist.refl _
  · unfold rpart
    split
    · exact List.nil_sublist _
    · split
      · exact dd _
      · exact List.Sublist.refl _

theorem fz_labs (e : E) : (slabs (fz W e)).Sublist e.labels := by
  induction e with
  | num v | glob v | loc v => exact List.nil_sublist _
  | deref sz e ih => exact (slabs_unF _ .star _ _ _ (by decide) (by decide)).trans ih
  | un u e ih =>
    by_cases hu : u = .plus
    · subst hu; exact ih
    · rw [fz_un W u e hu, slabs_app]
      have : slabs [(u.tok, 0)] = [] := by cases u <;> rfl
      rw [this, List.append_nil]; exact ih
  | inc k sz e ih => exact (slabs_unF _ _ _ _ _ (by cases k <;> decide) (by cases k <;> decide)).trans ih
  | padd sub sz n e ih => exact (slabs_postF _ _ _ _ _).trans ih
  | bin o l r ihl ihr => exact (slabs_binF (.ar o) _ _ _ _ nofun nofun (rInfo_op _ _) (rInfo_op _ _)).trans (ihl.append ihr)
  | cmp o l r ihl ihr => exact (slabs_binF (.cmp o) _ _ _ _ nofun nofun (rInfo_op _ _) (rInfo_op _ _)).trans (ihl.append ihr)
  | asg sz l r ihl ihr => exact (slabs_binF .asg _ _ _ _ nofun nofun (lInfo_op _ _) (rInfo_op _ _)).trans (ihl.append ihr)
  | asgo o sz l r ihl ihr => exact (slabs_binF (.asgo o) _ _ _ _ nofun nofun (lInfo_op _ _) (rInfo_op _ _)).trans (ihl.append ihr)
  | land lab l r ihl ihr | lor lab l r ihl ihr =>
    simp only [fz, slabs_app, E.labels]
    refine List.Sublist.append (List.Sublist.append ?_ ihr) (List.Sublist.refl _)
    exact (List.append_nil _).symm ▸ ihl
  | cond lab c a b ihc iha ihb =>
    simp only [fz, slabs_app, E.labels]
    refine List.Sublist.append (List.Sublist.append (List.Sublist.append (List.Sublist.append ?_ ?_) (List.Sublist.refl _)) iha) (List.Sublist.refl _)
    · exact (List.append_nil _).symm ▸ ihc
    · exact (List.append_nil _).symm ▸ ihb
  | comma l r ihl ihr =>
    simp only [fz, slabs_app, E.labels]
    have : slabs [(Tok.comma, 0)] = [] := rfl
    rw [this, List.append_nil]
    refine List.Sublist.append ?_ ihr
    exact (List.append_nil _).symm ▸ ihl

theorem genExpr_labs (hW : W = 2 ∨ W = 4) (e : E) (h : e.ok W) {code : List Ins} (hc : genExpr W (toks e) = some code) : (labs code).Sublist e.labels := by
  rw [genExpr_toks hW e h] at hc
  exact (gen_labs _ _ (Nat.le_refl _) _ hc).trans (fz_labs e)

end Smlr.Cg
