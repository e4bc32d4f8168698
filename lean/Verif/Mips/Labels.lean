import Verif.Mips.Top
import Verif.Cg.Labels
set_option autoImplicit false
/-! The labels of the code of expressions. -/
namespace Smlr.Mips
open Smlr.Cg (E Ar Cc toks)

theorem labs_app (a b : List Ins) : labs (a ++ b) = labs a ++ labs b := List.filterMap_append
theorem labs_nil : labs [] = [] := rfl

theorem labs_p3 (i : Alu) (d a : Nat) (o : Opd) : labs (p3 i d a o) = [] := by unfold p3; split <;> rfl
theorem labs_rd (d : Nat) (sz : Int) (o : Obj) : labs (rd d sz o) = [] := by cases o <;> rfl
theorem labs_wr (d : Nat) (sz : Int) (o : Obj) : labs (wr d sz o) = [] := by cases o <;> rfl
theorem labs_extend (d : Nat) (sz : Int) : labs (extend d sz) = [] := by
  unfold extend
  repeat' split
  all_goals first | rfl | exact labs_p3 _ _ _ _
theorem labs_opOf (o : Ar) (d l r : Nat) : labs (opOf o d l r) = [] := by
  unfold opOf
  split
  · exact labs_p3 _ _ _ _
  · unfold divOf; rw [labs_app]; split <;> split <;> rfl
theorem labs_move (a b : Nat) (c : List Ins) : labs (.move a b :: c) = labs c := rfl
theorem labs_incDec (d : Nat) (sz : Int) (o : Obj) (b : Bool) : labs (incDec d sz o b) = [] := by
  unfold incDec; simp only [labs_app, labs_rd, labs_p3, labs_wr, labs_extend, List.append_nil]
theorem labs_postIncDec (d : Nat) (sz : Int) (o : Obj) (b : Bool) : labs (postIncDec d sz o b) = [] := by
  unfold postIncDec; simp only [labs_app, labs_rd, labs_p3, labs_wr, labs_extend, List.append_nil]
theorem labs_incOf (p : T) (w : Nat) (c : Obj → List Ins) (h : ∀ o, labs (c o) = []) : labs (incOf p w c) = [] := by
  unfold incOf; split <;> simp only [labs_move, h]
theorem labs_postOf (i : Alu) (w L R : Nat) (sz : Int) : labs (postOf i w L R sz) = [] := by
  unfold postOf; split <;> simp only [labs_app, labs_move, labs_nil, labs_rd, labs_p3, labs_wr, List.append_nil]
theorem labs_asgoOf (o : Ar) (w L R : Nat) (sz : Int) : labs (asgoOf o w L R sz) = [] := by
  unfold asgoOf; split <;> simp only [labs_app, labs_move, labs_nil, labs_rd, labs_opOf, labs_wr, List.append_nil]
theorem labs_block (slt : Alu) (w L R : Nat) (cv : Int) (tr : Bool) (lab : Int) (b : Bl) : labs (block slt w L R cv tr lab b) = [] := by
  cases b <;> simp only [block, labs_p3] <;> cases tr <;> rfl
theorem labs_cmpWith (c : Cc) (w L R n : Nat) (cv : Int) (br : Option (Bool × Int)) : labs (cmpWith c w L R n cv br) = [] := by
  unfold cmpWith
  dsimp only
  generalize blocks _ _ _ = l
  induction l with
  | nil => rfl
  | cons b l ih => rw [List.flatMap_cons, labs_app, labs_block, ih]; rfl
theorem labs_cmpCode (c : Cc) (w L R : Nat) (n : Option Int) (br : Option (Bool × Int)) : labs (cmpCode c w L R n br) = [] := by
  unfold cmpCode
  split
  · split <;> exact labs_cmpWith _ _ _ _ _ _ _
  · exact labs_cmpWith _ _ _ _ _ _ _
theorem labs_push (G : Gs) : labs (push G).1 = [] := by unfold push; split <;> rfl
theorem labs_pop {G G' : Gs} {c : List Ins} {L R : Nat} (h : pop G = some (c, L, R, G')) : labs c = [] := by
  unfold pop at h
  split at h
  · cases h
  · split at h
    · cases h; rfl
    · cases h; rfl

/-- the labels of an element -/
def tlab (x : T) : List Int :=
  match x.1 with
  | .t .logAnd | .t .logOr => [x.2]
  | _ => []

def slabs (s : List T) : List Int := s.flatMap tlab

theorem slabs_app (a b : List T) : slabs (a ++ b) = slabs a ++ slabs b := List.flatMap_append
theorem slabs_one (x : T) : slabs [x] = tlab x := by simp [slabs]
theorem slabs_cons (x : T) (r : List T) : slabs (x :: r) = tlab x ++ slabs r := rfl
theorem slabs_nil : slabs [] = [] := rfl

theorem step_labs {G G' : Gs} {p x : T} {n : Option T} {c : List Ins} {b : Bool} (h : step G p n x = some (c, G', b)) : labs c = tlab x := by
  obtain ⟨k, v⟩ := x
  have leaf : ∀ {hid psh : Bool} {code : Nat → List Ins}, (∀ w, labs (code w) = []) →
      (some ((if (G.g && psh) = true then push G else ([], G)).1 ++ (if hid = true then [] else code (if (G.g && psh) = true then push G else ([], G)).2.w),
        ({ (if (G.g && psh) = true then push G else ([], G)).2 with g := true } : Gs), false) : Option (List Ins × Gs × Bool)) = some (c, G', b) → labs c = [] := by
    intro hid psh code hc h
    injection h with h
    injection h with h1 h2
    rw [← h1, labs_app]
    have a1 : labs (if (G.g && psh) = true then push G else ([], G)).1 = [] := by split; exact labs_push G; rfl
    rw [a1]
    split
    · rfl
    · rw [hc]; rfl
  have popd : ∀ {f : List Ins × Nat × Nat × Gs → List Ins × Gs × Bool}, (∀ k L R G', labs k = [] → labs (f (k, L, R, G')).1 = []) → (pop G).map f = some (c, G', b) → labs c = [] := by
    intro f hf h
    obtain ⟨⟨k, L, R, G''⟩, h1, h2⟩ := Option.map_eq_some_iff.mp h
    have := hf k L R G'' (labs_pop h1)
    rw [h2] at this
    exact this
  have triv : ∀ {c' : List Ins} {G'' : Gs} {b' : Bool}, labs c' = tlab (k, v) → some (c', G'', b') = some (c, G', b) → labs c = tlab (k, v) := by
    intro c' G'' b' h1 h2
    injection h2 with h2
    injection h2 with h3 h4
    rw [← h3]; exact h1
  cases k with
  | num0 | revIdent | revLocl => exact triv rfl h
  | asg0 => exact triv (labs_wr _ _ _) h
  | t k =>
    cases k with
    | num => exact leaf (code := fun w => [.li w v]) (fun w => rfl) h
    | ident => exact leaf (code := fun w => [.la w v]) (fun w => rfl) h
    | locl => exact leaf (code := fun w => p3 .addu w FP (.imm v)) (fun w => labs_p3 _ _ _ _) h
    | star => exact triv (labs_rd _ _ _) h
    | uplus | comma | ret | void => exact triv rfl h
    | not | neg | bool | uchar | tushort => exact triv (labs_p3 _ _ _ _) h
    | schar | tshort | goto | logAnd | logOr | ifT | ifN => exact triv rfl h
    | short => refine triv ?_ h; split <;> rfl
    | inc | dec => exact triv (labs_incOf _ _ _ fun o => labs_incDec _ _ _ _) h
    | pinc | pdec => exact triv (labs_incOf _ _ _ fun o => labs_postIncDec _ _ _ _) h
    | padd | psub => exact popd (fun k L R G' hk => by simp only [labs_app, hk, labs_postOf]; rfl) h
    | ar o =>
      simp only [step] at h
      split at h
      · obtain ⟨i, -, h2⟩ := Option.map_eq_some_iff.mp h
        injection h2 with h3 h4
        rw [← h3]; exact labs_p3 _ _ _ _
      · exact popd (fun k L R G' hk => by simp only [labs_app, hk, labs_opOf]; rfl) h
    | asgo o =>
      simp only [step] at h
      split at h
      · exact triv (by simp only [labs_app, labs_rd, labs_opOf, labs_wr, labs_extend]; rfl) h
      · exact popd (fun k L R G' hk => by simp only [labs_app, hk, labs_asgoOf, labs_extend]; rfl) h
    | asg =>
      simp only [step] at h
      split at h
      · exact triv (by simp only [labs_app, labs_wr, labs_extend]; rfl) h
      · exact popd (fun k L R G' hk => by simp only [labs_app, hk, labs_wr, labs_extend]; split <;> rfl) h
    | cmp c =>
      simp only [step] at h
      split at h
      · exact triv (labs_cmpCode _ _ _ _ _ _) h
      · exact popd (fun k L R G' hk => by simp only [labs_app, hk, labs_cmpCode]; rfl) h
    | _ => cases h

theorem gen_labs (s : List T) : ∀ (skip : Bool) (G : Gs) (p : T) (c : List Ins), gen skip G p s = some c → (labs c).Sublist (slabs s) := by
  induction s with
  | nil =>
    intro skip G p c h
    simp only [gen] at h
    split at h
    · cases h; exact .refl _
    · cases h
  | cons x r ih =>
    intro skip G p c h
    rw [slabs_cons]
    cases skip with
    | true =>
      rw [gen] at h
      exact (ih _ _ _ _ h).trans (List.sublist_append_right _ _)
    | false =>
      rw [gen_cons] at h
      obtain ⟨⟨c1, G1, b1⟩, h1, h2⟩ := Option.bind_eq_some_iff.mp h
      obtain ⟨c2, h3, rfl⟩ := Option.map_eq_some_iff.mp h2
      rw [labs_app, step_labs h1]
      exact (List.Sublist.refl _).append (ih _ _ _ _ h3)

/-! ### the labels of the elements -/

theorem slabs_sub {a b : List T} (h : a.Sublist b) : (slabs a).Sublist (slabs b) := by
  induction h with
  | slnil => exact .refl _
  | cons x _ ih => exact ih.trans (by rw [slabs_cons]; exact List.sublist_append_right _ _)
  | cons_cons x _ ih => rw [slabs_cons, slabs_cons]; exact (List.Sublist.refl _).append ih

theorem tlab_op {k : Cg.Tok} (h : opTok k) (v : Int) : tlab (.t k, v) = [] := by rcases h with ⟨o, rfl⟩ | ⟨c, rfl⟩ <;> rfl

theorem slabs_fin {k : Cg.Tok} (h : opTok k) (v : Int) (a : List T) (x : T) : (slabs (fin k v a x)).Sublist (slabs (a ++ [x])) := by
  unfold fin
  split
  · next n =>
    rw [slabs_app, slabs_app, slabs_cons, slabs_one, tlab_op (special_op h n)]
    exact .refl _
  · rw [slabs_app, slabs_app, slabs_cons, slabs_one, slabs_one, tlab_op h, List.append_nil]

theorem drop_last (r : List T) (x : T) (h : r.getLast? = some x) : r.dropLast ++ [x] = r := List.dropLast_append_getLast? _ (by rw [h]; rfl)

theorem slabs_swapped {k : Cg.Tok} (h : opTok k) (v : Int) (l r : List T) : (slabs (swapped k v l r)).Sublist (slabs l ++ slabs r) := by
  unfold swapped
  split
  · next n x h1 h2 =>
    split
    · refine (slabs_fin h v _ _).trans ?_
      rw [List.append_assoc, drop_last r x h2, slabs_app]
    · refine (slabs_fin (mirror_op h) v _ _).trans ?_
      rw [slabs_app, slabs_app, slabs_one]
      show (_ ++ []).Sublist _
      rw [List.append_nil]
      exact (slabs_sub (List.dropLast_sublist l)).append (.refl _)
  · next x h2 _ =>
    refine (slabs_fin h v _ _).trans ?_
    rw [List.append_assoc, drop_last r x h2, slabs_app]
  · rw [slabs_app, slabs_app, slabs_one, tlab_op h, List.append_nil]

theorem slabs_fix (k : Cg.Tok) (r : List T) : (slabs (fix k r).2).Sublist (slabs r) := by
  unfold fix
  split
  · exact List.nil_sublist _
  · exact .refl _

theorem slabs_revd {k : Tok} (v : Int) (h : tlab (k, v) = []) (l r : List T) : (slabs (revd k v l r)).Sublist (slabs l ++ slabs r) := by
  have hd := slabs_sub (List.dropLast_sublist l)
  unfold revd
  split
  · rw [slabs_app, slabs_app, slabs_cons, slabs_one, h]
    show (_ ++ []).Sublist _
    rw [List.append_nil]
    exact hd.append (.refl _)
  · rw [slabs_app, slabs_app, slabs_cons, slabs_one, h]
    show (_ ++ []).Sublist _
    rw [List.append_nil]
    exact hd.append (.refl _)
  · rw [slabs_app, slabs_app, slabs_one, h, List.append_nil]

theorem pt_labs (e : E) : (slabs (pt e)).Sublist e.labels := by
  have one : ∀ {F : List T} {L : List Int} {x : T}, tlab x = [] → (slabs F).Sublist L → (slabs (F ++ [x])).Sublist L := by
    intro F L x hx h
    rw [slabs_app, slabs_one, hx, List.append_nil]; exact h
  induction e with
  | num v | glob v | loc v => exact List.nil_sublist _
  | deref sz e ih => exact one rfl ih
  | un u e ih => exact one (by cases u <;> rfl) ih
  | inc k sz e ih => exact one (by cases k <;> rfl) ih
  | padd b sz n e ih => exact one (by cases b <;> rfl) (one rfl ih)
  | bin o l r ihl ihr =>
    show (slabs (binT o _ _)).Sublist _
    have hr := (slabs_fix (.ar o) (pt r)).trans ihr
    unfold binT
    split
    · exact (slabs_swapped (fix_ar o _) _ _ _).trans (ihl.append hr)
    · exact one (tlab_op (fix_ar o _) _) (by rw [slabs_app]; exact ihl.append hr)
  | cmp c l r ihl ihr => exact (slabs_swapped (Or.inr ⟨c, rfl⟩) _ _ _).trans (ihl.append ihr)
  | asg sz l r ihl ihr => exact (slabs_revd sz (k := .t .asg) rfl _ _).trans (ihl.append ihr)
  | asgo o sz l r ihl ihr =>
    obtain ⟨o', ho⟩ := fix_asgo o (pt r)
    exact (slabs_revd sz (by rw [ho]; rfl) _ _).trans (ihl.append ((slabs_fix (.asgo o) (pt r)).trans ihr))
  | land lab l r ihl ihr | lor lab l r ihl ihr =>
    simp only [pt, E.labels]
    rw [slabs_app, slabs_app]
    exact ((one rfl ihl).append ihr).append (.refl _)
  | comma l r ihl ihr =>
    simp only [pt, E.labels]
    exact one rfl (by rw [slabs_app]; exact (one rfl ihl).append ihr)
  | cond lab c a b ihc iha ihb =>
    simp only [pt, E.labels]
    rw [slabs_app, slabs_app, slabs_app, slabs_app]
    exact ((((one rfl ihc).append (one rfl ihb)).append (.refl _)).append iha).append (.refl _)

theorem ret_labs (e : E) {c : List Ins} (h : genExpr (toks e ++ [(.ret, 0)]) = some c) : (labs c).Sublist e.labels := by
  have h1 := prep_toks e ((toks e ++ [(Cg.Tok.ret, 0)]).length + 1) [] (by simp; omega)
  rw [List.append_nil] at h1
  unfold genExpr at h
  simp only [List.reverse_append, List.reverse_singleton, List.singleton_append, or_true, if_true, h1, Option.bind_some] at h
  have := gen_labs _ _ _ _ _ h
  rw [slabs_app, slabs_one, show tlab (.t .ret, 0) = [] from rfl, List.append_nil] at this
  exact this.trans (pt_labs e)

theorem top_labs (e : E) {c : List Ins} (h : genExpr (toks e) = some c) : (labs c).Sublist e.labels := by
  rw [genExpr_top] at h
  cases hz : zero e with
  | false =>
    rw [prep_whole e hz _ (by omega)] at h
    exact (gen_labs _ _ _ _ _ h).trans (pt_labs e)
  | true =>
    have : ∃ sz l n, e = .asg sz l (.num n) ∧ truncU n = 0 := by
      unfold zero at hz
      split at hz
      · next sz l n => exact ⟨sz, l, n, rfl, of_decide_eq_true hz⟩
      · cases hz
    obtain ⟨sz, l, n, rfl, hn⟩ := this
    rw [prep_zero sz l n hn _ (by simp only [toks, List.length_append]; omega), Option.bind_some] at h
    exact ((gen_labs _ _ _ _ _ h).trans (slabs_revd sz (k := .asg0) rfl _ _)).trans ((pt_labs l).append (.refl _))

theorem branch_labs (e : E) (nz : Bool) (lab : Int) {c : List Ins} (h : branch e nz lab = some c) : (labs c).Sublist e.labels := by
  unfold branch at h
  split at h
  · rw [genExpr_if] at h
    have := gen_labs _ _ _ _ _ h
    rw [slabs_app, slabs_one, show tlab (ifTok nz lab) = [] by cases nz <;> rfl, List.append_nil] at this
    exact this.trans (pt_labs e)
  · obtain ⟨c', h1, rfl⟩ := Option.map_eq_some_iff.mp h
    rw [labs_app]
    have : labs [if nz then Ins.bne V0 0 lab else .beq V0 0 lab] = [] := by cases nz <;> rfl
    rw [this, List.append_nil]
    exact ret_labs e h1

end Smlr.Mips
