import Verif.Redecl.Runs

set_option autoImplicit false
/-! `compatCheck2` over whole types, and compatibility. -/
namespace Smlr.Redecl

open Smlr.Declr Smlr.Declr.Spec Smlr.Redecl.Spec

theorem nil_run' (qs : Ps) (hq : qs.deep') : PsRun' .nil qs := by
  intro X Y Z c hX hc
  cases qs with
  | unknown => simp [Ps.deep'] at hq
  | nil => exact ⟨fun _ => by simpa [pmrg] using one_rpar X Y Z c, by simp [pacc']⟩
  | dots =>
    refine ⟨by simp [pacc'], fun _ => ?_⟩
    exact Bad.more (O1 := [.ty (.ident none)]) (N1 := [.ty .rpar]) (N2 := []) (one_bad (by simp [tok0]) (.inl (by simp)) (.inr (.inl hX)))
  | cons y t' qs =>
    refine ⟨by simp [pacc'], fun _ => ?_⟩
    rw [psE'_cons]
    exact Bad.more (O1 := [.ty (.ident y)]) (N1 := [.ty .rpar]) (N2 := []) (one_bad (by simp [tok0]) (.inl (by simp)) (.inr (.inl hX)))

theorem head_tok (t : Ty) : tok0 (headTy t) ≠ 7 ∧ (t.isVoid = false → tok0 (headTy t) ≠ 17) := by
  cases t with
  | base b => cases b <;> simp [headTy, tok0, Ty.isVoid] <;> omega
  | _ => simp [headTy, tok0]

/-- the old list ends first -/
theorem run_short {X Y Z N : List E} (x : Option Nat) (c : Int) (hX : X.getLast? ≠ some (.ty .lpar)) :
    Bad X Y Z [.ty .rpar] (.ty (.ident x) :: N) c :=
  Bad.more (O1 := [.ty .rpar]) (O2 := []) (N1 := [.ty (.ident x)]) (one_bad (by simp [tok0]) (.inr hX) (.inl (by simp)))

theorem dots_run' (qs : Ps) (hq : qs.deep') : PsRun' .dots qs := by
  intro X Y Z c hX hc
  cases qs with
  | unknown => simp [Ps.deep'] at hq
  | nil => exact ⟨by simp [pacc'], fun _ => run_short none c hX⟩
  | dots =>
    refine ⟨fun _ => ?_, by simp [pacc']⟩
    exact Good.trans (O1 := [.ty (.ident none), .ty .ellipsis]) (N1 := [.ty (.ident none), .ty .ellipsis])
      (Good.trans (O1 := [.ty (.ident none)]) (N1 := [.ty (.ident none)]) (one_ident _ _ _ _ _ _)
        (one rfl (.inr rfl) (by simp [isBase]))) (one_rpar _ _ _ _)
  | cons y t' qs =>
    refine ⟨by simp [pacc'], fun _ => ?_⟩
    obtain ⟨q, hq⟩ := tyE_head t'
    rw [psE'_cons, hq]
    simp only [List.cons_append]
    refine Good.bad (O1 := [.ty (.ident y)]) (N1 := [.ty (.ident none)]) (O2 := headTy t' :: (q ++ psE' qs ++ [.ty .rpar]))
      (N2 := [.ty .ellipsis, .ty .rpar]) (one_ident _ _ _ _ _ _) ?_
    exact Bad.more (O1 := [headTy t']) (N1 := [.ty .ellipsis])
      (one_bad (head_tok t').1.symm (.inl (headTy_ne _)) (.inl (by simp)))

mutual
theorem ty_run : (N : Ty) → ∀ (O : Ty), N.deep → O.deep → TyRun N O
  | .base b, O, hN, hO => by
    cases O with
    | base b' => exact run_base b b' hN
    | ptr t => exact fun X Y Z p c _ _ _ => ⟨by simp [acc], fun _ => head_bad _ _ (by cases b <;> simp [headTy, tok0]; omega)⟩
    | arr n t => exact fun X Y Z p c _ _ _ => ⟨by simp [acc], fun _ => head_bad _ _ (by cases b <;> simp [headTy, tok0]; omega)⟩
    | fn ps t => exact fun X Y Z p c _ _ _ => ⟨by simp [acc], fun _ => head_bad _ _ (by cases b <;> simp [headTy, tok0]; omega)⟩
  | .ptr N, O, hN, hO => by
    cases O with
    | base b => exact fun X Y Z p c _ _ _ => ⟨by simp [acc], fun _ => head_bad _ _ (by cases b <;> simp [headTy, tok0]; omega)⟩
    | ptr t => exact run_ptr N t (ty_run N t hN hO)
    | arr n t => exact fun X Y Z p c _ _ _ => ⟨by simp [acc], fun _ => head_bad _ _ (by simp [headTy, tok0])⟩
    | fn ps t => exact fun X Y Z p c _ _ _ => ⟨by simp [acc], fun _ => head_bad _ _ (by simp [headTy, tok0])⟩
  | .arr n N, O, hN, hO => by
    cases O with
    | base b => exact fun X Y Z p c _ _ _ => ⟨by simp [acc], fun _ => head_bad _ _ (by cases b <;> simp [headTy, tok0]; omega)⟩
    | ptr t => exact fun X Y Z p c _ _ _ => ⟨by simp [acc], fun _ => head_bad _ _ (by simp [headTy, tok0])⟩
    | arr m t => exact run_arr n m N t (ty_run N t hN.1 hO.1)
    | fn ps t => exact fun X Y Z p c _ _ _ => ⟨by simp [acc], fun _ => head_bad _ _ (by simp [headTy, tok0])⟩
  | .fn ps N, O, hN, hO => by
    cases O with
    | base b => exact fun X Y Z p c _ _ _ => ⟨by simp [acc], fun _ => head_bad _ _ (by cases b <;> simp [headTy, tok0]; omega)⟩
    | ptr t => exact fun X Y Z p c _ _ _ => ⟨by simp [acc], fun _ => head_bad _ _ (by simp [headTy, tok0])⟩
    | arr m t => exact fun X Y Z p c _ _ _ => ⟨by simp [acc], fun _ => head_bad _ _ (by simp [headTy, tok0])⟩
    | fn qs t => exact run_fn ps qs N t (ps_run ps qs hN.2.2.2 hO.2.2.2) (ty_run N t hN.1 hO.1)
theorem ps_run : (ps : Ps) → ∀ (qs : Ps), ps.deep → qs.deep → PsRun ps qs
  | .unknown, qs, hN, hO => by
    intro X Y Z p c hX hY hp hc
    cases qs with
    | unknown => exact ⟨fun _ => by simpa [pmrg] using one_rpar X Y Z c, by simp [pacc]⟩
    | nil =>
      refine ⟨fun _ => ⟨1, by simp, fun f => ?_⟩, by simp [pacc]⟩
      have := step_void X Y Z (.ty (.ident none)) c f hX rfl rfl
      simpa [pmrg] using this
    | dots => simp [Ps.deep] at hO
    | cons y t' qs =>
      refine ⟨by simp [pacc], fun _ => ?_⟩
      obtain ⟨q, hq⟩ := tyE_head t'
      rw [psE_cons, hq]
      refine Bad.more (O1 := [.ty (.ident y)]) (N1 := [.ty .rpar]) (N2 := []) (one_bad (by simp [tok0]) (.inl (by simp)) (.inr (.inr ⟨?_, by simp⟩)))
      simpa using headTy_void t' hO.2.1
  | .nil, qs, hN, hO => by
    intro X Y Z p c hX hY hp hc
    cases qs with
    | unknown =>
      refine ⟨fun _ => ⟨1, by simp, fun f => ?_⟩, by simp [pacc]⟩
      have := step_skip X Y [.ty (.base .void)] Z (.ty (.ident none)) c f hX (by simp [tok0]) (skip_list .nil Z)
      simpa [pmrg] using this
    | nil =>
      refine ⟨fun _ => ?_, by simp [pacc]⟩
      have hd : (decide (depth c (.ty (.base .void)) = 0) && isBase (.ty (.base .void))) = false := by
        have : c ≠ 0 := by omega
        simp [isBase, depth, this]
      exact Good.trans (O1 := [.ty (.ident none), .ty (.base .void)]) (N1 := [.ty (.ident none), .ty (.base .void)])
        (Good.trans (O1 := [.ty (.ident none)]) (N1 := [.ty (.ident none)]) (one_ident _ _ _ _ _ _)
          (one rfl (.inr rfl) hd)) (one_rpar _ _ _ _)
    | dots => simp [Ps.deep] at hO
    | cons y t' qs =>
      refine ⟨by simp [pacc], fun _ => ?_⟩
      obtain ⟨q, hq⟩ := tyE_head t'
      rw [psE_cons, hq]
      simp only [List.cons_append]
      refine Good.bad (O1 := [.ty (.ident y)]) (N1 := [.ty (.ident none)]) (O2 := headTy t' :: (q ++ psE' qs ++ [.ty .rpar]))
        (N2 := [.ty (.base .void), .ty .rpar]) (one_ident _ _ _ _ _ _) ?_
      exact Bad.more (O1 := [headTy t']) (N1 := [.ty (.base .void)])
        (one_bad ((head_tok t').2 hO.2.1).symm (.inl (headTy_ne _)) (.inl (by simp)))
  | .dots, qs, hN, hO => by simp [Ps.deep] at hN
  | .cons x N ps, qs, hN, hO => by
    intro X Y Z p c hX hY hp hc
    cases qs with
    | unknown =>
      refine ⟨fun _ => ⟨1, by simp, fun f => ?_⟩, by simp [pacc]⟩
      have := step_skip X Y (tyE N ++ psE' ps) Z (.ty (.ident x)) c f hX (by simp [tok0])
        (by have := skip_list (.cons x N ps) Z; simpa using this)
      simpa [pmrg] using this
    | nil =>
      refine ⟨by simp [pacc], fun _ => ?_⟩
      obtain ⟨q, hq⟩ := tyE_head N
      rw [psE_cons, hq]
      simp only [List.cons_append]
      refine Good.bad (O1 := [.ty (.ident none)]) (N1 := [.ty (.ident x)]) (N2 := headTy N :: (q ++ psE' ps ++ [.ty .rpar]))
        (O2 := [.ty (.base .void), .ty .rpar]) (one_ident _ _ _ _ _ _) ?_
      exact Bad.more (O1 := [.ty (.base .void)]) (N1 := [headTy N])
        (one_bad ((head_tok N).2 hN.2.1) (.inl (by simp)) (.inl (headTy_ne _)))
    | dots => simp [Ps.deep] at hO
    | cons y O qs =>
      have hr := ps_run' ps qs hN.2.2 hO.2.2
      have := run_cons (R := psE' qs ++ [.ty .rpar]) (S := psE' ps ++ [.ty .rpar]) (M := psE' (pmrg ps qs) ++ [.ty .rpar])
        y x N O (ty_run N O hN.1 hO.1) X Y Z c hc (pacc' ps qs)
        (fun hb X Y hX => (hr X Y Z c hX hc).1 hb) (fun hb X Y hX => (hr X Y Z c hX hc).2 hb)
      simpa [pacc, pmrg] using this
theorem ps_run' : (ps : Ps) → ∀ (qs : Ps), ps.deep' → qs.deep' → PsRun' ps qs
  | .unknown, qs, hN, hO => by simp [Ps.deep'] at hN
  | .nil, qs, hN, hO => nil_run' qs hO
  | .dots, qs, hN, hO => dots_run' qs hO
  | .cons x N ps, qs, hN, hO => by
    intro X Y Z c hX hc
    cases qs with
    | unknown => simp [Ps.deep'] at hO
    | nil => exact ⟨by simp [pacc'], fun _ => by rw [psE'_cons]; exact run_short x c hX⟩
    | dots =>
      refine ⟨by simp [pacc'], fun _ => ?_⟩
      obtain ⟨q, hq⟩ := tyE_head N
      rw [psE'_cons, hq]
      simp only [List.cons_append]
      refine Good.bad (O1 := [.ty (.ident none)]) (N1 := [.ty (.ident x)]) (N2 := headTy N :: (q ++ psE' ps ++ [.ty .rpar]))
        (O2 := [.ty .ellipsis, .ty .rpar]) (one_ident _ _ _ _ _ _) ?_
      exact Bad.more (O1 := [.ty .ellipsis]) (N1 := [headTy N])
        (one_bad (head_tok N).1 (.inl (by simp)) (.inl (headTy_ne _)))
    | cons y O qs =>
      have hr := ps_run' ps qs hN.2.2 hO.2.2
      have := run_cons (R := psE' qs ++ [.ty .rpar]) (S := psE' ps ++ [.ty .rpar]) (M := psE' (pmrg ps qs) ++ [.ty .rpar])
        y x N O (ty_run N O hN.1 hO.1) X Y Z c hc (pacc' ps qs)
        (fun hb X Y hX => (hr X Y Z c hX hc).1 hb) (fun hb X Y hX => (hr X Y Z c hX hc).2 hb)
      simpa [pacc', pmrg] using this
end

/-- the whole function -/
theorem against_eq (A G B : List E) (e : E) (he : tok0 e = 0) (hi : isIdent e = true) (x : Nat) (N O : Ty) (hN : N.deep) (hO : O.deep) :
    against (A ++ (e :: tyE O ++ G) ++ (.ty (.ident (some x)) :: tyE N ++ B)) (A ++ (e :: tyE O ++ G)).length A.length =
      if acc N O then .ok (A ++ (e :: tyE O ++ G) ++ (.ty (.ident (some x)) :: tyE (mrg N O) ++ B)) else .error := by
  have g : Good A (tyE O ++ G) (tyE N ++ B) [e] [.ty (.ident (some x))] [.ty (.ident (some x))] 0 0 :=
    one (by rw [he]; rfl) (.inl rfl) (by simp [isBase])
  have key := ty_run N O hN hO (A ++ [e]) (G ++ [.ty (.ident (some x))]) B (.ty (.ident (some x))) 0 (by simp) (by simp) (by omega)
  have hlen : ∀ n, n ≤ ([E.ty (.ident (some x))] ++ tyE N).length →
      ∃ f, (A ++ (e :: tyE O ++ G) ++ (.ty (.ident (some x)) :: tyE N ++ B)).length + 1 = f + n := by
    intro n hn
    refine ⟨(A ++ (e :: tyE O ++ G) ++ (.ty (.ident (some x)) :: tyE N ++ B)).length + 1 - n, ?_⟩
    simp at hn ⊢; omega
  cases ha : acc N O with
  | true =>
    obtain ⟨n, hn, h⟩ := g.done ((key.1 ha).1 rfl)
    obtain ⟨f, hf⟩ := hlen n hn
    have h := h f
    unfold st at h
    simp only [against, hf]
    simp only [List.append_assoc, List.cons_append, List.nil_append, List.length_append, List.length_cons] at h ⊢
    rw [h]
    rfl
  | false =>
    obtain ⟨n, hn, s, h⟩ := g.bad (key.2 ha)
    obtain ⟨f, hf⟩ := hlen n hn
    have h := h f
    unfold st at h
    simp only [against, hf]
    simp only [List.append_assoc, List.cons_append, List.nil_append, List.length_append, List.length_cons] at h ⊢
    rw [h]
    rfl

/-! ### what is accepted is what is compatible -/

mutual
theorem acc_iff (small : Nat → Bool) (k : Bool) : (N : Ty) → ∀ (O : Ty), N.deep → O.deep → Tame small k N O →
    (acc N O = true ↔ Compat small N O)
  | .base b, O, hN, hO, h => by cases O <;> simp [acc, Compat]
  | .ptr N, O, hN, hO, h => by
    cases O <;> simp [acc, Compat]
    exact acc_iff small k N _ hN hO h
  | .arr n N, O, hN, hO, h => by
    cases O <;> simp [acc, Compat]
    rw [acc_iff small k N _ hN.1 hO.1 h, or_assoc]
  | .fn ps N, O, hN, hO, h => by
    cases O <;> simp [acc, Compat]
    rw [acc_iff small k N _ hN.1 hO.1 h.2, pacc_iff small k ps _ hN.2.2.2 hO.2.2.2 h.1]
theorem pacc_iff (small : Nat → Bool) (k : Bool) : (ps : Ps) → ∀ (qs : Ps), ps.deep → qs.deep → PTame small k ps qs →
    (pacc ps qs = true ↔ PCompat small ps qs)
  | .unknown, qs, hN, hO, h => by cases qs <;> simp_all [pacc, PCompat, Promoted, PTame]
  | .nil, qs, hN, hO, h => by cases qs <;> simp_all [pacc, PCompat, Promoted, PTame]
  | .dots, qs, hN, hO, h => by simp [Ps.deep] at hN
  | .cons x N ps, qs, hN, hO, h => by
    cases qs with
    | unknown => simp_all [pacc, PCompat, PTame]
    | nil => simp [pacc, PCompat]
    | dots => simp [pacc, PCompat]
    | cons y O qs =>
      simp only [pacc, PCompat, Bool.and_eq_true]
      rw [acc_iff small k N O hN.1 hO.1 h.1, pacc_iff' small k ps qs hN.2.2 hO.2.2 h.2]
theorem pacc_iff' (small : Nat → Bool) (k : Bool) : (ps : Ps) → ∀ (qs : Ps), ps.deep' → qs.deep' → PTame small k ps qs →
    (pacc' ps qs = true ↔ PCompat small ps qs)
  | .unknown, qs, hN, hO, h => by simp [Ps.deep'] at hN
  | .nil, qs, hN, hO, h => by cases qs <;> simp_all [pacc', PCompat, Promoted, PTame, Ps.deep']
  | .dots, qs, hN, hO, h => by cases qs <;> simp_all [pacc', PCompat, Promoted, PTame, Ps.deep']
  | .cons x N ps, qs, hN, hO, h => by
    cases qs with
    | unknown => simp [Ps.deep'] at hO
    | nil => simp [pacc', PCompat]
    | dots => simp [pacc', PCompat]
    | cons y O qs =>
      simp only [pacc', PCompat, Bool.and_eq_true]
      rw [acc_iff small k N O hN.1 hO.1 h.1, pacc_iff' small k ps qs hN.2.2 hO.2.2 h.2]
end

mutual
theorem mrg_eq (small : Nat → Bool) : (N : Ty) → ∀ (O : Ty), Tame small false N O → mrg N O = comp N O
  | .base b, O, h => by cases O <;> simp [mrg, comp]
  | .ptr N, O, h => by
    cases O <;> simp [mrg, comp]
    exact mrg_eq small N _ h
  | .arr n N, O, h => by
    cases O <;> simp [mrg, comp]
    exact mrg_eq small N _ h
  | .fn ps N, O, h => by
    cases O <;> simp [mrg, comp]
    exact ⟨pmrg_eq small ps _ h.1, mrg_eq small N _ h.2⟩
theorem pmrg_eq (small : Nat → Bool) : (ps : Ps) → ∀ (qs : Ps), PTame small false ps qs → pmrg ps qs = pcomp ps qs
  | .unknown, qs, h => by cases qs <;> simp_all [pmrg, pcomp, PTame]
  | .nil, qs, h => by cases qs <;> simp [pmrg, pcomp]
  | .dots, qs, h => by cases qs <;> simp [pmrg, pcomp]
  | .cons x N ps, qs, h => by
    cases qs <;> simp [pmrg, pcomp]
    exact ⟨mrg_eq small N _ h.1, pmrg_eq small ps _ h.2⟩
end

end Smlr.Redecl
