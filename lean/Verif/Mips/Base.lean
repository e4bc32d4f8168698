import Verif.Mips.Spec
set_option autoImplicit false
/-! Runs of pieces of a program. -/
namespace Smlr.Mips
open Smlr.Cg (Wd Mem ld st sext wd Env)

theorem Run.trans {G : Int → Wd 4} {P : List Ins} {a b c : Nat} {s t u : St} (h : Run G P a s b t) (h' : Run G P b t c u) :
    Run G P a s c u := by
  induction h with
  | refl => exact h'
  | step hs _ ih => exact .step hs (ih h')

/-- at least one step -/
def Run1 (G : Int → Wd 4) (P : List Ins) (a : Nat) (s : St) (c : Nat) (u : St) : Prop := ∃ b t, stepP G P a s = some (b, t) ∧ Run G P b t c u

theorem Run1.run {G : Int → Wd 4} {P : List Ins} {a c : Nat} {s u : St} (h : Run1 G P a s c u) : Run G P a s c u := by
  obtain ⟨b, t, h1, h2⟩ := h
  exact .step h1 h2

theorem Run.trans1 {G : Int → Wd 4} {P : List Ins} {a b c : Nat} {s t u : St} (h : Run G P a s b t) (h' : Run1 G P b t c u) : Run1 G P a s c u := by
  cases h with
  | refl => exact h'
  | step h1 h2 => exact ⟨_, _, h1, h2.trans h'.run⟩

def execs (G : Int → Wd 4) : List Ins → St → Option St
  | [], s => some s
  | i :: r, s => (exec G s i).bind (execs G r)

theorem execs_append (G : Int → Wd 4) (a b : List Ins) (s : St) : execs G (a ++ b) s = (execs G a s).bind (execs G b) := by
  induction a generalizing s with
  | nil => rfl
  | cons i r ih =>
    simp only [List.cons_append, execs]
    cases h : exec G s i with
    | none => rfl
    | some t => simp only [Option.bind_some, ih]

theorem execs_app {G : Int → Wd 4} {a b : List Ins} {s t u : St} (h : execs G a s = some t) (h' : execs G b t = some u) :
    execs G (a ++ b) s = some u := by
  rw [execs_append, h]; exact h'

theorem execs_one (G : Int → Wd 4) (i : Ins) (s : St) : execs G [i] s = exec G s i := by
  simp only [execs]
  cases exec G s i <;> rfl

theorem getElem_mid (pre post : List Ins) (i : Ins) : (pre ++ i :: post)[pre.length]? = some i := by simp

theorem run_execs {G : Int → Wd 4} {c : List Ins} {s s' : St} (h : execs G c s = some s') (pre post : List Ins) :
    Run G (pre ++ c ++ post) pre.length s (pre.length + c.length) s' := by
  induction c generalizing s pre with
  | nil => cases h; exact .refl _ _
  | cons i r ih =>
    simp only [execs] at h
    cases hi : exec G s i with
    | none => rw [hi] at h; cases h
    | some t =>
      rw [hi, Option.bind_some] at h
      have h1 := ih h (pre ++ [i])
      simp only [List.append_assoc, List.cons_append, List.nil_append, List.length_append, List.length_cons,
        List.length_nil] at h1
      refine .step (pc₁ := pre.length + 1) (s₁ := t) ?_ ?_
      · have hg : (pre ++ i :: r ++ post)[pre.length]? = some i := by
          rw [List.append_assoc]; exact getElem_mid pre (r ++ post) i
        have hj : jump s i = none := by
          cases i <;> first | rfl | exact absurd hi (by simp [exec])
        simp only [stepP, hg, hj, hi, Option.map_some]
      · simp only [List.append_assoc, List.cons_append, List.length_cons]
        rw [show pre.length + (r.length + 1) = pre.length + (0 + 1) + r.length by omega]
        exact h1

theorem target_eq {P pre post : List Ins} {l : Int} (h : P = pre ++ .lab l :: post) (hn : (labs P).Nodup) :
    target P l = some pre.length := by
  subst h
  have hm : Ins.lab l ∈ pre ++ Ins.lab l :: post := by simp
  rw [target, if_pos hm]
  have hnot : Ins.lab l ∉ pre := by
    intro hp
    simp only [labs, List.filterMap_append, List.filterMap_cons] at hn
    rw [List.nodup_append] at hn
    exact hn.2.2 l (List.mem_filterMap.mpr ⟨_, hp, rfl⟩) l (by simp) rfl
  rw [List.idxOf_append_of_notMem hnot]
  simp

theorem run_jump1 {G : Int → Wd 4} {P pre post pre' post' : List Ins} {i : Ins} {l : Int} {s : St} (h : P = pre ++ i :: post)
    (hj : jump s i = some (l, true)) (h' : P = pre' ++ .lab l :: post') (hn : (labs P).Nodup) : Run1 G P pre.length s (pre'.length + 1) s := by
  have hg : P[pre.length]? = some i := by rw [h]; exact getElem_mid _ _ _
  have hl : P[pre'.length]? = some (.lab l) := by rw [h']; exact getElem_mid _ _ _
  refine ⟨pre'.length, s, by simp only [stepP, hg, hj, target_eq h' hn, Option.map_some], ?_⟩
  refine .step (pc₁ := pre'.length + 1) (s₁ := s) (by simp only [stepP, hl, jump, exec, Option.map_some]) (.refl _ _)

theorem run_no_jump1 {G : Int → Wd 4} {P pre post : List Ins} {i : Ins} {l : Int} {s : St} (h : P = pre ++ i :: post)
    (hj : jump s i = some (l, false)) : Run1 G P pre.length s (pre.length + 1) s := by
  have hg : P[pre.length]? = some i := by rw [h]; exact getElem_mid _ _ _
  exact ⟨pre.length + 1, s, by simp only [stepP, hg, hj], .refl _ _⟩

theorem run_jump {G : Int → Wd 4} {P pre post pre' post' : List Ins} {i : Ins} {l : Int} {s : St} (h : P = pre ++ i :: post)
    (hj : jump s i = some (l, true)) (h' : P = pre' ++ .lab l :: post') (hn : (labs P).Nodup) : Run G P pre.length s (pre'.length + 1) s := (run_jump1 h hj h' hn).run

theorem run_no_jump {G : Int → Wd 4} {P pre post : List Ins} {i : Ins} {l : Int} {s : St} (h : P = pre ++ i :: post)
    (hj : jump s i = some (l, false)) : Run G P pre.length s (pre.length + 1) s := (run_no_jump1 h hj).run

/-! ### registers -/

/-- the working register with `t` intermediate values -/
def wreg (t : Nat) : Nat := if t = 0 then 2 else 7 + min t 8

theorem wreg_rng (t : Nat) : wreg t = 2 ∨ (8 ≤ wreg t ∧ wreg t ≤ 15) := by
  unfold wreg; split <;> omega

theorem wreg_ne {k t : Nat} (h : k < min t 8) : wreg k ≠ wreg t := by
  unfold wreg; split <;> split <;> omega

theorem wreg_zero : wreg 0 = V0 := rfl

theorem wreg_ge {t : Nat} (h : 8 ≤ t) : wreg t = 15 := by unfold wreg; split <;> omega

theorem incW_wreg {t : Nat} (h : t < 8) : incW (wreg t) = wreg (t + 1) := by
  have : ∀ t < 8, incW (wreg t) = wreg (t + 1) := by decide
  exact this t h

theorem decW_wreg {t : Nat} (h : t < 8) : decW (wreg (t + 1)) = wreg t := by
  have : ∀ t < 8, decW (wreg (t + 1)) = wreg t := by decide
  exact this t h

theorem get_pos {s : St} {i : Nat} (h : i ≠ 0) : s.get i = s.r i := if_neg h

theorem get_zero (s : St) : s.get 0 = 0 := rfl

theorem get_wreg (s : St) (t : Nat) : s.get (wreg t) = s.r (wreg t) := get_pos (by have := wreg_rng t; omega)

@[simp] theorem set_r_same (s : St) (i : Nat) (v : Wd 4) : (s.set i v).r i = v := if_pos rfl

theorem set_r_ne (s : St) {i k : Nat} (v : Wd 4) (h : k ≠ i) : (s.set i v).r k = s.r k := if_neg h

@[simp] theorem set_mem (s : St) (i : Nat) (v : Wd 4) : (s.set i v).mem = s.mem := rfl

/-- only these registers have changed (and `hi` and `lo`) -/
def Only (w : List Nat) (s s' : St) : Prop := ∀ k, k ∉ w → s'.r k = s.r k

theorem Only.refl (w : List Nat) (s : St) : Only w s s := fun _ _ => rfl

theorem Only.trans {w : List Nat} {s t u : St} (h : Only w s t) (h' : Only w t u) : Only w s u := fun k hk => (h' k hk).trans (h k hk)

theorem Only.mono {w w' : List Nat} {s t : St} (h : Only w s t) (hw : ∀ k ∈ w, k ∈ w') : Only w' s t := fun k hk => h k fun h => hk (hw k h)

theorem only_set (s : St) (i : Nat) (v : Wd 4) : Only [i] s (s.set i v) := fun k hk => set_r_ne s v (by simpa using hk)

/-- what code may change that computes something in the working register -/
def Chg (t : Nat) (s s' : St) : Prop := Only [wreg t, 1, 24, 25] s s'

/-- registers that are still the same after an operand has been computed with `t` intermediate values -/
structure Keep (t : Nat) (s s' : St) : Prop where
  sp : s'.sp = s.sp
  sv : ∀ i, saved i → s'.r i = s.r i
  lower : ∀ k, k < min t 8 → s'.r (wreg k) = s.r (wreg k)

theorem Keep.fp {t : Nat} {s s' : St} (h : Keep t s s') : s'.fp = s.fp := h.sv 30 ⟨by decide, by decide, by decide, by decide, by decide⟩

theorem Keep.refl (t : Nat) (s : St) : Keep t s s := ⟨rfl, fun _ _ => rfl, fun _ _ => rfl⟩

theorem Keep.trans {t : Nat} {a b c : St} (h : Keep t a b) (h' : Keep t b c) : Keep t a c :=
  ⟨h'.sp.trans h.sp, fun i hi => (h'.sv i hi).trans (h.sv i hi), fun k hk => (h'.lower k hk).trans (h.lower k hk)⟩

theorem Chg.keep {t : Nat} {s s' : St} (h : Chg t s s') : Keep t s s' := by
  have hw := wreg_rng t
  refine ⟨h 29 (by simp; omega), fun i hi => ?_, fun k hk => h _ ?_⟩
  · obtain ⟨h1, h2, h3, h4, h5⟩ := hi
    apply h
    simp only [List.mem_cons, List.not_mem_nil, or_false]
    omega
  · have := wreg_ne hk
    have := wreg_rng k
    simp only [List.mem_cons, List.not_mem_nil, or_false]
    omega

end Smlr.Mips
