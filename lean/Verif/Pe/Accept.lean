import Verif.Pe.Hdrs
set_option autoImplicit false
/-! Sorted descriptions are counted. -/
namespace Smlr.Pe
open Smlr.Sect
open Smlr.Exe

/-- the kind of a section -/
def rank (d : Desc) : Nat := if d.attrs.nobits then 4 else if d.attrs.exec then 0 else if !d.attrs.write then 1 else if isDll d then 2 else 3

/-- attributes that programs have -/
def Usual (d : Desc) : Prop := (d.attrs.exec = true → d.attrs.nobits = false ∧ d.attrs.write = false) ∧ (d.attrs.nobits = true → d.attrs.write = true)

theorem rank_le (p q : Desc) (hp : Usual p) (hq : Usual q) (h : cmp p q ≤ 0) (hi : strcmp p.name q.name = 0 → p.name = q.name) : rank p ≤ rank q := by
  obtain ⟨pn, pw, px, pb⟩ := p
  obtain ⟨qn, qw, qx, qb⟩ := q
  obtain ⟨hp1, hp2⟩ := hp
  obtain ⟨hq1, hq2⟩ := hq
  simp only at hp1 hp2 hq1 hq2 hi
  unfold cmp at h
  simp only at h
  unfold rank isDll
  simp only
  have hd : strcmp pn qn = 0 → (str ".dll_" <+: pn ↔ str ".dll_" <+: qn) := fun e => by rw [hi e]
  clear hi
  by_cases hz : strcmp pn qn = 0 <;> by_cases hP : str ".dll_" <+: pn <;> by_cases hQ : str ".dll_" <+: qn <;>
    cases pb <;> cases qb <;> cases px <;> cases qx <;> cases pw <;> cases qw <;> simp [hz, hP, hQ] at *

/-- after the sections of one kind come those of higher kinds -/
theorem drop_rank (P : Desc → Bool) (k : Nat) (ds : List Desc) (hs : ds.Pairwise (fun p q => rank p ≤ rank q)) (hk : ∀ d ∈ ds, k ≤ rank d) (hP : ∀ d ∈ ds, P d = decide (rank d = k)) :
    (ds.dropWhile P).Pairwise (fun p q => rank p ≤ rank q) ∧ ∀ d ∈ ds.dropWhile P, k + 1 ≤ rank d := by
  induction ds with
  | nil => exact ⟨hs, fun d hd => by cases hd⟩
  | cons x ds ih =>
    rw [List.dropWhile_cons]
    by_cases hx : P x = true
    · rw [if_pos hx]
      exact ih (List.pairwise_cons.1 hs).2 (fun d hd => hk d (List.mem_cons_of_mem _ hd)) (fun d hd => hP d (List.mem_cons_of_mem _ hd))
    · rw [if_neg hx]
      refine ⟨hs, fun d hd => ?_⟩
      have h1 := hk x (by simp)
      have h2 : ¬ rank x = k := fun e => hx (by rw [hP x (by simp)]; exact decide_eq_true e)
      rcases List.mem_cons.1 hd with hd | hd
      · rw [hd]; omega
      · have := (List.pairwise_cons.1 hs).1 d hd
        omega

theorem drop_sub (P : Desc → Bool) (ds : List Desc) : ∀ d ∈ ds.dropWhile P, d ∈ ds := fun _ hd => (List.dropWhile_suffix P).subset hd

theorem counts_some (ds : List Desc) (hu : ∀ d ∈ ds, Usual d) (hs : ds.Pairwise (fun p q => rank p ≤ rank q)) (hf : ∃ d, ds.head? = some d ∧ d.attrs.exec = true) : ∃ n, counts ds = .ok n := by
  have kinds : ∀ d, Usual d → (isText d = decide (rank d = 0)) ∧ (isRo d = decide (rank d = 1)) ∧ (isImp d = decide (rank d = 2)) ∧ (3 ≤ rank d → isData d = decide (rank d = 3)) ∧ (isBss d = decide (rank d = 4)) ∧ rank d ≤ 4 := by
    intro d hd
    obtain ⟨nm, w, x, b⟩ := d
    obtain ⟨h1, h2⟩ := hd
    simp only at h1 h2
    unfold isText isRo isImp isData isBss rank
    simp only
    cases b <;> cases x <;> cases w <;> simp at * <;> cases isDll ⟨nm, true, false, false⟩ <;> simp
  unfold counts
  simp only
  have s1 := drop_rank isText 0 ds hs (fun _ _ => Nat.zero_le _) (fun d hd => (kinds d (hu d hd)).1)
  have u1 := drop_sub isText ds
  generalize ds.dropWhile isText = d1 at s1 u1 ⊢
  have s2 := drop_rank isRo 1 d1 s1.1 s1.2 (fun d hd => (kinds d (hu d (u1 d hd))).2.1)
  have u2 := fun d hd => u1 d (drop_sub isRo d1 d hd)
  generalize d1.dropWhile isRo = d2 at s2 u2 ⊢
  have s3 := drop_rank isImp 2 d2 s2.1 s2.2 (fun d hd => (kinds d (hu d (u2 d hd))).2.2.1)
  have u3 := fun d hd => u2 d (drop_sub isImp d2 d hd)
  generalize d2.dropWhile isImp = d3 at s3 u3 ⊢
  have s4 := drop_rank isData 3 d3 s3.1 s3.2 (fun d hd => (kinds d (hu d (u3 d hd))).2.2.2.1 (s3.2 d hd))
  have u4 := fun d hd => u3 d (drop_sub isData d3 d hd)
  generalize d3.dropWhile isData = d4 at s4 u4 ⊢
  have s5 := drop_rank isBss 4 d4 s4.1 s4.2 (fun d hd => (kinds d (hu d (u4 d hd))).2.2.2.2.1)
  have u5 := fun d hd => u4 d (drop_sub isBss d4 d hd)
  have hnil : d4.dropWhile isBss = [] := by
    cases hd : d4.dropWhile isBss with
    | nil => rfl
    | cons x l =>
      have h1 := s5.2 x (by rw [hd]; simp)
      have h2 := (kinds x (hu x (u5 x (by rw [hd]; simp)))).2.2.2.2.2
      omega
  obtain ⟨d, hd1, hd2⟩ := hf
  have htext : ¬ (ds.takeWhile isText).length = 0 := by
    cases ds with
    | nil => cases hd1
    | cons x l =>
      injection hd1 with hd1
      subst hd1
      have hx : isText x = true := by
        obtain ⟨h1, -⟩ := hu x (by simp)
        unfold isText
        rw [(h1 hd2).1, (h1 hd2).2, hd2]
        rfl
      rw [List.takeWhile_cons, if_pos hx]
      simp
  rw [if_neg (fun h => h.elim htext (fun h => h hnil))]
  exact ⟨_, rfl⟩

end Smlr.Pe
