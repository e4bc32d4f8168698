import Verif.Link.Lemmas
set_option autoImplicit false
/-! C31: symbol resolution of the linker takes exactly the modules the program needs. -/
namespace Smlr.Link

/-- what the linker has after `FindAllSymbols` and `CheckDuplicates` -/
theorem link_cases (objs : List Obj) (entry : Name) :
    match link objs entry with
    | .error (.undefined n) => Refers objs entry n ∧ ¬ Defined objs n ∧ ¬ Special n
    | .error (.duplicate _) => Ambiguous objs entry ∧ ∀ n, Refers objs entry n → Defined objs n ∨ Special n
    | .error .fuel => False
    | .ok st => (∀ i, st.needed i = true ↔ Needs objs entry i) ∧ (∀ n, Refers objs entry n → Settled objs st n) ∧
        (∀ n, n ∈ st.deferred ↔ Refers objs entry n ∧ ¬ Defined objs n) ∧ (∀ n ∈ st.deferred, Special n) ∧ st.deferred.Nodup ∧ ¬ Ambiguous objs entry := by
  unfold link
  have hok0 : Ok objs entry ⟨fun _ => false, []⟩ := ⟨by simp, by simp, by simp⟩
  have h1 := findByName_spec objs entry ⟨fun _ => false, []⟩ entry hok0 (.inl rfl)
  cases hf : findByName objs ⟨fun _ => false, []⟩ entry with
  | error e =>
    rw [hf] at h1
    obtain ⟨rfl, h2, h3⟩ := h1
    exact ⟨.inl rfl, h2, h3⟩
  | ok x =>
    obtain ⟨st1, b⟩ := x
    rw [hf] at h1
    obtain ⟨g1, g2, g3, -⟩ := h1
    simp only
    have hm : missing objs.length st1 < objs.length + 1 := by
      unfold missing
      have := List.countP_le_length (p := fun i => !st1.needed i) (l := List.range objs.length)
      rw [List.length_range] at this
      omega
    have h2 := findAll_spec objs entry (objs.length + 1) st1 g1 hm
    cases ha : findAll objs (objs.length + 1) st1 with
    | error e =>
      rw [ha] at h2
      obtain ⟨n, k1, rfl, k2, k3⟩ := h2
      exact ⟨k1, k2, k3⟩
    | ok st =>
      rw [ha] at h2
      obtain ⟨k1, k2, k3⟩ := h2
      simp only
      have hneed : ∀ i, Needs objs entry i → st.needed i = true := by
        intro i hi
        induction hi with
        | entry i hp =>
          rcases g3.mono k2 with ⟨j, hp', hn⟩ | hd
          · rw [provides_unique hp hp']
            exact hn
          · exact absurd ⟨objs[i]'hp.1, List.getElem_mem _, hp.2.1⟩ (k1.2.1 _ hd).2.1
        | undef i j n hi _ hmem hp ih =>
          rcases k3 i hi ih n hmem with ⟨j', hp', hn⟩ | hd
          · rw [provides_unique hp hp']
            exact hn
          · exact absurd ⟨objs[j]'hp.1, List.getElem_mem _, hp.2.1⟩ (k1.2.1 _ hd).2.1
      have hiff : ∀ i, st.needed i = true ↔ Needs objs entry i := fun i => ⟨k1.1 i, hneed i⟩
      have hset : ∀ n, Refers objs entry n → Settled objs st n := by
        rintro n (rfl | ⟨i, hi, hn, hmem⟩)
        · exact g3.mono k2
        · exact k3 i hi (hneed i hn) n hmem
      have hdef : ∀ n, n ∈ st.deferred ↔ Refers objs entry n ∧ ¬ Defined objs n := by
        intro n
        constructor
        · intro h
          exact ⟨(k1.2.1 n h).1, (k1.2.1 n h).2.1⟩
        · rintro ⟨hr, hnd⟩
          rcases hset n hr with ⟨i, hp, -⟩ | h
          · exact absurd ⟨objs[i]'hp.1, List.getElem_mem _, hp.2.1⟩ hnd
          · exact h
      have hdup := duplicates_none st objs 0
      simp only [Nat.zero_add] at hdup
      cases hd : duplicates st objs 0 with
      | some n =>
        refine ⟨?_, ?_⟩
        · apply Classical.byContradiction
          intro hna
          have : duplicates st objs 0 = none := hdup.2 (by
            intro j k m hj hk hjk hnj hnk hej hek
            exact hna ⟨j, k, m, hj, hk, by omega, k1.1 j hnj, k1.1 k hnk, hej, hek⟩)
          rw [this] at hd
          cases hd
        · intro m hr
          rcases hset m hr with ⟨i, hp, -⟩ | h
          · exact .inl ⟨objs[i]'hp.1, List.getElem_mem _, hp.2.1⟩
          · exact .inr (k1.2.1 m h).2.2
      | none =>
        refine ⟨hiff, hset, hdef, fun n h => (k1.2.1 n h).2.2, k1.2.2, ?_⟩
        rintro ⟨i, j, n, hi, hj, hij, hni, hnj, hei, hej⟩
        rcases Nat.lt_or_gt_of_ne hij with h | h
        · exact hdup.1 hd i j n hi hj h (hneed i hni) (hneed j hnj) hei hej
        · exact hdup.1 hd j i n hj hi h (hneed j hnj) (hneed i hni) hej hei

/-- **C31.** When linking succeeds, the modules of the program are the smallest set with the module of the entry point and, for each module in it, the first module exporting each name
it imports; every name that the program refers to is exported by a module of the program, or no module at all exports it, it has the form `__start_x` or `__stop_x`, and the linker will
define it. -/
theorem c31_modules (objs : List Obj) (entry : Name) (st : St) (h : link objs entry = .ok st) :
    (∀ i, st.needed i = true ↔ Needs objs entry i) ∧
    (∀ n, Refers objs entry n → (∃ i, Provides objs n i ∧ st.needed i = true) ∨ (¬ Defined objs n ∧ Special n ∧ n ∈ st.deferred)) ∧
    (∀ n ∈ st.deferred, Refers objs entry n ∧ ¬ Defined objs n) := by
  have hc := link_cases objs entry
  rw [h] at hc
  obtain ⟨h1, h2, h3, h4, -, -⟩ := hc
  refine ⟨h1, ?_, fun n hn => (h3 n).1 hn⟩
  intro n hr
  rcases h2 n hr with h | h
  · exact .inl h
  · exact .inr ⟨((h3 n).1 h).2, h4 n h, h⟩

/-- **C31.** Linking succeeds exactly if every name the program refers to is exported somewhere or is a name that the linker defines, and no name is exported by two modules of
the program; a missing name is reported in preference to an ambiguous one. -/
theorem c31_reports (objs : List Obj) (entry : Name) :
    ((∃ st, link objs entry = .ok st) ↔ (∀ n, Refers objs entry n → Defined objs n ∨ Special n) ∧ ¬ Ambiguous objs entry) ∧
    ((∃ n, link objs entry = .error (.undefined n)) ↔ ∃ n, Refers objs entry n ∧ ¬ Defined objs n ∧ ¬ Special n) ∧
    (∀ n, link objs entry = .error (.undefined n) → Refers objs entry n ∧ ¬ Defined objs n ∧ ¬ Special n) ∧
    link objs entry ≠ .error .fuel := by
  have hc := link_cases objs entry
  cases hl : link objs entry with
  | error e =>
    rw [hl] at hc
    cases e with
    | undefined n =>
      refine ⟨⟨(by rintro ⟨_, h⟩; cases h), ?_⟩, ⟨fun _ => ⟨n, hc⟩, fun _ => ⟨n, rfl⟩⟩, ?_, by simp⟩
      · rintro ⟨h, -⟩
        rcases h n hc.1 with h | h
        · exact absurd h hc.2.1
        · exact absurd h hc.2.2
      · intro m hm
        cases hm
        exact hc
    | duplicate n =>
      refine ⟨⟨(by rintro ⟨_, h⟩; cases h), fun h => absurd hc.1 h.2⟩, ⟨(by rintro ⟨_, h⟩; cases h), ?_⟩, (by intro m hm; cases hm), by simp⟩
      rintro ⟨m, k1, k2, k3⟩
      rcases hc.2 m k1 with h | h
      · exact absurd h k2
      · exact absurd h k3
    | fuel => exact hc.elim
  | ok st =>
    rw [hl] at hc
    obtain ⟨h1, h2, h3, h4, h5, h6⟩ := hc
    have hall : ∀ n, Refers objs entry n → Defined objs n ∨ Special n := by
      intro n hr
      rcases h2 n hr with ⟨i, hp, -⟩ | h
      · exact .inl ⟨objs[i]'hp.1, List.getElem_mem _, hp.2.1⟩
      · exact .inr (h4 n h)
    refine ⟨⟨fun _ => ⟨hall, h6⟩, fun _ => ⟨st, rfl⟩⟩, ⟨(by rintro ⟨_, h⟩; cases h), ?_⟩, (by intro m hm; cases hm), by simp⟩
    rintro ⟨m, k1, k2, k3⟩
    rcases hall m k1 with h | h
    · exact absurd h k2
    · exact absurd h k3

theorem address_some (st : St) (n : Name) (os : List Obj) (i a : Nat) (h : address st n os i = some a) :
    ∃ j, ∃ hj : j < os.length, st.needed (i + j) = true ∧ (n, a) ∈ os[j].defs := by
  induction os generalizing i with
  | nil => simp [address] at h
  | cons o os ih =>
    have hrec : address st n os (i + 1) = some a → ∃ j, ∃ hj : j < (o :: os).length, st.needed (i + j) = true ∧ (n, a) ∈ (o :: os)[j].defs := by
      intro h
      obtain ⟨j, hj, h1, h2⟩ := ih (i + 1) h
      exact ⟨j + 1, by simpa using hj, by rw [show i + (j + 1) = i + 1 + j by omega]; exact h1, h2⟩
    simp only [address] at h
    by_cases hn : st.needed i = true
    · rw [if_pos hn] at h
      cases hf : o.defs.find? (fun d => d.1 = n) with
      | none => rw [hf] at h; exact hrec h
      | some d =>
        rw [hf] at h
        simp only [Option.some.injEq] at h
        have h1 := List.find?_some hf
        have h2 := List.mem_of_find?_eq_some hf
        simp only [decide_eq_true_eq] at h1
        refine ⟨0, by simp, by simpa using hn, ?_⟩
        show (n, a) ∈ o.defs
        rw [← h1, ← h]
        exact h2
    · rw [if_neg hn] at h
      exact hrec h

theorem address_none (st : St) (n : Name) (os : List Obj) (i : Nat) (h : address st n os i = none) :
    ∀ j, ∀ hj : j < os.length, st.needed (i + j) = true → ¬ Exports os[j] n := by
  induction os generalizing i with
  | nil => intro j hj; simp at hj
  | cons o os ih =>
    simp only [address] at h
    have hrec : address st n os (i + 1) = none ∧ (st.needed i = true → ¬ Exports o n) := by
      by_cases hn : st.needed i = true
      · rw [if_pos hn] at h
        cases hf : o.defs.find? (fun d => d.1 = n) with
        | none =>
          rw [hf] at h
          refine ⟨h, ?_⟩
          rintro - ⟨a, hm⟩
          have := List.find?_eq_none.1 hf (n, a) hm
          simp at this
        | some d => rw [hf] at h; cases h
      · rw [if_neg hn] at h
        exact ⟨h, fun h => absurd h hn⟩
    intro j hj hn
    cases j with
    | zero => exact hrec.2 hn
    | succ j => exact ih (i + 1) hrec.1 j (by simpa using hj) (by rw [show i + 1 + j = i + (j + 1) by omega]; exact hn)

/-- **C31.** After a successful link the address used for a name that the program refers to and some module exports is the one given by the module that provides the name, and that is the
only module of the program with that name. -/
theorem c31_address (objs : List Obj) (entry : Name) (st : St) (h : link objs entry = .ok st) (n : Name) (hr : Refers objs entry n) (hd : Defined objs n) :
    ∃ i a, ∃ hi : i < objs.length, Provides objs n i ∧ (n, a) ∈ objs[i].defs ∧ address st n objs 0 = some a ∧
      ∀ j, ∀ hj : j < objs.length, Needs objs entry j → Exports objs[j] n → j = i := by
  have hc := link_cases objs entry
  rw [h] at hc
  obtain ⟨h1, h2, h3, h4, h5, h6⟩ := hc
  obtain ⟨i, hp, hn⟩ : ∃ i, Provides objs n i ∧ st.needed i = true := by
    rcases h2 n hr with h | h
    · exact h
    · exact absurd hd ((h3 n).1 h).2
  have huniq : ∀ j, ∀ hj : j < objs.length, Needs objs entry j → Exports objs[j] n → j = i := by
    intro j hj hnj hej
    apply Classical.byContradiction
    intro hne
    exact h6 ⟨j, i, n, hj, hp.1, hne, hnj, (h1 i).1 hn, hej, hp.2.1⟩
  cases ha : address st n objs 0 with
  | none => exact absurd hp.2.1 (address_none st n objs 0 ha i hp.1 (by simpa using hn))
  | some a =>
    obtain ⟨j, hj, g1, g2⟩ := address_some st n objs 0 a ha
    have : j = i := huniq j hj ((h1 j).1 (by simpa using g1)) ⟨a, g2⟩
    subst this
    exact ⟨j, a, hj, hp, g2, rfl, huniq⟩

/-! A program of four modules: `start` needs `main`, `main` and `helper` need each other, `other` (also exporting `helper`) is not needed. -/
def sample : List Obj :=
  [⟨[(str "other", 1), (str "unused", 2)], [str "missing"]⟩, ⟨[(str "helper", 3)], [str "main", str "__start_rel"]⟩, ⟨[(str "main", 4)], [str "helper"]⟩,
   ⟨[(str "__start", 5)], [str "main"]⟩]

example : ∃ st, link sample (str "__start") = .ok st ∧ (st.needed 0, st.needed 1, st.needed 2, st.needed 3) = (false, true, true, true) ∧ st.deferred = [str "__start_rel"] ∧
    address st (str "helper") sample 0 = some 3 := ⟨_, rfl, rfl, rfl, rfl⟩
example : ∃ n, link sample (str "other") = .error (.undefined n) ∧ n = str "missing" := ⟨_, rfl, rfl⟩
example : link (sample ++ [⟨[(str "helper", 9), (str "x", 8)], []⟩, ⟨[(str "go", 9)], [str "x", str "helper"]⟩]) (str "go") = .error (.duplicate (str "helper")) := rfl

end Smlr.Link
