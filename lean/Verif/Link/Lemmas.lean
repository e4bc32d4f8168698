import Verif.Link.Spec
set_option autoImplicit false
namespace Smlr.Link

theorem defines_iff (o : Obj) (n : Name) : defines o n = true ↔ Exports o n := by
  unfold defines Exports
  rw [List.any_eq_true]
  constructor
  · rintro ⟨⟨m, a⟩, h1, h2⟩
    have : m = n := by simpa using h2
    exact ⟨a, this ▸ h1⟩
  · rintro ⟨a, h⟩
    exact ⟨(n, a), h, by simp⟩

theorem firstDef_aux (n : Name) (os : List Obj) (i j : Nat) :
    firstDef n os i = some j ↔ ∃ h : i ≤ j ∧ j - i < os.length, Exports (os[j - i]'h.2) n ∧ ∀ k, ∀ h : k < os.length, k < j - i → ¬ Exports os[k] n := by
  induction os generalizing i with
  | nil => simp [firstDef]
  | cons o os ih =>
    simp only [firstDef]
    by_cases hd : defines o n = true
    · rw [if_pos hd]
      have he := (defines_iff o n).1 hd
      constructor
      · intro h
        cases h
        refine ⟨⟨Nat.le_refl _, by simp⟩, ?_, ?_⟩
        · simpa using he
        · intro k _ hk
          omega
      · rintro ⟨⟨h1, h2⟩, h3, h4⟩
        by_cases hij : j - i = 0
        · have : i = j := by omega
          rw [this]
        · exact absurd he (h4 0 (by simp) (by omega))
    · rw [if_neg hd, ih]
      have he : ¬ Exports o n := fun h => hd ((defines_iff o n).2 h)
      constructor
      · rintro ⟨⟨h1, h2⟩, h3, h4⟩
        have e : j - i = (j - (i + 1)) + 1 := by omega
        refine ⟨⟨by omega, by simp; omega⟩, ?_, ?_⟩
        · simp only [e, List.getElem_cons_succ]
          exact h3
        · intro k hk hlt
          cases k with
          | zero => simpa using he
          | succ k =>
            simp only [List.getElem_cons_succ]
            exact h4 k (by simpa using hk) (by omega)
      · rintro ⟨⟨h1, h2⟩, h3, h4⟩
        have hij : j - i ≠ 0 := by
          intro h
          apply he
          simp only [h] at h3
          exact h3
        have e : j - i = (j - (i + 1)) + 1 := by omega
        refine ⟨⟨by omega, by simp at h2; omega⟩, ?_, ?_⟩
        · simp only [e, List.getElem_cons_succ] at h3
          exact h3
        · intro k hk hlt
          have := h4 (k + 1) (by simp; omega) (by omega)
          simpa using this

theorem firstDef_iff (n : Name) (os : List Obj) (j : Nat) : firstDef n os 0 = some j ↔ Provides os n j := by
  rw [firstDef_aux]
  constructor
  · rintro ⟨⟨_, h2⟩, h3, h4⟩
    exact ⟨h2, h3, h4⟩
  · rintro ⟨h2, h3, h4⟩
    exact ⟨⟨Nat.zero_le _, h2⟩, h3, h4⟩

theorem firstDef_none (n : Name) (os : List Obj) (i : Nat) : firstDef n os i = none ↔ ¬ Defined os n := by
  induction os generalizing i with
  | nil => simp [firstDef, Defined]
  | cons o os ih =>
    simp only [firstDef]
    by_cases hd : defines o n = true
    · rw [if_pos hd]
      have he := (defines_iff o n).1 hd
      constructor
      · intro h; cases h
      · intro h
        exact absurd ⟨o, by simp, he⟩ h
    · rw [if_neg hd, ih]
      have he : ¬ Exports o n := fun h => hd ((defines_iff o n).2 h)
      simp [Defined, he]

theorem provides_unique {os : List Obj} {n : Name} {i j : Nat} (h1 : Provides os n i) (h2 : Provides os n j) : i = j := by
  have := (firstDef_iff n os i).2 h1
  rw [(firstDef_iff n os j).2 h2] at this
  cases this
  rfl

theorem deferrable_iff (n : Name) : deferrable n = true ↔ Special n := by
  have hpre : ∀ (p : Name) (k : Nat), p.length = k → ((p.isPrefixOf n && decide (n.length > k)) = true ↔ ∃ x, x ≠ [] ∧ n = p ++ x) := by
    intro p k hk
    rw [Bool.and_eq_true, List.isPrefixOf_iff_prefix, decide_eq_true_eq]
    constructor
    · rintro ⟨⟨x, rfl⟩, hl⟩
      refine ⟨x, ?_, rfl⟩
      rintro rfl
      simp at hl
      omega
    · rintro ⟨x, hx, rfl⟩
      refine ⟨⟨x, rfl⟩, ?_⟩
      have : 0 < x.length := List.length_pos_iff.2 hx
      simp; omega
  unfold deferrable
  rw [Bool.or_eq_true, Bool.or_eq_true, hpre (str "__start_") 8 rfl, hpre (str "__stop_") 7 rfl]
  unfold Special
  constructor
  · rintro ((h | ⟨x, h1, h2⟩) | ⟨x, h1, h2⟩)
    · simp only [List.contains_cons, List.contains_nil, Bool.or_false, Bool.or_eq_true, beq_iff_eq] at h
      rcases h with rfl | rfl | rfl | rfl
      · exact ⟨str "allcode__", by decide, .inl rfl⟩
      · exact ⟨str "allcode__", by decide, .inr rfl⟩
      · exact ⟨str "alldata__", by decide, .inl rfl⟩
      · exact ⟨str "alldata__", by decide, .inr rfl⟩
    · exact ⟨x, h1, .inl h2⟩
    · exact ⟨x, h1, .inr h2⟩
  · rintro ⟨x, h1, h2 | h2⟩
    · exact .inl (.inr ⟨x, h1, h2⟩)
    · exact .inr ⟨x, h1, h2⟩

/-- every flag set is justified, every deferred name is one that is referred to and that the linker defines -/
def Ok (objs : List Obj) (entry : Name) (st : St) : Prop :=
  (∀ i, st.needed i = true → Needs objs entry i) ∧ (∀ n ∈ st.deferred, Refers objs entry n ∧ ¬ Defined objs n ∧ Special n) ∧ st.deferred.Nodup

/-- the name has been dealt with -/
def Settled (objs : List Obj) (st : St) (n : Name) : Prop :=
  (∃ i, Provides objs n i ∧ st.needed i = true) ∨ n ∈ st.deferred

/-- `st'` extends `st` -/
def Le (st st' : St) : Prop := (∀ i, st.needed i = true → st'.needed i = true) ∧ ∀ n ∈ st.deferred, n ∈ st'.deferred

theorem Le.refl (st : St) : Le st st := ⟨fun _ h => h, fun _ h => h⟩
theorem Le.trans {a b c : St} (h1 : Le a b) (h2 : Le b c) : Le a c := ⟨fun i h => h2.1 i (h1.1 i h), fun n h => h2.2 n (h1.2 n h)⟩

theorem Settled.mono {objs : List Obj} {a b : St} {n : Name} (h : Le a b) : Settled objs a n → Settled objs b n := by
  rintro (⟨i, h1, h2⟩ | h1)
  · exact .inl ⟨i, h1, h.1 i h2⟩
  · exact .inr (h.2 n h1)

theorem provides_needs {objs : List Obj} {entry n : Name} {i : Nat} (hr : Refers objs entry n) (hp : Provides objs n i) : Needs objs entry i := by
  rcases hr with rfl | ⟨j, hj, h1, h2⟩
  · exact .entry i hp
  · exact .undef j i n hj h1 h2 hp

/-- the flags, apart from an inclusion, do not change; an inclusion sets one more flag of an existing module -/
def Grew (objs : List Obj) (a b : St) (inc : Bool) : Prop :=
  (inc = false → b.needed = a.needed) ∧ (inc = true → ∃ i, i < objs.length ∧ a.needed i = false ∧ b.needed i = true)

theorem Grew.trans {objs : List Obj} {a b c : St} {x y : Bool} (hab : Le a b) (hbc : Le b c) (h1 : Grew objs a b x) (h2 : Grew objs b c y) : Grew objs a c (x || y) := by
  cases x with
  | false =>
    cases y with
    | false => exact ⟨fun _ => (h2.1 rfl).trans (h1.1 rfl), by simp⟩
    | true =>
      refine ⟨by simp, fun _ => ?_⟩
      obtain ⟨i, g1, g2, g3⟩ := h2.2 rfl
      exact ⟨i, g1, by rw [← h1.1 rfl]; exact g2, g3⟩
  | true =>
    refine ⟨by simp, fun _ => ?_⟩
    obtain ⟨i, g1, g2, g3⟩ := h1.2 rfl
    exact ⟨i, g1, g2, hbc.1 i g3⟩

theorem findByName_spec (objs : List Obj) (entry : Name) (st : St) (n : Name) (hok : Ok objs entry st) (hr : Refers objs entry n) :
    match findByName objs st n with
    | .error e => e = .undefined n ∧ ¬ Defined objs n ∧ ¬ Special n
    | .ok (st', inc) => Ok objs entry st' ∧ Le st st' ∧ Settled objs st' n ∧ Grew objs st st' inc := by
  unfold findByName
  cases hf : firstDef n objs 0 with
  | some i =>
    have hp := (firstDef_iff n objs i).1 hf
    simp only
    by_cases hn : st.needed i = true
    · rw [if_pos hn]
      exact ⟨hok, Le.refl _, .inl ⟨i, hp, hn⟩, fun _ => rfl, by simp⟩
    · rw [if_neg hn]
      refine ⟨⟨?_, hok.2⟩, ⟨?_, fun _ h => h⟩, .inl ⟨i, hp, by simp⟩, by simp, fun _ => ⟨i, hp.1, by simpa using hn, by simp⟩⟩
      · intro j hj
        by_cases hji : j = i
        · subst hji
          exact provides_needs hr hp
        · exact hok.1 j (by simpa [hji] using hj)
      · intro j hj
        show (if j = i then true else st.needed j) = true
        split
        · rfl
        · exact hj
  | none =>
    have hnd := (firstDef_none n objs 0).1 hf
    simp only
    by_cases hd : deferrable n = true
    · rw [if_pos hd]
      have hs := (deferrable_iff n).1 hd
      unfold defer
      by_cases hc : st.deferred.contains n = true
      · rw [if_pos hc]
        exact ⟨hok, Le.refl _, .inr (by simpa using hc), fun _ => rfl, by simp⟩
      · rw [if_neg hc]
        have hc' : n ∉ st.deferred := by simpa using hc
        refine ⟨⟨hok.1, ?_, ?_⟩, ⟨fun _ h => h, fun m h => List.mem_append_left _ h⟩, .inr (by simp), fun _ => rfl, by simp⟩
        · intro m hm
          rcases List.mem_append.1 hm with h | h
          · exact hok.2.1 m h
          · have := List.mem_singleton.1 h
            subst this
            exact ⟨hr, hnd, hs⟩
        · rw [List.nodup_append]
          refine ⟨hok.2.2, by simp, ?_⟩
          intro a ha b hb
          have := List.mem_singleton.1 hb
          subst this
          rintro rfl
          exact hc' ha
    · rw [if_neg hd]
      exact ⟨rfl, hnd, fun h => hd ((deferrable_iff n).2 h)⟩

theorem imports_spec (objs : List Obj) (entry : Name) (ns : List Name) (st : St) (inc : Bool) (hok : Ok objs entry st) (hr : ∀ n ∈ ns, Refers objs entry n) :
    match imports objs ns st inc with
    | .error e => ∃ n ∈ ns, e = .undefined n ∧ ¬ Defined objs n ∧ ¬ Special n
    | .ok (st', inc') => Ok objs entry st' ∧ Le st st' ∧ (∀ n ∈ ns, Settled objs st' n) ∧ ∃ b, inc' = (inc || b) ∧ Grew objs st st' b := by
  induction ns generalizing st inc with
  | nil => exact ⟨hok, Le.refl _, by simp, false, by simp, fun _ => rfl, by simp⟩
  | cons n ns ih =>
    simp only [imports]
    have h1 := findByName_spec objs entry st n hok (hr n (by simp))
    cases hf : findByName objs st n with
    | error e =>
      rw [hf] at h1
      exact ⟨n, by simp, h1⟩
    | ok x =>
      obtain ⟨st1, b⟩ := x
      rw [hf] at h1
      obtain ⟨g1, g2, g3, g4⟩ := h1
      simp only
      have h2 := ih st1 (inc || b) g1 (fun m hm => hr m (List.mem_cons_of_mem _ hm))
      cases hi : imports objs ns st1 (inc || b) with
      | error e =>
        rw [hi] at h2
        obtain ⟨m, hm, h⟩ := h2
        exact ⟨m, List.mem_cons_of_mem _ hm, h⟩
      | ok y =>
        obtain ⟨st2, inc2⟩ := y
        rw [hi] at h2
        obtain ⟨k1, k2, k3, b2, k4, k5⟩ := h2
        refine ⟨k1, g2.trans k2, ?_, b || b2, by rw [k4, Bool.or_assoc], g4.trans g2 k2 k5⟩
        intro m hm
        rcases List.mem_cons.1 hm with rfl | hm
        · exact g3.mono k2
        · exact k3 m hm

/-- the modules from `i` on whose flags are set in `a` have settled imports in `b` -/
def Closed (objs os : List Obj) (i : Nat) (a b : St) : Prop :=
  ∀ j, ∀ h : j < os.length, a.needed (i + j) = true → ∀ n ∈ os[j].undefs, Settled objs b n

theorem round_spec (objs : List Obj) (entry : Name) (os : List Obj) (i : Nat) (st : St) (inc : Bool) (hos : os = objs.drop i) (hok : Ok objs entry st) :
    match round objs os i st inc with
    | .error e => ∃ n, Refers objs entry n ∧ e = .undefined n ∧ ¬ Defined objs n ∧ ¬ Special n
    | .ok (st', inc') => Ok objs entry st' ∧ Le st st' ∧ Closed objs os i st st' ∧ ∃ b, inc' = (inc || b) ∧ Grew objs st st' b := by
  induction os generalizing i st inc with
  | nil => exact ⟨hok, Le.refl _, by intro j h; simp at h, false, by simp, fun _ => rfl, by simp⟩
  | cons o os ih =>
    have hi : i < objs.length := by
      have := congrArg List.length hos
      simp at this
      omega
    have hcons := List.drop_eq_getElem_cons hi
    rw [← hos] at hcons
    injection hcons with ho hos'
    simp only [round]
    by_cases hn : st.needed i = true
    · rw [if_pos hn]
      have hrefs : ∀ n ∈ o.undefs, Refers objs entry n := fun n hm => .inr ⟨i, hi, hok.1 i hn, by rw [← ho]; exact hm⟩
      have h1 := imports_spec objs entry o.undefs st inc hok hrefs
      cases hf : imports objs o.undefs st inc with
      | error e =>
        rw [hf] at h1
        obtain ⟨n, hm, h⟩ := h1
        exact ⟨n, hrefs n hm, h⟩
      | ok x =>
        obtain ⟨st1, inc1⟩ := x
        rw [hf] at h1
        obtain ⟨g1, g2, g3, b, g4, g5⟩ := h1
        simp only
        have h2 := ih (i + 1) st1 inc1 hos' g1
        cases hr : round objs os (i + 1) st1 inc1 with
        | error e => rw [hr] at h2; exact h2
        | ok y =>
          obtain ⟨st2, inc2⟩ := y
          rw [hr] at h2
          obtain ⟨k1, k2, k3, b2, k4, k5⟩ := h2
          refine ⟨k1, g2.trans k2, ?_, b || b2, by rw [k4, g4, Bool.or_assoc], g5.trans g2 k2 k5⟩
          intro j hj hjn n hm
          cases j with
          | zero => exact (g3 n (by simpa using hm)).mono k2
          | succ j =>
            have e : i + 1 + j = i + (j + 1) := by omega
            exact k3 j (by simpa using hj) (by rw [e]; exact g2.1 _ hjn) n (by simpa using hm)
    · rw [if_neg hn]
      have h2 := ih (i + 1) st inc hos' hok
      cases hr : round objs os (i + 1) st inc with
      | error e => rw [hr] at h2; exact h2
      | ok y =>
        obtain ⟨st2, inc2⟩ := y
        rw [hr] at h2
        obtain ⟨k1, k2, k3, k4⟩ := h2
        refine ⟨k1, k2, ?_, k4⟩
        intro j hj hjn n hm
        cases j with
        | zero => exact absurd hjn hn
        | succ j =>
          have e : i + 1 + j = i + (j + 1) := by omega
          exact k3 j (by simpa using hj) (by rw [e]; exact hjn) n (by simpa using hm)

/-- number of modules that are not included -/
def missing (n : Nat) (st : St) : Nat := (List.range n).countP (fun i => !st.needed i)

theorem missing_lt {n : Nat} {a b : St} (hle : Le a b) (h : ∃ i, i < n ∧ a.needed i = false ∧ b.needed i = true) : missing n b < missing n a := by
  obtain ⟨i, hi, h1, h2⟩ := h
  unfold missing
  have key : ∀ l : List Nat, l.countP (fun i => !b.needed i) ≤ l.countP (fun i => !a.needed i) := by
    intro l
    apply List.countP_mono_left
    intro j _ hj
    cases ha : a.needed j with
    | false => rfl
    | true =>
      rw [hle.1 j ha] at hj
      exact absurd hj (by decide)
  obtain ⟨s, t, hst⟩ := List.append_of_mem (List.mem_range.2 hi)
  rw [hst]
  simp only [List.countP_append, List.countP_cons, h1, h2]
  have := key s
  have := key t
  simp
  omega

theorem findAll_spec (objs : List Obj) (entry : Name) (fuel : Nat) (st : St) (hok : Ok objs entry st) (hf : missing objs.length st < fuel) :
    match findAll objs fuel st with
    | .error e => ∃ n, Refers objs entry n ∧ e = .undefined n ∧ ¬ Defined objs n ∧ ¬ Special n
    | .ok st' => Ok objs entry st' ∧ Le st st' ∧ ∀ i, ∀ h : i < objs.length, st'.needed i = true → ∀ n ∈ objs[i].undefs, Settled objs st' n := by
  induction fuel generalizing st with
  | zero => omega
  | succ fuel ih =>
    simp only [findAll]
    have h1 := round_spec objs entry objs 0 st false (by simp) hok
    cases hr : round objs objs 0 st false with
    | error e => rw [hr] at h1; exact h1
    | ok x =>
      obtain ⟨st1, inc⟩ := x
      rw [hr] at h1
      obtain ⟨g1, g2, g3, b, g4, g5⟩ := h1
      simp only [Bool.false_or] at g4
      subst g4
      simp only
      cases inc with
      | true =>
        rw [if_pos rfl]
        have := missing_lt (n := objs.length) g2 (g5.2 rfl)
        have h2 := ih st1 g1 (by omega)
        cases hfa : findAll objs fuel st1 with
        | error e => rw [hfa] at h2; exact h2
        | ok st2 =>
          rw [hfa] at h2
          exact ⟨h2.1, g2.trans h2.2.1, h2.2.2⟩
      | false =>
        rw [if_neg (by decide)]
        refine ⟨g1, g2, ?_⟩
        intro i hi hn n hm
        rw [g5.1 rfl] at hn
        exact g3 i hi (by simpa using hn) n hm

theorem clash_iff (st : St) (n : Name) (os : List Obj) (i : Nat) :
    clash st n os i = true ↔ ∃ j, ∃ h : j < os.length, st.needed (i + j) = true ∧ Exports os[j] n := by
  induction os generalizing i with
  | nil => simp [clash]
  | cons o os ih =>
    simp only [clash, Bool.or_eq_true, Bool.and_eq_true, defines_iff, ih]
    constructor
    · rintro (⟨h1, h2⟩ | ⟨j, h, h1, h2⟩)
      · exact ⟨0, by simp, h1, h2⟩
      · exact ⟨j + 1, by simpa using h, by rw [show i + (j + 1) = i + 1 + j by omega]; exact h1, h2⟩
    · rintro ⟨j, h, h1, h2⟩
      cases j with
      | zero => exact .inl ⟨h1, h2⟩
      | succ j => exact .inr ⟨j, by simpa using h, by rw [show i + 1 + j = i + (j + 1) by omega]; exact h1, by simpa using h2⟩

theorem duplicates_none (st : St) (os : List Obj) (i : Nat) :
    duplicates st os i = none ↔ ∀ j k n, ∀ hj : j < os.length, ∀ hk : k < os.length, j < k → st.needed (i + j) = true → st.needed (i + k) = true →
      Exports os[j] n → ¬ Exports os[k] n := by
  induction os generalizing i with
  | nil => simp [duplicates]
  | cons o os ih =>
    simp only [duplicates]
    have hhead : (if st.needed i = true then o.defs.find? (fun d => clash st d.1 os (i + 1)) else none) = none ↔
        (st.needed i = true → ∀ n, Exports o n → clash st n os (i + 1) = false) := by
      by_cases hn : st.needed i = true
      · rw [if_pos hn, List.find?_eq_none]
        constructor
        · intro h _ n ⟨a, hm⟩
          simpa using h (n, a) hm
        · intro h d hd
          have := h hn d.1 ⟨d.2, hd⟩
          simp [this]
      · simp [hn]
    constructor
    · intro h
      cases hc : (if st.needed i = true then o.defs.find? (fun d => clash st d.1 os (i + 1)) else none) with
      | some d => rw [hc] at h; cases h
      | none =>
        rw [hc] at h
        simp only at h
        have h1 := hhead.1 hc
        intro j k n hj hk hjk hnj hnk hej hek
        cases k with
        | zero => omega
        | succ k =>
          cases j with
          | zero =>
            have := h1 (by simpa using hnj) n (by simpa using hej)
            have h2 : clash st n os (i + 1) = true := (clash_iff st n os (i + 1)).2 ⟨k, by simpa using hk, by rw [show i + 1 + k = i + (k + 1) by omega]; exact hnk, by simpa using hek⟩
            rw [this] at h2
            cases h2
          | succ j =>
            exact (ih (i + 1)).1 h j k n (by simpa using hj) (by simpa using hk) (by omega) (by rw [show i + 1 + j = i + (j + 1) by omega]; exact hnj)
              (by rw [show i + 1 + k = i + (k + 1) by omega]; exact hnk) (by simpa using hej) (by simpa using hek)
    · intro h
      have h1 : (if st.needed i = true then o.defs.find? (fun d => clash st d.1 os (i + 1)) else none) = none := by
        rw [hhead]
        intro hn n he
        cases hc : clash st n os (i + 1) with
        | false => rfl
        | true =>
          obtain ⟨k, hk, g1, g2⟩ := (clash_iff st n os (i + 1)).1 hc
          exact absurd g2 (h 0 (k + 1) n (by simp) (by simpa using hk) (by omega) hn (by rw [show i + (k + 1) = i + 1 + k by omega]; exact g1) (by simpa using he))
      rw [h1]
      simp only
      rw [ih]
      intro j k n hj hk hjk hnj hnk hej
      have := h (j + 1) (k + 1) n (by simpa using hj) (by simpa using hk) (by omega) (by rw [show i + (j + 1) = i + 1 + j by omega]; exact hnj)
        (by rw [show i + (k + 1) = i + 1 + k by omega]; exact hnk) (by simpa using hej)
      simpa using this

end Smlr.Link
