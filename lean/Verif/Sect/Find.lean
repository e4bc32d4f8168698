import Verif.Sect.Loop
set_option autoImplicit false
namespace Smlr.Sect

/-! ### finding the sections -/

theorem collect_ok (c : Cfg) (ss : List Sec) (ds ds' : List Desc) (h : collect c ss ds = .ok ds') (hn : (ds.map Desc.name).Nodup)
    (hr : c.fmt = .dosExeUnreal → ∀ d ∈ ds, d.name ≠ str ".relod") :
    (ds'.map Desc.name).Nodup ∧ (c.fmt = .dosExeUnreal → ∀ d ∈ ds', d.name ≠ str ".relod") ∧
    (∀ d ∈ ds', d ∈ ds ∨ ∃ s ∈ ss, s.alloc = true ∧ s.name = d.name ∧ s.attrs = d.attrs) ∧ (∀ d ∈ ds, d ∈ ds') ∧
    (∀ s ∈ ss, s.alloc = true → ∃ d ∈ ds', d.name = s.name ∧ d.attrs = s.attrs) := by
  induction ss generalizing ds with
  | nil =>
    cases h
    exact ⟨hn, hr, fun d hd => .inl hd, fun d hd => hd, by simp⟩
  | cons s ss ih =>
    simp only [collect] at h
    cases ha : s.alloc with
    | false =>
      rw [ha] at h
      obtain ⟨h1, h2, h3, h4, h5⟩ := ih ds h hn hr
      refine ⟨h1, h2, ?_, h4, ?_⟩
      · intro d hd
        rcases h3 d hd with h | ⟨t, ht, h⟩
        · exact .inl h
        · exact .inr ⟨t, List.mem_cons_of_mem _ ht, h⟩
      · intro t ht hta
        rcases List.mem_cons.1 ht with rfl | ht
        · rw [ha] at hta; cases hta
        · exact h5 t ht hta
    | true =>
      rw [ha] at h
      simp only [Bool.not_true, Bool.false_eq_true, if_false] at h
      cases hf : ds.find? (fun d => d.name = s.name) with
      | some d0 =>
        rw [hf] at h
        simp only at h
        have hmem := List.mem_of_find?_eq_some hf
        have hname : d0.name = s.name := by simpa using List.find?_some hf
        split at h
        · cases h
        · rename_i hat
          have hat : d0.attrs = s.attrs := Classical.byContradiction hat
          obtain ⟨h1, h2, h3, h4, h5⟩ := ih ds h hn hr
          refine ⟨h1, h2, ?_, h4, ?_⟩
          · intro d hd
            rcases h3 d hd with h | ⟨t, ht, h⟩
            · exact .inl h
            · exact .inr ⟨t, List.mem_cons_of_mem _ ht, h⟩
          · intro t ht hta
            rcases List.mem_cons.1 ht with rfl | ht
            · exact ⟨d0, h4 d0 hmem, hname, hat⟩
            · exact h5 t ht hta
      | none =>
        rw [hf] at h
        simp only at h
        have hnone := List.find?_eq_none.1 hf
        split at h
        · cases h
        · rename_i hur
          obtain ⟨h1, h2, h3, h4, h5⟩ := ih (ds ++ [⟨s.name, s.attrs⟩]) h (by
            rw [List.map_append, List.nodup_append]
            refine ⟨hn, by simp, ?_⟩
            intro a hma b hmb
            obtain ⟨d, hd, rfl⟩ := List.mem_map.1 hma
            simp only [List.map_cons, List.map_nil, List.mem_singleton] at hmb
            rw [hmb]
            intro he
            exact hnone d hd (by simpa using he)) (by
            intro hu d hd
            rcases List.mem_append.1 hd with hd | hd
            · exact hr hu d hd
            · rw [List.mem_singleton.1 hd]
              exact fun he => hur ⟨hu, he⟩)
          refine ⟨h1, h2, ?_, fun d hd => h4 d (List.mem_append_left _ hd), ?_⟩
          · intro d hd
            rcases h3 d hd with h | ⟨t, ht, h⟩
            · rcases List.mem_append.1 h with h | h
              · exact .inl h
              · rw [List.mem_singleton.1 h]
                exact .inr ⟨s, by simp, ha, rfl, rfl⟩
            · exact .inr ⟨t, List.mem_cons_of_mem _ ht, h⟩
          · intro t ht hta
            rcases List.mem_cons.1 ht with rfl | ht
            · exact ⟨⟨t.name, t.attrs⟩, h4 _ (by simp), rfl, rfl⟩
            · exact h5 t ht hta

theorem cmp_before (p q : Desc) (h : cmp p q ≤ 0) (hp : p.attrs.exec = true → p.attrs.nobits = false) (hq : q.attrs.exec = true → q.attrs.nobits = false) :
    Before p.attrs q.attrs := by
  obtain ⟨pn, pw, pe, pb⟩ := p
  obtain ⟨qn, qw, qe, qb⟩ := q
  unfold cmp at h
  simp only at h hp hq
  unfold Before
  cases pb <;> cases qb <;> cases pe <;> cases qe <;> simp at h hp hq ⊢

theorem nodup_map_inj {α β : Type} (f : α → β) (l : List α) (h : (l.map f).Nodup) : ∀ a ∈ l, ∀ b ∈ l, f a = f b → a = b := by
  induction l with
  | nil => intro a ha; cases ha
  | cons x l ih =>
    rw [List.map_cons, List.nodup_cons] at h
    intro a ha b hb hab
    rcases List.mem_cons.1 ha with ha1 | ha1
    · rcases List.mem_cons.1 hb with hb1 | hb1
      · rw [ha1, hb1]
      · refine absurd ?_ h.1
        rw [← ha1, hab]
        exact List.mem_map_of_mem hb1
    · rcases List.mem_cons.1 hb with hb1 | hb1
      · refine absurd ?_ h.1
        rw [← hb1, ← hab]
        exact List.mem_map_of_mem ha1
      · exact ih h.2 a ha1 b hb1 hab

/-- what is known of the section descriptions -/
structure Found (c : Cfg) (ss : List Sec) (ds : List Desc) : Prop where
  nodup : (ds.map Desc.name).Nodup
  sorted : ds.Pairwise (fun p q => cmp p q ≤ 0)
  first : ∃ d, ds.head? = some d ∧ d.attrs.exec = true
  exec : ∀ d ∈ ds, d.attrs.exec = true → d.attrs.nobits = false ∧ d.attrs.write = false
  all : ∀ s ∈ ss, s.alloc = true → ∃ d ∈ ds, d.name = s.name ∧ d.attrs = s.attrs
  only : ∀ d ∈ ds, (∃ s ∈ ss, s.alloc = true ∧ s.name = d.name ∧ s.attrs = d.attrs) ∨
    (c.fmt = .dosExeUnreal ∧ c.relod.length ≠ 0 ∧ d = ⟨str ".relod", ⟨false, false, false⟩⟩)
  relod : c.fmt = .dosExeUnreal → c.relod.length ≠ 0 → ⟨str ".relod", ⟨false, false, false⟩⟩ ∈ ds
  norelod : c.fmt = .dosExeUnreal → ∀ s ∈ ss, s.alloc = true → s.name ≠ str ".relod"

theorem findAll_ok (c : Cfg) (sort : List Desc → List Desc) (ss : List Sec) (ds : List Desc) (hs : Sorts sort) (h : findAll c sort ss = .ok ds) : Found c ss ds := by
  unfold findAll at h
  cases hc : collect c ss [] with
  | error e => rw [hc] at h; cases h
  | ok d0 =>
    rw [hc] at h
    simp only at h
    obtain ⟨h1, h2, h3, -, h5⟩ := collect_ok c ss [] d0 hc (by simp) (by simp)
    have hchk : ds = sort (addRelod c d0) ∧ (∃ d, ds.head? = some d ∧ d.attrs.exec = true) ∧ ∀ d ∈ ds, d.attrs.exec = true → d.attrs.nobits = false ∧ d.attrs.write = false := by
      revert h
      generalize sort (addRelod c d0) = l
      intro h
      unfold checkDescs at h
      cases l with
      | nil => cases h
      | cons d l =>
        simp only at h
        split at h
        · cases h
        · rename_i he
          split at h
          · cases h
          · rename_i hany
            cases h
            refine ⟨rfl, ⟨d, rfl, by simpa using he⟩, ?_⟩
            intro x hx hxe
            have hany' : (List.any (d :: l) fun d => d.attrs.exec && (d.attrs.nobits || d.attrs.write)) = false := by simpa only [Bool.not_eq_true] using hany
            have := (List.any_eq_false.1 hany') x hx
            rw [hxe] at this
            simpa using this
    obtain ⟨hds, hfirst, hexec⟩ := hchk
    have hperm := (hs (addRelod c d0)).1
    rw [← hds] at hperm
    have hmem : ∀ d, d ∈ ds ↔ d ∈ addRelod c d0 := fun d => hperm.mem_iff
    have hadd : ∀ d, d ∈ addRelod c d0 ↔ d ∈ d0 ∨ (c.fmt = .dosExeUnreal ∧ c.relod.length ≠ 0 ∧ d = ⟨str ".relod", ⟨false, false, false⟩⟩) := by
      intro d
      unfold addRelod
      split
      · rename_i hh
        simp [hh]
      · rename_i hh
        constructor
        · exact .inl
        · rintro (h | ⟨h, h', -⟩)
          · exact h
          · exact absurd ⟨h, h'⟩ hh
    refine ⟨?_, by rw [hds]; exact (hs _).2, hfirst, hexec, ?_, ?_, ?_, ?_⟩
    · rw [(hperm.map Desc.name).nodup_iff]
      unfold addRelod
      split
      · rename_i hh
        rw [List.map_append, List.nodup_append]
        refine ⟨h1, by simp, ?_⟩
        intro a hma b hmb
        obtain ⟨d, hd, rfl⟩ := List.mem_map.1 hma
        simp only [List.map_cons, List.map_nil, List.mem_singleton] at hmb
        rw [hmb]
        exact h2 hh.1 d hd
      · exact h1
    · intro s hs' ha
      obtain ⟨d, hd, h⟩ := h5 s hs' ha
      exact ⟨d, (hmem d).2 ((hadd d).2 (.inl hd)), h⟩
    · intro d hd
      rcases (hadd d).1 ((hmem d).1 hd) with h | h
      · rcases h3 d h with h | h
        · cases h
        · exact .inl h
      · exact .inr h
    · intro hu hl
      exact (hmem _).2 ((hadd _).2 (.inr ⟨hu, hl, rfl⟩))
    · intro hu s hs' ha hn
      obtain ⟨d, hd, h, -⟩ := h5 s hs' ha
      exact h2 hu d hd (h.trans hn)

/-- the sections of a description -/
theorem members_eq (c : Cfg) (ss : List Sec) (ds : List Desc) (hf : Found c ss ds) (hu : Uniform c ss) (d : Desc) (hd : d ∈ ds) :
    members c ss d = (ss.filter (·.alloc) ++ made c).filter (fun s => s.name = d.name) := by
  unfold members made
  rw [List.filter_append, List.filter_filter]
  have e1 : ss.filter (fun s => decide (s.name = d.name)) = ss.filter (fun s => decide (s.name = d.name) && s.alloc) := by
    apply List.filter_congr
    intro s hs
    by_cases hn : s.name = d.name
    · have : s.alloc = true := by
        rcases hf.only d hd with ⟨t, ht, hta, htn, -⟩ | ⟨h1, -, h3⟩
        · exact hu.1 t ht s hs (htn.trans hn.symm) hta
        · exact hu.2 h1 s hs (by rw [hn, h3])
      simp [hn, this]
    · simp [hn]
  rw [e1]
  congr 1
  by_cases h1 : c.fmt = .dosExeUnreal ∧ c.relod.length ≠ 0
  · rw [if_pos h1]
    by_cases h2 : d.name = str ".relod"
    · rw [if_pos ⟨h1.1, h1.2, h2⟩]
      simp [h2]
    · rw [if_neg (fun h => h2 h.2.2)]
      simp [Ne.symm h2]
  · rw [if_neg h1, if_neg (fun h => h1 ⟨h.1, h.2.1⟩)]
    rfl

/-- grouping by name keeps every section -/
theorem group_perm (l : List Sec) (ns : List Name) (hn : ns.Nodup) (h : ∀ s ∈ l, s.name ∈ ns) : (ns.flatMap (fun n => l.filter (fun s => s.name = n))).Perm l := by
  induction ns generalizing l with
  | nil =>
    cases l with
    | nil => simp
    | cons s l => exact absurd (h s (by simp)) (by simp)
  | cons n ns ih =>
    obtain ⟨hn1, hn2⟩ := List.nodup_cons.1 hn
    rw [List.flatMap_cons]
    have hrest : ns.flatMap (fun m => l.filter (fun s => s.name = m)) = ns.flatMap (fun m => (l.filter (fun s => !decide (s.name = n))).filter (fun s => s.name = m)) := by
      simp only [List.flatMap_def]
      congr 1
      apply List.map_congr_left
      intro m hm
      rw [List.filter_filter]
      apply List.filter_congr
      intro s _
      by_cases hsm : s.name = m
      · have : s.name ≠ n := by
          rintro rfl
          exact hn1 (hsm ▸ hm)
        simp [hsm]
        rintro rfl
        exact hn1 hm
      · simp [hsm]
    rw [hrest]
    refine (List.Perm.append_left _ (ih (l.filter (fun s => !decide (s.name = n))) hn2 ?_)).trans (List.filter_append_perm (fun s => decide (s.name = n)) l)
    intro s hs
    obtain ⟨h1, h2⟩ := List.mem_filter.1 hs
    rcases List.mem_cons.1 (h s h1) with h3 | h3
    · simp [h3] at h2
    · exact h3

theorem blocks_secs (c : Cfg) (ss : List Sec) (ds : List Desc) (news : List (List Place)) (sps : List (Nat × Nat)) (h : Blocks c ss ds news sps) :
    news.flatten.map Place.sec = ds.flatMap (members c ss) := by
  induction ds generalizing news sps with
  | nil =>
    cases news with
    | nil => rfl
    | cons n ns => cases sps <;> exact h.elim
  | cons d ds ih =>
    cases news with
    | nil => cases sps <;> exact h.elim
    | cons n ns =>
      cases sps with
      | nil => exact h.elim
      | cons sp sps =>
        obtain ⟨h1, _, h3⟩ := h
        rw [List.flatten_cons, List.map_append, h1, ih ns sps h3, List.flatMap_cons]

/-- all that is known of a layout -/
theorem layout_ok (c : Cfg) (sort : List Desc → List Desc) (ss : List Sec) (ds : List Desc) (st : St) (hs : Sorts sort) (hw : WF c ss) (hu : Uniform c ss)
    (h : layout c sort ss = .ok (ds, st)) :
    Found c ss ds ∧ (∃ ph, Inv c ph st) ∧ Spans st ∧ ∃ news, Blocks c ss ds news st.spans ∧ st.placed = news.flatten := by
  unfold layout at h
  cases hf : findAll c sort ss with
  | error e => rw [hf] at h; cases h
  | ok ds' =>
    rw [hf] at h
    simp only at h
    cases hp : pass c ss ds' with
    | error e => rw [hp] at h; cases h
    | ok st' =>
      rw [hp] at h
      cases h
      have hfound := findAll_ok c sort ss ds hs hf
      obtain ⟨d, hd, hde⟩ := hfound.first
      obtain ⟨hw1, hw2, hw3, hw4⟩ := hw
      unfold pass at hp
      obtain ⟨ph, r1, r2, news, sps, r3, r4, r5⟩ := loop_ok c ss ds false _ st hp
        ⟨Nat.le_refl _, hw1, by simp, fun _ => ⟨rfl, rfl⟩, (fun _ h => by cases h), (fun _ _ p hp => by cases hp), hw2, (fun p hp => by cases hp), (fun p hp => by cases hp), List.Pairwise.nil⟩
        (hfound.sorted.imp_of_mem (fun ha hb hab => cmp_before _ _ hab (fun he => (hfound.exec _ ha he).1) (fun he => (hfound.exec _ hb he).1)))
        (fun d hd he => (hfound.exec d hd he).1)
        (by
          intro d hd s hs'
          rw [members_eq c ss ds hfound hu d hd] at hs'
          obtain ⟨h1, h2⟩ := List.mem_filter.1 hs'
          simp only [decide_eq_true_eq] at h2
          rcases List.mem_append.1 h1 with h1 | h1
          · obtain ⟨h1, ha⟩ := List.mem_filter.1 h1
            obtain ⟨g1, g2, g3⟩ := hw4 s h1
            refine ⟨g2, g1, g3, ?_⟩
            obtain ⟨d', hd', hn', ha'⟩ := hfound.all s h1 ha
            rcases hfound.only d hd with ⟨t, ht, hta, htn, htat⟩ | ⟨hu1, _, hu3⟩
            · obtain ⟨d'', hd'', hn'', ha''⟩ := hfound.all t ht hta
              have hnod := hfound.nodup
              have heq : ∀ a ∈ ds, ∀ b ∈ ds, a.name = b.name → a = b := by
                intro a ha b hb hab
                exact nodup_map_inj Desc.name ds hnod a ha b hb hab
              have e1 := heq d' hd' d hd (hn'.trans h2)
              rw [← e1]
              exact ha'.symm
            · exact absurd (h2.trans (by rw [hu3])) (hfound.norelod hu1 s h1 ha)
          · unfold made at h1
            split at h1
            · rename_i hh
              have hse := List.mem_singleton.1 h1
              rw [hse]
              refine ⟨(show 4 < 2 ^ 32 by decide), hw3, fun _ => rfl, ?_⟩
              rcases hfound.only d hd with ⟨t, ht, hta, htn, htat⟩ | ⟨_, _, hu3⟩
              · refine absurd ?_ (hfound.norelod hh.1 t ht hta)
                rw [htn, ← h2, hse]
              · rw [hu3]
            · cases h1)
        (fun p hp => by cases hp) (fun p hp => by cases hp) (fun _ _ => .inr ⟨d, hd, hde⟩) (fun _ h => by cases h) ⟨.inl ⟨rfl, rfl⟩, .inl ⟨rfl, rfl⟩⟩
      refine ⟨hfound, ⟨ph, r1⟩, r2, news, ?_, by simpa using r4⟩
      rw [r5]
      simpa using r3

end Smlr.Sect
