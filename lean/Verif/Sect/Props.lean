import Verif.Sect.Find
set_option autoImplicit false
/-! C32: layout of the sections in the executable.  C42: symbols for the boundaries of sections. -/
namespace Smlr.Sect

/-- **C32.** `SectDescCmp` is a total order, so that `qsort` has exactly one result. -/
theorem c32_cmp (a b d : Desc) : (cmp a b < 0 ↔ cmp b a > 0) ∧ (cmp a b ≤ 0 → cmp b d ≤ 0 → cmp a d ≤ 0) ∧ (cmp a b = 0 ↔ a = b) := by
  have h1 := cmp_same a b
  have h2 := cmp_same b a
  have h3 := cmp_same b d
  have h4 := cmp_same a d
  have hs := lex_swap (key a) (key b)
  have ht := lex_trans (key a) (key b) (key d)
  have hz := lex_zero (key a) (key b)
  unfold Same at h1 h2 h3 h4
  refine ⟨by omega, by omega, ?_⟩
  rw [h1.2, hz]
  exact ⟨key_inj a b, fun h => by rw [h]⟩

/-- **C32.** Every section of the program, and no other, is placed once. -/
theorem c32_complete (c : Cfg) (sort : List Desc → List Desc) (ss : List Sec) (ds : List Desc) (st : St) (hs : Sorts sort) (hw : WF c ss) (hu : Uniform c ss)
    (h : layout c sort ss = .ok (ds, st)) : (st.placed.map Place.sec).Perm (ss.filter (·.alloc) ++ made c) := by
  obtain ⟨hf, -, -, news, hb, hp⟩ := layout_ok c sort ss ds st hs hw hu h
  rw [hp, blocks_secs c ss ds news st.spans hb]
  have e : ds.flatMap (members c ss) = (ds.map Desc.name).flatMap (fun n => (ss.filter (·.alloc) ++ made c).filter (fun s => s.name = n)) := by
    rw [List.flatMap_map, List.flatMap_def, List.flatMap_def]
    congr 1
    apply List.map_congr_left
    intro d hd
    exact members_eq c ss ds hf hu d hd
  rw [e]
  apply group_perm _ _ hf.nodup
  intro s hs'
  rcases List.mem_append.1 hs' with hs' | hs'
  · obtain ⟨h1, h2⟩ := List.mem_filter.1 hs'
    obtain ⟨d, hd, hn, -⟩ := hf.all s h1 h2
    rw [← hn]
    exact List.mem_map_of_mem hd
  · unfold made at hs'
    split at hs'
    · rename_i hh
      rw [List.mem_singleton.1 hs']
      exact List.mem_map.2 ⟨_, hf.relod hh.1 hh.2, rfl⟩
    · cases hs'

/-- each block has the attributes of its description -/
theorem blocks_attrs (c : Cfg) (ss : List Sec) (ds : List Desc) (news : List (List Place)) (sps : List (Nat × Nat)) (h : Blocks c ss ds news sps)
    (hm : ∀ d ∈ ds, ∀ s ∈ members c ss d, s.attrs = d.attrs) (R : Attrs → Attrs → Prop) (hr : ∀ a, R a a) (hp : ds.Pairwise (fun d e => R d.attrs e.attrs)) :
    news.flatten.Pairwise (fun p q => R p.sec.attrs q.sec.attrs) ∧ ∀ p ∈ news.flatten, ∃ d ∈ ds, p.sec.attrs = d.attrs ∧ p.sec ∈ members c ss d := by
  induction ds generalizing news sps with
  | nil =>
    cases news with
    | nil => simp
    | cons n ns => cases sps <;> exact h.elim
  | cons d ds ih =>
    cases news with
    | nil => cases sps <;> exact h.elim
    | cons n ns =>
      cases sps with
      | nil => exact h.elim
      | cons sp sps =>
        obtain ⟨h1, _, h3⟩ := h
        obtain ⟨hp1, hp2⟩ := List.pairwise_cons.1 hp
        obtain ⟨i1, i2⟩ := ih ns sps h3 (fun e he => hm e (List.mem_cons_of_mem _ he)) hp2
        have hn : ∀ p ∈ n, p.sec ∈ members c ss d := by
          intro p hp
          rw [← h1]
          exact List.mem_map_of_mem hp
        have hn' : ∀ p ∈ n, p.sec.attrs = d.attrs := fun p hp => hm d (by simp) p.sec (hn p hp)
        rw [List.flatten_cons]
        refine ⟨?_, ?_⟩
        · rw [List.pairwise_append]
          refine ⟨?_, i1, ?_⟩
          · apply List.Pairwise.imp_of_mem (R := fun _ _ => True)
            · intro p q hpn hqn _
              rw [hn' p hpn, hn' q hqn]
              exact hr _
            · exact List.pairwise_of_forall (fun _ _ => trivial)
          · intro p hpn q hqn
            obtain ⟨e, he, hqe, -⟩ := i2 q hqn
            rw [hn' p hpn, hqe]
            exact hp1 e he
        · intro p hpm
          rcases List.mem_append.1 hpm with hpm | hpm
          · exact ⟨d, by simp, hn' p hpm, hn p hpm⟩
          · obtain ⟨e, he, hx⟩ := i2 p hpm
            exact ⟨e, List.mem_cons_of_mem _ he, hx⟩

theorem members_attrs (c : Cfg) (ss : List Sec) (ds : List Desc) (hf : Found c ss ds) (hu : Uniform c ss) : ∀ d ∈ ds, ∀ s ∈ members c ss d, s.attrs = d.attrs ∧ s.name = d.name := by
  intro d hd s hs
  rw [members_eq c ss ds hf hu d hd] at hs
  obtain ⟨h1, h2⟩ := List.mem_filter.1 hs
  simp only [decide_eq_true_eq] at h2
  refine ⟨?_, h2⟩
  rcases List.mem_append.1 h1 with h1 | h1
  · obtain ⟨h1, ha⟩ := List.mem_filter.1 h1
    obtain ⟨d', hd', hn', ha'⟩ := hf.all s h1 ha
    have e := nodup_map_inj Desc.name ds hf.nodup d' hd' d hd (hn'.trans h2)
    rw [← e]
    exact ha'.symm
  · unfold made at h1
    split at h1
    · rename_i hh
      have e := nodup_map_inj Desc.name ds hf.nodup _ (hf.relod hh.1 hh.2) d hd (by rw [← h2, List.mem_singleton.1 h1])
      rw [List.mem_singleton.1 h1, ← e]
    · cases h1

/-- **C32.** In the order of the layout, which is that of the addresses (`c32_disjoint`), code comes before data and uninitialised data last. -/
theorem c32_order (c : Cfg) (sort : List Desc → List Desc) (ss : List Sec) (ds : List Desc) (st : St) (hs : Sorts sort) (hw : WF c ss) (hu : Uniform c ss)
    (h : layout c sort ss = .ok (ds, st)) :
    st.placed.Pairwise (fun p q => (q.sec.attrs.exec = true → p.sec.attrs.exec = true) ∧ (p.sec.attrs.nobits = true → q.sec.attrs.nobits = true)) := by
  obtain ⟨hf, -, -, news, hb, hp⟩ := layout_ok c sort ss ds st hs hw hu h
  rw [hp]
  exact (blocks_attrs c ss ds news st.spans hb (fun d hd s hs' => (members_attrs c ss ds hf hu d hd s hs').1) Before (fun a => ⟨id, id⟩)
    (hf.sorted.imp_of_mem (fun ha hb hab => cmp_before _ _ hab (fun he => (hf.exec _ ha he).1) (fun he => (hf.exec _ hb he).1)))).1

/-- **C32.** The sections of a segment follow each other without overlap; no address exceeds 32 bits, or 64 KB in the 16-bit formats. -/
theorem c32_disjoint (c : Cfg) (sort : List Desc → List Desc) (ss : List Sec) (ds : List Desc) (st : St) (hs : Sorts sort) (hw : WF c ss) (hu : Uniform c ss)
    (h : layout c sort ss = .ok (ds, st)) :
    st.placed.Pairwise (fun p q => SameSegment c p q → p.addr + p.sec.size ≤ q.addr) ∧
    (∀ p ∈ st.placed, p.addr + p.sec.size < 2 ^ 32 ∧ ((c.fmt = .dosComTiny ∨ c.fmt = .flat16 ∨ c.fmt = .dosExeSmall) → p.addr + p.sec.size ≤ 0x10000) ∧
      ((c.fmt ≠ .dosExeSmall ∨ p.sec.attrs.exec = true) → c.origin ≤ p.addr)) := by
  obtain ⟨-, ⟨ph, hi⟩, -⟩ := layout_ok c sort ss ds st hs hw hu h
  refine ⟨hi.apart, fun p hp => ⟨(hi.good p hp).fits, ?_, (hi.good p hp).orig⟩⟩
  intro hf
  apply (hi.good p hp).fits16
  rcases hf with hf | hf | hf <;> rw [hf] <;> rfl

/-- **C32.** Every section starts at a multiple of its alignment, or of 4 where the format says so. -/
theorem c32_aligned (c : Cfg) (sort : List Desc → List Desc) (ss : List Sec) (ds : List Desc) (st : St) (hs : Sorts sort) (hw : WF c ss) (hu : Uniform c ss)
    (h : layout c sort ss = .ok (ds, st)) : ∀ p ∈ st.placed, Aligned c p.sec p.addr := by
  obtain ⟨-, ⟨ph, hi⟩, -⟩ := layout_ok c sort ss ds st hs hw hu h
  exact fun p hp => (hi.good p hp).aligned

/-- **C32.** The contents of every section that is present in the file stand at the position recorded for it, which is its address relative to the origin or, for data in the small format,
relative to the paragraph after the code. -/
theorem c32_file (c : Cfg) (sort : List Desc → List Desc) (ss : List Sec) (ds : List Desc) (st : St) (hs : Sorts sort) (hw : WF c ss) (hu : Uniform c ss)
    (h : layout c sort ss = .ok (ds, st)) :
    ∃ base, (c.fmt = .dosExeSmall → (∃ p ∈ st.placed, p.sec.attrs.exec = false) → (c.origin + base) % 16 = 0) ∧ ∀ p ∈ st.placed, InFile c p.sec →
      p.fileOff = (c.hdrsz + position c base p) % 2 ^ 32 ∧ position c base p + p.sec.size ≤ st.out.length ∧
      (st.out.drop (position c base p)).take p.sec.size = contents p.sec := by
  obtain ⟨-, ⟨ph, hi⟩, -⟩ := layout_ok c sort ss ds st hs hw hu h
  refine ⟨st.written, ?_, fun p hp => (hi.good p hp).file⟩
  rintro hf ⟨p, hp, hpe⟩
  cases ph with
  | true => exact (hi.seg1 hf rfl).2
  | false =>
    rw [hi.code hf rfl p hp] at hpe
    cases hpe

theorem effAlign_dvd (f : Fmt) (isData : Bool) (s : Sec) (al : Nat) (h : effAlign f isData s = .ok al) (h0 : al ≠ 0) (h1 : al < 2 ^ 32) : al ∣ 2 ^ 32 := by
  have hcase : al = 4 ∨ (al = s.align ∧ s.align &&& (s.align - 1) = 0) := by
    unfold effAlign at h
    split at h
    · cases h
    · rename_i hz
      have hz : s.align &&& (s.align - 1) = 0 := Classical.byContradiction hz
      split at h
      · injection h with h
        split at h
        · exact .inl h.symm
        · exact .inr ⟨h.symm, hz⟩
      · split at h
        · simp only at h
          by_cases hn : s.name = str ".relot" ∨ s.name = str ".relod"
          · rw [if_pos hn, if_neg (by decide)] at h
            cases h
            exact .inl rfl
          · rw [if_neg hn] at h
            split at h
            · cases h
            · cases h
              exact .inr ⟨rfl, hz⟩
        · split at h
          · split at h
            · cases h
            · cases h
              exact .inr ⟨rfl, hz⟩
          · cases h
            exact .inr ⟨rfl, hz⟩
  rcases hcase with rfl | ⟨e, hz⟩
  · decide
  · rw [← e] at hz
    obtain ⟨k, hk⟩ := (Nat.and_sub_one_eq_zero_iff_isPowerOfTwo h0).1 hz
    rw [hk] at h1 ⊢
    have : k < 32 := (Nat.pow_lt_pow_iff_right (by decide)).1 h1
    exact Nat.pow_dvd_pow 2 (by omega)

/-- **C32.** A section is rejected as too big exactly if its end, counted without bound, would not fit. -/
theorem c32_reject (c : Cfg) (s : Sec) (st : St) (al : Nat) (ho : st.ofs < 2 ^ 32) (ha : s.align < 2 ^ 32) (hs : s.size < 2 ^ 32) (he : effAlign c.fmt (!s.attrs.exec) s = .ok al) :
    place c (!s.attrs.exec) s st = .error .tooBig ↔
      let start := if al > 1 then (st.ofs + al - 1) / al * al else st.ofs
      start + s.size ≥ 2 ^ 32 ∨ ((c.fmt = .dosComTiny ∨ c.fmt = .flat16 ∨ c.fmt = .dosExeSmall) ∧ start + s.size > 0x10000) := by
  obtain ⟨hal, -⟩ := effAlign_ok c s al he ha
  have h16 : is16 c.fmt = true ↔ (c.fmt = .dosComTiny ∨ c.fmt = .flat16 ∨ c.fmt = .dosExeSmall) := by
    unfold is16
    simp only [Bool.or_eq_true, decide_eq_true_eq, or_assoc]
  have hput : ∀ st' : St, st'.ofs < 2 ^ 32 → (put c (!s.attrs.exec) s st' = .error .tooBig ↔
      st'.ofs + s.size ≥ 2 ^ 32 ∨ ((c.fmt = .dosComTiny ∨ c.fmt = .flat16 ∨ c.fmt = .dosExeSmall) ∧ st'.ofs + s.size > 0x10000)) := by
    intro st' ho'
    unfold put
    simp only
    by_cases hov : st'.ofs + s.size < 2 ^ 32
    · rw [Nat.mod_eq_of_lt hov, if_neg (by omega)]
      by_cases h6 : is16 c.fmt = true
      · have h6' := h16.1 h6
        simp only [h6, Bool.true_and, decide_eq_true_eq, h6', true_and]
        by_cases hg : st'.ofs + s.size > 0x10000
        · rw [if_pos hg]
          exact ⟨fun _ => .inr hg, fun _ => rfl⟩
        · rw [if_neg hg]
          constructor
          · intro h; cases h
          · omega
      · have h6' : ¬ (c.fmt = .dosComTiny ∨ c.fmt = .flat16 ∨ c.fmt = .dosExeSmall) := fun h => h6 (h16.2 h)
        rw [if_neg (by simp [h6])]
        constructor
        · intro h; cases h
        · rintro (h | h)
          · omega
          · exact absurd h.1 h6'
    · rw [if_pos (by rw [Nat.mod_eq_sub_mod (by omega), Nat.mod_eq_of_lt (by omega)]; omega)]
      exact ⟨fun _ => .inl (by omega), fun _ => rfl⟩
  unfold place
  rw [he]
  simp only
  unfold pad
  by_cases h1 : al > 1
  · rw [if_pos h1, if_pos h1]
    simp only
    have hd := Nat.div_add_mod (st.ofs + al - 1) al
    have hm := Nat.mod_lt (st.ofs + al - 1) (show 0 < al by omega)
    have hc : (st.ofs + al - 1) / al * al = st.ofs + al - 1 - (st.ofs + al - 1) % al := by
      rw [Nat.mul_comm]
      omega
    rcases alignTo_cases st.ofs al ho (by omega) hal with ⟨g0, g1, g2, g3, g4⟩ | ⟨g0, g1, g2⟩
    · rw [if_neg (by omega)]
      simp only
      rw [hput _ g4]
      have e : alignTo st.ofs al = (st.ofs + al - 1) / al * al := by
        unfold alignTo
        rw [Nat.mod_eq_of_lt g0, Nat.mod_eq_of_lt (by omega)]
      simp only [e]
    · rw [if_pos g1]
      simp only [true_iff]
      left
      generalize hq : (st.ofs + al - 1) / al * al = q at *
      have hdv : al ∣ q := ⟨(st.ofs + al - 1) / al, by rw [← hq, Nat.mul_comm]⟩
      have hle : st.ofs ≤ q := by omega
      -- an alignment is a power of two, so no multiple of it lies in the last `al - 1` addresses
      have hpow : al ∣ 2 ^ 32 := effAlign_dvd c.fmt (!s.attrs.exec) s al he (by omega) hal
      obtain ⟨k, hk⟩ := hpow
      obtain ⟨m, hm'⟩ := hdv
      have : q ≥ 2 ^ 32 := by
        apply Classical.byContradiction
        intro hlt
        have hmk : m < k := by
          apply Nat.lt_of_mul_lt_mul_left (a := al)
          omega
        have : al * (m + 1) ≤ al * k := Nat.mul_le_mul_left _ hmk
        rw [Nat.mul_succ] at this
        omega
      omega
  · rw [if_neg h1, if_neg h1]
    simp only
    exact hput st ho

/-! ### boundaries of sections -/

theorem nameMatch_iff (x m : Name) : nameMatch x m = true ↔ Matches x m := by
  unfold Matches
  induction x generalizing m with
  | nil => cases m <;> simp [nameMatch]
  | cons a x ih =>
    cases m with
    | nil => simp [nameMatch]
    | cons b m =>
      simp only [nameMatch, Bool.and_eq_true, Bool.or_eq_true, decide_eq_true_eq, ih, List.length_cons, Nat.add_right_cancel_iff]
      constructor
      · rintro ⟨h1, h2, h3⟩
        refine ⟨h2, ?_⟩
        intro i hi hi'
        cases i with
        | zero => exact h1
        | succ i => exact h3 i (by omega) (by omega)
      · rintro ⟨h2, h3⟩
        exact ⟨h3 0 (by omega) (by omega), h2, fun i hi hi' => h3 (i + 1) (by omega) (by omega)⟩

theorem findName_some (x : Name) (ms : List Name) (i j : Nat) :
    findName x ms i = some j ↔ i ≤ j ∧ ∃ h : j - i < ms.length, Matches x ms[j - i] ∧ ∀ k, ∀ h : k < ms.length, k < j - i → ¬ Matches x ms[k] := by
  induction ms generalizing i with
  | nil => simp [findName]
  | cons m ms ih =>
    simp only [findName]
    by_cases hm : nameMatch x m = true
    · rw [if_pos hm]
      have hm' := (nameMatch_iff x m).1 hm
      constructor
      · intro h
        cases h
        refine ⟨Nat.le_refl _, by simp, ?_, ?_⟩
        · simpa using hm'
        · intro k _ hk
          omega
      · rintro ⟨h1, h2, h3, h4⟩
        by_cases hij : j - i = 0
        · have : i = j := by omega
          rw [this]
        · exact absurd hm' (h4 0 (by simp) (by omega))
    · rw [if_neg hm, ih]
      have hm' : ¬ Matches x m := fun h => hm ((nameMatch_iff x m).2 h)
      constructor
      · rintro ⟨h1, h2, h3, h4⟩
        have e : j - i = (j - (i + 1)) + 1 := by omega
        refine ⟨by omega, by simp; omega, ?_, ?_⟩
        · simp only [e, List.getElem_cons_succ]
          exact h3
        · intro k hk hlt
          cases k with
          | zero => exact hm'
          | succ k => exact h4 k (by simpa using hk) (by omega)
      · rintro ⟨h1, h2, h3, h4⟩
        have hij : j - i ≠ 0 := by
          intro h
          apply hm'
          simp only [h] at h3
          exact h3
        have e : j - i = (j - (i + 1)) + 1 := by omega
        refine ⟨by omega, by simp at h2; omega, ?_, ?_⟩
        · simp only [e, List.getElem_cons_succ] at h3
          exact h3
        · intro k hk hlt
          exact h4 (k + 1) (by simp; omega) (by omega)

theorem findName_none (x : Name) (ms : List Name) (i : Nat) : findName x ms i = none ↔ ∀ m ∈ ms, ¬ Matches x m := by
  induction ms generalizing i with
  | nil => simp [findName]
  | cons m ms ih =>
    simp only [findName]
    by_cases hm : nameMatch x m = true
    · rw [if_pos hm]
      have hm' := (nameMatch_iff x m).1 hm
      simp [hm']
    · rw [if_neg hm, ih]
      have hm' : ¬ Matches x m := fun h => hm ((nameMatch_iff x m).2 h)
      simp [hm']

theorem blocks_get (c : Cfg) (ss : List Sec) (ds : List Desc) (news : List (List Place)) (sps : List (Nat × Nat)) (h : Blocks c ss ds news sps)
    (hn : (ds.map Desc.name).Nodup) (hm : ∀ d ∈ ds, ∀ s ∈ members c ss d, s.name = d.name) :
    sps.length = ds.length ∧ (∀ p ∈ news.flatten, p.sec.name ∈ ds.map Desc.name) ∧
    (∀ i, ∀ h : i < ds.length, ∃ n sp, sps[i]? = some sp ∧ n.map Place.sec = members c ss ds[i] ∧ Hull' sp n ∧
      ∀ p, p ∈ n ↔ p ∈ news.flatten ∧ p.sec.name = ds[i].name) := by
  induction ds generalizing news sps with
  | nil =>
    cases news with
    | nil => cases sps with
      | nil => exact ⟨rfl, by simp, by simp⟩
      | cons => exact h.elim
    | cons n ns => cases sps <;> exact h.elim
  | cons d ds ih =>
    cases news with
    | nil => cases sps <;> exact h.elim
    | cons n ns =>
      cases sps with
      | nil => exact h.elim
      | cons sp sps =>
        obtain ⟨h1, h2, h3⟩ := h
        rw [List.map_cons, List.nodup_cons] at hn
        obtain ⟨i1, i2, i3⟩ := ih ns sps h3 hn.2 (fun e he => hm e (List.mem_cons_of_mem _ he))
        have hnames : ∀ p ∈ n, p.sec.name = d.name := by
          intro p hp
          apply hm d (by simp)
          rw [← h1]
          exact List.mem_map_of_mem hp
        refine ⟨by simp [i1], ?_, ?_⟩
        · intro p hp
          rw [List.flatten_cons] at hp
          rcases List.mem_append.1 hp with hp | hp
          · rw [hnames p hp]
            simp
          · exact List.mem_cons_of_mem _ (i2 p hp)
        · intro i hi
          cases i with
          | zero =>
            refine ⟨n, sp, rfl, h1, h2, ?_⟩
            intro p
            rw [List.flatten_cons]
            constructor
            · intro hp
              exact ⟨List.mem_append_left _ hp, hnames p hp⟩
            · rintro ⟨hp, hpn⟩
              rcases List.mem_append.1 hp with hp | hp
              · exact hp
              · refine absurd ?_ hn.1
                have := i2 p hp
                rw [hpn] at this
                exact this
          | succ i =>
            obtain ⟨n', sp', g2, g3, g4, g5⟩ := i3 i (by simpa using hi)
            refine ⟨n', sp', g2, g3, g4, ?_⟩
            intro p
            rw [g5, List.flatten_cons]
            constructor
            · rintro ⟨hp, hpn⟩
              exact ⟨List.mem_append_right _ hp, hpn⟩
            · rintro ⟨hp, hpn⟩
              rcases List.mem_append.1 hp with hp | hp
              · refine absurd ?_ hn.1
                rw [← hnames p hp, hpn]
                exact List.mem_map_of_mem (List.getElem_mem _)
              · exact ⟨hp, hpn⟩

theorem hull_congr (sp : Nat × Nat) (l l' : List Place) (h : ∀ p, p ∈ l ↔ p ∈ l') (hh : Hull sp l) : Hull sp l' := by
  obtain ⟨h1, ⟨q, hq, hq'⟩, ⟨r, hr, hr'⟩⟩ := hh
  exact ⟨fun p hp => h1 p ((h p).2 hp), ⟨q, (h q).1 hq, hq'⟩, ⟨r, (h r).1 hr, hr'⟩⟩

theorem boundary_eq (ds : List Desc) (st : St) (x : Name) (stop : Bool) :
    boundary ds st ((if stop then str "__stop_" else str "__start_") ++ x) =
      match findName x (allNames ds) 0 with
      | none => .error .symbol
      | some i => match (st.spans ++ [st.code, st.data])[i]? with
        | none => .error .ub
        | some sp => .ok (if stop then sp.2 else sp.1) := by
  unfold boundary
  cases stop with
  | true =>
    have e1 : (!(str "__start_").isPrefixOf (str "__stop_" ++ x)) = true := rfl
    have e2 : (str "__stop_" ++ x).drop 7 = x := rfl
    simp only [if_true, e1, e2]
    rfl
  | false =>
    have e1 : (!(str "__start_").isPrefixOf (str "__start_" ++ x)) = false := by
      have : (str "__start_").isPrefixOf (str "__start_" ++ x) = true := by
        rw [List.isPrefixOf_iff_prefix]
        exact List.prefix_append _ _
      rw [this]
      rfl
    have e2 : (str "__start_" ++ x).drop 8 = x := rfl
    simp only [Bool.false_eq_true, if_false, e1, e2]
    rfl

/-- the name stands for the sections of kind `P`: `__start_x` is their least address and `__stop_x` the greatest end -/
def Delimits (ds : List Desc) (st : St) (x : Name) (P : Place → Bool) : Prop :=
  ∃ sp, Hull sp (st.placed.filter P) ∧ boundary ds st (str "__start_" ++ x) = .ok sp.1 ∧ boundary ds st (str "__stop_" ++ x) = .ok sp.2

/-- a description has sections -/
theorem members_ne (c : Cfg) (ss : List Sec) (ds : List Desc) (hf : Found c ss ds) (d : Desc) (hd : d ∈ ds) : members c ss d ≠ [] := by
  unfold members
  intro h
  obtain ⟨h1, h2⟩ := List.append_eq_nil_iff.1 h
  rcases hf.only d hd with ⟨s, hs, -, hn, -⟩ | ⟨u1, u2, u3⟩
  · have : s ∈ ss.filter (fun s => decide (s.name = d.name)) := List.mem_filter.2 ⟨hs, by simpa using hn⟩
    rw [h1] at this
    cases this
  · rw [if_pos ⟨u1, u2, by rw [u3]⟩] at h2
    cases h2

/-- **C42.** `__start_x` and `__stop_x` delimit the sections whose name is the first to match `x`. -/
theorem c42_section (c : Cfg) (sort : List Desc → List Desc) (ss : List Sec) (ds : List Desc) (st : St) (hs : Sorts sort) (hw : WF c ss) (hu : Uniform c ss)
    (h : layout c sort ss = .ok (ds, st)) (x : Name) (i : Nat) (hi : i < ds.length) (hm : Matches x ds[i].name)
    (hfirst : ∀ j, ∀ hj : j < ds.length, j < i → ¬ Matches x ds[j].name) :
    Delimits ds st x (fun p => p.sec.name = ds[i].name) := by
  obtain ⟨hf, -, -, news, hb, hp⟩ := layout_ok c sort ss ds st hs hw hu h
  obtain ⟨b1, -, b2⟩ := blocks_get c ss ds news st.spans hb hf.nodup (fun d hd s hs' => (members_attrs c ss ds hf hu d hd s hs').2)
  obtain ⟨n, sp, g2, g3, g4, g5⟩ := b2 i hi
  have hfn : findName x (allNames ds) 0 = some i := by
    rw [findName_some]
    refine ⟨Nat.zero_le _, by simp [allNames]; omega, ?_, ?_⟩
    · have e : (allNames ds)[i - 0]'(by simp [allNames]; omega) = ds[i].name := by
        simp only [allNames, Nat.sub_zero]
        rw [List.getElem_append_left (by simpa using hi), List.getElem_map]
      rw [e]
      exact hm
    · intro k hk hlt
      have e : (allNames ds)[k]'hk = (ds[k]'(by omega)).name := by
        simp only [allNames]
        rw [List.getElem_append_left (by simp; omega), List.getElem_map]
      rw [e]
      exact hfirst k (by omega) (by omega)
  have hsp : (st.spans ++ [st.code, st.data])[i]? = some sp := by
    rw [List.getElem?_append_left (by omega)]
    exact g2
  refine ⟨sp, ?_, ?_, ?_⟩
  · have hn : n ≠ [] := by
      rintro rfl
      exact members_ne c ss ds hf ds[i] (List.getElem_mem _) g3.symm
    apply hull_congr sp n _ _ (g4.resolve_left (fun h => hn h.1))
    intro p
    rw [List.mem_filter, hp, g5]
    simp
  · have := boundary_eq ds st x false
    simp only [Bool.false_eq_true, if_false, hfn, hsp] at this
    exact this
  · have := boundary_eq ds st x true
    simp only [if_true, hfn, hsp] at this
    exact this

/-- some section of the program is data -/
def HasData (ds : List Desc) : Prop := ∃ d ∈ ds, d.attrs.exec = false

theorem last_data (c : Cfg) (ss : List Sec) (ds : List Desc) (hf : Found c ss ds) : ∃ d, ds.getLast? = some d ∧ (d.attrs.exec = false ↔ HasData ds) := by
  cases hl : ds.getLast? with
  | none =>
    rw [List.getLast?_eq_none_iff] at hl
    obtain ⟨d, hd, -⟩ := hf.first
    rw [hl] at hd
    cases hd
  | some d =>
    refine ⟨d, rfl, ?_, ?_⟩
    · intro h
      exact ⟨d, List.mem_of_getLast? hl, h⟩
    · rintro ⟨e, he, hee⟩
      obtain ⟨l, hl'⟩ := List.getLast?_eq_some_iff.1 hl
      rw [hl'] at he
      rcases List.mem_append.1 he with he | he
      · have hs := hf.sorted
        rw [hl', List.pairwise_append] at hs
        have hmemd : d ∈ ds := by rw [hl']; simp
        have hmeme : e ∈ ds := by rw [hl']; exact List.mem_append_left _ he
        have := cmp_before e d (hs.2.2 e he d (by simp)) (fun h => (hf.exec e hmeme h).1) (fun h => (hf.exec d hmemd h).1)
        cases hde : d.attrs.exec with
        | false => rfl
        | true =>
          have := this.1 hde
          rw [hee] at this
          cases this
      · rw [List.mem_singleton] at he
        rw [← he]
        exact hee

/-- what stands at the end of `allNames` -/
theorem allNames_eq (c : Cfg) (ss : List Sec) (ds : List Desc) (hf : Found c ss ds) :
    (HasData ds ∧ allNames ds = ds.map Desc.name ++ [str "allcode__", str "alldata__"]) ∨ (¬ HasData ds ∧ allNames ds = ds.map Desc.name ++ [str "allcode__", []]) := by
  obtain ⟨d, hd, hiff⟩ := last_data c ss ds hf
  unfold allNames
  rw [hd]
  simp only
  cases he : d.attrs.exec with
  | true =>
    right
    refine ⟨fun h => ?_, rfl⟩
    rw [hiff.2 h] at he
    cases he
  | false => exact .inl ⟨hiff.1 he, rfl⟩

theorem matches_self (x : Name) : Matches x x := ⟨rfl, fun _ _ _ => .inl rfl⟩

theorem delimits_of (ds : List Desc) (st : St) (x : Name) (i : Nat) (sp : Nat × Nat) (P : Place → Bool) (hfn : findName x (allNames ds) 0 = some i)
    (hsp : (st.spans ++ [st.code, st.data])[i]? = some sp) (hh : Hull sp (st.placed.filter P)) : Delimits ds st x P := by
  refine ⟨sp, hh, ?_, ?_⟩
  · have := boundary_eq ds st x false
    simp only [Bool.false_eq_true, if_false, hfn, hsp] at this
    exact this
  · have := boundary_eq ds st x true
    simp only [if_true, hfn, hsp] at this
    exact this

theorem some_placed (c : Cfg) (ss : List Sec) (ds : List Desc) (st : St) (news : List (List Place)) (hf : Found c ss ds) (hu : Uniform c ss)
    (hb : Blocks c ss ds news st.spans) (hp : st.placed = news.flatten) (d : Desc) (hd : d ∈ ds) : ∃ p ∈ st.placed, p.sec.attrs = d.attrs := by
  have h := blocks_secs c ss ds news st.spans hb
  rw [← hp] at h
  obtain ⟨s, hs⟩ := List.exists_mem_of_ne_nil _ (members_ne c ss ds hf d hd)
  have : s ∈ st.placed.map Place.sec := by
    rw [h]
    exact List.mem_flatMap.2 ⟨d, hd, hs⟩
  obtain ⟨p, hp1, hp2⟩ := List.mem_map.1 this
  refine ⟨p, hp1, ?_⟩
  rw [hp2]
  exact (members_attrs c ss ds hf hu d hd s hs).1

/-- **C42.** `__start_allcode__`, `__stop_allcode__` delimit all code, unless a section has a matching name. -/
theorem c42_code (c : Cfg) (sort : List Desc → List Desc) (ss : List Sec) (ds : List Desc) (st : St) (hs : Sorts sort) (hw : WF c ss) (hu : Uniform c ss)
    (h : layout c sort ss = .ok (ds, st)) (hno : ∀ d ∈ ds, ¬ Matches (str "allcode__") d.name) : Delimits ds st (str "allcode__") (fun p => p.sec.attrs.exec) := by
  obtain ⟨hf, -, hsp, news, hb, hp⟩ := layout_ok c sort ss ds st hs hw hu h
  obtain ⟨b1, -, -⟩ := blocks_get c ss ds news st.spans hb hf.nodup (fun d hd s hs' => (members_attrs c ss ds hf hu d hd s hs').2)
  have hfn : findName (str "allcode__") (allNames ds) 0 = some ds.length := by
    rw [findName_some]
    have key : ∃ tl, allNames ds = ds.map Desc.name ++ str "allcode__" :: tl := by
      rcases allNames_eq c ss ds hf with ⟨_, e⟩ | ⟨_, e⟩
      · exact ⟨_, e⟩
      · exact ⟨_, e⟩
    obtain ⟨tl, e⟩ := key
    simp only [e]
    refine ⟨Nat.zero_le _, by simp, ?_, ?_⟩
    · simp only [Nat.sub_zero]
      rw [List.getElem_append_right (by simp)]
      simp [matches_self]
    · intro k hk hlt
      rw [List.getElem_append_left (by simp; omega), List.getElem_map]
      exact hno _ (List.getElem_mem _)
  apply delimits_of ds st _ ds.length st.code _ hfn
  · rw [List.getElem?_append_right (by omega), b1]
    simp
  · refine hsp.code.resolve_left ?_
    rintro ⟨hnil, -⟩
    obtain ⟨d, hd, hde⟩ := hf.first
    obtain ⟨p, hp1, hp2⟩ := some_placed c ss ds st news hf hu hb hp d (List.mem_of_mem_head? (by rw [hd]; rfl))
    have : p ∈ st.placed.filter (fun p => p.sec.attrs.exec) := List.mem_filter.2 ⟨hp1, by rw [hp2]; exact hde⟩
    rw [hnil] at this
    cases this

/-- **C42.** `__start_alldata__`, `__stop_alldata__` delimit all data if there is any, unless a section has a matching name. -/
theorem c42_data (c : Cfg) (sort : List Desc → List Desc) (ss : List Sec) (ds : List Desc) (st : St) (hs : Sorts sort) (hw : WF c ss) (hu : Uniform c ss)
    (h : layout c sort ss = .ok (ds, st)) (hd : HasData ds) (hno : ∀ d ∈ ds, ¬ Matches (str "alldata__") d.name) :
    Delimits ds st (str "alldata__") (fun p => !p.sec.attrs.exec) := by
  obtain ⟨hf, -, hsp, news, hb, hp⟩ := layout_ok c sort ss ds st hs hw hu h
  obtain ⟨b1, -, -⟩ := blocks_get c ss ds news st.spans hb hf.nodup (fun d hd s hs' => (members_attrs c ss ds hf hu d hd s hs').2)
  have e : allNames ds = ds.map Desc.name ++ [str "allcode__", str "alldata__"] := by
    rcases allNames_eq c ss ds hf with ⟨_, e⟩ | ⟨hn, _⟩
    · exact e
    · exact absurd hd hn
  have hdiff : ¬ Matches (str "alldata__") (str "allcode__") := by
    rw [← nameMatch_iff]
    decide
  have hfn : findName (str "alldata__") (allNames ds) 0 = some (ds.length + 1) := by
    rw [findName_some]
    simp only [e]
    refine ⟨Nat.zero_le _, by simp, ?_, ?_⟩
    · simp only [Nat.sub_zero]
      rw [List.getElem_append_right (by simp)]
      simp [matches_self]
    · intro k hk hlt
      by_cases hkl : k < ds.length
      · rw [List.getElem_append_left (by simp; omega), List.getElem_map]
        exact hno _ (List.getElem_mem _)
      · have hke : k = ds.length := by omega
        subst hke
        rw [List.getElem_append_right (by simp)]
        simpa using hdiff
  apply delimits_of ds st _ (ds.length + 1) st.data _ hfn
  · rw [List.getElem?_append_right (by omega), b1]
    simp
  · refine hsp.data.resolve_left ?_
    rintro ⟨hnil, -⟩
    obtain ⟨d, hd, hde⟩ := hd
    obtain ⟨p, hp1, hp2⟩ := some_placed c ss ds st news hf hu hb hp d hd
    have : p ∈ st.placed.filter (fun p => !p.sec.attrs.exec) := List.mem_filter.2 ⟨hp1, by rw [hp2, hde]; rfl⟩
    rw [hnil] at this
    cases this

/-- **C42.** A name that matches nothing is reported. -/
theorem c42_missing (c : Cfg) (sort : List Desc → List Desc) (ss : List Sec) (ds : List Desc) (st : St) (hs : Sorts sort) (hw : WF c ss) (hu : Uniform c ss)
    (h : layout c sort ss = .ok (ds, st)) (x : Name) (hx : x ≠ []) (stop : Bool) :
    boundary ds st ((if stop then str "__stop_" else str "__start_") ++ x) = .error .symbol ↔
      (∀ d ∈ ds, ¬ Matches x d.name) ∧ ¬ Matches x (str "allcode__") ∧ (HasData ds → ¬ Matches x (str "alldata__")) := by
  obtain ⟨hf, -, hsp, news, hb, hp⟩ := layout_ok c sort ss ds st hs hw hu h
  obtain ⟨b1, -, -⟩ := blocks_get c ss ds news st.spans hb hf.nodup (fun d hd s hs' => (members_attrs c ss ds hf hu d hd s hs').2)
  have hnone : boundary ds st ((if stop then str "__stop_" else str "__start_") ++ x) = .error .symbol ↔ findName x (allNames ds) 0 = none := by
    rw [boundary_eq]
    cases hfn : findName x (allNames ds) 0 with
    | none => simp
    | some i =>
      simp only
      cases (st.spans ++ [st.code, st.data])[i]? <;> simp
  have hnil : ¬ Matches x [] := by
    rintro ⟨h, -⟩
    exact hx (List.length_eq_zero_iff.1 h)
  rw [hnone, findName_none]
  rcases allNames_eq c ss ds hf with ⟨hd, e⟩ | ⟨hd, e⟩
  · rw [e]
    simp [hd, or_imp, forall_and]
  · rw [e]
    simp [hd, hnil, or_imp, forall_and]

/-! ### a sort, and examples -/

def insert (d : Desc) : List Desc → List Desc
  | [] => [d]
  | e :: l => if cmp d e ≤ 0 then d :: e :: l else e :: insert d l

def isort : List Desc → List Desc
  | [] => []
  | d :: l => insert d (isort l)

theorem insert_perm (d : Desc) (l : List Desc) : (insert d l).Perm (d :: l) := by
  induction l with
  | nil => exact List.Perm.refl _
  | cons e l ih =>
    simp only [insert]
    split
    · exact List.Perm.refl _
    · exact (List.Perm.cons e ih).trans (List.Perm.swap d e l)

/-- the hypothesis on `qsort` can be met -/
theorem sorts_isort : Sorts isort := by
  have hins : ∀ d l, l.Pairwise (fun p q => cmp p q ≤ 0) → (insert d l).Pairwise (fun p q => cmp p q ≤ 0) := by
    intro d l
    induction l with
    | nil => intro _; simp [insert]
    | cons e l ih =>
      intro h
      obtain ⟨h1, h2⟩ := List.pairwise_cons.1 h
      simp only [insert]
      split
      · rename_i hde
        refine List.pairwise_cons.2 ⟨?_, h⟩
        intro x hx
        rcases List.mem_cons.1 hx with rfl | hx
        · exact hde
        · exact (c32_cmp d e x).2.1 hde (h1 x hx)
      · rename_i hde
        refine List.pairwise_cons.2 ⟨?_, ih h2⟩
        intro x hx
        rcases List.mem_cons.1 ((insert_perm d l).mem_iff.1 hx) with rfl | hx
        · have := (c32_cmp e x x).1
          have h3 := (c32_cmp x e e).1
          omega
        · exact h1 x hx
  intro l
  induction l with
  | nil => exact ⟨List.Perm.refl _, List.Pairwise.nil⟩
  | cons d l ih => exact ⟨(insert_perm d _).trans (List.Perm.cons d ih.1), hins d _ ih.2⟩

def aText : Attrs := ⟨false, true, false⟩
def aRo : Attrs := ⟨false, false, false⟩
def aData : Attrs := ⟨true, false, false⟩
def aBss : Attrs := ⟨true, false, true⟩

/-- two modules -/
def sample : List Sec :=
  [⟨str ".bss", true, aBss, 4, 10, []⟩, ⟨str ".data", true, aData, 4, 2, [1, 2]⟩, ⟨str ".text", true, aText, 1, 3, [0x90, 0x90, 0xC3]⟩, ⟨str ".comment", false, aRo, 1, 1, [7]⟩,
   ⟨str ".text", true, aText, 2, 1, [0xC3]⟩, ⟨str ".data", true, aData, 2, 1, [3]⟩, ⟨str ".rodata", true, aRo, 1, 1, [9]⟩, ⟨str ".bss", true, aBss, 1, 1, []⟩]

def flat : Cfg := ⟨.flat32, true, 0x1000, 0, []⟩
def small : Cfg := ⟨.dosExeSmall, true, 32, 32, []⟩

theorem sample_ok (c : Cfg) (h1 : c.origin < 2 ^ 32) (h2 : c.fmt = .dosExeSmall → c.origin ≤ 0x10000) (h3 : c.relod = []) : WF c sample ∧ Uniform c sample := by
  refine ⟨⟨h1, h2, by rw [h3]; decide, by decide⟩, by decide, fun _ => by decide⟩

example : ∃ ds st, layout flat isort sample = .ok (ds, st) ∧ st.placed.map (fun p => (p.addr, p.fileOff)) =
    [(0x1000, 0), (0x1004, 4), (0x1005, 5), (0x1008, 8), (0x100A, 10), (0x100C, 12), (0x1016, 22)] ∧
    st.out = [0x90, 0x90, 0xC3, 0xCC, 0xC3, 9, 0, 0, 1, 2, 3] ∧ boundary ds st (str "__start__data") = .ok 0x1008 ∧ boundary ds st (str "__stop__bss") = .ok 0x1017 ∧
    boundary ds st (str "__stop_allcode__") = .ok 0x1005 ∧ boundary ds st (str "__start_none") = .error .symbol :=
  ⟨_, _, rfl, rfl, rfl, rfl, rfl, rfl, rfl⟩

example : ∃ ds st, layout small isort sample = .ok (ds, st) ∧ st.placed.map (fun p => (p.addr, p.fileOff)) =
    [(32, 32), (36, 36), (4, 52), (8, 56), (10, 58), (12, 60), (22, 70)] := ⟨_, _, rfl, rfl⟩

example : ∃ ds st, layout flat isort sample = .ok (ds, st) ∧ ∃ p ∈ st.placed, p.sec.size = 10 ∧ Aligned flat p.sec p.addr ∧ p.sec.align = 4 := by
  obtain ⟨ds, st, h⟩ : ∃ ds st, layout flat isort sample = .ok (ds, st) := ⟨_, _, rfl⟩
  obtain ⟨hw, hu⟩ := sample_ok flat (by decide) (by intro h; cases h) rfl
  have hp := c32_complete flat isort sample ds st sorts_isort hw hu h
  obtain ⟨p, h1, h2⟩ := List.mem_map.1 (hp.mem_iff.2 (show (⟨str ".bss", true, aBss, 4, 10, []⟩ : Sec) ∈ _ by decide))
  exact ⟨ds, st, h, p, h1, by rw [h2], c32_aligned flat isort sample ds st sorts_isort hw hu h p h1, by rw [h2]⟩

/-- a section too big for a 16-bit segment -/
example : layout ⟨.flat16, true, 0xFFF0, 0, []⟩ isort [⟨str ".text", true, aText, 4, 17, List.replicate 17 0⟩] = .error .tooBig ∧
    (∃ r, layout ⟨.flat16, true, 0xFFF0, 0, []⟩ isort [⟨str ".text", true, aText, 4, 16, List.replicate 16 0⟩] = .ok r) := ⟨rfl, _, rfl⟩

/-- The layout goes by names only: a section that is not part of the program (SHF_ALLOC is clear) gets into it if some section with its name is part of the program, so the hypothesis `Uniform` of
`c32_complete` is needed; the bytes can be put at a place where uninitialised data is expected. -/
theorem c32_defect : ∃ ss ds st, WF flat ss ∧ layout flat isort ss = .ok (ds, st) ∧ (∃ p ∈ st.placed, p.sec.alloc = false ∧ p.sec.attrs.nobits = false ∧
    (st.out.drop (p.fileOff)).take p.sec.size ≠ contents p.sec) := by
  refine ⟨[⟨str ".text", true, aText, 1, 1, [0xC3]⟩, ⟨str ".note", true, aBss, 4, 4, []⟩, ⟨str ".note", false, aRo, 1, 2, [1, 2]⟩], _, _, ⟨by decide, (by intro h; cases h), by decide, by decide⟩, rfl,
    ⟨_, List.mem_of_getLast? rfl, rfl, rfl, by decide⟩⟩

end Smlr.Sect
