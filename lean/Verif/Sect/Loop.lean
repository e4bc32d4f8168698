import Verif.Sect.Inv
set_option autoImplicit false
namespace Smlr.Sect

/-! ### boundaries -/

def Hull' (sp : Nat × Nat) (l : List Place) : Prop := (l = [] ∧ sp = (2 ^ 32 - 1, 0)) ∨ Hull sp l

theorem hull_one (sp : Nat × Nat) (l : List Place) (p : Place) (h : Hull' sp l) (hp : p.addr + p.sec.size < 2 ^ 32) :
    Hull (raise (lower sp p.addr) (p.addr + p.sec.size)) (l ++ [p]) := by
  have hmem : p ∈ l ++ [p] := by simp
  rcases h with ⟨rfl, rfl⟩ | ⟨h1, ⟨q, hq, hq'⟩, ⟨r, hr, hr'⟩⟩
  · unfold raise lower Hull
    simp only [List.nil_append, List.mem_singleton, forall_eq]
    refine ⟨⟨by split <;> omega, by split <;> omega⟩, ⟨p, rfl, by split <;> omega⟩, ⟨p, rfl, by split <;> omega⟩⟩
  · unfold raise lower Hull
    simp only
    refine ⟨?_, ?_, ?_⟩
    · intro x hx
      rcases List.mem_append.1 hx with hx | hx
      · have := h1 x hx
        exact ⟨by split <;> omega, by split <;> omega⟩
      · rw [List.mem_singleton.1 hx]
        exact ⟨by split <;> omega, by split <;> omega⟩
    · split
      · exact ⟨p, hmem, rfl⟩
      · exact ⟨q, List.mem_append_left _ hq, hq'⟩
    · split
      · exact ⟨p, hmem, rfl⟩
      · exact ⟨r, List.mem_append_left _ hr, hr'⟩

theorem hull_total (tot sp : Nat × Nat) (tl cur : List Place) (p : Place) (ht : Hull' tot tl) (hc : ∀ q ∈ cur, q ∈ tl) (hs : Hull sp (cur ++ [p]))
    (hp : p.addr + p.sec.size < 2 ^ 32) : Hull (raise (lower tot sp.1) sp.2) (tl ++ [p]) := by
  obtain ⟨h1, ⟨q, hq, hq'⟩, ⟨r, hr, hr'⟩⟩ := hs
  have hin : ∀ x, x ∈ cur ++ [p] → x ∈ tl ++ [p] := by
    intro x hx
    rcases List.mem_append.1 hx with hx | hx
    · exact List.mem_append_left _ (hc x hx)
    · exact List.mem_append_right _ hx
  have hpb := h1 p (by simp)
  unfold raise lower Hull
  simp only
  rcases ht with ⟨rfl, rfl⟩ | ⟨g1, ⟨q2, hq2, hq2'⟩, ⟨r2, hr2, hr2'⟩⟩
  · refine ⟨?_, ?_, ?_⟩
    · intro x hx
      rw [List.nil_append, List.mem_singleton] at hx
      rw [hx]
      exact ⟨by split <;> omega, by split <;> omega⟩
    · split
      · exact ⟨q, hin q hq, hq'⟩
      · refine ⟨p, by simp, ?_⟩
        simp only at *
        omega
    · split
      · exact ⟨r, hin r hr, hr'⟩
      · refine ⟨p, by simp, ?_⟩
        simp only at *
        omega
  · refine ⟨?_, ?_, ?_⟩
    · intro x hx
      rcases List.mem_append.1 hx with hx | hx
      · have := g1 x hx
        exact ⟨by split <;> omega, by split <;> omega⟩
      · rw [List.mem_singleton.1 hx]
        exact ⟨by split <;> omega, by split <;> omega⟩
    · split
      · exact ⟨q, hin q hq, hq'⟩
      · exact ⟨q2, List.mem_append_left _ hq2, hq2'⟩
    · split
      · exact ⟨r, hin r hr, hr'⟩
      · exact ⟨r2, List.mem_append_left _ hr2, hr2'⟩

/-- the boundaries kept agree with the sections placed -/
structure Spans (st : St) : Prop where
  code : Hull' st.code (st.placed.filter (fun p => p.sec.attrs.exec))
  data : Hull' st.data (st.placed.filter (fun p => !p.sec.attrs.exec))

theorem spans_place (c : Cfg) (e : Bool) (s : Sec) (st st' : St) (cur : List Place) (h : place c (!e) s st = .ok st') (he : s.attrs.exec = e)
    (h1 : st.ofs < 2 ^ 32) (ha : s.align < 2 ^ 32) (hs : s.size < 2 ^ 32) (hsp : Spans st) (hcur : Hull' st.span cur)
    (hin : ∀ q ∈ cur, q ∈ st.placed ∧ q.sec.attrs.exec = e) :
    ∃ p, st'.placed = st.placed ++ [p] ∧ p.sec = s ∧ Spans st' ∧ Hull st'.span (cur ++ [p]) ∧ st'.spans = st.spans := by
  subst he
  obtain ⟨up, fill, _, g2, _, _, _, _, _, _, _, e5, e6, e7, e8, e9⟩ := place_ok c s st st' h h1 ha hs
  obtain ⟨p, hp⟩ : ∃ p : Place, p = ⟨s, up, (c.hdrsz + st.written + (up + 2 ^ 32 - st.startOfs)) % 2 ^ 32⟩ := ⟨_, rfl⟩
  rw [← hp] at e5
  have hpa : p.addr = up := by rw [hp]
  have hps : p.sec = s := by rw [hp]
  have hfit : p.addr + p.sec.size < 2 ^ 32 := by rw [hpa, hps]; exact g2
  have hone := hull_one st.span cur p hcur hfit
  rw [hpa, hps] at hone
  refine ⟨p, e5, hps, ?_, ?_, e6⟩
  · cases hx : s.attrs.exec with
    | true =>
      have hc := hull_total st.code _ (st.placed.filter (fun p => p.sec.attrs.exec)) cur p hsp.code
        (fun q hq => List.mem_filter.2 ⟨(hin q hq).1, by rw [(hin q hq).2, hx]⟩) hone hfit
      refine ⟨?_, ?_⟩
      · rw [e8, e5, List.filter_append]
        simp only [widen, hx, Bool.not_true, Bool.false_eq_true, if_false]
        right
        simpa [hps, hx, raise, lower] using hc
      · rw [e9, e5, List.filter_append]
        simp only [widen, hx, Bool.not_true, Bool.false_eq_true, if_false]
        simpa [hps, hx] using hsp.data
    | false =>
      have hc := hull_total st.data _ (st.placed.filter (fun p => !p.sec.attrs.exec)) cur p hsp.data
        (fun q hq => List.mem_filter.2 ⟨(hin q hq).1, by rw [(hin q hq).2, hx]; rfl⟩) hone hfit
      refine ⟨?_, ?_⟩
      · rw [e8, e5, List.filter_append]
        simp only [widen, hx, Bool.not_false, if_true]
        simpa [hps, hx] using hsp.code
      · rw [e9, e5, List.filter_append]
        simp only [widen, hx, Bool.not_false, if_true]
        right
        simpa [hps, hx, raise, lower] using hc
  · rw [e7]
    exact hone

theorem spans_placeAll (c : Cfg) (ph e nb : Bool) (ss : List Sec) (st st' : St) (cur : List Place) (hi : Inv c ph st) (h : placeAll c (!e) ss st = .ok st')
    (hs : ∀ s ∈ ss, s.align < 2 ^ 32 ∧ s.size < 2 ^ 32 ∧ (s.attrs.nobits = false → s.data.length = s.size) ∧ s.attrs.exec = e ∧ s.attrs.nobits = nb)
    (hnb : (nb = false ∨ c.useBss = false) → ∀ p ∈ st.placed, InFile c p.sec) (hph : c.fmt = .dosExeSmall → e = !ph)
    (hsp : Spans st) (hcur : Hull' st.span cur) (hin : ∀ q ∈ cur, q ∈ st.placed ∧ q.sec.attrs.exec = e) :
    Inv c ph st' ∧ ∃ new, new.map Place.sec = ss ∧ st'.placed = st.placed ++ new ∧ Spans st' ∧ Hull' st'.span (cur ++ new) ∧ st'.spans = st.spans := by
  induction ss generalizing st cur with
  | nil =>
    cases h
    exact ⟨hi, [], rfl, by simp, hsp, by simpa using hcur, rfl⟩
  | cons s ss ih =>
    simp only [placeAll] at h
    obtain ⟨h1, h2, h3, h4, h5⟩ := hs s (by simp)
    cases hp : place c (!e) s st with
    | error er => rw [hp] at h; cases h
    | ok st1 =>
      rw [hp] at h
      simp only at h
      obtain ⟨p, k1, k2, k3, k4, k5⟩ := spans_place c e s st st1 cur hp h4 hi.lt h1 h2 hsp hcur hin
      rw [← h4] at hp
      have hin' : InFile c s → (nb = false ∨ c.useBss = false) := fun hf => by
        rcases hf with hf | hf
        · exact .inl (h5 ▸ hf)
        · exact .inr hf
      obtain ⟨hi1, -⟩ := inv_place c ph s st st1 hi hp h1 h2 h3 (fun hf => hnb (hin' hf)) (by rw [h4]; exact hph)
      obtain ⟨hi2, new, hn1, hn2, hn3, hn4, hn5⟩ := ih st1 (cur ++ [p]) hi1 h (fun s hs' => hs s (List.mem_cons_of_mem _ hs')) (by
        intro hc q hq
        rw [k1] at hq
        rcases List.mem_append.1 hq with hq | hq
        · exact hnb hc q hq
        · rw [List.mem_singleton.1 hq, k2]
          rcases hc with hc | hc
          · exact .inl (h5.trans hc)
          · exact .inr hc) k3 (.inr k4) (by
        intro q hq
        rw [k1]
        rcases List.mem_append.1 hq with hq | hq
        · exact ⟨List.mem_append_left _ (hin q hq).1, (hin q hq).2⟩
        · rw [List.mem_singleton.1 hq, k2]
          exact ⟨by simp, h4⟩)
      exact ⟨hi2, p :: new, by simp [hn1, k2], by rw [hn2, k1]; simp, hn3, by simpa using hn4, hn5.trans k5⟩

/-! ### the loop over the descriptions -/

/-- code before data, uninitialised data last -/
def Before (a b : Attrs) : Prop := (b.exec = true → a.exec = true) ∧ (a.nobits = true → b.nobits = true)

/-- the sections of each description and their boundaries -/
def Blocks (c : Cfg) (ss : List Sec) : List Desc → List (List Place) → List (Nat × Nat) → Prop
  | [], [], [] => True
  | d :: ds, n :: ns, sp :: sps => n.map Place.sec = members c ss d ∧ Hull' sp n ∧ Blocks c ss ds ns sps
  | _, _, _ => False

theorem inv_spans (c : Cfg) (ph : Bool) (st : St) (sp : Nat × Nat) (sps : List (Nat × Nat)) (h : Inv c ph st) : Inv c ph { st with span := sp, spans := sps } :=
  ⟨h.le, h.lt, h.len, h.seg0, h.seg1, h.code, h.small, h.low, h.good, h.apart⟩

theorem trail_ok (c : Cfg) (ph : Bool) (d : Desc) (next : Option Desc) (st st' : St) (h : trail c d next st = .ok st') (hi : Inv c ph st)
    (hx : ∀ p ∈ st.placed, p.sec.attrs.exec = true → p.sec.attrs.nobits = false) (hph : c.fmt = .dosExeSmall → d.attrs.exec = !ph) :
    ∃ ph', Inv c ph' st' ∧ st'.placed = st.placed ∧ st'.spans = st.spans ∧ st'.code = st.code ∧ st'.data = st.data ∧
      (c.fmt = .dosExeSmall → ph' = false → ∃ n, next = some n ∧ n.attrs.exec = true) ∧
      (c.fmt = .dosExeSmall → ph' = true → ph = true ∨ ∀ n, next = some n → n.attrs.exec = false) := by
  unfold trail at h
  by_cases hf : c.fmt = .dosExeSmall
  · rw [if_pos hf] at h
    split at h
    · rename_i hl
      unfold lastCode at hl
      rw [Bool.and_eq_true] at hl
      have hp0 : ph = false := by
        have := hph hf
        rw [hl.1] at this
        revert this
        cases ph <;> simp
      subst hp0
      have hin : ∀ p ∈ st.placed, InFile c p.sec := fun p hp => .inl (hx p hp (hi.code hf rfl p hp))
      have hsw := inv_switch c st next.isSome hi hf hin
      cases h
      refine ⟨true, hsw, ?_, ?_, ?_, ?_, (fun _ hc => by cases hc), fun _ _ => .inr ?_⟩
      · unfold switch; split <;> rfl
      · unfold switch; split <;> rfl
      · unfold switch; split <;> rfl
      · unfold switch; split <;> rfl
      · intro n hn
        rw [hn] at hl
        simpa using hl.2
    · rename_i hl
      cases h
      refine ⟨ph, hi, rfl, rfl, rfl, rfl, ?_, fun _ h => .inl h⟩
      intro _ hp0
      have hd := hph hf
      rw [hp0] at hd
      unfold lastCode at hl
      rw [hd] at hl
      cases next with
      | none => simp at hl
      | some n => exact ⟨n, rfl, by simpa using hl⟩
  · rw [if_neg hf] at h
    have hkeep : ∀ fill, pad true fill 4096 st = .ok st' → Inv c ph st' ∧ st'.placed = st.placed ∧ st'.spans = st.spans ∧ st'.code = st.code ∧ st'.data = st.data := by
      intro fill hp
      obtain ⟨h1, h2⟩ := inv_pad c ph fill 4096 st st' hi hp (by decide) hf
      obtain ⟨up, _, _, _, _, rfl⟩ := pad_ok _ _ _ _ _ hp hi.lt (by decide)
      exact ⟨h1, h2, rfl, rfl, rfl⟩
    have hres : Inv c ph st' ∧ st'.placed = st.placed ∧ st'.spans = st.spans ∧ st'.code = st.code ∧ st'.data = st.data := by
      split at h
      · split at h
        · exact hkeep _ h
        · split at h
          · exact hkeep _ h
          · cases h
            exact ⟨hi, rfl, rfl, rfl, rfl⟩
      · cases h
        exact ⟨hi, rfl, rfl, rfl, rfl⟩
    obtain ⟨r1, r2, r3, r4, r5⟩ := hres
    exact ⟨ph, r1, r2, r3, r4, r5, fun h => absurd h hf, fun h => absurd h hf⟩

theorem loop_ok (c : Cfg) (ss : List Sec) (ds : List Desc) (ph : Bool) (st st' : St) (h : loop c ss ds st = .ok st') (hi : Inv c ph st)
    (hsort : ds.Pairwise (fun d e => Before d.attrs e.attrs)) (hx : ∀ d ∈ ds, d.attrs.exec = true → d.attrs.nobits = false)
    (hm : ∀ d ∈ ds, ∀ s ∈ members c ss d, s.align < 2 ^ 32 ∧ s.size < 2 ^ 32 ∧ (s.attrs.nobits = false → s.data.length = s.size) ∧ s.attrs = d.attrs)
    (hprev : ∀ p ∈ st.placed, ∀ d ∈ ds, Before p.sec.attrs d.attrs) (hpx : ∀ p ∈ st.placed, p.sec.attrs.exec = true → p.sec.attrs.nobits = false)
    (hp0 : c.fmt = .dosExeSmall → ph = false → ds = [] ∨ ∃ d, ds.head? = some d ∧ d.attrs.exec = true)
    (hp1 : c.fmt = .dosExeSmall → ph = true → ∀ d ∈ ds, d.attrs.exec = false) (hsp : Spans st) :
    ∃ ph', Inv c ph' st' ∧ Spans st' ∧ ∃ news sps, Blocks c ss ds news sps ∧ st'.placed = st.placed ++ news.flatten ∧ st'.spans = st.spans ++ sps := by
  induction ds generalizing st ph with
  | nil =>
    cases h
    exact ⟨ph, hi, hsp, [], [], trivial, by simp, by simp⟩
  | cons d ds ih =>
    simp only [loop] at h
    have hphd : c.fmt = .dosExeSmall → d.attrs.exec = !ph := by
      intro hf
      cases ph with
      | true => exact hp1 hf rfl d (by simp)
      | false =>
        rcases hp0 hf rfl with hh | ⟨d', hd', he⟩
        · cases hh
        · simp only [List.head?_cons, Option.some.injEq] at hd'
          rw [hd']
          exact he
    have hmd := hm d (by simp)
    cases hpa : placeAll c (!d.attrs.exec) (members c ss d) { st with span := (2 ^ 32 - 1, 0) } with
    | error e => rw [hpa] at h; cases h
    | ok st1 =>
      rw [hpa] at h
      simp only at h
      obtain ⟨hi1, new, n1, n2, n3, n4, n5⟩ := spans_placeAll c ph d.attrs.exec d.attrs.nobits (members c ss d) { st with span := (2 ^ 32 - 1, 0) } st1 []
        (inv_spans c ph st _ st.spans hi) hpa
        (fun s hs => ⟨(hmd s hs).1, (hmd s hs).2.1, (hmd s hs).2.2.1, by rw [(hmd s hs).2.2.2], by rw [(hmd s hs).2.2.2]⟩)
        (by
          intro hc p hp
          rcases hc with hc | hc
          · left
            cases hpn : p.sec.attrs.nobits with
            | false => rfl
            | true =>
              have := (hprev p hp d (by simp)).2 hpn
              rw [this] at hc
              cases hc
          · exact .inr hc) hphd ⟨hsp.code, hsp.data⟩ (.inl ⟨rfl, rfl⟩) (by simp)
      have hnew : ∀ p ∈ new, p.sec.attrs = d.attrs := by
        intro p hp
        have : p.sec ∈ members c ss d := by
          rw [← n1]
          exact List.mem_map_of_mem hp
        exact (hmd p.sec this).2.2.2
      have hpx1 : ∀ p ∈ st1.placed, p.sec.attrs.exec = true → p.sec.attrs.nobits = false := by
        intro p hp
        rw [n2] at hp
        rcases List.mem_append.1 hp with hp | hp
        · exact hpx p hp
        · rw [hnew p hp]
          exact hx d (by simp)
      cases ht : trail c d ds.head? { st1 with spans := st1.spans ++ [st1.span] } with
      | error e => rw [ht] at h; cases h
      | ok st2 =>
        rw [ht] at h
        simp only at h
        obtain ⟨ph2, hi2, t1, t2, t3, t4, t5, t6⟩ := trail_ok c ph d ds.head? { st1 with spans := st1.spans ++ [st1.span] } st2 ht
          (inv_spans c ph st1 st1.span _ hi1) hpx1 hphd
        have hpl2 : st2.placed = st.placed ++ new := t1.trans n2
        obtain ⟨hsd, hsort'⟩ := List.pairwise_cons.1 hsort
        obtain ⟨ph', r1, r2, news, sps, r3, r4, r5⟩ := ih ph2 st2 h hi2 hsort' (fun e he => hx e (List.mem_cons_of_mem _ he)) (fun e he => hm e (List.mem_cons_of_mem _ he))
          (by
            intro p hp e he
            rw [hpl2] at hp
            rcases List.mem_append.1 hp with hp | hp
            · exact hprev p hp e (List.mem_cons_of_mem _ he)
            · rw [hnew p hp]
              exact hsd e he)
          (by
            intro p hp
            rw [t1] at hp
            exact hpx1 p hp)
          (by
            intro hf h0
            obtain ⟨n, hn, hne⟩ := t5 hf h0
            exact .inr ⟨n, hn, hne⟩)
          (by
            intro hf h1 e he
            rcases t6 hf h1 with hph1 | hne
            · exact hp1 hf hph1 e (List.mem_cons_of_mem _ he)
            · cases ds with
              | nil => cases he
              | cons n ns =>
                have hn := hne n rfl
                rcases List.mem_cons.1 he with rfl | he
                · exact hn
                · cases hee : e.attrs.exec with
                  | false => rfl
                  | true =>
                    have := ((List.pairwise_cons.1 hsort').1 e he).1 hee
                    rw [this] at hn
                    cases hn)
          ⟨by rw [t3, t1]; exact n3.code, by rw [t4, t1]; exact n3.data⟩
        refine ⟨ph', r1, r2, new :: news, st1.span :: sps, ⟨n1, by simpa using n4, r3⟩, ?_, ?_⟩
        · rw [r4, hpl2, List.flatten_cons, List.append_assoc]
        · rw [r5, t2]
          simp [n5]

end Smlr.Sect
