import Verif.Exe.More
set_option autoImplicit false
namespace Smlr.Exe
open Smlr.Sect

theorem before_file (c : Cfg) (a b : Attrs) (h : Before a b) (hb : FileA c b) : FileA c a := by
  rcases hb with hb | hb
  · left
    cases ha : a.nobits with
    | false => rfl
    | true => rw [h.2 ha] at hb; cases hb
  · exact .inr hb

theorem before_code (a b : Attrs) (h : Before a b) (ha : a.exec = false) : b.exec = false := by
  cases hb : b.exec with
  | false => rfl
  | true => rw [h.1 hb] at ha; cases ha

/-- one description in a paged format -/
theorem step_paged (c : Cfg) (d : Desc) (ds : List Desc) (st st1 st2 : St) (new : List Place) (hm : More c (d :: ds) st) (hf : Paged c.fmt)
    (ha : ∀ p ∈ new, p.sec.attrs = d.attrs)
    (hb : ∀ p ∈ st.placed, Before p.sec.attrs d.attrs) (hx : ∀ e ∈ d :: ds, e.attrs.exec = true → e.attrs.nobits = false)
    (p1 : st1.placed = st.placed ++ new) (p2 : st.ofs ≤ st1.ofs) (p3 : ∀ q ∈ new, st.ofs ≤ q.addr ∧ fin q ≤ st1.ofs) (p4 : ∃ x, st1.out = st.out ++ x)
    (p5 : ∃ p ∈ new, fin p = st1.ofs) (p6 : st.ofs % 4096 = 0 → ∃ q ∈ new, q.addr = st.ofs)
    (t1 : st2.placed = st1.placed) (t2 : st1.ofs ≤ st2.ofs) (t3 : ∃ x, st2.out = st1.out ++ x)
    (t4 : lastCode d ds.head? = true ∨ padsData c d ds.head? = true → st2.ofs % 4096 = 0 ∧ st2.ofs < st1.ofs + 4096)
    (t5 : ¬ FileA c d.attrs → st2.out = st.out)
    (low : ∀ p ∈ st1.placed, fin p ≤ st1.ofs) (len : (∀ p ∈ st2.placed, FileA c p.sec.attrs) → st2.out.length = st2.ofs - c.origin) (org : c.origin ≤ st2.ofs) :
    (NoCode ds → ∀ p ∈ st2.placed, p.sec.attrs.exec = true → pg (fin p) ≤ st2.ofs) ∧
    (NoFile c ds → ∀ p ∈ st2.placed, FileA c p.sec.attrs → pg (fin p) ≤ st2.ofs ∧ pg (fin p) ≤ c.origin + st2.out.length) ∧
    (∀ p ∈ st2.placed, ∀ q ∈ st2.placed, p.sec.attrs.exec = true → q.sec.attrs.exec = false → pg (fin p) ≤ q.addr) ∧
    (∀ p ∈ st2.placed, ∀ q ∈ st2.placed, FileA c p.sec.attrs → ¬ FileA c q.sec.attrs → pg (fin p) ≤ q.addr) ∧
    (NoCode ds → (∀ q ∈ st2.placed, q.sec.attrs.exec = true) → ∃ p ∈ st2.placed, st2.ofs = pg (fin p)) ∧
    ((∃ q ∈ st2.placed, q.sec.attrs.exec = false) → Adjacent st2.placed) ∧
    (c.origin % 4096 = 0 → (st2.placed = [] ∧ st2.ofs = c.origin) ∨ ∃ p ∈ st2.placed, p.addr = c.origin) ∧
    (NoFile c ds → ∃ p ∈ st2.placed, FileA c p.sec.attrs ∧ c.origin + st2.out.length = pg (fin p)) := by
  have hpl : st2.placed = st.placed ++ new := t1.trans p1
  have hdc : d.attrs.exec = false → NoCode (d :: ds) := by
    intro h e he
    cases he
    exact h
  have hdf : ¬ FileA c d.attrs → NoFile c (d :: ds) := by
    intro h e he
    cases he
    exact h
  have hlen : st.out.length ≤ st2.out.length := by
    obtain ⟨x, hx⟩ := p4
    obtain ⟨y, hy⟩ := t3
    rw [hy, hx]
    simp only [List.length_append]
    omega
  refine ⟨?_, ?_, ?_, ?_, ?_, ?_, ?_, ?_⟩
  · intro hn p hp he
    cases hde : d.attrs.exec with
    | true =>
      have h4 := t4 (.inl (code_pad d ds hn hde))
      rw [t1] at hp
      exact pg_le (Nat.le_trans (low p hp) t2) h4.1
    | false =>
      rw [hpl] at hp
      rcases List.mem_append.1 hp with hp | hp
      · have := hm.exec hf (hdc hde) p hp he
        omega
      · rw [ha p hp, hde] at he
        cases he
  · intro hn p hp he
    by_cases hdf' : FileA c d.attrs
    · have h4 := t4 (file_pad c d ds hn hdf' (fun e he => hx e (List.mem_cons_of_mem _ (List.mem_of_mem_head? he))))
      have hall : ∀ p ∈ st2.placed, FileA c p.sec.attrs := by
        intro p hp
        rw [hpl] at hp
        rcases List.mem_append.1 hp with hp | hp
        · exact before_file c _ _ (hb p hp) hdf'
        · rw [ha p hp]
          exact hdf'
      have hl := len hall
      rw [t1] at hp
      have := pg_le (Nat.le_trans (low p hp) t2) h4.1
      omega
    · rw [hpl] at hp
      rcases List.mem_append.1 hp with hp | hp
      · have := hm.file hf (hdf hdf') p hp he
        omega
      · rw [ha p hp] at he
        exact absurd he hdf'
  · intro p hp q hq he hqe
    rw [hpl] at hp hq
    rcases List.mem_append.1 hq with hq | hq
    · rcases List.mem_append.1 hp with hp | hp
      · exact hm.code hf p hp q hq he hqe
      · rw [ha p hp] at he
        rw [before_code _ _ (hb q hq) hqe] at he
        cases he
    · have hde : d.attrs.exec = false := by rw [← ha q hq]; exact hqe
      rcases List.mem_append.1 hp with hp | hp
      · have := hm.exec hf (hdc hde) p hp he
        have := (p3 q hq).1
        omega
      · rw [ha p hp, hde] at he
        cases he
  · intro p hp q hq he hqe
    rw [hpl] at hp hq
    rcases List.mem_append.1 hq with hq | hq
    · rcases List.mem_append.1 hp with hp | hp
      · exact hm.bss hf p hp q hq he hqe
      · rw [ha p hp] at he
        exact absurd (before_file c _ _ (hb q hq) he) hqe
    · have hde : ¬ FileA c d.attrs := by rw [← ha q hq]; exact hqe
      rcases List.mem_append.1 hp with hp | hp
      · have := (hm.file hf (hdf hde) p hp he).1
        have := (p3 q hq).1
        omega
      · rw [ha p hp] at he
        exact absurd he hde
  · intro hn hall
    obtain ⟨p, hp, hpe⟩ := p5
    have hde : d.attrs.exec = true := by
      rw [← ha p hp]
      exact hall p (by rw [hpl]; exact List.mem_append_right _ hp)
    have h4 := t4 (.inl (code_pad d ds hn hde))
    refine ⟨p, by rw [hpl]; exact List.mem_append_right _ hp, ?_⟩
    unfold pg
    omega
  · rintro ⟨q, hq, hqe⟩
    by_cases hold : ∃ q ∈ st.placed, q.sec.attrs.exec = false
    · obtain ⟨a, ha1, ha2, b, hb1, hb2, hb3⟩ := hm.adj hf hold
      exact ⟨a, by rw [hpl]; exact List.mem_append_left _ ha1, ha2, b, by rw [hpl]; exact List.mem_append_left _ hb1, hb2, hb3⟩
    · rw [hpl] at hq
      rcases List.mem_append.1 hq with hq | hq
      · exact absurd ⟨q, hq, hqe⟩ hold
      · have hde : d.attrs.exec = false := by rw [← ha q hq]; exact hqe
        have hall : ∀ q ∈ st.placed, q.sec.attrs.exec = true := by
          intro q hq
          cases he : q.sec.attrs.exec with
          | true => rfl
          | false => exact absurd ⟨q, hq, he⟩ hold
        obtain ⟨p, hp, hpo⟩ := hm.next hf (hdc hde) hall
        obtain ⟨r, hr, hro⟩ := p6 (by rw [hpo]; exact pg_mod _)
        refine ⟨p, by rw [hpl]; exact List.mem_append_left _ hp, hall p hp, r, by rw [hpl]; exact List.mem_append_right _ hr, ?_, ?_⟩
        · rw [ha r hr]
          exact hde
        · rw [hro, hpo]
  · intro h0
    right
    rw [hpl]
    rcases hm.first hf h0 with ⟨-, h1⟩ | ⟨p, hp, hpa⟩
    · obtain ⟨q, hq, hqa⟩ := p6 (by rw [h1]; exact h0)
      exact ⟨q, List.mem_append_right _ hq, hqa.trans h1⟩
    · exact ⟨p, List.mem_append_left _ hp, hpa⟩
  · intro hn
    by_cases hdf' : FileA c d.attrs
    · have h4 := t4 (file_pad c d ds hn hdf' (fun e he => hx e (List.mem_cons_of_mem _ (List.mem_of_mem_head? he))))
      have hall : ∀ p ∈ st2.placed, FileA c p.sec.attrs := by
        intro p hp
        rw [hpl] at hp
        rcases List.mem_append.1 hp with hp | hp
        · exact before_file c _ _ (hb p hp) hdf'
        · rw [ha p hp]
          exact hdf'
      have hl := len hall
      obtain ⟨p, hp, hpe⟩ := p5
      refine ⟨p, by rw [hpl]; exact List.mem_append_right _ hp, by rw [ha p hp]; exact hdf', ?_⟩
      unfold pg
      omega
    · obtain ⟨p, hp, hpf, hpl'⟩ := hm.len hf (hdf hdf')
      exact ⟨p, by rw [hpl]; exact List.mem_append_left _ hp, hpf, by rw [t5 hdf']; exact hpl'⟩

/-- what the file contains ends before the sections that are not in it -/
theorem step_out (c : Cfg) (ph : Bool) (d : Desc) (next : Option Desc) (st st1 st2 : St) (new : List Place) (hi : Inv c ph st)
    (ho : ∀ q ∈ st.placed, ¬ FileA c q.sec.attrs → st.out.length ≤ position c st.written q)
    (ha : ∀ p ∈ new, p.sec.attrs = d.attrs) (hb : ∀ p ∈ st.placed, Before p.sec.attrs d.attrs) (hx : d.attrs.exec = true → d.attrs.nobits = false)
    (hpx : ∀ p ∈ st.placed, p.sec.attrs.exec = true → p.sec.attrs.nobits = false)
    (hph : c.fmt = .dosExeSmall → d.attrs.exec = !ph)
    (p1 : st1.placed = st.placed ++ new) (p3 : ∀ q ∈ new, st.ofs ≤ q.addr ∧ fin q ≤ st1.ofs) (p4 : ¬ FileA c d.attrs → st1.out = st.out) (p5 : st1.written = st.written)
    (t1 : st2.placed = st1.placed) (t2 : lastCode d next = false → padsData c d next = false → st2.out = st1.out ∧ st2.written = st1.written) :
    ∀ q ∈ st2.placed, ¬ FileA c q.sec.attrs → st2.out.length ≤ position c st2.written q := by
  intro q hq hn
  rw [t1, p1] at hq
  have hdn : ¬ FileA c d.attrs := by
    rcases List.mem_append.1 hq with hq | hq
    · exact fun h => hn (before_file c _ _ (hb q hq) h)
    · rw [← ha q hq]
      exact hn
  obtain ⟨l1, l2⟩ := no_pad c d next hdn hx
  obtain ⟨e1, e2⟩ := t2 l1 l2
  rw [e1, e2, p5, p4 hdn]
  rcases List.mem_append.1 hq with hq | hq
  · exact ho q hq hn
  · have hne : d.attrs.exec = false := by
      cases he : d.attrs.exec with
      | false => rfl
      | true => rw [(noFile_of c _ hdn).1] at hx; cases hx he
    have hqe : q.sec.attrs.exec = false := by rw [ha q hq]; exact hne
    have hqa := (p3 q hq).1
    by_cases hall : ∀ p ∈ st.placed, InFile c p.sec
    · have hl := hi.len hall
      unfold position
      split
      · rename_i hs
        have hp : ph = true := by
          have := hph hs.1
          rw [hne] at this
          cases ph with
          | true => rfl
          | false => cases this
        have := hi.seg1 hs.1 hp
        omega
      · rename_i hs
        have hs' : c.fmt ≠ .dosExeSmall := fun h => hs ⟨h, hqe⟩
        have := hi.seg0 (.inl hs')
        omega
    · obtain ⟨r, hr⟩ := Classical.not_forall.1 hall
      obtain ⟨hr, hrn⟩ := Classical.not_imp.1 hr
      have h1 := ho r hr hrn
      have hre : r.sec.attrs.exec = false := by
        cases he : r.sec.attrs.exec with
        | false => rfl
        | true => exact absurd (.inl (hpx r hr he)) hrn
      have hlow : r.addr + r.sec.size ≤ st.ofs := hi.low r hr (fun hs => by rw [hre, ← hne]; exact hph hs)
      unfold position at h1 ⊢
      by_cases hs : c.fmt = .dosExeSmall
      · rw [if_pos ⟨hs, hre⟩] at h1
        rw [if_pos ⟨hs, hqe⟩]
        omega
      · rw [if_neg (fun h => hs h.1)] at h1
        rw [if_neg (fun h => hs h.1)]
        omega

/-- the data segment of the small format starts at the paragraph after the code -/
theorem step_small (c : Cfg) (ph ph2 : Bool) (d : Desc) (ds : List Desc) (st st1 st2 : St) (new : List Place) (hm : More c (d :: ds) st) (hf : c.fmt = .dosExeSmall) (hi1 : Inv c ph st1) (hi2 : Inv c ph2 st2)
    (ha : ∀ p ∈ new, p.sec.attrs = d.attrs) (hph : d.attrs.exec = !ph) (hb : ∀ p ∈ st.placed, Before p.sec.attrs d.attrs) (hpx : ∀ p ∈ st1.placed, p.sec.attrs.exec = true → p.sec.attrs.nobits = false)
    (p1 : st1.placed = st.placed ++ new) (p2 : st1.written = st.written) (p5 : ∃ p ∈ new, fin p = st1.ofs) (p6 : ∃ x, st1.out = st.out ++ x)
    (t1 : st2.placed = st1.placed)
    (t2 : (lastCode d ds.head? = true ∧ st2.written = (st1.written + alignTo st1.ofs 16 + 2 ^ 32 - st1.startOfs) % 2 ^ 32 ∧ st2.startOfs = 0 ∧ (ds ≠ [] → st2.ofs = 4)) ∨
      (lastCode d ds.head? = false ∧ st2.written = st1.written ∧ st2.out = st1.out))
    (hn : NoCode ds) :
    (∀ p ∈ st2.placed, p.sec.attrs.exec = true → fin p ≤ c.origin + st2.written) ∧ (∃ p ∈ st2.placed, p.sec.attrs.exec = true ∧ c.origin + st2.written < fin p + 16) ∧
    (c.origin + st2.written) % 16 = 0 ∧ st2.written ≤ st2.out.length ∧ ((ds ≠ [] ∨ ∃ q ∈ st2.placed, q.sec.attrs.exec = false) → st2.written + 4 ≤ st2.out.length) := by
  cases hde : d.attrs.exec with
  | true =>
    have hl := code_pad d ds hn hde
    rcases t2 with ⟨-, t2, t3, t4⟩ | ⟨t2, -⟩
    · have hp : ph = false := by
        rw [hde] at hph
        cases ph with
        | false => rfl
        | true => cases hph
      obtain ⟨w1, w2⟩ := hi1.seg0 (.inr hp)
      have hsm := hi1.small hf
      have hle := hi1.le
      have hall : ∀ p ∈ st2.placed, p.sec.attrs.exec = true := by
        intro p hp'
        rw [t1, p1] at hp'
        rcases List.mem_append.1 hp' with hp' | hp'
        · exact (hb p hp').1 hde
        · rw [ha p hp']
          exact hde
      have hlen := hi2.len (fun p hp' => .inl (hpx p (by rw [← t1]; exact hp') (hall p hp')))
      rcases alignTo_cases st1.ofs 16 hi1.lt (by decide) (by decide) with ⟨a1, a2, a3, a4, a5⟩ | ⟨a1, -⟩
      · have hw : st2.written = alignTo st1.ofs 16 - c.origin := by
          rw [t2, w1, w2]
          rw [w2] at hle
          omega
        rw [w2] at hle
        refine ⟨?_, ?_, ?_, by omega, ?_⟩
        · intro p hp' he
          rw [t1] at hp'
          have : fin p ≤ st1.ofs := hi1.low p hp' (fun _ => by rw [he, hp]; rfl)
          omega
        · obtain ⟨p, hp', hpe⟩ := p5
          refine ⟨p, by rw [t1, p1]; exact List.mem_append_right _ hp', by rw [ha p hp']; exact hde, ?_⟩
          omega
        · have := Nat.mod_eq_zero_of_dvd a4
          rw [hw, show c.origin + (alignTo st1.ofs 16 - c.origin) = alignTo st1.ofs 16 by omega]
          exact this
        · rintro (hd | ⟨q, hq, hqe⟩)
          · have := t4 hd
            omega
          · rw [hall q hq] at hqe
            cases hqe
      · omega
    · rw [hl] at t2
      cases t2
  | false =>
    rcases t2 with ⟨t2, -⟩ | ⟨-, t2, t3⟩
    · unfold lastCode at t2
      rw [hde] at t2
      cases t2
    · obtain ⟨g1, ⟨p, g2, g3, g4⟩, g5, g6, g7⟩ := hm.small hf (by intro e he; cases he; exact hde)
      obtain ⟨x, hx⟩ := p6
      have hlen : st.out.length ≤ st2.out.length := by
        rw [t3, hx, List.length_append]
        omega
      have h7 := g7 (.inl (by simp))
      refine ⟨?_, ⟨p, by rw [t1, p1]; exact List.mem_append_left _ g2, g3, by omega⟩, by rw [t2, p2]; exact g5, by omega, fun _ => by omega⟩
      intro q hq he
      rw [t2, p2]
      rw [t1, p1] at hq
      rcases List.mem_append.1 hq with hq | hq
      · exact g1 q hq he
      · rw [ha q hq, hde] at he
        cases he

theorem loop_more (c : Cfg) (ss : List Sec) (ds : List Desc) (ph : Bool) (st st' : St) (h : loop c ss ds st = .ok st') (hi : Inv c ph st)
    (hsort : ds.Pairwise (fun d e => Before d.attrs e.attrs)) (hx : ∀ d ∈ ds, d.attrs.exec = true → d.attrs.nobits = false)
    (hm : ∀ d ∈ ds, ∀ s ∈ members c ss d, s.align < 2 ^ 32 ∧ s.size < 2 ^ 32 ∧ (s.attrs.nobits = false → s.data.length = s.size) ∧ s.attrs = d.attrs)
    (hne : ∀ d ∈ ds, members c ss d ≠ []) (hal : c.fmt = .aout → ∀ d ∈ ds, ∀ s ∈ members c ss d, s.align ≤ 4096)
    (hprev : ∀ p ∈ st.placed, ∀ d ∈ ds, Before p.sec.attrs d.attrs) (hpx : ∀ p ∈ st.placed, p.sec.attrs.exec = true → p.sec.attrs.nobits = false)
    (hp0 : c.fmt = .dosExeSmall → ph = false → ds = [] ∨ ∃ d, ds.head? = some d ∧ d.attrs.exec = true)
    (hp1 : c.fmt = .dosExeSmall → ph = true → ∀ d ∈ ds, d.attrs.exec = false) (hmo : More c ds st) :
    More c [] st' := by
  induction ds generalizing st ph with
  | nil =>
    cases h
    exact hmo
  | cons d ds ih =>
    simp only [loop] at h
    have hphd : c.fmt = .dosExeSmall → d.attrs.exec = !ph := by
      intro hf
      cases ph with
      | true => exact hp1 hf rfl d (by simp)
      | false =>
        rcases hp0 hf rfl with hh | ⟨d', hd', he⟩
        · cases hh
        · simp only [List.head?_cons, Option.some.injEq] at hd'
          rw [hd']
          exact he
    have hmd := hm d (by simp)
    cases hpa : placeAll c (!d.attrs.exec) (members c ss d) { st with span := (2 ^ 32 - 1, 0) } with
    | error e => rw [hpa] at h; cases h
    | ok st1 =>
      rw [hpa] at h
      simp only at h
      obtain ⟨hi1, -⟩ := inv_placeAll c ph d.attrs.exec d.attrs.nobits (members c ss d) { st with span := (2 ^ 32 - 1, 0) } st1
        (inv_spans c ph st _ st.spans hi) hpa
        (fun s hs => ⟨(hmd s hs).1, (hmd s hs).2.1, (hmd s hs).2.2.1, by rw [(hmd s hs).2.2.2], by rw [(hmd s hs).2.2.2]⟩)
        (fun hc p hp => before_file c _ _ (hprev p hp d (by simp)) hc) hphd
      obtain ⟨new, n1, n2, n3, n4, n5, n6, n7, n8, n9, n10, n11⟩ := placeAll_more c d.attrs (members c ss d) { st with span := (2 ^ 32 - 1, 0) } st1 hpa hi.lt
        (fun s hs => ⟨(hmd s hs).1, (hmd s hs).2.1, (hmd s hs).2.2.2⟩)
      have hnew : ∀ p ∈ new, p.sec.attrs = d.attrs := by
        intro p hp
        have : p.sec ∈ members c ss d := by
          rw [← n1]
          exact List.mem_map_of_mem hp
        exact (hmd p.sec this).2.2.2
      have hpx1 : ∀ p ∈ st1.placed, p.sec.attrs.exec = true → p.sec.attrs.nobits = false := by
        intro p hp
        rw [n2] at hp
        rcases List.mem_append.1 hp with hp | hp
        · exact hpx p hp
        · rw [hnew p hp]
          exact hx d (by simp)
      cases ht : trail c d ds.head? { st1 with spans := st1.spans ++ [st1.span] } with
      | error e => rw [ht] at h; cases h
      | ok st2 =>
        rw [ht] at h
        simp only at h
        obtain ⟨ph2, hi2, t1, t2, t3, t4, t5, t6⟩ := trail_ok c ph d ds.head? { st1 with spans := st1.spans ++ [st1.span] } st2 ht
          (inv_spans c ph st1 st1.span _ hi1) hpx1 hphd
        have hpl2 : st2.placed = st.placed ++ new := t1.trans n2
        obtain ⟨hsd, hsort'⟩ := List.pairwise_cons.1 hsort
        have hb : ∀ p ∈ st.placed, Before p.sec.attrs d.attrs := fun p hp => hprev p hp d (by simp)
        have hmo2 : More c ds st2 := by
          have hpaged := fun hf : Paged c.fmt => by
            have hns := paged_small hf
            obtain ⟨u1, u2, u3, u4, u5, u6, u7⟩ := trail_more c d ds.head? _ st2 ht hns hi1.lt
            obtain ⟨w1, w2⟩ := hi2.seg0 (.inl hns)
            exact step_paged c d ds st st1 st2 new hmo hf hnew hb hx n2 n3 n7 n8 (n10 (hne d (by simp)))
              (fun h0 => n11 hf h0 (fun hf' => hal hf' d (by simp)) (hne d (by simp))) u1 u2 u5 (u6 hf)
              (fun hnf => by rw [u7 (no_pad c d _ hnf (hx d (by simp))).1 (no_pad c d _ hnf (hx d (by simp))).2]; exact n9 hnf)
              (fun p hp => hi1.low p hp (fun h => absurd h hns)) (fun hall => by have := hi2.len hall; omega) (by have := hi2.le; omega)
          refine ⟨fun hf => (hpaged hf).1, fun hf => (hpaged hf).2.1, fun hf => (hpaged hf).2.2.1, fun hf => (hpaged hf).2.2.2.1, ?_, ?_, fun hf => (hpaged hf).2.2.2.2.1, fun hf => (hpaged hf).2.2.2.2.2.1,
            fun hf => (hpaged hf).2.2.2.2.2.2.1, fun hf => (hpaged hf).2.2.2.2.2.2.2⟩
          · apply step_out c ph d ds.head? st st1 st2 new hi hmo.out hnew hb (hx d (by simp)) hpx hphd n2 n7 n9 n5 t1
            intro l1 l2
            by_cases hs : c.fmt = .dosExeSmall
            · rcases trail_small c d ds.head? _ st2 ht hs with ⟨e, -⟩ | ⟨-, e⟩
              · rw [l1] at e
                cases e
              · rw [e]
                exact ⟨rfl, rfl⟩
            · obtain ⟨-, -, -, -, -, -, u7⟩ := trail_more c d ds.head? _ st2 ht hs hi1.lt
              rw [u7 l1 l2]
              exact ⟨rfl, rfl⟩
          · intro hf hn
            apply step_small c ph ph2 d ds st st1 st2 new hmo hf hi1 hi2 hnew (hphd hf) hb hpx1 n2 n5 (n10 (hne d (by simp))) n8 t1 ?_ hn
            rcases trail_small c d ds.head? _ st2 ht hf with ⟨e1, e⟩ | ⟨e1, e⟩
            · left
              refine ⟨e1, ?_, ?_, ?_⟩
              · rw [e]
                unfold switch
                simp only
                split <;> rfl
              · rw [e]
                unfold switch
                simp only
                split <;> rfl
              · intro hd
                rw [e]
                cases ds with
                | nil => exact absurd rfl hd
                | cons => rfl
            · right
              refine ⟨e1, ?_, ?_⟩
              · rw [e]
              · rw [e]
        exact ih ph2 st2 h hi2 hsort' (fun e he => hx e (List.mem_cons_of_mem _ he)) (fun e he => hm e (List.mem_cons_of_mem _ he))
          (fun e he => hne e (List.mem_cons_of_mem _ he)) (fun hf e he => hal hf e (List.mem_cons_of_mem _ he))
          (by
            intro p hp e he
            rw [hpl2] at hp
            rcases List.mem_append.1 hp with hp | hp
            · exact hprev p hp e (List.mem_cons_of_mem _ he)
            · rw [hnew p hp]
              exact hsd e he)
          (by
            intro p hp
            rw [t1] at hp
            exact hpx1 p hp)
          (by
            intro hf h0
            obtain ⟨n, hn, hne⟩ := t5 hf h0
            exact .inr ⟨n, hn, hne⟩)
          (by
            intro hf h1 e he
            rcases t6 hf h1 with hph1 | hne
            · exact hp1 hf hph1 e (List.mem_cons_of_mem _ he)
            · cases ds with
              | nil => cases he
              | cons n ns =>
                have hn := hne n rfl
                rcases List.mem_cons.1 he with rfl | he
                · exact hn
                · exact before_code _ _ ((List.pairwise_cons.1 hsort').1 e he) hn)
          hmo2

end Smlr.Exe
