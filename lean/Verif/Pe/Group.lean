import Verif.Exe.Facts
set_option autoImplicit false
/-! Groups of section descriptions that end on a page boundary. -/
namespace Smlr.Pe
open Smlr.Sect
open Smlr.Exe

/-- the boundaries of a description -/
theorem placeAll_span (c : Cfg) (a : Attrs) (hP : Paged c.fmt) (hna : c.fmt ≠ .aout) (ms : List Sec) : ∀ (st st' : St), placeAll c (!a.exec) ms st = .ok st' → st.ofs < 2 ^ 32 →
    (∀ s ∈ ms, s.align < 2 ^ 32 ∧ s.size < 2 ^ 32 ∧ s.attrs = a) → st.span.2 ≤ st.ofs →
    st'.spans = st.spans ∧ (ms ≠ [] → st'.span.2 = st'.ofs) ∧ (st.span.1 ≤ st.ofs → st'.span.1 = st.span.1) ∧
    (st.span.1 = 2 ^ 32 - 1 → st.ofs % 4096 = 0 → ms ≠ [] → st'.span.1 = st.ofs) := by
  induction ms with
  | nil =>
    intro st st' h _ _ _
    cases h
    exact ⟨rfl, fun h => absurd rfl h, fun _ => rfl, fun _ _ h => absurd rfl h⟩
  | cons s ms ih =>
    intro st st' h h1 hs hsp
    obtain ⟨ha, hz, hat⟩ := hs s (by simp)
    simp only [placeAll] at h
    cases hp : place c (!a.exec) s st with
    | error e => rw [hp] at h; cases h
    | ok st1 =>
      rw [hp] at h
      simp only at h
      have hp' : place c (!s.attrs.exec) s st = .ok st1 := by rw [hat]; exact hp
      obtain ⟨q, q1, q2, q3, q4, q5, -, -, -, -, q10⟩ := place_more c s st st1 hp' h1 ha hz
      obtain ⟨u, fill, p1, p2, -, -, -, p5, -, -, -, p9, p10, p11, -⟩ := place_ok c s st st1 hp' h1 ha hz
      have hqa : q.addr = u := by
        rw [p9] at q2
        have := List.append_cancel_left q2
        injection this with this _
        rw [← this]
      have e2 : st1.span.2 = st1.ofs := by
        rw [p11, p5]
        unfold widen raise lower
        simp only
        split <;> omega
      have e1 : st1.span.1 = if st.span.1 > u then u else st.span.1 := by
        rw [p11]
        rfl
      obtain ⟨i1, i2, i3, -⟩ := ih st1 st' h q5 (fun t ht => hs t (List.mem_cons_of_mem _ ht)) (by omega)
      have hle : st1.span.1 ≤ st1.ofs → st'.span.1 = st1.span.1 := i3
      refine ⟨i1.trans p10, ?_, ?_, ?_⟩
      · intro _
        cases ms with
        | nil =>
          cases h
          exact e2
        | cons => exact i2 (by simp)
      · intro hl
        rw [if_neg (by omega)] at e1
        rw [hle (by omega), e1]
      · intro hm h0 _
        have hu := q10 hP h0 (fun h => absurd h hna)
        have : st1.span.1 = u := by
          rw [e1]
          split <;> omega
        rw [hle (by omega), this]
        omega

theorem trail_spans (c : Cfg) (d : Desc) (next : Option Desc) (st st' : St) (h : trail c d next st = .ok st') (hf : c.fmt ≠ .dosExeSmall) (h1 : st.ofs < 2 ^ 32) :
    st'.spans = st.spans ∧ st'.ofs < 2 ^ 32 := by
  have hpad : ∀ fill, pad true fill 4096 st = .ok st' → st'.spans = st.spans ∧ st'.ofs < 2 ^ 32 := by
    intro fill hp
    obtain ⟨u, g1, g2, g3, g4, rfl⟩ := pad_ok _ _ _ _ _ hp h1 (by decide)
    exact ⟨rfl, g2⟩
  unfold trail at h
  rw [if_neg hf] at h
  split at h
  · split at h
    · exact hpad _ h
    · split at h
      · exact hpad _ h
      · cases h
        exact ⟨rfl, h1⟩
  · cases h
    exact ⟨rfl, h1⟩

/-- what is known of descriptions -/
def Ok (c : Cfg) (ss : List Sec) (ds : List Desc) : Prop :=
  ∀ d ∈ ds, members c ss d ≠ [] ∧ ∀ s ∈ members c ss d, s.align < 2 ^ 32 ∧ s.size < 2 ^ 32 ∧ s.attrs = d.attrs

/-- one description -/
theorem step (c : Cfg) (ss : List Sec) (hP : Paged c.fmt) (hna : c.fmt ≠ .aout) (d : Desc) (ds : List Desc) (st st' : St) (h : loop c ss (d :: ds) st = .ok st') (h1 : st.ofs < 2 ^ 32)
    (hk : Ok c ss [d]) :
    ∃ st1 new sp, loop c ss ds st1 = .ok st' ∧ st1.placed = st.placed ++ new ∧ st1.spans = st.spans ++ [sp] ∧ st1.ofs < 2 ^ 32 ∧ st.ofs ≤ st1.ofs ∧
      (∀ q ∈ new, st.ofs ≤ q.addr ∧ fin q ≤ st1.ofs ∧ q.sec.attrs = d.attrs) ∧ (∃ q ∈ new, fin q = sp.2) ∧ (st.ofs % 4096 = 0 → sp.1 = st.ofs) ∧
      (lastCode d ds.head? = true ∨ padsData c d ds.head? = true → st1.ofs = pg sp.2) := by
  obtain ⟨hne, hm⟩ := hk d (by simp)
  unfold loop at h
  cases hp : placeAll c (!d.attrs.exec) (members c ss d) { st with span := (2 ^ 32 - 1, 0) } with
  | error e => rw [hp] at h; cases h
  | ok s1 =>
    rw [hp] at h
    simp only at h
    cases ht : trail c d ds.head? { s1 with spans := s1.spans ++ [s1.span] } with
    | error e => rw [ht] at h; cases h
    | ok s2 =>
      rw [ht] at h
      simp only at h
      obtain ⟨new, n1, n2, n3, n4, -, -, n7, -, -, n10, -⟩ := placeAll_more c d.attrs _ _ _ hp h1 hm
      obtain ⟨a1, a2, -, a4⟩ := placeAll_span c d.attrs hP hna _ _ _ hp h1 hm (Nat.zero_le _)
      obtain ⟨t1, t2, -, -, -, t6, -⟩ := trail_more c d ds.head? _ _ ht (paged_small hP) n4
      obtain ⟨u1, u2⟩ := trail_spans c d ds.head? _ _ ht (paged_small hP) n4
      simp only at a1 a4 n2 n3 n7 t1 t2 u1
      have a2 := a2 hne
      obtain ⟨q, hq, hqe⟩ := n10 hne
      refine ⟨s2, new, s1.span, h, by rw [t1, n2], by rw [u1, a1], u2, by omega, ?_, ⟨q, hq, by omega⟩, fun h0 => a4 trivial h0 hne, ?_⟩
      · intro r hr
        have := n7 r hr
        refine ⟨this.1, by omega, ?_⟩
        have : r.sec ∈ members c ss d := by rw [← n1]; exact List.mem_map_of_mem hr
        exact (hm _ this).2.2
      · intro hpad
        obtain ⟨g1, g2⟩ := t6 hP hpad
        simp only at g1 g2
        unfold pg
        omega

/-- a group of descriptions, the last of which is padded -/
theorem group (c : Cfg) (ss : List Sec) (hP : Paged c.fmt) (hna : c.fmt ≠ .aout) (a b : List Desc) : ∀ (st st' : St), loop c ss (a ++ b) st = .ok st' → st.ofs < 2 ^ 32 → st.ofs % 4096 = 0 → a ≠ [] →
    Ok c ss a → (∀ d, a.getLast? = some d → lastCode d b.head? = true ∨ padsData c d b.head? = true) →
    ∃ st1 new sps y z, loop c ss b st1 = .ok st' ∧ st1.placed = st.placed ++ new ∧ st1.spans = st.spans ++ sps ∧ sps.length = a.length ∧ st1.ofs < 2 ^ 32 ∧ st1.ofs % 4096 = 0 ∧ st.ofs ≤ st1.ofs ∧
      (∀ q ∈ new, st.ofs ≤ q.addr ∧ fin q ≤ st1.ofs ∧ ∃ d ∈ a, q.sec.attrs = d.attrs) ∧ sps.head? = some y ∧ y.1 = st.ofs ∧ sps.getLast? = some z ∧ pg z.2 = st1.ofs ∧ ∃ q ∈ new, fin q = z.2 := by
  have gen : ∀ (a : List Desc) (st st' : St), loop c ss (a ++ b) st = .ok st' → st.ofs < 2 ^ 32 → a ≠ [] →
    Ok c ss a → (∀ d, a.getLast? = some d → lastCode d b.head? = true ∨ padsData c d b.head? = true) →
    ∃ st1 new sps y z, loop c ss b st1 = .ok st' ∧ st1.placed = st.placed ++ new ∧ st1.spans = st.spans ++ sps ∧ sps.length = a.length ∧ st1.ofs < 2 ^ 32 ∧ st1.ofs % 4096 = 0 ∧ st.ofs ≤ st1.ofs ∧
      (∀ q ∈ new, st.ofs ≤ q.addr ∧ fin q ≤ st1.ofs ∧ ∃ d ∈ a, q.sec.attrs = d.attrs) ∧ sps.head? = some y ∧ (st.ofs % 4096 = 0 → y.1 = st.ofs) ∧ sps.getLast? = some z ∧ pg z.2 = st1.ofs ∧
      ∃ q ∈ new, fin q = z.2 := by
    intro a
    induction a with
    | nil => intro _ _ _ _ h; exact absurd rfl h
    | cons d a ih =>
      intro st st' h h1 _ hk hl
      obtain ⟨st1, new, sp, g1, g2, g3, g4, g5, g6, ⟨q, hq, hqe⟩, g8, g9⟩ := step c ss hP hna d (a ++ b) st st' h h1 (fun e he => hk e (by rw [List.mem_singleton.1 he]; simp))
      cases a with
      | nil =>
        have hpg := g9 (hl d rfl)
        refine ⟨st1, new, [sp], sp, sp, g1, g2, g3, rfl, g4, by rw [hpg]; exact pg_mod _, g5, ?_, rfl, g8, rfl, hpg.symm, q, hq, hqe⟩
        intro r hr
        exact ⟨(g6 r hr).1, (g6 r hr).2.1, d, by simp, (g6 r hr).2.2⟩
      | cons e a =>
        obtain ⟨st2, new2, sps, y, z, i1, i2, i3, i4, i5, i6, i7, i8, i9, i10, i11, i12, q2, hq2, hqe2⟩ := ih st1 st' g1 g4 (by simp) (fun x hx => hk x (List.mem_cons_of_mem _ hx))
          (fun x hx => hl x (by rw [List.getLast?_cons_cons]; exact hx))
        refine ⟨st2, new ++ new2, sp :: sps, sp, z, i1, by rw [i2, g2, List.append_assoc], by rw [i3, g3, List.append_assoc]; rfl, by rw [List.length_cons, i4, List.length_cons (a := d)], i5, i6, by omega,
          ?_, rfl, g8, ?_, i12, q2, List.mem_append_right _ hq2, hqe2⟩
        · intro r hr
          rcases List.mem_append.1 hr with hr | hr
          · obtain ⟨r1, r2, r3⟩ := g6 r hr
            exact ⟨r1, by omega, d, by simp, r3⟩
          · obtain ⟨r1, r2, x, r3, r4⟩ := i8 r hr
            exact ⟨by omega, r2, x, List.mem_cons_of_mem _ r3, r4⟩
        · cases sps with
          | nil => cases i9
          | cons s sps => rw [List.getLast?_cons_cons]; exact i11
  intro st st' h h1 h0 hne hk hl
  obtain ⟨st1, new, sps, y, z, i1, i2, i3, i4, i5, i6, i7, i8, i9, i10, i11, i12, i13⟩ := gen a st st' h h1 hne hk hl
  exact ⟨st1, new, sps, y, z, i1, i2, i3, i4, i5, i6, i7, i8, i9, i10 h0, i11, i12, i13⟩

/-- a group that may be empty: where it starts and ends -/
structure Grp (a : List Desc) (st st1 : St) (new : List Place) (sps : List (Nat × Nat)) : Prop where
  placed : st1.placed = st.placed ++ new
  spans : st1.spans = st.spans ++ sps
  len : sps.length = a.length
  lt : st1.ofs < 2 ^ 32
  mod : st1.ofs % 4096 = 0
  le : st.ofs ≤ st1.ofs
  mem : ∀ q ∈ new, st.ofs ≤ q.addr ∧ fin q ≤ st1.ofs ∧ ∃ d ∈ a, q.sec.attrs = d.attrs
  none : a = [] → st1 = st ∧ new = []
  some : a ≠ [] → ∃ y z, sps.head? = some y ∧ y.1 = st.ofs ∧ sps.getLast? = some z ∧ pg z.2 = st1.ofs ∧ ∃ q ∈ new, fin q = z.2

theorem grp (c : Cfg) (ss : List Sec) (hP : Paged c.fmt) (hna : c.fmt ≠ .aout) (a b : List Desc) (st st' : St) (h : loop c ss (a ++ b) st = .ok st') (h1 : st.ofs < 2 ^ 32) (h0 : st.ofs % 4096 = 0)
    (hk : Ok c ss a) (hl : ∀ d, a.getLast? = some d → lastCode d b.head? = true ∨ padsData c d b.head? = true) :
    ∃ st1 new sps, loop c ss b st1 = .ok st' ∧ Grp a st st1 new sps := by
  by_cases ha : a = []
  · subst ha
    exact ⟨st, [], [], h, by simp, by simp, rfl, h1, h0, Nat.le_refl _, fun q hq => (by cases hq), fun _ => ⟨rfl, rfl⟩, fun h => absurd rfl h⟩
  · obtain ⟨st1, new, sps, y, z, i1, i2, i3, i4, i5, i6, i7, i8, i9, i10, i11, i12, i13⟩ := group c ss hP hna a b st st' h h1 h0 ha hk hl
    exact ⟨st1, new, sps, i1, i2, i3, i4, i5, i6, i7, i8, fun h => absurd h ha, fun _ => ⟨y, z, i9, i10, i11, i12, i13⟩⟩

/-- the rest -/
theorem tail (c : Cfg) (ss : List Sec) (hP : Paged c.fmt) (hna : c.fmt ≠ .aout) (a : List Desc) : ∀ (st st' : St), loop c ss a st = .ok st' → st.ofs < 2 ^ 32 → Ok c ss a →
    ∃ new sps, st'.placed = st.placed ++ new ∧ st'.spans = st.spans ++ sps ∧ ∀ q ∈ new, st.ofs ≤ q.addr ∧ ∃ d ∈ a, q.sec.attrs = d.attrs := by
  induction a with
  | nil =>
    intro st st' h _ _
    cases h
    exact ⟨[], [], by simp, by simp, fun q hq => by cases hq⟩
  | cons d a ih =>
    intro st st' h h1 hk
    obtain ⟨st1, new, sp, g1, g2, g3, g4, g5, g6, -, -, -⟩ := step c ss hP hna d a st st' h h1 (fun e he => hk e (by rw [List.mem_singleton.1 he]; simp))
    obtain ⟨new2, sps, i1, i2, i3⟩ := ih st1 st' g1 g4 (fun x hx => hk x (List.mem_cons_of_mem _ hx))
    refine ⟨new ++ new2, [sp] ++ sps, by rw [i1, g2, List.append_assoc], by rw [i2, g3, List.append_assoc], ?_⟩
    intro q hq
    rcases List.mem_append.1 hq with hq | hq
    · exact ⟨(g6 q hq).1, d, by simp, (g6 q hq).2.2⟩
    · obtain ⟨r1, x, r2, r3⟩ := i3 q hq
      exact ⟨by omega, x, List.mem_cons_of_mem _ r2, r3⟩

end Smlr.Pe
