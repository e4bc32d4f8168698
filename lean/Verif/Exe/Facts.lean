import Verif.Sect.Props
import Verif.Exe.Step
set_option autoImplicit false
namespace Smlr.Exe
open Smlr.Sect

theorem members_ne (c : Cfg) (ss : List Sec) (ds : List Desc) (hf : Found c ss ds) (d : Desc) (hd : d ∈ ds) : members c ss d ≠ [] := by
  rcases hf.only d hd with ⟨s, hs, -, hn, -⟩ | ⟨h1, h2, h3⟩
  · intro h
    have : s ∈ members c ss d := by
      unfold members
      apply List.mem_append_left
      rw [List.mem_filter]
      exact ⟨hs, by simpa using hn⟩
    rw [h] at this
    cases this
  · unfold members
    rw [if_pos ⟨h1, h2, by rw [h3]⟩]
    simp

theorem members_wf (c : Cfg) (ss : List Sec) (hw : WF c ss) (d : Desc) (s : Sec) (hs : s ∈ members c ss d) :
    s.align < 2 ^ 32 ∧ s.size < 2 ^ 32 ∧ (s.attrs.nobits = false → s.data.length = s.size) := by
  unfold members at hs
  rcases List.mem_append.1 hs with hs | hs
  · obtain ⟨h1, h2, h3⟩ := hw.2.2.2 s (List.mem_filter.1 hs).1
    exact ⟨h2, h1, h3⟩
  · split at hs
    · rw [List.mem_singleton.1 hs]
      exact ⟨(show 4 < 2 ^ 32 by decide), hw.2.2.1, fun _ => rfl⟩
    · cases hs

theorem layout_more (c : Cfg) (sort : List Desc → List Desc) (ss : List Sec) (ds : List Desc) (st : St) (hs : Sorts sort) (hw : WF c ss) (hu : Uniform c ss)
    (hal : c.fmt = .aout → ∀ s ∈ ss, s.align ≤ 4096) (h : layout c sort ss = .ok (ds, st)) : More c [] st := by
  unfold layout at h
  cases hf : findAll c sort ss with
  | error e => rw [hf] at h; cases h
  | ok ds' =>
    rw [hf] at h
    simp only at h
    cases hp : pass c ss ds' with
    | error e => rw [hp] at h; cases h
    | ok st' =>
      rw [hp] at h
      cases h
      have hfound := findAll_ok c sort ss ds hs hf
      obtain ⟨d, hd, hde⟩ := hfound.first
      have hnc : ¬ NoCode ds := fun hn => by
        rw [hn d hd] at hde
        cases hde
      unfold pass at hp
      refine loop_more c ss ds false _ st hp
        ⟨Nat.le_refl _, hw.1, by simp, fun _ => ⟨rfl, rfl⟩, (fun _ h => by cases h), (fun _ _ p hp => by cases hp), hw.2.1, (fun p hp => by cases hp), (fun p hp => by cases hp), List.Pairwise.nil⟩
        (hfound.sorted.imp_of_mem (fun ha hb hab => cmp_before _ _ hab (fun he => (hfound.exec _ ha he).1) (fun he => (hfound.exec _ hb he).1)))
        (fun d hd he => (hfound.exec d hd he).1)
        (fun d hd s hs' => ⟨(members_wf c ss hw d s hs').1, (members_wf c ss hw d s hs').2.1, (members_wf c ss hw d s hs').2.2, (members_attrs c ss ds hfound hu d hd s hs').1⟩)
        (fun d hd => members_ne c ss ds hfound d hd) ?_
        (fun p hp => by cases hp) (fun p hp => by cases hp) (fun _ _ => .inr ⟨d, hd, hde⟩) (fun _ h => by cases h) ?_
      · intro hf d hd s hs'
        unfold members at hs'
        rcases List.mem_append.1 hs' with hs' | hs'
        · exact hal hf s (List.mem_filter.1 hs').1
        · rw [if_neg (by rw [hf]; rintro ⟨h, -⟩; cases h)] at hs'
          cases hs'
      · exact ⟨(fun _ _ p hp => by cases hp), (fun _ _ p hp => by cases hp), (fun _ p hp => by cases hp), (fun _ p hp => by cases hp), (fun p hp => by cases hp),
          (fun _ h => absurd h hnc), (fun _ h => absurd h hnc), (fun _ ⟨p, hp, _⟩ => by cases hp),
          (fun _ _ => .inl ⟨rfl, rfl⟩), (fun _ h => absurd (.inl (hfound.exec d (List.mem_of_mem_head? hd) hde).1) (h d hd))⟩

/-- the last description, if any, with sections in the file, by recursion -/
theorem find_cons (d : Desc) (ds : List Desc) (sp : Nat × Nat) (sps : List (Nat × Nat)) :
    (((d, sp) :: ds.zip sps).reverse.find? (fun x => !x.1.attrs.nobits)) =
      match (ds.zip sps).reverse.find? (fun x => !x.1.attrs.nobits) with
      | some x => some x
      | none => if d.attrs.nobits then none else some (d, sp) := by
  rw [List.reverse_cons, List.find?_append]
  cases (ds.zip sps).reverse.find? (fun x => !x.1.attrs.nobits) with
  | some x => rfl
  | none => cases hb : d.attrs.nobits <;> simp [hb]

theorem last_ok (c : Cfg) (ss : List Sec) (ds : List Desc) (news : List (List Place)) (sps : List (Nat × Nat)) (hb : Blocks c ss ds news sps)
    (hm : ∀ d ∈ ds, ∀ s ∈ members c ss d, s.attrs = d.attrs) (hne : ∀ d ∈ ds, members c ss d ≠ []) (hso : ds.Pairwise (fun d e => Before d.attrs e.attrs))
    (hap : news.flatten.Pairwise (Apart c)) :
    match (ds.zip sps).reverse.find? (fun x => !x.1.attrs.nobits) with
    | some (d, sp) => d ∈ ds ∧ d.attrs.nobits = false ∧ (∀ p ∈ news.flatten, p.sec.attrs.nobits = false → (c.fmt = .dosExeSmall → p.sec.attrs.exec = d.attrs.exec) → fin p ≤ sp.2) ∧
        (∃ p ∈ news.flatten, p.sec.attrs = d.attrs ∧ fin p = sp.2) ∧ (∀ p ∈ news.flatten, p.sec.attrs.nobits = false → d.attrs.exec = true → p.sec.attrs.exec = true)
    | none => ∀ p ∈ news.flatten, p.sec.attrs.nobits = true := by
  induction ds generalizing news sps with
  | nil =>
    cases news with
    | nil => simp
    | cons n ns => cases sps <;> exact hb.elim
  | cons d ds ih =>
    cases news with
    | nil => exact hb.elim
    | cons n ns =>
      cases sps with
      | nil => exact hb.elim
      | cons sp sps =>
        obtain ⟨h1, h2, h3⟩ := hb
        obtain ⟨hs1, hs2⟩ := List.pairwise_cons.1 hso
        rw [List.flatten_cons, List.pairwise_append] at hap
        obtain ⟨-, ha2, ha3⟩ := hap
        have hn : ∀ p ∈ n, p.sec.attrs = d.attrs := by
          intro p hp
          have : p.sec ∈ members c ss d := by rw [← h1]; exact List.mem_map_of_mem hp
          exact hm d (by simp) _ this
        have hnn : n ≠ [] := by
          rintro rfl
          exact hne d (by simp) h1.symm
        have ih' := ih ns sps h3 (fun e he => hm e (List.mem_cons_of_mem _ he)) (fun e he => hne e (List.mem_cons_of_mem _ he)) hs2 ha2
        rw [List.zip_cons_cons, find_cons]
        cases hf : (ds.zip sps).reverse.find? (fun x => !x.1.attrs.nobits) with
        | some x =>
          obtain ⟨d', sp'⟩ := x
          rw [hf] at ih'
          simp only at ih' ⊢
          obtain ⟨i0, i1, i2, ⟨q, hq1, hq2, hq3⟩, i4⟩ := ih'
          refine ⟨List.mem_cons_of_mem _ i0, i1, ?_, ⟨q, by rw [List.flatten_cons]; exact List.mem_append_right _ hq1, hq2, hq3⟩, ?_⟩
          · intro p hp hpn hps
            rw [List.flatten_cons] at hp
            rcases List.mem_append.1 hp with hp | hp
            · have := ha3 p hp q hq1 (fun hf => by rw [hps hf, hq2])
              unfold fin at hq3 ⊢
              omega
            · exact i2 p hp hpn hps
          · intro p hp hpn hde
            rw [List.flatten_cons] at hp
            rcases List.mem_append.1 hp with hp | hp
            · rw [hn p hp]
              exact (hs1 d' i0).1 hde
            · exact i4 p hp hpn hde
        | none =>
          rw [hf] at ih'
          simp only at ih' ⊢
          cases hb : d.attrs.nobits with
          | true =>
            simp only [if_true]
            intro p hp
            rw [List.flatten_cons] at hp
            rcases List.mem_append.1 hp with hp | hp
            · rw [hn p hp]
              exact hb
            · exact ih' p hp
          | false =>
            simp only [Bool.false_eq_true, if_false]
            have hh : Hull sp n := by
              rcases h2 with ⟨h, -⟩ | h
              · exact absurd h hnn
              · exact h
            refine ⟨List.mem_cons_self .., hb, ?_, ?_, ?_⟩
            · intro p hp hpn _
              rw [List.flatten_cons] at hp
              rcases List.mem_append.1 hp with hp | hp
              · exact (hh.1 p hp).2
              · rw [ih' p hp] at hpn
                cases hpn
            · obtain ⟨p, hp, hpe⟩ := hh.2.2
              exact ⟨p, by rw [List.flatten_cons]; exact List.mem_append_left _ hp, hn p hp, hpe⟩
            · intro p hp hpn hde
              rw [List.flatten_cons] at hp
              rcases List.mem_append.1 hp with hp | hp
              · rw [hn p hp]
                exact hde
              · rw [ih' p hp] at hpn
                cases hpn

/-- what the writers use of a layout -/
structure Facts (c : Cfg) (useBss : Bool) (ds : List Desc) (st : St) : Prop where
  inv : ∃ ph, Inv c ph st ∧ (c.fmt = .dosExeSmall → (∃ p ∈ st.placed, p.sec.attrs.exec = false) → ph = true)
  more : More c [] st
  code : Hull st.code (st.placed.filter (fun p => p.sec.attrs.exec))
  data : hasData ds = true → Hull st.data (st.placed.filter (fun p => !p.sec.attrs.exec))
  noData : hasData ds = false → ∀ p ∈ st.placed, p.sec.attrs.exec = true
  px : ∀ p ∈ st.placed, p.sec.attrs.exec = true → p.sec.attrs.nobits = false
  noBss : bssLast useBss ds = false → ∀ p ∈ st.placed, FileA c p.sec.attrs
  bss : bssLast useBss ds = true → hasData ds = true ∧ (∃ p ∈ st.placed, ¬ FileA c p.sec.attrs) ∧ ∃ d stop, lastBits ds st = some (d, stop) ∧
    (∀ p ∈ st.placed, FileA c p.sec.attrs → (c.fmt = .dosExeSmall → p.sec.attrs.exec = d.attrs.exec) → fin p ≤ stop) ∧
    (∃ p ∈ st.placed, FileA c p.sec.attrs ∧ p.sec.attrs.exec = d.attrs.exec ∧ fin p = stop) ∧
    (d.attrs.exec = true → ∀ p ∈ st.placed, FileA c p.sec.attrs → p.sec.attrs.exec = true)

theorem getLast_before (ds : List Desc) (hso : ds.Pairwise (fun d e => Before d.attrs e.attrs)) (l : Desc) (hl : ds.getLast? = some l) (d : Desc) (hd : d ∈ ds) : Before d.attrs l.attrs := by
  induction ds with
  | nil => cases hd
  | cons e es ih =>
    obtain ⟨h1, h2⟩ := List.pairwise_cons.1 hso
    cases es with
    | nil =>
      rw [List.getLast?_singleton] at hl
      rw [List.mem_singleton] at hd
      injection hl with hl
      rw [hd, hl]
      exact ⟨id, id⟩
    | cons f fs =>
      rw [List.getLast?_cons_cons] at hl
      rcases List.mem_cons.1 hd with rfl | hd
      · exact h1 l (List.mem_of_getLast? hl)
      · exact ih h2 hl hd

theorem facts (c : Cfg) (sort : List Desc → List Desc) (ss : List Sec) (ds : List Desc) (st : St) (hs : Sorts sort) (hw : WF c ss) (hu : Uniform c ss)
    (hal : c.fmt = .aout → ∀ s ∈ ss, s.align ≤ 4096) (h : layout c sort ss = .ok (ds, st)) : Facts c c.useBss ds st := by
  obtain ⟨hf, ⟨ph, hi⟩, hsp, news, hbl, hpl⟩ := layout_ok c sort ss ds st hs hw hu h
  have hmo := layout_more c sort ss ds st hs hw hu hal h
  have hma : ∀ d ∈ ds, ∀ s ∈ members c ss d, s.attrs = d.attrs := fun d hd s hs' => (members_attrs c ss ds hf hu d hd s hs').1
  have hmn := members_ne c ss ds hf
  have hso : ds.Pairwise (fun d e => Before d.attrs e.attrs) :=
    hf.sorted.imp_of_mem (fun ha hb hab => cmp_before _ _ hab (fun he => (hf.exec _ ha he).1) (fun he => (hf.exec _ hb he).1))
  obtain ⟨-, hdesc⟩ := blocks_attrs c ss ds news st.spans hbl hma Before (fun a => ⟨id, id⟩) hso
  rw [← hpl] at hdesc
  -- every description has a section
  have hhas : ∀ d ∈ ds, ∃ p ∈ st.placed, p.sec.attrs = d.attrs := by
    obtain ⟨-, -, hget⟩ := blocks_get c ss ds news st.spans hbl hf.nodup (fun d hd s hs' => (members_attrs c ss ds hf hu d hd s hs').2)
    intro d hd
    obtain ⟨i, hi', rfl⟩ := List.getElem_of_mem hd
    obtain ⟨n, sp, -, g1, -, g2⟩ := hget i hi'
    have hne := hmn _ hd
    cases n with
    | nil => exact absurd g1.symm hne
    | cons p n =>
      refine ⟨p, by rw [hpl]; exact ((g2 p).1 (by simp)).1, ?_⟩
      apply hma _ hd
      rw [← g1]
      simp
  obtain ⟨d0, hd0, hd0e⟩ := hf.first
  have hd0m : d0 ∈ ds := List.mem_of_mem_head? hd0
  have hlast : ∃ l, ds.getLast? = some l ∧ l ∈ ds := by
    cases hg : ds.getLast? with
    | none =>
      rw [List.getLast?_eq_none_iff] at hg
      rw [hg] at hd0m
      cases hd0m
    | some l => exact ⟨l, rfl, List.mem_of_getLast? hg⟩
  obtain ⟨l, hl, hlm⟩ := hlast
  have hpx : ∀ p ∈ st.placed, p.sec.attrs.exec = true → p.sec.attrs.nobits = false := by
    intro p hp he
    obtain ⟨d, hd, hda, -⟩ := hdesc p hp
    rw [hda] at he ⊢
    exact (hf.exec d hd he).1
  refine ⟨⟨ph, hi, ?_⟩, hmo, ?_, ?_, ?_, hpx, ?_, ?_⟩
  · rintro hfs ⟨p, hp, hpe⟩
    cases ph with
    | true => rfl
    | false =>
      rw [hi.code hfs rfl p hp] at hpe
      cases hpe
  · rcases hsp.code with ⟨h0, -⟩ | h0
    · obtain ⟨p, hp, hpe⟩ := hhas d0 hd0m
      have : p ∈ st.placed.filter (fun p => p.sec.attrs.exec) := List.mem_filter.2 ⟨hp, by rw [hpe]; exact hd0e⟩
      rw [h0] at this
      cases this
    · exact h0
  · intro hd
    unfold hasData at hd
    rw [hl] at hd
    rcases hsp.data with ⟨h0, -⟩ | h0
    · obtain ⟨p, hp, hpe⟩ := hhas l hlm
      have : p ∈ st.placed.filter (fun p => !p.sec.attrs.exec) := List.mem_filter.2 ⟨hp, by rw [hpe]; exact hd⟩
      rw [h0] at this
      cases this
    · exact h0
  · intro hd p hp
    unfold hasData at hd
    rw [hl] at hd
    obtain ⟨d, hd', hda, -⟩ := hdesc p hp
    rw [hda]
    exact (getLast_before ds hso l hl d hd').1 (by simpa using hd)
  · intro hb p hp
    unfold bssLast at hb
    rw [hl] at hb
    obtain ⟨d, hd', hda, -⟩ := hdesc p hp
    rw [hda]
    cases hu' : c.useBss with
    | false => exact .inr hu'
    | true =>
      left
      simp only [hu', Bool.and_true] at hb
      cases hn : d.attrs.nobits with
      | false => rfl
      | true =>
        rw [(getLast_before ds hso l hl d hd').2 hn] at hb
        cases hb
  · intro hb
    unfold bssLast at hb
    rw [hl] at hb
    simp only [Bool.and_eq_true] at hb
    obtain ⟨hb1, hb2⟩ := hb
    have hfa : ∀ a : Attrs, FileA c a → a.nobits = false := by
      rintro a (h | h)
      · exact h
      · rw [hb2] at h
        cases h
    refine ⟨?_, ?_, ?_⟩
    · unfold hasData
      rw [hl]
      cases he : l.attrs.exec with
      | false => simp [he]
      | true =>
        rw [(hf.exec l hlm he).1] at hb1
        cases hb1
    · obtain ⟨p, hp, hpa⟩ := hhas l hlm
      refine ⟨p, hp, fun hx => ?_⟩
      have := hfa _ hx
      rw [hpa, hb1] at this
      cases this
    · have hlo := last_ok c ss ds news st.spans hbl hma hmn hso (by rw [← hpl]; exact hi.apart)
      cases hfi : (ds.zip st.spans).reverse.find? (fun x => !x.1.attrs.nobits) with
      | none =>
        rw [hfi] at hlo
        simp only at hlo
        obtain ⟨p, hp, hpe⟩ := hhas d0 hd0m
        have h1 := hlo p (by rw [← hpl]; exact hp)
        rw [hpe, (hf.exec d0 hd0m hd0e).1] at h1
        cases h1
      | some x =>
        obtain ⟨d, sp⟩ := x
        rw [hfi] at hlo
        simp only at hlo
        obtain ⟨-, k1, k2, ⟨q, hq, hqa, hqf⟩, k4⟩ := hlo
        refine ⟨d, sp.2, by unfold lastBits; rw [hfi]; rfl, ?_, ⟨q, by rw [hpl]; exact hq, by rw [hqa]; exact .inl k1, by rw [hqa], hqf⟩, ?_⟩
        · intro p hp hpf hps
          exact k2 p (by rw [← hpl]; exact hp) (hfa _ hpf) hps
        · intro hde p hp hpf
          exact k4 p (by rw [← hpl]; exact hp) (hfa _ hpf) hde

end Smlr.Exe
