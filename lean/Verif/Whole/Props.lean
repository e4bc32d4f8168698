import Verif.Whole.Lemmas
import Verif.Exe.Props
set_option autoImplicit false
namespace Smlr.Whole
open Smlr.Sect
open Smlr.Reloc (Sym)

/-- the address of a section, in a program that is laid out -/
def Env.place (v : Env) (i j : Nat) : Nat := (outOffset v.mods v.tab i j).getD 0

/-- what is known of the linker's state when sections are written -/
structure Ready (useBss : Bool) (org : Nat) (sort : List Desc → List Desc) (mods : List Module) (entry : Name) (v : Env) : Prop where
  same : v.mods = mods
  link : Link.link (mods.map interface) entry = .ok v.lk
  lay : layout (Exe.elfCfg useBss org) sort ((items v.lk.needed mods 0).map (·.s.sec)) = .ok (v.ds, v.st)
  tab : v.tab = (order v.ds (items v.lk.needed mods 0)).zip (v.st.placed.map Place.addr)
  sorts : Sorts sort
  wf : WF (Exe.elfCfg useBss org) ((items v.lk.needed mods 0).map (·.s.sec))
  uniform : Uniform (Exe.elfCfg useBss org) ((items v.lk.needed mods 0).map (·.s.sec))

section
variable {useBss : Bool} {org : Nat} {sort : List Desc → List Desc} {mods : List Module} {entry : Name} {v : Env}

theorem Ready.needed (h : Ready useBss org sort mods entry v) (i : Nat) : v.lk.needed i = true ↔ Needed mods entry i := (Link.c31_modules _ _ _ h.link).1 i

theorem Ready.secs (h : Ready useBss org sort mods entry v) : v.st.placed.map Place.sec = (order v.ds (items v.lk.needed mods 0)).map (·.s.sec) :=
  placed_map (·.s.sec) (Exe.elfCfg useBss org) (by intro h; cases h) sort _ (fun _ _ => rfl) v.ds v.st h.sorts h.wf h.uniform h.lay

theorem Ready.len (h : Ready useBss org sort mods entry v) : (order v.ds (items v.lk.needed mods 0)).length = (v.st.placed.map Place.addr).length := by
  have := congrArg List.length h.secs
  simpa using this.symm

/-- the sections of the program are those that are placed -/
theorem Ready.part (h : Ready useBss org sort mods entry v) (i j : Nat) (s : MSec) :
    Part mods entry i j s ↔ (⟨i, j, s⟩ : Item) ∈ order v.ds (items v.lk.needed mods 0) := by
  obtain ⟨hf, -⟩ := layout_ok _ _ _ _ _ h.sorts h.wf h.uniform h.lay
  rw [mem_order, mem_items]
  simp only [Nat.sub_zero, Nat.zero_le, true_and]
  rw [h.needed]
  unfold Part
  constructor
  · rintro ⟨h1, h2, h3⟩
    refine ⟨⟨h1, h2⟩, ?_⟩
    have hm : s.sec ∈ (items v.lk.needed mods 0).map (·.s.sec) :=
      List.mem_map.2 ⟨⟨i, j, s⟩, (mem_items _ _ _ _).2 ⟨Nat.zero_le _, (h.needed i).2 h1, by simpa using h2⟩, rfl⟩
    obtain ⟨d, hd, hn, -⟩ := hf.all _ hm h3
    exact ⟨d, hd, hn⟩
  · rintro ⟨⟨h1, h2⟩, d, hd, hn⟩
    refine ⟨h1, h2, ?_⟩
    have hm : s.sec ∈ (items v.lk.needed mods 0).map (·.s.sec) :=
      List.mem_map.2 ⟨⟨i, j, s⟩, (mem_items _ _ _ _).2 ⟨Nat.zero_le _, (h.needed i).2 h1, by simpa using h2⟩, rfl⟩
    rcases hf.only d hd with ⟨s', hs', ha, hn', -⟩ | ⟨u, -⟩
    · exact h.uniform.1 s' hs' s.sec hm (by rw [hn', hn]) ha
    · cases u

/-- the entry of the table for a section of the program -/
theorem Ready.at (h : Ready useBss org sort mods entry v) (i j : Nat) (s : MSec) (hp : Part mods entry i j s) :
    outOffset v.mods v.tab i j = some (v.place i j) ∧ ((⟨i, j, s⟩ : Item), v.place i j) ∈ (order v.ds (items v.lk.needed mods 0)).zip (v.st.placed.map Place.addr) := by
  obtain ⟨a, h1, h2⟩ := outOffset_placed v.lk.needed mods v.ds _ h.len ⟨i, j, s⟩ ((h.part i j s).1 hp)
  have e : outOffset v.mods v.tab i j = some a := by rw [h.same, h.tab]; exact h1
  have e' : v.place i j = a := by unfold Env.place; rw [e]; rfl
  rw [e']
  exact ⟨e, h2⟩

/-- each placed section is one of the program -/
theorem Ready.placed (h : Ready useBss org sort mods entry v) (p : Place) (hp : p ∈ v.st.placed) :
    ∃ i j s, Part mods entry i j s ∧ p.sec = s.sec ∧ p.addr = v.place i j := by
  obtain ⟨⟨i, j, s⟩, hx, hs⟩ := place_zip (·.s.sec) _ _ h.secs p hp
  have hpart := (h.part i j s).2 (List.of_mem_zip hx).1
  obtain ⟨hf, -⟩ := layout_ok _ _ _ _ _ h.sorts h.wf h.uniform h.lay
  exact ⟨i, j, s, hpart, hs, zip_fun _ _ (nodup_order _ _ hf.nodup (nodup_items _ _ _)) _ _ _ hx (h.at i j s hpart).2⟩

theorem Ready.place (h : Ready useBss org sort mods entry v) (i j : Nat) (s : MSec) (hp : Part mods entry i j s) : ∃ p ∈ v.st.placed, p.sec = s.sec ∧ p.addr = v.place i j :=
  zip_place (·.s.sec) _ _ h.secs _ _ (h.at i j s hp).2

/-! ### boundaries -/

theorem least (P : Nat → Prop) (n : Nat) (h : P n) : ∃ i, i ≤ n ∧ P i ∧ ∀ j, j < i → ¬ P j := by
  induction n using Nat.strongRecOn with
  | ind n ih =>
    by_cases hex : ∃ m, m < n ∧ P m
    · obtain ⟨m, hm, hp⟩ := hex
      obtain ⟨i, h1, h2, h3⟩ := ih m hm hp
      exact ⟨i, by omega, h2, h3⟩
    · exact ⟨n, Nat.le_refl _, h, fun j hj hp => hex ⟨j, hj, hp⟩⟩

/-- no dots in the name that is matched: then the names are equal -/
theorem matches_eq (x m : Name) (hd : ∀ b ∈ m, b ≠ 0x2E) (h : Matches x m) : x = m := by
  obtain ⟨h1, h2⟩ := h
  apply List.ext_getElem h1
  intro i hi hi'
  rcases h2 i hi hi' with h | ⟨-, h⟩
  · exact h
  · exact absurd h (hd _ (List.getElem_mem _))

/-- what a boundary symbol delimits -/
theorem Ready.delimits (h : Ready useBss org sort mods entry v) (x : Name) (hx : x ≠ []) (stop : Bool) (a : Nat)
    (hb : boundary v.ds v.st ((if stop then str "__stop_" else str "__start_") ++ x) = .ok a) :
    ∃ P : Sec → Bool, Delimits v.ds v.st x (fun p => P p.sec) ∧ Stands mods entry x (fun s => P s.sec = true) := by
  obtain ⟨hf, -⟩ := layout_ok _ _ _ _ _ h.sorts h.wf h.uniform h.lay
  have hmiss := c42_missing _ sort _ v.ds v.st h.sorts h.wf h.uniform h.lay x hx stop
  by_cases hd : ∃ k, ∃ hk : k < v.ds.length, Matches x v.ds[k].name
  · obtain ⟨k, hk⟩ := hd
    obtain ⟨i, -, ⟨hi, hm⟩, hfirst⟩ := least (fun k => ∃ hk : k < v.ds.length, Matches x v.ds[k].name) k hk
    refine ⟨fun s => s.name = v.ds[i].name, ?_, .inl ⟨_, hm, fun s => by simp⟩⟩
    exact c42_section _ sort _ v.ds v.st h.sorts h.wf h.uniform h.lay x i hi hm (fun j hj hji hmj => hfirst j hji ⟨hj, hmj⟩)
  · have hno : ∀ d ∈ v.ds, ¬ Matches x d.name := by
      intro d hdm hm
      obtain ⟨k, hk, rfl⟩ := List.getElem_of_mem hdm
      exact hd ⟨k, hk, hm⟩
    have hno' : ∀ i j s, Part mods entry i j s → ¬ Matches x s.sec.name := by
      intro i j s hp hm
      obtain ⟨-, d, hdm, hn⟩ := (mem_order _ _ _).1 ((h.part i j s).1 hp)
      exact hno d hdm (by rw [hn]; exact hm)
    by_cases hc : Matches x (str "allcode__")
    · have e := matches_eq _ _ (by decide) hc
      refine ⟨fun s => s.attrs.exec, ?_, .inr ⟨hno', .inl ⟨e, fun s => Iff.rfl⟩⟩⟩
      rw [e] at hno ⊢
      exact c42_code _ sort _ v.ds v.st h.sorts h.wf h.uniform h.lay hno
    · by_cases hdd : HasData v.ds ∧ Matches x (str "alldata__")
      · have e := matches_eq _ _ (by decide) hdd.2
        refine ⟨fun s => !s.attrs.exec, ?_, .inr ⟨hno', .inr ⟨e, fun s => by simp⟩⟩⟩
        rw [e] at hno ⊢
        exact c42_data _ sort _ v.ds v.st h.sorts h.wf h.uniform h.lay hdd.1 hno
      · exfalso
        rw [hmiss.2 ⟨hno, hc, fun h1 h2 => hdd ⟨h1, h2⟩⟩] at hb
        cases hb

theorem Ready.marks (h : Ready useBss org sort mods entry v) (n : Name) (hn : Link.Special n) (a : Nat) (hb : boundary v.ds v.st n = .ok a) :
    Marks mods entry v.place n a := by
  obtain ⟨x, hx, hn⟩ := hn
  rcases hn with rfl | rfl
  · obtain ⟨P, ⟨sp, ⟨hs1, ⟨p, hp, hp2⟩, -⟩, hs2, -⟩, hst⟩ := h.delimits x hx false a hb
    have e : sp.1 = a := by
      have := hs2.symm.trans hb
      cases this
      rfl
    refine ⟨x, fun s => P s.sec = true, hx, hst, .inl ⟨rfl, ?_, ?_⟩⟩
    · intro i j s hpart hP
      obtain ⟨q, hq, h1, h2⟩ := h.place i j s hpart
      rw [← e, ← h2]
      exact (hs1 q (List.mem_filter.2 ⟨hq, by simp only [h1]; exact hP⟩)).1
    · obtain ⟨hp0, hpP⟩ := List.mem_filter.1 hp
      obtain ⟨i, j, s, hpart, h1, h2⟩ := h.placed p hp0
      simp only [h1] at hpP
      exact ⟨i, j, s, hpart, hpP, by rw [← h2, hp2, e]⟩
  · obtain ⟨P, ⟨sp, ⟨hs1, -, ⟨p, hp, hp2⟩⟩, -, hs2⟩, hst⟩ := h.delimits x hx true a hb
    have e : sp.2 = a := by
      have := hs2.symm.trans hb
      cases this
      rfl
    refine ⟨x, fun s => P s.sec = true, hx, hst, .inr ⟨rfl, ?_, ?_⟩⟩
    · intro i j s hpart hP
      obtain ⟨q, hq, h1, h2⟩ := h.place i j s hpart
      rw [← e, ← h2, ← h1]
      exact (hs1 q (List.mem_filter.2 ⟨hq, by simp only [h1]; exact hP⟩)).2
    · obtain ⟨hp0, hpP⟩ := List.mem_filter.1 hp
      obtain ⟨i, j, s, hpart, h1, h2⟩ := h.placed p hp0
      simp only [h1] at hpP
      exact ⟨i, j, s, hpart, hpP, by rw [← h2, ← h1, hp2, e]⟩

/-! ### symbols -/

theorem symbolIn_some (needed : Nat → Bool) (n : Name) (mods : List Module) (hn : ∀ m ∈ mods, m.nloc ≤ m.syms.length) (i k : Nat) (s : Sym) (h : symbolIn needed n mods i = some (k, s)) :
    needed k = true ∧ i ≤ k ∧ ∃ m, mods[k - i]? = some m ∧ s ∈ m.syms.drop m.nloc ∧ Global s ∧ s.shndx ≠ 0 ∧ m.strs s.name = n := by
  induction mods generalizing i with
  | nil => cases h
  | cons m ms ih =>
    have hrec : symbolIn needed n ms (i + 1) = some (k, s) →
        needed k = true ∧ i ≤ k ∧ ∃ m', (m :: ms)[k - i]? = some m' ∧ s ∈ m'.syms.drop m'.nloc ∧ Global s ∧ s.shndx ≠ 0 ∧ m'.strs s.name = n := by
      intro h
      obtain ⟨h1, h2, m', h3, h4⟩ := ih (fun m hm => hn m (by simp [hm])) (i + 1) h
      refine ⟨h1, by omega, m', ?_, h4⟩
      rw [show k - i = (k - (i + 1)) + 1 by omega, List.getElem?_cons_succ]
      exact h3
    unfold symbolIn at h
    split at h
    · rename_i hni
      cases hf : (globals m).find? (fun s => exported s && m.strs s.name = n) with
      | none => rw [hf] at h; exact hrec h
      | some s' =>
        rw [hf] at h
        cases h
        have hm := List.mem_of_find?_eq_some hf
        have hp := List.find?_some hf
        rw [Bool.and_eq_true, decide_eq_true_eq, exported_iff] at hp
        rw [globals_eq m (hn m (by simp))] at hm
        exact ⟨hni, Nat.le_refl _, m, by simp, hm, hp.1.1, hp.1.2, hp.2⟩
    · exact hrec h

theorem symbolIn_none (needed : Nat → Bool) (n : Name) (mods : List Module) (hn : ∀ m ∈ mods, m.nloc ≤ m.syms.length) (i : Nat) (h : symbolIn needed n mods i = none) (k : Nat) (m : Module)
    (hk : mods[k]? = some m) (hnk : needed (i + k) = true) : ¬ Link.Exports (interface m) n := by
  induction mods generalizing i k with
  | nil => simp at hk
  | cons m' ms ih =>
    unfold symbolIn at h
    cases k with
    | zero =>
      simp only [List.getElem?_cons_zero, Option.some.injEq] at hk
      subst hk
      rw [Nat.add_zero] at hnk
      rw [if_pos hnk] at h
      rintro ⟨a, ha⟩
      obtain ⟨s, hs, he⟩ := List.mem_map.1 ha
      obtain ⟨h1, h2⟩ := List.mem_filter.1 hs
      cases hf : (globals m').find? (fun s => exported s && m'.strs s.name = n) with
      | some s' => rw [hf] at h; cases h
      | none =>
        have := List.find?_eq_none.1 hf s (by rw [globals_eq m' (hn m' (by simp))]; exact h1)
        apply this
        rw [Bool.and_eq_true, decide_eq_true_eq, exported_iff]
        exact ⟨by simpa using h2, (Prod.mk.inj he).1⟩
    | succ k =>
      rw [List.getElem?_cons_succ] at hk
      have h' : symbolIn needed n ms (i + 1) = none := by
        split at h
        · split at h
          · cases h
          · exact h
        · exact h
      exact ih (fun m hm => hn m (by simp [hm])) (i + 1) h' k hk (by rw [show i + 1 + k = i + (k + 1) by omega]; exact hnk)

/-- the value of a name that the program uses -/
theorem Ready.address (h : Ready useBss org sort mods entry v) (hn : ∀ m ∈ mods, m.nloc ≤ m.syms.length) (n : Name) (a : Nat)
    (hr : Link.Refers (mods.map interface) entry n ∨ ∃ i m, Needed mods entry i ∧ mods[i]? = some m ∧ Link.Exports (interface m) n) (ha : address v n = .ok a) :
    Names mods entry v.place n a := by
  obtain ⟨h1, h2, h3⟩ := Link.c31_modules _ _ _ h.link
  have hdef : (∃ i m, Needed mods entry i ∧ mods[i]? = some m ∧ Link.Exports (interface m) n) → Link.Defined (mods.map interface) n := by
    rintro ⟨i, m, -, hm, he⟩
    exact ⟨interface m, List.mem_map.2 ⟨m, List.mem_of_getElem? hm, rfl⟩, he⟩
  unfold Whole.address at ha
  split at ha
  · rename_i hd
    have hd : n ∈ v.lk.deferred := by simpa using hd
    obtain ⟨hr', hnd⟩ := h3 n hd
    have hsp : Link.Special n := by
      rcases h2 n hr' with ⟨i, ⟨hi, he, -⟩, -⟩ | ⟨-, hs, -⟩
      · exact absurd ⟨_, List.getElem_mem _, he⟩ hnd
      · exact hs
    cases hb : boundary v.ds v.st n with
    | error e => rw [hb] at ha; cases ha
    | ok b =>
      rw [hb] at ha
      cases ha
      exact .marks _ hnd (h.marks n hsp _ hb)
  · rename_i hd
    have hd : n ∉ v.lk.deferred := by simpa using hd
    cases hs : symbolIn v.lk.needed n v.mods 0 with
    | none =>
      exfalso
      rw [h.same] at hs
      have hex : ∃ i m, Needed mods entry i ∧ mods[i]? = some m ∧ Link.Exports (interface m) n := by
        rcases hr with hr | hr
        · rcases h2 n hr with ⟨i, ⟨hi, he, -⟩, hni⟩ | ⟨-, -, hd'⟩
          · rw [List.length_map] at hi
            refine ⟨i, mods[i], (h1 i).1 hni, List.getElem?_eq_getElem hi, ?_⟩
            rw [List.getElem_map] at he
            exact he
          · exact absurd hd' hd
        · exact hr
      obtain ⟨i, m, hi, hm, he⟩ := hex
      exact symbolIn_none v.lk.needed n mods hn 0 hs i m hm (by rw [Nat.zero_add]; exact (h1 i).2 hi) he
    | some x =>
      obtain ⟨k, s⟩ := x
      rw [hs] at ha
      simp only at ha
      rw [h.same] at hs
      obtain ⟨g1, -, m, g2, g3, g4, g5, g6⟩ := symbolIn_some v.lk.needed n mods hn 0 k s hs
      split at ha
      · cases ha
      · cases ho : outOffset v.mods v.tab k s.shndx with
        | none => rw [ho] at ha; cases ha
        | some b =>
          rw [ho] at ha
          cases ha
          have e : v.place k s.shndx = b := by unfold Env.place; rw [ho]; rfl
          rw [← e]
          exact .defined k m s ((h1 k).1 g1) g2 g3 g4 g5 g6

/-- the value of the symbol of a relocation -/
theorem Ready.resolve (h : Ready useBss org sort mods entry v) (hn : ∀ m ∈ mods, m.nloc ≤ m.syms.length) (i : Nat) (m : Module) (hi : Needed mods entry i) (hm : mods[i]? = some m)
    (k : Nat) (hk : k < m.syms.length) (a : Nat) (ha : resolve v m i k = .ok a) : Value mods entry v.place i m k a := by
  have hnl := hn m (List.mem_of_getElem? hm)
  unfold Whole.resolve at ha
  split at ha
  · rename_i h0
    cases ha
    rw [h0]
    exact .none
  · rename_i h0
    cases hl : Reloc.lookup m.nloc (Reloc.compact m.nloc m.syms) k with
    | error e => rw [hl] at ha; cases ha
    | ok s =>
      rw [hl] at ha
      simp only at ha
      rw [Reloc.compact_spec _ _ hnl] at hl
      unfold Reloc.lookup at hl
      have hsec : s.isSection = true → outOffset v.mods v.tab i s.shndx = some a := by
        intro hs
        rw [if_pos hs] at ha
        cases ho : outOffset v.mods v.tab i s.shndx with
        | none => rw [ho] at ha; cases ha
        | some b => rw [ho] at ha; cases ha; rfl
      split at hl
      · rename_i hge
        have hge : m.nloc ≤ k := hge
        have e : (Reloc.sections (m.syms.take m.nloc) 0 ++ m.syms.drop m.nloc)[k - m.nloc + (Reloc.sections (m.syms.take m.nloc) 0).length]? = m.syms[k]? := by
          rw [List.getElem?_append_right (by omega), Nat.add_sub_cancel, List.getElem?_drop]
          congr 1
          omega
        simp only [e] at hl
        cases hsk : m.syms[k]? with
        | none => rw [hsk] at hl; cases hl
        | some s' =>
          rw [hsk] at hl
          cases hl
          by_cases hs : s.isSection = true
          · have hp : v.place i s.shndx = a := by unfold Env.place; rw [hsec hs]; rfl
            rw [← hp]
            exact .sect k s hsk (by simpa [Reloc.Sym.isSection] using hs)
          · rw [if_neg hs] at ha
            split at ha
            · rename_i hg
              have hgl : Global s := by simpa [Global, Reloc.Sym.isGlobal] using hg
              have hmem : s ∈ m.syms.drop m.nloc := by
                apply List.mem_of_getElem? (i := k - m.nloc)
                rw [List.getElem?_drop, show m.nloc + (k - m.nloc) = k by omega]
                exact hsk
              refine .name k s a hsk (by simpa [Reloc.Sym.isSection] using hs) hgl (h.address hn _ _ ?_ ha)
              by_cases hz : s.shndx = 0
              · left; right
                have hil : i < mods.length := (List.getElem?_eq_some_iff.1 hm).1
                have hge : mods[i] = m := (List.getElem?_eq_some_iff.1 hm).2
                refine ⟨i, by simpa using hil, hi, ?_⟩
                rw [List.getElem_map, hge]
                exact List.mem_map.2 ⟨s, List.mem_filter.2 ⟨hmem, by simpa using ⟨hgl, hz⟩⟩, rfl⟩
              · right
                exact ⟨i, m, hi, hm, 0, List.mem_map.2 ⟨s, List.mem_filter.2 ⟨hmem, by simpa using ⟨hgl, hz⟩⟩, rfl⟩⟩
            · cases ha
      · rename_i hlt
        have hlt : k < m.nloc := by omega
        rw [Reloc.findLocal_sections] at hl
        rw [dif_pos ⟨Nat.zero_le _, by rw [List.length_take]; omega⟩] at hl
        simp only [Nat.sub_zero, List.getElem_take] at hl
        split at hl
        · rename_i s' hs'
          cases hl
          split at hs'
          · rename_i hcond
            cases hs'
            rw [Bool.and_eq_true] at hcond
            have hp : v.place i m.syms[k].shndx = a := by unfold Env.place; rw [hsec hcond.1]; rfl
            rw [← hp]
            exact .sect k m.syms[k] (List.getElem?_eq_getElem hk) (by simpa [Reloc.Sym.isSection] using hcond.1)
          · cases hs'
        · cases hl

/-! ### contents -/

theorem Ready.final (h : Ready useBss org sort mods entry v) (hin : Inputs mods entry) (sortRel : List RawRel → List RawRel) (hr : SortsRel sortRel) (i j : Nat) (s : MSec) (m : Module)
    (hp : Part mods entry i j s) (hm : mods[i]? = some m) (s' : Sec) (he : patch v sortRel ⟨i, j, s⟩ = .ok s') : Final mods entry v.place i m (v.place i j) s (contents s') := by
  obtain ⟨hneed, hhas, halloc⟩ := hp
  have hp : Part mods entry i j s := ⟨hneed, hhas, halloc⟩
  unfold patch at he
  simp only at he
  cases hnb : s.sec.attrs.nobits with
  | true =>
    rw [hnb, Bool.true_or, if_pos rfl] at he
    cases he
    have e : contents s.sec = List.replicate s.sec.size 0 := by unfold contents; rw [hnb]; rfl
    rw [e]
    exact ⟨List.length_replicate, fun _ b hb => List.eq_of_mem_replicate hb, (fun h => by rw [hnb] at h; cases h), (fun h => by rw [hnb] at h; cases h)⟩
  | false =>
    obtain ⟨-, d, hd, hdn⟩ := (mem_order _ _ _).1 ((h.part i j s).1 hp)
    have hany : v.ds.any (fun d => d.name = s.sec.name) = true := List.any_eq_true.2 ⟨d, hd, by simpa using hdn⟩
    rw [hnb, hany, if_neg (by decide), h.same, hm] at he
    have hout := (h.at i j s hp).1
    rw [h.same] at hout
    rw [hout] at he
    simp only at he
    cases hres : resolveAll v m i (sortRel s.rels) with
    | error e => rw [hres] at he; cases he
    | ok rels =>
      rw [hres] at he
      simp only at he
      obtain ⟨g1, g2, g3⟩ := resolveAll_ok v m i _ rels hres
      obtain ⟨hdata, hsmall⟩ := hin.data i j s hhas hnb
      have hperm := (hr s.rels).1
      have hins : ∀ r ∈ rels, Reloc.Inside s.sec.data.length r := by
        intro q hq
        obtain ⟨r, hr', e1, e2⟩ := g3 q hq
        obtain ⟨-, w, hw, hle⟩ := hin.rels i m j s hm hhas r (hperm.mem_iff.1 hr')
        exact ⟨w, by rw [e2]; exact hw, by rw [e1, hdata]; exact hle⟩
      have hap : rels.Pairwise Reloc.Apart := apart_of sortRel hr s.rels (hin.clear i j s hhas)
        (fun r hr' => by obtain ⟨-, w, hw, -⟩ := hin.rels i m j s hm hhas r hr'; exact ⟨w, hw⟩) rels g1
      obtain ⟨t, ht, hpat⟩ := Reloc.c29_bytes (v.place i j) s.sec.data [] rels (by rw [hdata]; exact hsmall) hins hap
      rw [List.append_nil, hdata] at ht
      rw [ht] at he
      cases he
      have e : contents { s.sec with data := t } = t := by unfold contents; simp only [hnb]; rfl
      rw [e]
      refine ⟨by rw [hpat.length, hdata], (fun h => by rw [hnb] at h; cases h), ?_, ?_⟩
      · intro _ r hr' w hw
        obtain ⟨a, ha, hmem⟩ := g2 r (hperm.mem_iff.2 hr')
        exact ⟨a, h.resolve hin.nloc i m hneed hm r.sym (hin.rels i m j s hm hhas r hr').1 a ha, hpat.fields _ hmem w hw⟩
      · intro _ k hk
        apply hpat.others k
        intro q hq w hw
        obtain ⟨r, hr', e1, e2⟩ := g3 q hq
        rw [e1]
        exact hk r (hperm.mem_iff.1 hr') w (by rw [← e2]; exact hw)

end

theorem patched_name (v : Env) (sortRel : List RawRel → List RawRel) (x : Item) (h : patch v sortRel x = .ok (patched v sortRel x)) : (patched v sortRel x).name = x.s.sec.name :=
  (patch_shape v sortRel x _ h).name.symm

/-- **C54.** The ELF file that the linker makes of modules is loaded as the program that they make up: each section of each module that is needed, and of no other, stands in memory at an
address of its own, aligned as it asks for, with each of its relocated fields fixed by the value of the symbol that the field is for, wherever that symbol is defined; and execution starts
at the value of the entry point. -/
theorem c54_elf (useBss : Bool) (org : Nat) (sort : List Desc → List Desc) (sortRel : List RawRel → List RawRel) (mods : List Module) (entry : Name) (file : Bytes)
    (hs : Sorts sort) (hr : SortsRel sortRel) (hin : Inputs mods entry) (hor : org < 2 ^ 32) (h : linkElf useBss org sort sortRel mods entry = .ok file) :
    ∃ img place, Exe.loadElf file = some img ∧ Exe.Separate img.segs ∧ Names mods entry place entry img.entry ∧
      (∀ i j s m, Part mods entry i j s → mods[i]? = some m → ∃ t, Final mods entry place i m (place i j) s t ∧
        ∃ seg ∈ img.segs, seg.Holds (place i j) t ∧ seg.r = true ∧ seg.x = s.sec.attrs.exec ∧ seg.w = !s.sec.attrs.exec) ∧
      (∀ i j s, Part mods entry i j s → s.sec.align ∣ place i j ∨ s.sec.align = 0) ∧
      (∀ i j s i' j' s', Part mods entry i j s → Part mods entry i' j' s' → (i, j) ≠ (i', j') →
        place i j + s.sec.size ≤ place i' j' ∨ place i' j' + s'.sec.size ≤ place i j) := by
  unfold linkElf at h
  rw [objs_eq mods hin.nloc] at h
  cases hl : Link.link (mods.map interface) entry with
  | error e => rw [hl] at h; cases h
  | ok lk =>
    rw [hl] at h
    simp only at h
    cases hlay : layout (Exe.elfCfg useBss org) sort ((items lk.needed mods 0).map (·.s.sec)) with
    | error e => rw [hlay] at h; cases h
    | ok x =>
      obtain ⟨ds, st⟩ := x
      rw [hlay] at h
      simp only at h
      split at h
      · cases h
      · obtain ⟨v, hv⟩ : ∃ v : Env, v = ⟨mods, lk, ds, st, (order ds (items lk.needed mods 0)).zip (st.placed.map Place.addr)⟩ := ⟨_, rfl⟩
        rw [← hv] at h
        cases hpa : patchAll v sortRel (items lk.needed mods 0) with
        | error e => rw [hpa] at h; cases h
        | ok ss =>
          rw [hpa] at h
          simp only at h
          cases had : address v entry with
          | error e => rw [had] at h; cases h
          | ok e =>
            rw [had] at h
            simp only at h
            cases hrw : Exe.rwElf useBss org sort ss (fun _ _ => .ok (UInt32.ofNat e)) with
            | error e => rw [hrw] at h; cases h
            | ok f =>
              rw [hrw] at h
              cases h
              have hneed := (Link.c31_modules _ _ _ hl).1
              -- the sections as they are read
              have hobj : Exe.Objects ((items lk.needed mods 0).map (·.s.sec)) := by
                constructor
                · intro s hs
                  obtain ⟨x, hx, rfl⟩ := List.mem_map.1 hs
                  obtain ⟨-, h2, h3⟩ := (mem_items _ _ _ _).1 hx
                  rw [Nat.sub_zero] at h3
                  exact ⟨(hin.sizes _ _ _ h3).1, (hin.sizes _ _ _ h3).2, fun hnb => (hin.data _ _ _ h3 hnb).1⟩
                · intro s hs t ht hn ha
                  obtain ⟨x, hx, rfl⟩ := List.mem_map.1 hs
                  obtain ⟨y, hy, rfl⟩ := List.mem_map.1 ht
                  obtain ⟨-, h2, h3⟩ := (mem_items _ _ _ _).1 hx
                  obtain ⟨-, h4, h5⟩ := (mem_items _ _ _ _).1 hy
                  rw [Nat.sub_zero] at h3 h5
                  exact hin.alloc _ _ _ _ _ _ ((hneed _).1 h2) h3 ((hneed _).1 h4) h5 hn ha
              have horg : (Exe.elfCfg useBss org).origin < 2 ^ 32 := by
                unfold Exe.rwElf at hrw
                split at hrw
                · cases hrw
                · rename_i hb
                  show Exe.elfBase org + 4096 < 2 ^ 32
                  omega
              have hwf : ∀ ss, Exe.Objects ss → WF (Exe.elfCfg useBss org) ss := fun ss ho => ⟨horg, (by intro h; cases h), (show 0 < 2 ^ 32 by decide), ho.sizes⟩
              have hun : ∀ ss, Exe.Objects ss → Uniform (Exe.elfCfg useBss org) ss := fun ss ho => ⟨ho.alloc, (by intro h; cases h)⟩
              have hR : Ready useBss org sort mods entry v := by
                subst hv
                exact ⟨rfl, hl, hlay, rfl, hs, hwf _ hobj, hun _ hobj⟩
              have hvm : v.lk = lk ∧ v.ds = ds ∧ v.st = st := by subst hv; exact ⟨rfl, rfl, rfl⟩
              obtain ⟨hv1, hv2, hv3⟩ := hvm
              -- the sections as they are written
              obtain ⟨hss, hpok⟩ := patchAll_ok v sortRel _ ss hpa
              have hshape : ∀ x ∈ items lk.needed mods 0, Shape x.s.sec (patched v sortRel x) := fun x hx => patch_shape v sortRel x _ (hpok x hx)
              have hdl : ∀ x ∈ items lk.needed mods 0, (patched v sortRel x).attrs.nobits = false → (patched v sortRel x).data.length = (patched v sortRel x).size := by
                intro x hx hnb
                have hsh := hshape x hx
                obtain ⟨-, h2, h3⟩ := (mem_items _ _ _ _).1 hx
                rw [Nat.sub_zero] at h3
                rw [← hsh.attrs] at hnb
                by_cases hal : x.s.sec.alloc = true
                · obtain ⟨m, hm, hms⟩ := h3
                  have hfin := hR.final hin sortRel hr x.file x.idx x.s m ⟨(hneed _).1 h2, ⟨m, hm, hms⟩, hal⟩ hm _ (hpok x hx)
                  have := hfin.length
                  have e : contents (patched v sortRel x) = (patched v sortRel x).data := by unfold contents; rw [← hsh.attrs, hnb]; rfl
                  rw [e] at this
                  rw [this, hsh.size]
                · have hno : v.ds.any (fun d => d.name = x.s.sec.name) = false := by
                    rw [Bool.eq_false_iff]
                    intro hany
                    obtain ⟨d, hd, hdn⟩ := List.any_eq_true.1 hany
                    apply hal
                    have := (hR.part x.file x.idx x.s).2 ((mem_order _ _ _).2 ⟨by rw [hv1]; exact hx, d, hd, by simpa using hdn⟩)
                    exact this.2.2
                  have e := hpok x hx
                  unfold patch at e
                  rw [hno] at e
                  simp only [Bool.not_false, Bool.or_true, if_true, Except.ok.injEq] at e
                  rw [← e]
                  exact (hin.data _ _ _ h3 hnb).1
              have hobj' : Exe.Objects ss := by
                rw [hss]
                constructor
                · intro s hs'
                  obtain ⟨x, hx, rfl⟩ := List.mem_map.1 hs'
                  have hsh := hshape x hx
                  obtain ⟨o1, o2, -⟩ := hobj.sizes x.s.sec (List.mem_map.2 ⟨x, hx, rfl⟩)
                  exact ⟨by rw [← hsh.size]; exact o1, by rw [← hsh.align]; exact o2, hdl x hx⟩
                · intro s hs' t ht hn ha
                  obtain ⟨x, hx, rfl⟩ := List.mem_map.1 hs'
                  obtain ⟨y, hy, rfl⟩ := List.mem_map.1 ht
                  have hsx := hshape x hx
                  have hsy := hshape y hy
                  rw [← hsy.alloc]
                  exact hobj.alloc _ (List.mem_map.2 ⟨x, hx, rfl⟩) _ (List.mem_map.2 ⟨y, hy, rfl⟩) (by rw [hsx.name, hsy.name]; exact hn) (by rw [hsx.alloc]; exact ha)
              obtain ⟨ds', st', e', img, c1, c2, c3, c4, c5, c6⟩ := Exe.c53_elf useBss org sort ss _ file hs hobj' hor hrw
              rw [hss] at c1 hobj'
              obtain ⟨hds, hsame⟩ := layout_shape _ sort (·.s.sec) (patched v sortRel) _ hshape ds ds' st st' hlay c1
              subst hds
              have hsecs' := placed_map (patched v sortRel) (Exe.elfCfg useBss org) (by intro h; cases h) sort _ (fun x hx => (hshape x hx).name.symm) ds' st' hs (hwf _ hobj') (hun _ hobj') c1
              have hat : ∀ i j s, Part mods entry i j s → ((⟨i, j, s⟩ : Item), v.place i j) ∈ (order ds' (items lk.needed mods 0)).zip (st'.placed.map Place.addr) := by
                intro i j s hp
                have := (hR.at i j s hp).2
                rw [hv1, hv2, hv3, hsame.addrs] at this
                exact this
              have hitem : ∀ i j s, Part mods entry i j s → (⟨i, j, s⟩ : Item) ∈ items lk.needed mods 0 := by
                intro i j s hp
                exact ((mem_order _ _ _).1 (List.of_mem_zip (hat i j s hp)).1).1
              refine ⟨img, v.place, c3, c5, ?_, ?_, ?_, ?_⟩
              · cases c2
                rw [c4]
                have hnm := hR.address hin.nloc entry e (.inl (.inl rfl)) had
                have hfit : ∀ i j s, Part mods entry i j s → v.place i j + s.sec.size < 2 ^ 32 := by
                  intro i j s hp
                  obtain ⟨p, hpm, hp1, hp2⟩ := hR.place i j s hp
                  rw [← hp1, ← hp2]
                  exact ((c32_disjoint _ sort _ ds' st hs (hwf _ hobj) (hun _ hobj) hlay).2 p (by rw [← hv3]; exact hpm)).1
                have hlt : e < 2 ^ 32 := by
                  cases hnm with
                  | defined => exact Nat.mod_lt _ (by decide)
                  | marks a _ hma =>
                    obtain ⟨x, P, -, -, ⟨-, -, i, j, s, hp, -, he⟩ | ⟨-, -, i, j, s, hp, -, he⟩⟩ := hma
                    · have := hfit i j s hp
                      omega
                    · have := hfit i j s hp
                      omega
                rw [UInt32.toNat_ofNat_of_lt' (by exact hlt)]
                exact hnm
              · intro i j s m hp hm
                obtain ⟨p, hpm, hp1, hp2⟩ := zip_place (patched v sortRel) _ _ hsecs' _ _ (hat i j s hp)
                obtain ⟨seg, hseg, d1, d2, d3, d4⟩ := c6 p hpm
                have hsh := hshape _ (hitem i j s hp)
                rw [hp1, hp2] at d1
                rw [hp1, ← hsh.attrs] at d3 d4
                exact ⟨_, hR.final hin sortRel hr i j s m hp hm _ (hpok _ (hitem i j s hp)), seg, hseg, d1, d2, d3, d4⟩
              · intro i j s hp
                obtain ⟨p, hpm, hp1, hp2⟩ := hR.place i j s hp
                have := c32_aligned _ sort _ ds' st hs (hwf _ hobj) (hun _ hobj) hlay p (by rw [← hv3]; exact hpm)
                unfold Aligned at this
                rw [if_neg (by rintro ⟨h | h | h, -⟩ <;> cases h), if_neg (by rintro ⟨h, -⟩; cases h), hp1, hp2] at this
                exact this
              · intro i j s i' j' s' hp hp' hne
                obtain ⟨hpw, -⟩ := c32_disjoint _ sort _ ds' st hs (hwf _ hobj) (hun _ hobj) hlay
                have hsec : st.placed.map Place.sec = (order ds' (items lk.needed mods 0)).map (·.s.sec) := by have := hR.secs; rw [hv1, hv2, hv3] at this; exact this
                have ha := (hR.at i j s hp).2
                have hb := (hR.at i' j' s' hp').2
                rw [hv1, hv2, hv3] at ha hb
                obtain ⟨p, q, p1, p2, q1, q2, hpq⟩ := zip_pair (·.s.sec) _ _ _ hsec hpw _ _ _ _ (fun h => hne (by cases h; rfl)) ha hb
                have hss : ∀ a b, SameSegment (Exe.elfCfg useBss org) a b := fun a b h => by cases h
                rw [← p2, ← q2]
                have e1 : s.sec.size = p.sec.size := by rw [p1]
                have e2 : s'.sec.size = q.sec.size := by rw [q1]
                rw [e1, e2]
                rcases hpq with h | h
                · exact .inl (h (hss _ _))
                · exact .inr (h (hss _ _))

/-! ### examples -/

def rsort1 (r : RawRel) : List RawRel → List RawRel
  | [] => [r]
  | q :: l => if r.off ≤ q.off then r :: q :: l else q :: rsort1 r l

def rsort : List RawRel → List RawRel
  | [] => []
  | r :: l => rsort1 r (rsort l)

theorem sorts_rsort : SortsRel rsort := by
  have h1 : ∀ r l, (rsort1 r l).Perm (r :: l) ∧ (l.Pairwise (fun a b => a.off ≤ b.off) → (rsort1 r l).Pairwise (fun a b => a.off ≤ b.off)) := by
    intro r l
    induction l with
    | nil => exact ⟨List.Perm.refl _, fun _ => by simp [rsort1]⟩
    | cons q l ih =>
      unfold rsort1
      split
      · rename_i hle
        refine ⟨List.Perm.refl _, fun h => List.pairwise_cons.2 ⟨?_, h⟩⟩
        intro a ha
        rcases List.mem_cons.1 ha with rfl | ha
        · exact hle
        · have := (List.pairwise_cons.1 h).1 a ha
          omega
      · rename_i hle
        refine ⟨(ih.1.cons q).trans (List.Perm.swap r q l), fun h => ?_⟩
        obtain ⟨h2, h3⟩ := List.pairwise_cons.1 h
        refine List.pairwise_cons.2 ⟨?_, ih.2 h3⟩
        intro a ha
        rcases List.mem_cons.1 (ih.1.mem_iff.1 ha) with rfl | ha
        · omega
        · exact h2 a ha
  intro l
  induction l with
  | nil => exact ⟨List.Perm.refl _, List.Pairwise.nil⟩
  | cons r l ih => exact ⟨(h1 r (rsort l)).1.trans (ih.1.cons r), (h1 r (rsort l)).2 ih.2⟩

/-- names of the examples by their offsets -/
def exNames : Nat → Name
  | 1 => str "_start"
  | 2 => str "foo"
  | 3 => str "__stop_alldata__"
  | 4 => str "bar"
  | _ => []

/-- `_start: call foo; mov eax, [v]; mov ecx, __stop_alldata__` with `v` at offset 4 of .data; the relocations are not in order -/
def exMain : Module where
  secs := [none,
    some ⟨⟨str ".text", true, aText, 16, 15, [0xE8, 0xFC, 0xFF, 0xFF, 0xFF, 0xA1, 4, 0, 0, 0, 0xB9, 0, 0, 0, 0]⟩, [⟨11, 5, 1⟩, ⟨1, 4, 2⟩, ⟨6, 2, 1⟩]⟩,
    some ⟨⟨str ".data", true, aData, 4, 8, [1, 2, 3, 4, 5, 6, 7, 8]⟩, []⟩]
  syms := [⟨0, 0, 0, 0⟩, ⟨0, 0, 3, 1⟩, ⟨0, 0, 3, 2⟩, ⟨1, 0, 16, 1⟩, ⟨2, 0, 16, 0⟩, ⟨3, 0, 16, 0⟩]
  nloc := 3
  strs := exNames

/-- a module that is not needed -/
def exOther : Module where
  secs := [none, some ⟨⟨str ".text", true, aText, 16, 2, [0x90, 0xC3]⟩, []⟩]
  syms := [⟨0, 0, 0, 0⟩, ⟨4, 1, 16, 1⟩]
  nloc := 1
  strs := exNames

/-- `nop; foo: ret`, and uninitialised data -/
def exFoo : Module where
  secs := [none, some ⟨⟨str ".text", true, aText, 16, 2, [0x90, 0xC3]⟩, []⟩, some ⟨⟨str ".bss", true, aBss, 8, 24, []⟩, []⟩]
  syms := [⟨0, 0, 0, 0⟩, ⟨2, 1, 16, 1⟩]
  nloc := 1
  strs := exNames

def exMods : List Module := [exMain, exOther, exFoo]

/-- the hypotheses hold -/
theorem exInputs : Inputs exMods (str "_start") := by
  have hhas : ∀ i j s, Has exMods i j s → (i = 0 ∧ j = 1 ∧ exMain.secs[1]? = some (some s)) ∨ (i = 0 ∧ j = 2 ∧ exMain.secs[2]? = some (some s)) ∨
      (i = 1 ∧ j = 1 ∧ exOther.secs[1]? = some (some s)) ∨ (i = 2 ∧ j = 1 ∧ exFoo.secs[1]? = some (some s)) ∨ (i = 2 ∧ j = 2 ∧ exFoo.secs[2]? = some (some s)) := by
    rintro i j s ⟨m, hm, hs⟩
    match i, hm with
    | 0, hm =>
      cases hm
      match j, hs with
      | 1, hs => exact .inl ⟨rfl, rfl, hs⟩
      | 2, hs => exact .inr (.inl ⟨rfl, rfl, hs⟩)
    | 1, hm =>
      cases hm
      match j, hs with
      | 1, hs => exact .inr (.inr (.inl ⟨rfl, rfl, hs⟩))
    | 2, hm =>
      cases hm
      match j, hs with
      | 1, hs => exact .inr (.inr (.inr (.inl ⟨rfl, rfl, hs⟩)))
      | 2, hs => exact .inr (.inr (.inr (.inr ⟨rfl, rfl, hs⟩)))
  have hall : ∀ i j s, Has exMods i j s → s.sec.alloc = true := by
    intro i j s h
    rcases hhas i j s h with ⟨-, -, h⟩ | ⟨-, -, h⟩ | ⟨-, -, h⟩ | ⟨-, -, h⟩ | ⟨-, -, h⟩ <;> (cases h; rfl)
  refine ⟨by decide, ?_, ?_, fun _ _ _ i' j' s' _ _ _ h _ _ => hall i' j' s' h, ?_, ?_⟩
  · intro i j s h
    rcases hhas i j s h with ⟨-, -, h⟩ | ⟨-, -, h⟩ | ⟨-, -, h⟩ | ⟨-, -, h⟩ | ⟨-, -, h⟩ <;> (cases h; decide)
  · intro i j s h
    rcases hhas i j s h with ⟨-, -, h⟩ | ⟨-, -, h⟩ | ⟨-, -, h⟩ | ⟨-, -, h⟩ | ⟨-, -, h⟩ <;> (cases h; decide)
  · intro i m j s hm h
    rcases hhas i j s h with ⟨rfl, -, h⟩ | ⟨rfl, -, h⟩ | ⟨rfl, -, h⟩ | ⟨rfl, -, h⟩ | ⟨rfl, -, h⟩
    · cases h
      cases hm
      intro r hr
      simp only [List.mem_cons, List.not_mem_nil, or_false] at hr
      rcases hr with rfl | rfl | rfl <;> exact ⟨by decide, 4, rfl, by decide⟩
    all_goals
      cases h
      intro r hr
      cases hr
  · intro i j s h
    rcases hhas i j s h with ⟨rfl, -, h⟩ | ⟨rfl, -, h⟩ | ⟨rfl, -, h⟩ | ⟨rfl, -, h⟩ | ⟨rfl, -, h⟩
    · cases h
      have : ∀ r ∈ ([⟨11, 5, 1⟩, ⟨1, 4, 2⟩, ⟨6, 2, 1⟩] : List RawRel), Reloc.width r.type = some 4 := by decide
      have hp : ([⟨11, 5, 1⟩, ⟨1, 4, 2⟩, ⟨6, 2, 1⟩] : List RawRel).Pairwise (fun r r' => r.off + 4 ≤ r'.off ∨ r'.off + 4 ≤ r.off) := by decide
      refine hp.imp_of_mem ?_
      intro a b ha hb hab w w' hw hw'
      rw [this a ha] at hw
      rw [this b hb] at hw'
      cases hw
      cases hw'
      exact hab
    all_goals
      cases h
      exact List.Pairwise.nil

/-- the part of the file with the code -/
def exCode : Option (List UInt8) :=
  match linkElf true 0x8048000 isort rsort exMods (str "_start") with
  | .ok f => some ((f.drop 4096).take 18)
  | .error _ => none

/-- code at 8049000, `foo` at 8049011, data at 804A004; the uninitialised data is at 804B000 and ends at 804B018 -/
example : exCode = some [0xE8, 0x0C, 0, 0, 0, 0xA1, 0x04, 0xA0, 0x04, 0x08, 0xB9, 0x18, 0xB0, 0x04, 0x08, 0xCC, 0x90, 0xC3] := by decide +kernel

/-- `foo equ 5`, with `foo` global: an absolute symbol (SHN_ABS) -/
def exAbs : Module where
  secs := [none, some ⟨⟨str ".text", true, aText, 16, 2, [0x90, 0xC3]⟩, []⟩]
  syms := [⟨0, 0, 0, 0⟩, ⟨2, 5, 16, 0xFFF1⟩]
  nloc := 1
  strs := exNames

/-- **C54**: absolute symbols, which object files may well have, are looked up as if 0xFFF1 were the number of a section: the linker reads outside of `pSections` -/
theorem c54_absolute : ∃ s ∈ exAbs.syms.drop exAbs.nloc, Global s ∧ s.shndx = 0xFFF1 ∧ linkElf true 0x8048000 isort rsort [exMain, exAbs] (str "_start") = .error .ub := by
  refine ⟨⟨2, 5, 16, 0xFFF1⟩, by decide, by decide, rfl, ?_⟩
  have h : (match linkElf true 0x8048000 isort rsort [exMain, exAbs] (str "_start") with | .error .ub => true | _ => false) = true := by decide +kernel
  split at h
  · assumption
  · cases h

end Smlr.Whole
