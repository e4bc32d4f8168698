import Verif.Pe.Group
import Verif.Pe.Model
import Verif.Exe.Elf
import Verif.Exe.Read
import Verif.Fixup.Write
set_option autoImplicit false
/-! The parts of a PE image. -/
namespace Smlr.Pe
open Smlr.Sect
open Smlr.Exe

theorem takeWhile_mem {α : Type} (p : α → Bool) (l : List α) : ∀ x ∈ l.takeWhile p, p x = true := by
  induction l with
  | nil => intro x hx; cases hx
  | cons a l ih =>
    intro x hx
    rw [List.takeWhile_cons] at hx
    split at hx
    · rcases List.mem_cons.1 hx with h | h
      · rw [h]; assumption
      · exact ih x h
    · cases hx

theorem dropWhile_head {α : Type} (p : α → Bool) (l : List α) : ∀ x, (l.dropWhile p).head? = some x → p x = false := by
  induction l with
  | nil => intro x hx; cases hx
  | cons a l ih =>
    intro x hx
    rw [List.dropWhile_cons] at hx
    split at hx
    · exact ih x hx
    · rw [List.head?_cons] at hx
      injection hx with hx
      rw [← hx]
      cases h : p a <;> simp_all

/-- the kinds of descriptions -/
structure Kinds (ds : List Desc) (n : Counts) (T R I W : List Desc) : Prop where
  eq : ds = T ++ (R ++ (I ++ W))
  text : ∀ d ∈ T, isText d = true
  ro : ∀ d ∈ R, isRo d = true
  imp : ∀ d ∈ I, isImp d = true
  rest : ∀ d ∈ W, d.attrs.exec = false ∧ d.attrs.write = true
  next : ∀ d, W.head? = some d → isImp d = false
  nT : n.text = T.length
  nR : n.ro = R.length
  nI : n.imp = I.length
  nW : n.data = true ↔ W ≠ []
  ne : T ≠ []

theorem counts_ok (ds : List Desc) (n : Counts) (h : counts ds = .ok n) : ∃ T R I W, Kinds ds n T R I W := by
  unfold counts at h
  dsimp only at h
  obtain ⟨d1, hd1⟩ : ∃ x, x = ds.dropWhile isText := ⟨_, rfl⟩
  obtain ⟨d2, hd2⟩ : ∃ x, x = d1.dropWhile isRo := ⟨_, rfl⟩
  obtain ⟨d3, hd3⟩ : ∃ x, x = d2.dropWhile isImp := ⟨_, rfl⟩
  obtain ⟨d4, hd4⟩ : ∃ x, x = d3.dropWhile isData := ⟨_, rfl⟩
  rw [← hd1, ← hd2, ← hd3, ← hd4] at h
  split at h
  · cases h
  · rename_i hc
    injection h with h
    have h1 : ¬ (ds.takeWhile isText).length = 0 := fun e => hc (.inl e)
    have h2 : d4.dropWhile isBss = [] := Classical.byContradiction (fun e => hc (.inr e))
    have e4 : d4 = d4.takeWhile isBss := by
      have := List.takeWhile_append_dropWhile (p := isBss) (l := d4)
      rw [h2, List.append_nil] at this
      exact this.symm
    have e3 : d3 = d3.takeWhile isData ++ d4 := by rw [hd4]; exact (List.takeWhile_append_dropWhile).symm
    refine ⟨ds.takeWhile isText, d1.takeWhile isRo, d2.takeWhile isImp, d3, ?_, takeWhile_mem _ _, takeWhile_mem _ _, takeWhile_mem _ _, ?_, ?_, ?_, ?_, ?_, ?_, ?_⟩
    · rw [hd3, List.takeWhile_append_dropWhile, hd2, List.takeWhile_append_dropWhile, hd1, List.takeWhile_append_dropWhile]
    · intro d hd
      rw [e3] at hd
      rcases List.mem_append.1 hd with hd | hd
      · have := takeWhile_mem _ _ d hd
        unfold isData at this
        simp at this
        exact ⟨this.1.2, this.2⟩
      · rw [e4] at hd
        have := takeWhile_mem _ _ d hd
        unfold isBss at this
        simp at this
        exact ⟨this.1.2, this.2⟩
    · rw [hd3]
      exact dropWhile_head _ _
    · rw [← h]
    · rw [← h]
    · rw [← h]
    · rw [← h]
      simp only [Bool.or_eq_true, decide_eq_true_eq]
      rw [← e4]
      constructor
      · intro hor e
        rw [e] at e3
        obtain ⟨f1, f2⟩ := List.append_eq_nil_iff.1 e3.symm
        rw [← e] at f1
        rcases hor with hor | hor
        · exact hor (by rw [f1, e]; rfl)
        · exact hor (by rw [f2]; rfl)
      · intro hne
        apply Classical.byContradiction
        intro hno
        apply hne
        rw [e3]
        have f1 : (d3.takeWhile isData).length = 0 := Classical.byContradiction (fun e => hno (.inl e))
        have f2 : d4.length = 0 := Classical.byContradiction (fun e => hno (.inr e))
        rw [List.length_eq_zero_iff.1 f1, List.length_eq_zero_iff.1 f2]
        rfl
    · intro e
      exact h1 (by rw [e]; rfl)

theorem Kinds.hasData {ds : List Desc} {n : Counts} {T R I W : List Desc} (h : Kinds ds n T R I W) : Exe.hasData ds = n.hasData := by
  have hex : ∀ d ∈ R ++ (I ++ W), d.attrs.exec = false := by
    intro d hd
    rcases List.mem_append.1 hd with hd | hd
    · have := h.ro d hd
      unfold isRo at this
      simp at this
      exact this.1.2
    · rcases List.mem_append.1 hd with hd | hd
      · have := h.imp d hd
        unfold isImp at this
        simp at this
        exact this.1.1.2
      · exact (h.rest d hd).1
  by_cases hb : R ++ (I ++ W) = []
  · have h2 : n.hasData = false := by
      obtain ⟨b1, b2⟩ := List.append_eq_nil_iff.1 hb
      obtain ⟨b3, b4⟩ := List.append_eq_nil_iff.1 b2
      unfold Counts.hasData
      have : n.data = false := by
        cases hd : n.data with
        | false => rfl
        | true => exact absurd b4 (h.nW.1 hd)
      rw [h.nR, h.nI, b1, b3, this]
      rfl
    rw [h2]
    unfold Exe.hasData
    rw [h.eq, hb, List.append_nil]
    cases hl : T.getLast? with
    | none => rfl
    | some d =>
      have := h.text d (List.mem_of_getLast? hl)
      unfold isText at this
      simp at this
      simp [this.1.2]
  · have h2 : n.hasData = true := by
      unfold Counts.hasData
      rw [h.nR, h.nI]
      by_cases b1 : R = []
      · by_cases b2 : I = []
        · have : W ≠ [] := by
            intro e
            exact hb (by rw [b1, b2, e]; rfl)
          rw [h.nW.2 this, Bool.or_true]
        · have : I.length ≠ 0 := fun e => b2 (List.length_eq_zero_iff.1 e)
          simp [b2]
      · simp [b1]
    rw [h2]
    unfold Exe.hasData
    obtain ⟨d, hd⟩ : ∃ d, (R ++ (I ++ W)).getLast? = some d := by
      cases hl : (R ++ (I ++ W)).getLast? with
      | none => exact absurd (List.getLast?_eq_none_iff.1 hl) hb
      | some d => exact ⟨d, rfl⟩
    rw [h.eq, List.getLast?_append, hd]
    have := hex d (List.mem_of_getLast? hd)
    simp [this]

/-- the image: code up to `A`, constants up to `R`, imports up to `I` -/
structure Parts (O : Nat) (n : Counts) (st : St) (A R I : Nat) : Prop where
  oa : O ≤ A
  ar : A ≤ R
  ri : R ≤ I
  modA : A % 4096 = 0
  modR : R % 4096 = 0
  modI : I % 4096 = 0
  ltI : I < 2 ^ 32
  text : ∃ p ∈ st.placed, p.sec.attrs.exec = true ∧ pg (fin p) = A
  noRo : n.ro = 0 → R = A
  noImp : n.imp = 0 → I = R
  ro : n.ro ≠ 0 → ∃ sp, st.spans[n.text + n.ro - 1]? = some sp ∧ pg sp.2 = R ∧ ∃ q ∈ st.placed, q.sec.attrs.nobits = false ∧ q.sec.attrs.exec = false ∧ fin q = sp.2
  imp : n.imp ≠ 0 → ∃ sp sp', st.spans[n.text + n.ro + n.imp - 1]? = some sp ∧ pg sp.2 = I ∧ st.spans[n.text + n.ro]? = some sp' ∧ sp'.1 = R ∧
    ∃ q ∈ st.placed, q.sec.attrs.nobits = false ∧ q.sec.attrs.exec = false ∧ fin q = sp.2
  where_ : ∀ p ∈ st.placed, (p.sec.attrs = ⟨false, true, false⟩ ∧ O ≤ p.addr ∧ fin p ≤ A) ∨ (n.ro ≠ 0 ∧ p.sec.attrs = ⟨false, false, false⟩ ∧ A ≤ p.addr ∧ fin p ≤ R) ∨
    (n.imp ≠ 0 ∧ p.sec.attrs = ⟨true, false, false⟩ ∧ R ≤ p.addr ∧ fin p ≤ I) ∨ (n.data = true ∧ p.sec.attrs.exec = false ∧ p.sec.attrs.write = true ∧ I ≤ p.addr)

theorem getLast_idx {α : Type} (a l b : List α) (z : α) (h : l.getLast? = some z) : (a ++ (l ++ b))[a.length + l.length - 1]? = some z := by
  have hl : l ≠ [] := by rintro rfl; cases h
  have := List.length_pos_iff.2 hl
  rw [List.getElem?_append_right (by omega), List.getElem?_append_left (by omega), show a.length + l.length - 1 - a.length = l.length - 1 by omega, ← List.getLast?_eq_getElem?]
  exact h

theorem head_idx {α : Type} (a l b : List α) (z : α) (h : l.head? = some z) : (a ++ (l ++ b))[a.length]? = some z := by
  have hl : l ≠ [] := by rintro rfl; cases h
  have := List.length_pos_iff.2 hl
  rw [List.getElem?_append_right (by omega), List.getElem?_append_left (by omega), Nat.sub_self, ← List.head?_eq_getElem?]
  exact h

theorem parts (c : Cfg) (hpe : c.fmt = .winPe32) (sort : List Desc → List Desc) (ss : List Sec) (ds : List Desc) (st : St) (n : Counts) (hs : Sorts sort) (hw : WF c ss) (hu : Uniform c ss)
    (ho : c.origin % 4096 = 0) (h : layout c sort ss = .ok (ds, st)) (hn : counts ds = .ok n)
    (hdll : c.useBss = false → ∀ s ∈ ss, s.alloc = true → s.attrs.nobits = true → ¬ str ".dll_" <+: s.name) :
    Exe.hasData ds = n.hasData ∧ ∃ A R I, Parts c.origin n st A R I := by
  obtain ⟨T, R, I, W, hk⟩ := counts_ok ds n hn
  refine ⟨hk.hasData, ?_⟩
  have hP : Paged c.fmt := .inl hpe
  have hna : c.fmt ≠ .aout := by rw [hpe]; decide
  unfold layout at h
  cases hf : findAll c sort ss with
  | error e => rw [hf] at h; cases h
  | ok ds' =>
  rw [hf] at h
  simp only at h
  cases hp : pass c ss ds' with
  | error e => rw [hp] at h; cases h
  | ok st' =>
  rw [hp] at h
  cases h
  have hfound := findAll_ok c sort ss ds hs hf
  have hok : ∀ a, (∀ d ∈ a, d ∈ ds) → Ok c ss a := by
    intro a ha d hd
    refine ⟨Exe.members_ne c ss ds hfound d (ha d hd), fun s hs' => ?_⟩
    exact ⟨(members_wf c ss hw d s hs').1, (members_wf c ss hw d s hs').2.1, (members_attrs c ss ds hfound hu d (ha d hd) s hs').1⟩
  have hmem : ∀ d, d ∈ T ∨ d ∈ R ∨ d ∈ I ∨ d ∈ W → d ∈ ds := by
    intro d hd
    rw [hk.eq]
    simp only [List.mem_append]
    exact hd
  unfold pass at hp
  rw [hk.eq] at hp
  have tA : ∀ d ∈ T, d.attrs = ⟨false, true, false⟩ := by
    intro d hd
    have := hk.text d hd
    obtain ⟨nm, w, e, b⟩ := d
    unfold isText at this
    cases w <;> cases e <;> cases b <;> simp_all
  have rA : ∀ d ∈ R, d.attrs = ⟨false, false, false⟩ := by
    intro d hd
    have := hk.ro d hd
    obtain ⟨nm, w, e, b⟩ := d
    unfold isRo at this
    cases w <;> cases e <;> cases b <;> simp_all
  have iA : ∀ d ∈ I, d.attrs = ⟨true, false, false⟩ ∧ isDll d = true := by
    intro d hd
    have := hk.imp d hd
    obtain ⟨nm, w, e, b⟩ := d
    unfold isImp at this
    cases w <;> cases e <;> cases b <;> simp_all
  obtain ⟨s1, n1, p1, l1, g1⟩ := grp c ss hP hna T _ _ _ hp hw.1 ho (hok _ (fun d hd => hmem d (.inl hd))) (by
    intro d hd
    left
    have h1 := tA d (List.mem_of_getLast? hd)
    unfold lastCode
    rw [h1]
    cases hx : (R ++ (I ++ W)).head? with
    | none => rfl
    | some e =>
      have he : e.attrs.exec = false := by
        have := List.mem_of_mem_head? hx
        rcases List.mem_append.1 this with h | h
        · rw [rA e h]
        · rcases List.mem_append.1 h with h | h
          · rw [(iA e h).1]
          · exact (hk.rest e h).1
      simp [he])
  obtain ⟨s2, n2, p2, l2, g2⟩ := grp c ss hP hna R _ _ _ l1 g1.lt g1.mod (hok _ (fun d hd => hmem d (.inr (.inl hd)))) (by
    intro d hd
    right
    have h1 := rA d (List.mem_of_getLast? hd)
    unfold padsData
    rw [h1]
    cases hx : (I ++ W).head? with
    | none => simp [hpe]
    | some e =>
      have he : e.attrs.write = true := by
        have := List.mem_of_mem_head? hx
        rcases List.mem_append.1 this with h | h
        · rw [(iA e h).1]
        · exact (hk.rest e h).2
      simp [hpe, he])
  obtain ⟨s3, n3, p3, l3, g3⟩ := grp c ss hP hna I _ _ _ l2 g2.lt g2.mod (hok _ (fun d hd => hmem d (.inr (.inr (.inl hd))))) (by
    intro d hd
    right
    have h1 := iA d (List.mem_of_getLast? hd)
    unfold padsData
    rw [h1.1, h1.2]
    cases hx : W.head? with
    | none => simp [hpe]
    | some e =>
      have hm := List.mem_of_mem_head? hx
      have hr := hk.rest e hm
      have hi := hk.next e hx
      by_cases hd : isDll e = true
      · have hb : e.attrs.nobits = true := by
          unfold isImp at hi
          simpa [hr.1, hr.2, hd] using hi
        cases hu : c.useBss with
        | true => simp [hb]
        | false =>
          exfalso
          rcases hfound.only e (hmem e (.inr (.inr (.inr hm)))) with ⟨s, hs1, hs2, hs3, hs4⟩ | ⟨hx, -⟩
          · refine hdll hu s hs1 hs2 (by rw [hs4, hb]) ?_
            rw [hs3, ← List.isPrefixOf_iff_prefix]
            exact hd
          · rw [hpe] at hx; cases hx
      · simp [hpe, hd])
  obtain ⟨n4, p4, e4, q4, m4⟩ := tail c ss hP hna W _ _ l3 g3.lt (hok _ (fun d hd => hmem d (.inr (.inr (.inr hd)))))
  have epl : st.placed = n1 ++ (n2 ++ (n3 ++ n4)) := by
    rw [e4, g3.placed, g2.placed, g1.placed]
    simp
  have esp : st.spans = p1 ++ (p2 ++ (p3 ++ p4)) := by
    rw [q4, g3.spans, g2.spans, g1.spans]
    simp
  have z1 : ∀ {l : List Desc}, l.length ≠ 0 → l ≠ [] := fun h e => h (by rw [e]; rfl)
  refine ⟨s1.ofs, s2.ofs, s3.ofs, g1.le, g2.le, g3.le, g1.mod, g2.mod, g3.mod, g3.lt, ?_, ?_, ?_, ?_, ?_, ?_⟩
  · obtain ⟨y, z, -, -, -, k4, q, k5, k6⟩ := g1.some hk.ne
    obtain ⟨-, -, d, hd, hde⟩ := g1.mem q k5
    refine ⟨q, by rw [epl]; simp [k5], by rw [hde, tA d hd], by rw [k6, k4]⟩
  · intro h0
    rw [hk.nR] at h0
    rw [(g2.none (List.length_eq_zero_iff.1 h0)).1]
  · intro h0
    rw [hk.nI] at h0
    rw [(g3.none (List.length_eq_zero_iff.1 h0)).1]
  · intro h0
    rw [hk.nR] at h0
    obtain ⟨y, z, -, -, k3, k4, q, k5, k6⟩ := g2.some (z1 h0)
    refine ⟨z, ?_, k4, q, ?_, ?_, ?_, k6⟩
    · rw [esp, hk.nT, hk.nR, ← g1.len, ← g2.len]
      exact getLast_idx _ _ _ _ k3
    · rw [epl]
      simp [k5]
    · obtain ⟨-, -, d, hd, hde⟩ := g2.mem q k5
      rw [hde, rA d hd]
    · obtain ⟨-, -, d, hd, hde⟩ := g2.mem q k5
      rw [hde, rA d hd]
  · intro h0
    rw [hk.nI] at h0
    obtain ⟨y, z, k1, k2, k3, k4, q, k5, k6⟩ := g3.some (z1 h0)
    refine ⟨z, y, ?_, k4, ?_, k2, q, ?_, ?_, ?_, k6⟩
    · rw [esp, hk.nT, hk.nR, hk.nI, ← g1.len, ← g2.len, ← g3.len, ← List.append_assoc, ← List.length_append]
      exact getLast_idx _ _ _ _ k3
    · rw [esp, hk.nT, hk.nR, ← g1.len, ← g2.len, ← List.append_assoc, ← List.length_append]
      exact head_idx _ _ _ _ k1
    · rw [epl]
      simp [k5]
    · obtain ⟨-, -, d, hd, hde⟩ := g3.mem q k5
      rw [hde, (iA d hd).1]
    · obtain ⟨-, -, d, hd, hde⟩ := g3.mem q k5
      rw [hde, (iA d hd).1]
  · intro p hp'
    rw [epl] at hp'
    have hne : ∀ {l : List Desc} {d : Desc}, d ∈ l → l.length ≠ 0 := fun h e => by rw [List.length_eq_zero_iff.1 e] at h; cases h
    rcases List.mem_append.1 hp' with hp' | hp'
    · obtain ⟨k1, k2, d, hd, hde⟩ := g1.mem p hp'
      exact .inl ⟨by rw [hde, tA d hd], k1, k2⟩
    · rcases List.mem_append.1 hp' with hp' | hp'
      · obtain ⟨k1, k2, d, hd, hde⟩ := g2.mem p hp'
        exact .inr (.inl ⟨by rw [hk.nR]; exact hne hd, by rw [hde, rA d hd], k1, k2⟩)
      · rcases List.mem_append.1 hp' with hp' | hp'
        · obtain ⟨k1, k2, d, hd, hde⟩ := g3.mem p hp'
          exact .inr (.inr (.inl ⟨by rw [hk.nI]; exact hne hd, by rw [hde, (iA d hd).1], k1, k2⟩))
        · obtain ⟨k1, d, hd, hde⟩ := m4 p hp'
          exact .inr (.inr (.inr ⟨hk.nW.2 (by rintro rfl; cases hd), by rw [hde]; exact (hk.rest d hd).1, by rw [hde]; exact (hk.rest d hd).2, k1⟩))

/-- the end of the code is what the header of the code says -/
theorem parts_code (c : Cfg) (n : Counts) (ds : List Desc) (st : St) (A R I A' : Nat) (h : Parts c.origin n st A R I) (hF : Facts c c.useBss ds st) (hG : Pages c ds st A') : A' = A := by
  obtain ⟨-, -, ⟨q, hq, hq'⟩⟩ := hF.code
  have hq2 : fin q = st.code.2 := hq'
  obtain ⟨hq0, hqe⟩ := List.mem_filter.1 hq
  have h1 : fin q ≤ A := by
    rcases h.where_ q hq0 with h | ⟨-, h, -⟩ | ⟨-, h, -⟩ | ⟨-, h, -⟩
    · exact h.2.2
    · rw [h] at hqe; cases hqe
    · rw [h] at hqe; cases hqe
    · rw [h] at hqe; cases hqe
  obtain ⟨p, hp, hpe, hpg⟩ := h.text
  have h2 := (hG.exec p hp hpe).2
  have h3 := hG.code2
  have h4 := hG.mod
  have h5 := h.modA
  unfold pg at *
  omega

end Smlr.Pe
