import Verif.Whole.Sim
import Verif.Whole.Spec
import Verif.Link.Props
import Verif.Reloc.Props
import Verif.Sect.Props
set_option autoImplicit false
namespace Smlr.Whole
open Smlr.Sect
open Smlr.Reloc (Sym)

/-! ### modules -/

theorem globals_eq (m : Module) (h : m.nloc ≤ m.syms.length) : globals m = m.syms.drop m.nloc := by
  unfold globals
  rw [Reloc.compact_spec _ _ h]
  simp

theorem exported_iff (s : Sym) : exported s = true ↔ Global s ∧ s.shndx ≠ 0 := by
  unfold exported Global Reloc.Sym.isGlobal
  simp only [Bool.and_eq_true, decide_eq_true_eq]
  constructor
  · rintro ⟨⟨h1, h2⟩, h3⟩; exact ⟨⟨h1, h3⟩, h2⟩
  · rintro ⟨⟨h1, h3⟩, h2⟩; exact ⟨⟨h1, h2⟩, h3⟩

theorem imported_iff (s : Sym) : imported s = true ↔ Global s ∧ s.shndx = 0 := by
  unfold imported Global Reloc.Sym.isGlobal
  simp only [Bool.and_eq_true, decide_eq_true_eq]
  constructor
  · rintro ⟨⟨h1, h2⟩, h3⟩; exact ⟨⟨h1, h3⟩, h2⟩
  · rintro ⟨⟨h1, h3⟩, h2⟩; exact ⟨⟨h1, h2⟩, h3⟩

theorem toObj_eq (m : Module) (h : m.nloc ≤ m.syms.length) : toObj m = interface m := by
  unfold toObj interface
  rw [globals_eq m h]
  have e1 : (m.syms.drop m.nloc).filter exported = (m.syms.drop m.nloc).filter (fun s => Global s ∧ s.shndx ≠ 0) := by
    apply List.filter_congr
    intro s _
    rw [Bool.eq_iff_iff, exported_iff, decide_eq_true_eq]
  have e2 : (m.syms.drop m.nloc).filter imported = (m.syms.drop m.nloc).filter (fun s => Global s ∧ s.shndx = 0) := by
    apply List.filter_congr
    intro s _
    rw [Bool.eq_iff_iff, imported_iff, decide_eq_true_eq]
  rw [e1, e2]

theorem objs_eq (mods : List Module) (h : ∀ m ∈ mods, m.nloc ≤ m.syms.length) : mods.map toObj = mods.map interface :=
  List.map_congr_left (fun m hm => toObj_eq m (h m hm))

/-! ### sections -/

theorem mem_number (file : Nat) (l : List (Option MSec)) (j : Nat) (x : Item) :
    x ∈ number file l j ↔ x.file = file ∧ j ≤ x.idx ∧ l[x.idx - j]? = some (some x.s) := by
  induction l generalizing j with
  | nil => simp [number]
  | cons o l ih =>
    have key : (j + 1 ≤ x.idx ∧ l[x.idx - (j + 1)]? = some (some x.s)) ↔ (j ≤ x.idx ∧ x.idx ≠ j ∧ (o :: l)[x.idx - j]? = some (some x.s)) := by
      constructor
      · rintro ⟨h1, h2⟩
        refine ⟨by omega, by omega, ?_⟩
        rw [show x.idx - j = (x.idx - (j + 1)) + 1 by omega, List.getElem?_cons_succ]
        exact h2
      · rintro ⟨h1, h2, h3⟩
        refine ⟨by omega, ?_⟩
        rw [show x.idx - j = (x.idx - (j + 1)) + 1 by omega, List.getElem?_cons_succ] at h3
        exact h3
    cases o with
    | none =>
      rw [number, ih]
      constructor
      · rintro ⟨h0, h⟩
        obtain ⟨h1, _, h3⟩ := key.1 h
        exact ⟨h0, h1, h3⟩
      · rintro ⟨h0, h1, h3⟩
        refine ⟨h0, key.2 ⟨h1, ?_, h3⟩⟩
        intro h
        rw [h, Nat.sub_self] at h3
        simp at h3
    | some s =>
      rw [number, List.mem_cons, ih]
      constructor
      · rintro (h | ⟨h0, h⟩)
        · subst h
          exact ⟨rfl, Nat.le_refl _, by simp⟩
        · obtain ⟨h1, _, h3⟩ := key.1 h
          exact ⟨h0, h1, h3⟩
      · rintro ⟨h0, h1, h3⟩
        by_cases hj : x.idx = j
        · left
          rw [hj, Nat.sub_self, List.getElem?_cons_zero] at h3
          obtain ⟨a, b, c⟩ := x
          simp only at h0 hj h3
          cases h3
          rw [h0, hj]
        · exact .inr ⟨h0, key.2 ⟨h1, hj, h3⟩⟩

theorem mem_items (needed : Nat → Bool) (mods : List Module) (i : Nat) (x : Item) :
    x ∈ items needed mods i ↔ i ≤ x.file ∧ needed x.file = true ∧ Has mods (x.file - i) x.idx x.s := by
  induction mods generalizing i with
  | nil => simp [items, Has]
  | cons m ms ih =>
    rw [items, List.mem_append, ih]
    constructor
    · rintro (h | ⟨h1, h2, n, h3, h4⟩)
      · split at h
        · rename_i hn
          obtain ⟨g1, -, g2⟩ := (mem_number i m.secs 0 x).1 h
          rw [g1]
          exact ⟨Nat.le_refl _, hn, m, by simp, by simpa using g2⟩
        · cases h
      · refine ⟨by omega, h2, n, ?_, h4⟩
        rw [show x.file - i = (x.file - (i + 1)) + 1 by omega, List.getElem?_cons_succ]
        exact h3
    · rintro ⟨h1, h2, n, h3, h4⟩
      by_cases hi : x.file = i
      · left
        rw [hi, Nat.sub_self, List.getElem?_cons_zero] at h3
        cases h3
        rw [hi] at h2
        rw [if_pos h2]
        exact (mem_number i m.secs 0 x).2 ⟨hi, Nat.zero_le _, by simpa using h4⟩
      · right
        refine ⟨by omega, h2, n, ?_, h4⟩
        rw [show x.file - i = (x.file - (i + 1)) + 1 by omega, List.getElem?_cons_succ] at h3
        exact h3

/-- an item is known by its numbers -/
theorem items_inj (needed : Nat → Bool) (mods : List Module) (x y : Item) (hx : x ∈ items needed mods 0) (hy : y ∈ items needed mods 0)
    (hf : x.file = y.file) (hi : x.idx = y.idx) : x = y := by
  obtain ⟨-, -, m, h1, h2⟩ := (mem_items _ _ _ _).1 hx
  obtain ⟨-, -, m', h3, h4⟩ := (mem_items _ _ _ _).1 hy
  rw [← hf, h1] at h3
  cases h3
  rw [← hi, h2] at h4
  obtain ⟨a, b, c⟩ := x
  obtain ⟨a', b', c'⟩ := y
  simp only at hf hi h4
  cases h4
  rw [hf, hi]

theorem mem_order (ds : List Desc) (xs : List Item) (x : Item) : x ∈ order ds xs ↔ x ∈ xs ∧ ∃ d ∈ ds, d.name = x.s.sec.name := by
  unfold order
  rw [List.mem_flatMap]
  constructor
  · rintro ⟨d, hd, h⟩
    obtain ⟨h1, h2⟩ := List.mem_filter.1 h
    exact ⟨h1, d, hd, (by simpa using h2 : _ = _).symm⟩
  · rintro ⟨h1, d, hd, h2⟩
    exact ⟨d, hd, List.mem_filter.2 ⟨h1, by simpa using h2.symm⟩⟩

theorem nodup_number (file : Nat) (l : List (Option MSec)) (j : Nat) : (number file l j).Nodup := by
  induction l generalizing j with
  | nil => exact List.nodup_nil
  | cons o l ih =>
    cases o with
    | none => exact ih (j + 1)
    | some s =>
      refine List.nodup_cons.2 ⟨?_, ih (j + 1)⟩
      intro h
      have := ((mem_number _ _ _ _).1 h).2.1
      simp only at this
      omega

theorem nodup_items (needed : Nat → Bool) (mods : List Module) (i : Nat) : (items needed mods i).Nodup := by
  induction mods generalizing i with
  | nil => exact List.nodup_nil
  | cons m ms ih =>
    unfold items
    refine List.nodup_append.2 ⟨?_, ih (i + 1), ?_⟩
    · split
      · exact nodup_number _ _ _
      · exact List.nodup_nil
    · rintro x hx y hy rfl
      have h1 := ((mem_items _ _ _ _).1 hy).1
      split at hx
      · have := ((mem_number _ _ _ _).1 hx).1
        omega
      · cases hx

theorem nodup_order (ds : List Desc) (xs : List Item) (hd : (ds.map Desc.name).Nodup) (hx : xs.Nodup) : (order ds xs).Nodup := by
  induction ds with
  | nil => exact List.nodup_nil
  | cons d ds ih =>
    simp only [List.map_cons, List.nodup_cons] at hd
    show (xs.filter (fun x => x.s.sec.name = d.name) ++ order ds xs).Nodup
    refine List.nodup_append.2 ⟨hx.sublist List.filter_sublist, ih hd.2, ?_⟩
    rintro x h1 y h2 rfl
    obtain ⟨-, e, he, hn⟩ := (mem_order _ _ _).1 h2
    have h3 : x.s.sec.name = d.name := by simpa using (List.mem_filter.1 h1).2
    exact hd.1 (List.mem_map.2 ⟨e, he, by rw [hn, h3]⟩)

/-! ### the table of addresses -/

theorem zip_fun (xs : List Item) (l : List Nat) (hn : xs.Nodup) (x : Item) (a b : Nat) (ha : (x, a) ∈ xs.zip l) (hb : (x, b) ∈ xs.zip l) : a = b := by
  induction xs generalizing l with
  | nil => simp at ha
  | cons y ys ih =>
    cases l with
    | nil => simp at ha
    | cons c l =>
      simp only [List.zip_cons_cons, List.mem_cons, Prod.mk.injEq] at ha hb
      obtain ⟨n1, n2⟩ := List.nodup_cons.1 hn
      rcases ha with ⟨rfl, rfl⟩ | ha
      · rcases hb with ⟨-, rfl⟩ | hb
        · rfl
        · exact absurd (List.of_mem_zip hb).1 n1
      · rcases hb with ⟨rfl, rfl⟩ | hb
        · exact absurd (List.of_mem_zip ha).1 n1
        · exact ih l n2 ha hb

theorem zip_place (F : Item → Sec) (xs : List Item) (l : List Place) (h : l.map Place.sec = xs.map F) (x : Item) (a : Nat) (hm : (x, a) ∈ xs.zip (l.map Place.addr)) :
    ∃ p ∈ l, p.sec = F x ∧ p.addr = a := by
  induction xs generalizing l with
  | nil => simp at hm
  | cons y ys ih =>
    cases l with
    | nil => simp at h
    | cons p ps =>
      simp only [List.map_cons, List.cons.injEq] at h
      simp only [List.map_cons, List.zip_cons_cons, List.mem_cons, Prod.mk.injEq] at hm
      rcases hm with ⟨rfl, rfl⟩ | hm
      · exact ⟨p, by simp, h.1, rfl⟩
      · obtain ⟨q, hq, h1⟩ := ih ps h.2 hm
        exact ⟨q, by simp [hq], h1⟩

theorem place_zip (F : Item → Sec) (xs : List Item) (l : List Place) (h : l.map Place.sec = xs.map F) (p : Place) (hp : p ∈ l) :
    ∃ x, (x, p.addr) ∈ xs.zip (l.map Place.addr) ∧ p.sec = F x := by
  induction xs generalizing l with
  | nil =>
    simp only [List.map_nil, List.map_eq_nil_iff] at h
    rw [h] at hp
    cases hp
  | cons y ys ih =>
    cases l with
    | nil => cases hp
    | cons q ps =>
      simp only [List.map_cons, List.cons.injEq] at h
      simp only [List.map_cons, List.zip_cons_cons, List.mem_cons]
      rcases List.mem_cons.1 hp with rfl | hp
      · exact ⟨y, .inl rfl, h.1⟩
      · obtain ⟨x, h1, h2⟩ := ih ps h.2 hp
        exact ⟨x, .inr h1, h2⟩

theorem zip_pair (F : Item → Sec) (R : Place → Place → Prop) (xs : List Item) (l : List Place) (h : l.map Place.sec = xs.map F) (hR : l.Pairwise R) (x y : Item) (a b : Nat) (hxy : x ≠ y)
    (hx : (x, a) ∈ xs.zip (l.map Place.addr)) (hy : (y, b) ∈ xs.zip (l.map Place.addr)) :
    ∃ p q, p.sec = F x ∧ p.addr = a ∧ q.sec = F y ∧ q.addr = b ∧ (R p q ∨ R q p) := by
  induction xs generalizing l with
  | nil => simp at hx
  | cons z ys ih =>
    cases l with
    | nil => simp at h
    | cons p ps =>
      simp only [List.map_cons, List.cons.injEq] at h
      simp only [List.map_cons, List.zip_cons_cons, List.mem_cons, Prod.mk.injEq] at hx hy
      obtain ⟨r1, r2⟩ := List.pairwise_cons.1 hR
      rcases hx with ⟨rfl, rfl⟩ | hx
      · rcases hy with ⟨rfl, rfl⟩ | hy
        · exact absurd rfl hxy
        · obtain ⟨q, hq, h1, h2⟩ := zip_place F ys ps h.2 y b hy
          exact ⟨p, q, h.1, rfl, h1, h2, .inl (r1 q hq)⟩
      · rcases hy with ⟨rfl, rfl⟩ | hy
        · obtain ⟨q, hq, h1, h2⟩ := zip_place F ys ps h.2 x a hx
          exact ⟨q, p, h1, h2, h.1, rfl, .inr (r1 q hq)⟩
        · exact ih ps h.2 r2 hx hy

theorem mem_zip (xs : List Item) (l : List Nat) (h : xs.length = l.length) (x : Item) (hx : x ∈ xs) : ∃ a, (x, a) ∈ xs.zip l := by
  obtain ⟨k, hk, rfl⟩ := List.getElem_of_mem hx
  refine ⟨l[k]'(by omega), ?_⟩
  have hk' : k < (xs.zip l).length := by rw [List.length_zip]; omega
  have : (xs.zip l)[k] = (xs[k], l[k]'(by omega)) := by simp
  rw [← this]
  exact List.getElem_mem _

/-- what `outOffset` finds for a placed section -/
theorem outOffset_placed (needed : Nat → Bool) (mods : List Module) (ds : List Desc) (l : List Nat) (hl : (order ds (items needed mods 0)).length = l.length) (x : Item)
    (hx : x ∈ order ds (items needed mods 0)) :
    ∃ a, outOffset mods ((order ds (items needed mods 0)).zip l) x.file x.idx = some a ∧ (x, a) ∈ (order ds (items needed mods 0)).zip l := by
  obtain ⟨hxi, -⟩ := (mem_order _ _ _).1 hx
  obtain ⟨-, -, m, hm, hs⟩ := (mem_items _ _ _ _).1 hxi
  rw [Nat.sub_zero] at hm
  unfold outOffset
  rw [hm]
  simp only
  rw [if_pos (by rw [List.getElem?_eq_some_iff] at hs; exact hs.1)]
  obtain ⟨a, ha⟩ := mem_zip _ l hl x hx
  cases hf : ((order ds (items needed mods 0)).zip l).find? (fun y => y.1.file = x.file && y.1.idx = x.idx) with
  | none =>
    have := List.find?_eq_none.1 hf _ ha
    simp at this
  | some y =>
    obtain ⟨y, b⟩ := y
    have hy := List.mem_of_find?_eq_some hf
    have hk := List.find?_some hf
    simp only [Bool.and_eq_true, decide_eq_true_eq] at hk
    have hyo : y ∈ order ds (items needed mods 0) := (List.of_mem_zip hy).1
    have e : y = x := items_inj needed mods y x ((mem_order _ _ _).1 hyo).1 hxi hk.1 hk.2
    subst e
    exact ⟨b, rfl, hy⟩

/-- the sections that are placed, in their order -/
theorem order_map (F : Item → Sec) (c : Cfg) (hc : c.fmt ≠ .dosExeUnreal) (xs : List Item) (hF : ∀ x ∈ xs, (F x).name = x.s.sec.name) (ds : List Desc) :
    ds.flatMap (members c (xs.map F)) = (order ds xs).map F := by
  unfold order
  rw [List.map_flatMap]
  congr 1
  funext d
  unfold members
  rw [if_neg (fun h => hc h.1), List.append_nil, List.filter_map]
  congr 1
  apply List.filter_congr
  intro x hx
  simp only [Function.comp, hF x hx]

theorem placed_map (F : Item → Sec) (c : Cfg) (hc : c.fmt ≠ .dosExeUnreal) (sort : List Desc → List Desc) (xs : List Item) (hF : ∀ x ∈ xs, (F x).name = x.s.sec.name) (ds : List Desc) (st : Sect.St)
    (hs : Sorts sort) (hw : WF c (xs.map F)) (hu : Uniform c (xs.map F)) (h : layout c sort (xs.map F) = .ok (ds, st)) : st.placed.map Place.sec = (order ds xs).map F := by
  obtain ⟨-, -, -, news, hb, hp⟩ := layout_ok c sort _ ds st hs hw hu h
  rw [hp, blocks_secs c _ ds news st.spans hb, order_map F c hc xs hF ds]

/-! ### relocated sections -/

/-- what is written for a section -/
def patched (v : Env) (sortRel : List RawRel → List RawRel) (x : Item) : Sec :=
  match patch v sortRel x with
  | .ok s => s
  | .error _ => x.s.sec

theorem patchAll_ok (v : Env) (sortRel : List RawRel → List RawRel) (xs : List Item) (ss : List Sec) (h : patchAll v sortRel xs = .ok ss) :
    ss = xs.map (patched v sortRel) ∧ ∀ x ∈ xs, patch v sortRel x = .ok (patched v sortRel x) := by
  induction xs generalizing ss with
  | nil => cases h; exact ⟨rfl, by simp⟩
  | cons x xs ih =>
    unfold patchAll at h
    cases hp : patch v sortRel x with
    | error e => rw [hp] at h; cases h
    | ok s =>
      rw [hp] at h
      simp only at h
      cases hq : patchAll v sortRel xs with
      | error e => rw [hq] at h; cases h
      | ok l =>
        rw [hq] at h
        cases h
        obtain ⟨h1, h2⟩ := ih l hq
        have hs : patched v sortRel x = s := by unfold patched; rw [hp]
        refine ⟨by rw [h1, List.map_cons, hs], ?_⟩
        intro y hy
        rcases List.mem_cons.1 hy with rfl | hy
        · rw [hs]; exact hp
        · exact h2 y hy

theorem patch_shape (v : Env) (sortRel : List RawRel → List RawRel) (x : Item) (s : Sec) (h : patch v sortRel x = .ok s) : Shape x.s.sec s := by
  unfold patch at h
  split at h
  · cases h; exact ⟨rfl, rfl, rfl, rfl, rfl⟩
  · split at h
    · split at h
      · cases h
      · split at h
        · cases h
        · cases h; exact ⟨rfl, rfl, rfl, rfl, rfl⟩
    · cases h

theorem resolveAll_ok (v : Env) (m : Module) (i : Nat) (rs : List RawRel) (l : List Reloc.Rel) (h : resolveAll v m i rs = .ok l) :
    l.map (fun r => (r.off, r.type)) = rs.map (fun r => (r.off, r.type)) ∧ (∀ r ∈ rs, ∃ a, resolve v m i r.sym = .ok a ∧ ⟨r.off, r.type, a⟩ ∈ l) ∧
    (∀ q ∈ l, ∃ r ∈ rs, q.off = r.off ∧ q.type = r.type) := by
  induction rs generalizing l with
  | nil => cases h; simp
  | cons r rs ih =>
    unfold resolveAll at h
    cases hr : resolve v m i r.sym with
    | error e => rw [hr] at h; cases h
    | ok a =>
      rw [hr] at h
      simp only at h
      cases hq : resolveAll v m i rs with
      | error e => rw [hq] at h; cases h
      | ok l' =>
        rw [hq] at h
        cases h
        obtain ⟨h1, h2, h3⟩ := ih l' hq
        refine ⟨by simp [h1], ?_, ?_⟩
        · intro s hs
          rcases List.mem_cons.1 hs with rfl | hs
          · exact ⟨a, hr, by simp⟩
          · obtain ⟨b, hb, hm⟩ := h2 s hs
            exact ⟨b, hb, by simp [hm]⟩
        · intro q hq
          rcases List.mem_cons.1 hq with rfl | hq
          · exact ⟨r, by simp, rfl, rfl⟩
          · obtain ⟨s, hs, hm⟩ := h3 q hq
            exact ⟨s, by simp [hs], hm⟩

theorem width_pos (t w : Nat) (h : Reloc.width t = some w) : 0 < w := Reloc.mem_width_pos (r := ⟨0, t, 0⟩) h

/-- sorted relocations whose fields do not overlap -/
theorem apart_of (sortRel : List RawRel → List RawRel) (hs : SortsRel sortRel) (rs : List RawRel) (hc : rs.Pairwise Clear) (hw : ∀ r ∈ rs, ∃ w, Reloc.width r.type = some w) (l : List Reloc.Rel)
    (h : l.map (fun r => (r.off, r.type)) = (sortRel rs).map (fun r => (r.off, r.type))) : l.Pairwise Reloc.Apart := by
  obtain ⟨hp, ho⟩ := hs rs
  have h1 : (sortRel rs).Pairwise Clear := by
    refine (hp.pairwise_iff ?_).2 hc
    intro a b hab w w' hw hw'
    exact (hab w' w hw' hw).symm
  have h2 : (sortRel rs).Pairwise (fun r r' => ∀ w, Reloc.width r.type = some w → r.off + w ≤ r'.off) := by
    refine List.Pairwise.imp_of_mem ?_ (h1.and ho)
    rintro a b ha hb ⟨hab, hle⟩ w hwa
    obtain ⟨w', hwb⟩ := hw b (hp.mem_iff.1 hb)
    have := hab w w' hwa hwb
    have := width_pos _ _ hwb
    omega
  have h3 : ((sortRel rs).map (fun r => (r.off, r.type))).Pairwise (fun r r' => ∀ w, Reloc.width r.2 = some w → r.1 + w ≤ r'.1) := List.pairwise_map.2 h2
  rw [← h] at h3
  have h4 := List.pairwise_map.1 h3
  exact h4

end Smlr.Whole
