import Verif.Heap.Realloc
import Verif.Heap.Spec
set_option autoImplicit false
namespace Smlr.Heap
open Smlr.Mem Spec

theorem bytes_length (m : Mem) (p n : Nat) : (bytes m p n).length = n := by simp [bytes]

theorem bytes_congr (m m' : Mem) (p n : Nat) (h : ∀ x, p ≤ x → x < p + n → m' x = m x) : bytes m' p n = bytes m p n := by
  unfold bytes
  apply List.map_congr_left
  intro i hi
  have := List.mem_range.1 hi
  exact h _ (by omega) (by omega)

theorem bytes_getElem? (m : Mem) (p n i : Nat) (h : i < n) : (bytes m p n)[i]? = some (m (p + i)) := by
  simp [bytes, List.getElem?_range h]

theorem bytes_ext (m : Mem) (p : Nat) (l : List UInt8) (h : ∀ i (hi : i < l.length), m (p + i) = l[i]) : bytes m p l.length = l := by
  apply List.ext_getElem
  · simp [bytes]
  · intro i h1 h2
    simp only [bytes, List.getElem_map, List.getElem_range]
    exact h i h2

/-- relation between the heap and the client's view -/
structure Good (c : Cfg) (st : St) (bs : List Blk) : Prop where
  inv : Inv c st.h bs
  ptrs : (st.live.map (·.1)).Perm ((used c.w st.h.start bs).map (·.1))
  cont : ∀ p l, (p, l) ∈ st.live → ∃ s, (p, s) ∈ used c.w st.h.start bs ∧ l.length ≤ s ∧ bytes st.h.mem p l.length = l

theorem ptrs_nodup (w a : Nat) (hw : 0 < w) (bs : List Blk) : ((used w a bs).map (·.1)).Nodup := by
  rw [List.Nodup, List.pairwise_map]
  exact (used_apart w a bs).imp (fun h => by unfold Apart at h; omega)

theorem live_unique {c : Cfg} (hc : c.ok) {st : St} {bs : List Blk} (hg : Good c st bs) {p : Nat} {l l' : List UInt8}
    (h1 : (p, l) ∈ st.live) (h2 : (p, l') ∈ st.live) : l = l' := by
  have hn : (st.live.map (·.1)).Nodup := hg.ptrs.symm.nodup (ptrs_nodup _ _ hc.facts.1 _)
  by_cases e : l = l'
  · exact e
  · rw [List.Nodup, List.pairwise_map] at hn
    rcases pairwise_mem hn (p, l) (p, l') h1 h2 (by simp [e]) with h | h <;> exact absurd rfl h

theorem good_sound {c : Cfg} (hc : c.ok) {st : St} {bs : List Blk} (hg : Good c st bs) : Sound c st := by
  obtain ⟨hw, hM8, -⟩ := hc.facts
  constructor
  · intro p l hp
    obtain ⟨s, h1, h2, h3⟩ := hg.cont p l hp
    have hr := used_range _ _ _ _ _ h1
    have hst := hg.inv.stop
    obtain ⟨k, hk⟩ := used_dvd _ _ _ _ _ _ hg.inv.lay h1
    refine ⟨by omega, ?_, by omega, by omega, h3⟩
    rw [hk]
    exact Nat.dvd_add hg.inv.align ⟨k, rfl⟩
  · have hn : (st.live.map (·.1)).Nodup := hg.ptrs.symm.nodup (ptrs_nodup _ _ hw _)
    rw [List.Nodup, List.pairwise_map] at hn
    refine List.Pairwise.imp_of_mem ?_ hn
    intro x y hx hy hne
    obtain ⟨s, h1, h2, -⟩ := hg.cont x.1 x.2 hx
    obtain ⟨t, g1, g2, -⟩ := hg.cont y.1 y.2 hy
    rcases pairwise_mem (used_apart c.w st.h.start bs) _ _ h1 g1 (by simp [hne]) with h | h <;>
    · unfold Apart at h; simp only at h; omega

theorem filter_perm {live : List (Nat × List UInt8)} {p : Nat} {R : List Nat} (h : (live.map (·.1)).Perm (p :: R))
    (hn : (p :: R).Nodup) : ((live.filter (fun e => e.1 ≠ p)).map (·.1)).Perm R := by
  have e : (live.filter (fun e => e.1 ≠ p)).map (·.1) = (live.map (·.1)).filter (fun q => q ≠ p) := by
    rw [List.filter_map]; rfl
  rw [e]
  have h2 := h.filter (fun q => decide (q ≠ p))
  refine h2.trans ?_
  have : (p :: R).filter (fun q => decide (q ≠ p)) = R := by
    rw [List.filter_cons_of_neg (by simp), List.filter_eq_self]
    intro q hq
    have := (List.nodup_cons.1 hn).1
    simp only [decide_eq_true_eq]
    intro e; rw [e] at hq; exact this hq
  rw [this]

theorem good_alloc {c : Cfg} {st : St} {bs bs' : List Blk} {h' : Heap} {p n : Nat} (hg : Good c st bs)
    (ha : Alloc c st.h bs n h' p bs') : Good c ⟨h', (p, bytes h'.mem p n) :: st.live⟩ bs' := by
  obtain ⟨k, hk, hperm⟩ := ha.perm
  refine ⟨ha.inv, ?_, ?_⟩
  · simp only [List.map_cons]
    rw [ha.start]
    have := hperm.map (·.1)
    simp only [List.map_cons] at this
    exact (hg.ptrs.cons p).trans this.symm
  · simp only [ha.start]
    intro q l hq
    rcases List.mem_cons.1 hq with e | hq
    · simp only [Prod.mk.injEq] at e
      obtain ⟨e1, e2⟩ := e
      subst e1 e2
      exact ⟨k, hperm.symm.subset (by simp), by rw [bytes_length]; omega, by rw [bytes_length]⟩
    · obtain ⟨s, h1, h2, h3⟩ := hg.cont q l hq
      refine ⟨s, hperm.symm.subset (by simp [h1]), h2, ?_⟩
      rw [bytes_congr st.h.mem h'.mem q l.length (fun x hx1 hx2 => ha.keep q s h1 x hx1 (by omega))]
      exact h3

theorem good_free {c : Cfg} (hc : c.ok) {st : St} {bs : List Blk} {p : Nat} (hg : Good c st bs)
    (hp : p = 0 ∨ p ∈ st.live.map (·.1)) :
    ∃ bs', Good c ⟨free c st.h p, st.live.filter (fun e => e.1 ≠ p)⟩ bs' ∧ (NoAdj bs → NoAdj bs') ∧
      (free c st.h p).start = st.h.start ∧ (free c st.h p).stop = st.h.stop := by
  obtain ⟨hw, hM8, -⟩ := hc.facts
  by_cases h0 : p = 0
  · subst h0
    have e : free c st.h 0 = st.h := by unfold free; rw [if_pos rfl]
    rw [e]
    have e2 : st.live.filter (fun e => e.1 ≠ 0) = st.live := by
      rw [List.filter_eq_self]
      intro x hx
      have := ((good_sound hc hg).1 x.1 x.2 hx).1
      simpa using this
    rw [e2]
    exact ⟨bs, hg, id, rfl, rfl⟩
  · have hp' : p ∈ st.live.map (·.1) := hp.resolve_left h0
    have hpu := hg.ptrs.subset hp'
    obtain ⟨⟨p', s⟩, hps, e⟩ := List.mem_map.1 hpu
    simp only at e
    subst e
    obtain ⟨bs', hr⟩ := free_ok c hc st.h bs p' s hg.inv hps
    refine ⟨bs', ⟨hr.inv, ?_, ?_⟩, hr.noadj, hr.start, hr.stop⟩
    · simp only [hr.start]
      have h1 := hr.perm.map (·.1)
      simp only [List.map_cons] at h1
      exact filter_perm (hg.ptrs.trans h1) (h1.nodup (ptrs_nodup _ _ hw _))
    · simp only [hr.start]
      intro q l hq
      rw [List.mem_filter] at hq
      obtain ⟨t, h1, h2, h3⟩ := hg.cont q l hq.1
      have hqp : q ≠ p' := by simpa using hq.2
      have h1' : (q, t) ∈ used c.w st.h.start bs' := by
        have := hr.perm.subset h1
        rcases List.mem_cons.1 this with e | e
        · simp only [Prod.mk.injEq] at e; exact absurd e.1 hqp
        · exact e
      refine ⟨t, h1', h2, ?_⟩
      rw [bytes_congr st.h.mem _ q l.length (fun x hx1 hx2 => hr.keep q t h1' x hx1 (by omega))]
      exact h3

theorem good_resize {c : Cfg} (hc : c.ok) {st : St} {bs bs' : List Blk} {h' : Heap} {p s q n : Nat} {R : List (Nat × Nat)}
    (hg : Good c st bs) (hr : Resize c st.h bs p s n h' q bs' R) :
    Good c ⟨h', (q, bytes h'.mem q n) :: st.live.filter (fun e => e.1 ≠ p)⟩ bs' := by
  obtain ⟨hw, hM8, -⟩ := hc.facts
  obtain ⟨k, hk, hperm⟩ := hr.after
  have hb := hr.before.map (·.1)
  simp only [List.map_cons] at hb
  have hf := filter_perm (hg.ptrs.trans hb) (hb.nodup (ptrs_nodup _ _ hw _))
  refine ⟨hr.inv, ?_, ?_⟩
  · simp only [List.map_cons, hr.start]
    have := hperm.map (·.1)
    simp only [List.map_cons] at this
    exact (hf.cons q).trans this.symm
  · simp only [hr.start]
    intro r l hq
    rcases List.mem_cons.1 hq with e | hq
    · simp only [Prod.mk.injEq] at e
      obtain ⟨e1, e2⟩ := e
      subst e1 e2
      exact ⟨k, hperm.symm.subset (by simp), by rw [bytes_length]; omega, by rw [bytes_length]⟩
    · rw [List.mem_filter] at hq
      obtain ⟨t, h1, h2, h3⟩ := hg.cont r l hq.1
      have hqp : r ≠ p := by simpa using hq.2
      have hR : (r, t) ∈ R := by
        have := hr.before.subset h1
        rcases List.mem_cons.1 this with e | e
        · simp only [Prod.mk.injEq] at e; exact absurd e.1 hqp
        · exact e
      refine ⟨t, hperm.symm.subset (by simp [hR]), h2, ?_⟩
      rw [bytes_congr st.h.mem _ r l.length (fun x hx1 hx2 => hr.keep r t hR x hx1 (by omega))]
      exact h3

theorem good_write {c : Cfg} (hc : c.ok) {st : St} {bs : List Blk} {p i : Nat} {v : UInt8} (hg : Good c st bs)
    (hv : ∃ l, (p, l) ∈ st.live ∧ i < l.length) :
    Good c ⟨{ st.h with mem := upd st.h.mem (p + i) v },
      st.live.map (fun e => if e.1 = p then (e.1, e.2.set i v) else e)⟩ bs := by
  obtain ⟨l, hl, hi⟩ := hv
  obtain ⟨s, h1, h2, h3⟩ := hg.cont p l hl
  refine ⟨⟨?_, hg.inv.stop, hg.inv.lt, hg.inv.ne, hg.inv.align⟩, ?_, ?_⟩
  · exact lay_data c.w st.h.mem _ st.h.start bs p s hg.inv.lay h1 (fun x hx => upd_ne _ _ (by omega))
  · have : (st.live.map (fun e => if e.1 = p then (e.1, e.2.set i v) else e)).map (·.1) = st.live.map (·.1) := by
      rw [List.map_map]
      apply List.map_congr_left
      intro e _
      simp only [Function.comp]
      split <;> rfl
    simp only [this]
    exact hg.ptrs
  · intro q k hq
    obtain ⟨⟨q', k'⟩, he, hee⟩ := List.mem_map.1 hq
    simp only at hee
    by_cases hqp : q' = p
    · rw [if_pos hqp] at hee
      subst hqp
      simp only [Prod.mk.injEq] at hee
      obtain ⟨e1, e2⟩ := hee
      subst e1 e2
      have := live_unique hc hg hl he
      subst this
      refine ⟨s, h1, by rw [List.length_set]; exact h2, ?_⟩
      apply bytes_ext
      intro j hj
      rw [List.length_set] at hj
      rw [List.getElem_set]
      simp only
      by_cases hij : i = j
      · subst hij; rw [if_pos rfl, upd_same]
      · rw [if_neg hij, upd_ne _ _ (by omega)]
        have g := congrArg (·[j]?) h3
        rw [bytes_getElem? _ _ _ _ hj, List.getElem?_eq_getElem hj] at g
        simpa using g
    · rw [if_neg hqp] at hee
      simp only [Prod.mk.injEq] at hee
      obtain ⟨e1, e2⟩ := hee
      subst e1 e2
      obtain ⟨t, g1, g2, g3⟩ := hg.cont q' k' he
      refine ⟨t, g1, g2, ?_⟩
      rw [bytes_congr st.h.mem _ q' k'.length ?_]
      · exact g3
      · intro x hx1 hx2
        refine upd_ne _ _ ?_
        rcases pairwise_mem (used_apart c.w st.h.start bs) _ _ h1 g1 (by simp; intro e; exact absurd e.symm hqp) with h | h <;>
        · unfold Apart at h; simp only at h; omega

theorem calloc_ok (c : Cfg) (hc : c.ok) (os : Nat → Bool) (h : Heap) (bs : List Blk) (k n : Nat)
    (hinv : Inv c h bs) (hk : k < c.M) (hreq : reqOk c (k * n)) :
    ∃ h' p, calloc c os h k n = some (h', p) ∧
      ((p = 0 ∧ h' = h) ∨ (p ≠ 0 ∧ ∃ bs', Alloc c h bs (k * n) h' p bs' ∧ bytes h'.mem p (k * n) = List.replicate (k * n) 0)) := by
  obtain ⟨hw, hM8, -⟩ := hc.facts
  unfold calloc
  simp only
  by_cases h0 : k * n % c.M = 0 ∨ k * n % c.M / n ≠ k
  · rw [if_pos h0]; exact ⟨h, 0, rfl, Or.inl ⟨rfl, rfl⟩⟩
  rw [if_neg h0]
  have hnov : k * n < c.M := by
    rcases Nat.lt_or_ge (k * n) c.M with h | h
    · exact h
    · exfalso
      apply h0
      right
      intro e
      have hn0 : 0 < n := by
        rcases Nat.eq_zero_or_pos n with h | h
        · subst h; simp at h0
        · exact h
      have h1 : k * n % c.M < k * n := Nat.lt_of_lt_of_le (Nat.mod_lt _ (by omega)) h
      have h2 : k * n % c.M / n < k := by rw [Nat.div_lt_iff_lt_mul hn0]; exact h1
      omega
  rw [Nat.mod_eq_of_lt hnov]
  obtain ⟨h1, p, e1, hcase⟩ := malloc_ok c hc os h bs (k * n) hinv hreq
  rw [e1]
  simp only
  rcases hcase with ⟨hz, hh⟩ | ⟨hnz, _, bs1, ha⟩
  · rw [if_neg (by simp [hz]), hh]
    exact ⟨h, p, rfl, Or.inl ⟨hz, rfl⟩⟩
  · rw [if_pos hnz]
    have hfill : ∀ x, (memset h1.mem p 0 (k * n)).1 x = if p ≤ x ∧ x < p + k * n then 0 else h1.mem x := by
      intro x
      exact fill_eq (k * n) p (toChar 0) h1.mem x
    generalize (memset h1.mem p 0 (k * n)).1 = m2 at *
    obtain ⟨s, hs, hperm⟩ := ha.perm
    have hpin : (p, s) ∈ used c.w h.start bs1 := hperm.symm.subset (by simp)
    refine ⟨_, p, rfl, Or.inr ⟨hnz, bs1, ⟨⟨?_, ha.inv.stop, ha.inv.lt, ha.inv.ne, ha.inv.align⟩, ha.start, ha.perm, ?_, ha.noadj, ha.fixed⟩, ?_⟩⟩
    · refine lay_data c.w h1.mem m2 h1.start bs1 p s ha.inv.lay (by rw [ha.start]; exact hpin) ?_
      intro x hx
      rw [hfill x, if_neg (by omega)]
    · intro q t hq x hx1 hx2
      simp only
      rw [hfill x, if_neg]
      · exact ha.keep q t hq x hx1 hx2
      · have := apart_perm c.w hperm (used_apart c.w h.start bs1)
        have := (List.pairwise_cons.1 this).1 _ hq
        unfold Apart at this; simp only at this; omega
    · have := bytes_ext m2 p (List.replicate (k * n) 0) (fun i hi => by
        rw [List.length_replicate] at hi
        rw [hfill, if_pos (by omega)]; simp)
      rw [List.length_replicate] at this
      exact this

theorem good_step {c : Cfg} (hc : c.ok) {st : St} {bs : List Blk} (hg : Good c st bs) (os : Nat → Bool) (op : Op)
    (hv : valid c st op) (hreq : reqOk c (Spec.size op)) :
    ∃ st' bs', step c os st op = some st' ∧ Good c st' bs' ∧ st'.h.start = st.h.start ∧
      (c.grow = false → st'.h.stop = st.h.stop) := by
  cases op with
  | malloc n =>
    obtain ⟨h', p, e, hcase⟩ := malloc_ok c hc os st.h bs n hg.inv hreq
    simp only [Spec.step, e, Option.map_some]
    rcases hcase with ⟨hz, hh⟩ | ⟨hnz, _, bs', ha⟩
    · rw [if_pos hz, hh]; exact ⟨_, bs, rfl, hg, rfl, fun _ => rfl⟩
    · rw [if_neg hnz]
      exact ⟨_, bs', rfl, good_alloc hg ha, ha.start, ha.fixed⟩
  | calloc k n =>
    obtain ⟨h', p, e, hcase⟩ := calloc_ok c hc os st.h bs k n hg.inv hv.1 hreq
    simp only [Spec.step, e, Option.map_some]
    rcases hcase with ⟨hz, hh⟩ | ⟨hnz, bs', ha, hz⟩
    · rw [if_pos hz, hh]; exact ⟨_, bs, rfl, hg, rfl, fun _ => rfl⟩
    · rw [if_neg hnz]
      have := good_alloc hg ha
      rw [hz] at this
      exact ⟨_, bs', rfl, this, ha.start, ha.fixed⟩
  | realloc p n =>
    by_cases h0 : p = 0
    · subst h0
      have e0 : realloc c os st.h 0 n = (if n = 0 ∨ n > c.M - 2 * c.H then some (st.h, 0) else malloc c os st.h n) := by
        unfold realloc; split
        · rfl
        · rw [if_pos rfl]
      obtain ⟨h', p, e, hcase⟩ := malloc_ok c hc os st.h bs n hg.inv hreq
      have e1 : realloc c os st.h 0 n = some (h', p) := by
        rw [e0]; split
        · rename_i hb; rw [← e]; unfold malloc; rw [if_pos hb]
        · exact e
      simp only [Spec.step, e1, Option.map_some]
      have e2 : st.live.filter (fun e => e.1 ≠ 0) = st.live := by
        rw [List.filter_eq_self]
        intro x hx
        have := ((good_sound hc hg).1 x.1 x.2 hx).1
        simpa using this
      rcases hcase with ⟨hz, hh⟩ | ⟨hnz, _, bs', ha⟩
      · rw [if_pos hz, hh]; exact ⟨_, bs, rfl, hg, rfl, fun _ => rfl⟩
      · rw [if_neg hnz, e2]
        exact ⟨_, bs', rfl, good_alloc hg ha, ha.start, ha.fixed⟩
    · have hp' : p ∈ st.live.map (·.1) := hv.2.resolve_left h0
      have hpu := hg.ptrs.subset hp'
      obtain ⟨⟨p', s⟩, hps, e⟩ := List.mem_map.1 hpu
      simp only at e
      subst e
      obtain ⟨h', q, e, hcase⟩ := realloc_ok c hc os st.h bs p' s n hg.inv hps hreq
      simp only [Spec.step, e, Option.map_some]
      rcases hcase with ⟨hz, hh⟩ | ⟨hnz, _, bs', R, hr⟩
      · rw [if_pos hz, hh]; exact ⟨_, bs, rfl, hg, rfl, fun _ => rfl⟩
      · rw [if_neg hnz]
        refine ⟨_, bs', rfl, good_resize hc hg hr, hr.start, hr.fixed⟩
  | free p =>
    obtain ⟨bs', h1, -, h2, h3⟩ := good_free hc hg hv
    exact ⟨_, bs', rfl, h1, h2, fun _ => h3⟩
  | write p i v => exact ⟨_, bs, rfl, good_write hc hg hv, rfl, fun _ => rfl⟩

/-! ### initialisation -/

theorem initBlock_ok (c : Cfg) (hc : c.ok) (m : Mem) (start stop : Nat) (h1 : start + 4 * c.w ≤ stop) (h2 : stop < c.M)
    (h3 : (4 * c.w) ∣ (start + 2 * c.w)) (h4 : (4 * c.w) ∣ (stop - start)) :
    Inv c (initBlock c m start stop) [⟨stop - start - 4 * c.w, false⟩] := by
  obtain ⟨hw, hM8, -⟩ := hc.facts
  have h0w : 0 < 256 ^ c.w := by have := one_lt c.w hw; omega
  have hMd : c.M = 256 ^ c.w := rfl
  unfold initBlock
  have hsz : (stop + c.M - start + c.M - 2 * c.H) % c.M = stop - start - 4 * c.w := by
    unfold Cfg.H
    rw [show stop + c.M - start + c.M - 2 * (2 * c.w) = stop - start - 4 * c.w + c.M + c.M by omega,
      Nat.add_mod_right, Nat.add_mod_right, Nat.mod_eq_of_lt (by omega)]
  simp only
  rw [hsz, ix_eq c (by omega), ix_eq c (by omega), nix_eq c (by omega) (by omega), nix_eq c (by omega) (by omega)]
  simp only [Nat.zero_mul, Nat.one_mul, Nat.add_zero]
  generalize hr : stop - start - 4 * c.w = r at *
  refine ⟨⟨⟨?_, ?_, ?_, ?_⟩, ?_, trivial⟩, ?_, h2, by simp, h3⟩
  · simp only
    rw [rd_wr_ne _ _ _ _ _ (by omega), rd_wr_ne _ _ _ _ _ (by omega), rd_wr_ne _ _ _ _ _ (by omega), rd_wr_same _ _ _ _ (by omega)]
  · simp only
    rw [rd_wr_ne _ _ _ _ _ (by omega), rd_wr_ne _ _ _ _ _ (by omega), rd_wr_same _ _ _ _ h0w]; rfl
  · simp only
    rw [show start + 2 * c.w + r = stop - 2 * c.w by omega, rd_wr_ne _ _ _ _ _ (by omega), rd_wr_same _ _ _ _ h0w]; rfl
  · simp only
    rw [show start + 3 * c.w + r = stop - c.w by omega, rd_wr_same _ _ _ _ (by omega)]
  · simp only
    rw [← hr]; exact Nat.dvd_sub h4 (Nat.dvd_refl _)
  · simp only [span]; omega

theorem oddMul_cases (c : Cfg) (x : Nat) : (x % (2 * c.H) = 0 ∧ oddMul c x = x + c.H) ∨ (x % (2 * c.H) ≠ 0 ∧ oddMul c x = x) := by
  unfold oddMul
  by_cases h : x % (2 * c.H) = 0
  · left; exact ⟨h, if_pos h⟩
  · right; exact ⟨h, if_neg h⟩

theorem initDos_ok (c : Cfg) (hc : c.ok) (m : Mem) (start0 stop0 : Nat) (h : Heap) (hs : start0 < c.M) (ht : stop0 < c.M)
    (hi : initDos c m start0 stop0 = some h) :
    start0 ≤ h.start ∧ h.stop ≤ stop0 ∧ h.start + 4 * c.w ≤ h.stop ∧ Inv c h [⟨h.stop - h.start - 4 * c.w, false⟩] := by
  unfold initDos at hi
  simp only at hi
  have hst := oddMul_cases c ((start0 + c.H - 1) % c.M - (start0 + c.H - 1) % c.M % c.H)
  have hsp := oddMul_cases c ((stop0 + c.M - c.H) % c.M - (stop0 + c.M - c.H) % c.M % c.H)
  generalize oddMul c ((start0 + c.H - 1) % c.M - (start0 + c.H - 1) % c.M % c.H) = start at hi hst
  generalize oddMul c ((stop0 + c.M - c.H) % c.M - (stop0 + c.M - c.H) % c.M % c.H) = stop at hi hsp
  split at hi
  · simp at hi
  · rename_i hcond
    simp only [Option.some.injEq] at hi
    have key : start0 ≤ start ∧ stop ≤ stop0 ∧ start + 4 * c.w ≤ stop ∧ (4 * c.w) ∣ (start + 2 * c.w) ∧ (4 * c.w) ∣ (stop - start) := by
      clear hi
      rw [Nat.dvd_iff_mod_eq_zero, Nat.dvd_iff_mod_eq_zero]
      obtain ⟨w, g⟩ := c
      unfold Cfg.M Cfg.H at *
      unfold Cfg.ok at hc
      simp only at hc
      rcases hc with hw | hw <;> subst hw <;> simp only [Nat.reducePow, Nat.reduceMul] at * <;> omega
    subst hi
    obtain ⟨k1, k2, k3, k4, k5⟩ := key
    exact ⟨k1, k2, k3, initBlock_ok c hc m start stop k3 (by omega) k4 k5⟩

theorem arithL (M H w s0 st : Nat) (hH : H = 2 * w) (h : (M = 65536 ∧ w = 2) ∨ (M = 4294967296 ∧ w = 4)) (hs : s0 < M)
    (hst : (((s0 + H - 1) % M - (s0 + H - 1) % M % H) % (2 * H) = 0 ∧ st = (s0 + H - 1) % M - (s0 + H - 1) % M % H + H) ∨
      (((s0 + H - 1) % M - (s0 + H - 1) % M % H) % (2 * H) ≠ 0 ∧ st = (s0 + H - 1) % M - (s0 + H - 1) % M % H))
    (hnb : s0 ≤ (s0 + (st + M - s0 + 2 * H) % M) % M ∨ M / 2 ≤ (st + M - s0 + 2 * H) % M) :
    s0 ≤ st ∧ st + 4 * w < M ∧ (st + 2 * w) % (4 * w) = 0 := by
  subst hH
  by_cases hov : s0 + 2 * w - 1 < M
  · rw [Nat.mod_eq_of_lt hov] at hst
    have h1 : s0 ≤ st ∧ st ≤ s0 + 4 * w - 1 ∧ (st + 2 * w) % (4 * w) = 0 := by
      rcases h with ⟨rfl, rfl⟩ | ⟨rfl, rfl⟩ <;> omega
    refine ⟨h1.1, ?_, h1.2.2⟩
    rw [show st + M - s0 + 2 * (2 * w) = (st - s0 + 4 * w) + M by omega, Nat.add_mod_right,
      Nat.mod_eq_of_lt (show st - s0 + 4 * w < M by omega)] at hnb
    by_cases hov2 : s0 + (st - s0 + 4 * w) < M
    · omega
    · rw [Nat.mod_eq_sub_mod (by omega), Nat.mod_eq_of_lt (by omega)] at hnb
      omega
  · have e : (s0 + 2 * w - 1) % M = s0 + 2 * w - 1 - M := by
      rw [Nat.mod_eq_sub_mod (by omega), Nat.mod_eq_of_lt (by omega)]
    rw [e] at hst
    have h1 : st = 2 * w := by
      rcases h with ⟨rfl, rfl⟩ | ⟨rfl, rfl⟩ <;> omega
    rw [Nat.mod_eq_of_lt (show st + M - s0 + 2 * (2 * w) < M by omega),
      show s0 + (st + M - s0 + 2 * (2 * w)) = st + 4 * w + M by omega, Nat.add_mod_right,
      Nat.mod_eq_of_lt (by omega)] at hnb
    omega

theorem initLinux_ok (c : Cfg) (hc : c.ok) (os : Nat → Bool) (m : Mem) (start0 : Nat) (h : Heap) (hs : start0 < c.M)
    (hi : initLinux c os m start0 = some h) :
    start0 ≤ h.start ∧ h.stop = h.start + 4 * c.w ∧ Inv c h [⟨h.stop - h.start - 4 * c.w, false⟩] := by
  unfold initLinux at hi
  simp only at hi
  have hst := oddMul_cases c ((start0 + c.H - 1) % c.M - (start0 + c.H - 1) % c.M % c.H)
  generalize oddMul c ((start0 + c.H - 1) % c.M - (start0 + c.H - 1) % c.M % c.H) = start at hi hst
  split at hi
  · simp at hi
  · rename_i x nb hsb
    unfold sbrk at hsb
    simp only at hsb
    have hnb : start0 ≤ (start0 + (start + c.M - start0 + 2 * c.H) % c.M) % c.M ∨ c.M / 2 ≤ (start + c.M - start0 + 2 * c.H) % c.M := by
      split at hsb
      · split at hsb
        · simp at hsb
        · left; omega
      · right; omega
    obtain ⟨k1, k2, k3⟩ := arithL c.M c.H c.w start0 start rfl
      (by rcases hc with e | e
          · left; exact ⟨by unfold Cfg.M; rw [e], e⟩
          · right; exact ⟨by unfold Cfg.M; rw [e], e⟩) hs hst hnb
    rw [← Nat.dvd_iff_mod_eq_zero] at k3
    have hstop : (start + 2 * c.H) % c.M = start + 4 * c.w := by
      unfold Cfg.H; rw [Nat.mod_eq_of_lt (by omega)]; omega
    rw [hstop] at hi
    simp only [Option.some.injEq] at hi
    subst hi
    exact ⟨k1, rfl, initBlock_ok c hc m start (start + 4 * c.w) (by omega) k2 k3 ⟨1, by omega⟩⟩

end Smlr.Heap
