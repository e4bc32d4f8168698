import Verif.Heap.Ops
set_option autoImplicit false
namespace Smlr.Heap
open Smlr.Mem

/-- two allocated blocks apart from each other -/
def Apart (w : Nat) (x y : Nat × Nat) : Prop := x.1 + x.2 + 4 * w ≤ y.1 ∨ y.1 + y.2 + 4 * w ≤ x.1

theorem used_apart (w a : Nat) (bs : List Blk) : (used w a bs).Pairwise (Apart w) :=
  (used_disj w bs a).imp (fun h => Or.inl h)

theorem apart_perm (w : Nat) {l l' : List (Nat × Nat)} (h : l.Perm l') (hl : l.Pairwise (Apart w)) : l'.Pairwise (Apart w) :=
  (h.pairwise_iff (fun {x y} hxy => hxy.symm)).1 hl

theorem pairwise_mem {α : Type} {R : α → α → Prop} : ∀ {l : List α}, l.Pairwise R → ∀ x y, x ∈ l → y ∈ l → x ≠ y → R x y ∨ R y x := by
  intro l
  induction l with
  | nil => intro _ x y hx; simp at hx
  | cons z zs ih =>
    intro h x y hx hy hne
    rw [List.pairwise_cons] at h
    rcases List.mem_cons.1 hx with e | hx'
    · rcases List.mem_cons.1 hy with e' | hy'
      · exact absurd (e.trans e'.symm) hne
      · rw [e]; exact Or.inl (h.1 y hy')
    · rcases List.mem_cons.1 hy with e' | hy'
      · rw [e']; exact Or.inr (h.1 x hx')
      · exact ih h.2 x y hx' hy' hne

theorem used_unique (w a : Nat) (hw : 0 < w) (bs : List Blk) (p s t : Nat)
    (h1 : (p, s) ∈ used w a bs) (h2 : (p, t) ∈ used w a bs) : s = t := by
  by_cases hne : s = t
  · exact hne
  · have hne' : (p, s) ≠ (p, t) := by simp [hne]
    rcases pairwise_mem (used_apart w a bs) _ _ h1 h2 hne' with e | e <;>
    · unfold Apart at e; simp only at e; omega

/-- changing bytes of allocated data does not disturb the tiling -/
theorem lay_data (w : Nat) (m m' : Mem) (a : Nat) (bs : List Blk) (p s : Nat) (hl : Lay w m a bs)
    (hp : (p, s) ∈ used w a bs) (hm : ∀ x, ¬ (p ≤ x ∧ x < p + s) → m' x = m x) : Lay w m' a bs := by
  obtain ⟨pre, post, e, ep⟩ := used_split _ _ _ _ _ hp
  subst e
  have hl0 := hl
  rw [lay_append] at hl
  obtain ⟨h1, h2, h3, h4⟩ := hl
  refine lay_replace (mid := [⟨s, true⟩]) (mid' := [⟨s, true⟩]) (m := m) hl0 rfl ?_ ?_
  · intro x hx
    simp only [span] at hx
    exact hm x (by omega)
  · refine ⟨h2.congr (fun x hx => hm x ?_), h3, trivial⟩
    simp only at hx
    omega

/-- successful reallocation seen on the block list: `R` are the other allocated blocks -/
structure Resize (c : Cfg) (h : Heap) (bs : List Blk) (p s size : Nat) (h' : Heap) (q : Nat) (bs' : List Blk)
    (R : List (Nat × Nat)) : Prop where
  inv : Inv c h' bs'
  start : h'.start = h.start
  before : (used c.w h.start bs).Perm ((p, s) :: R)
  after : ∃ n, size ≤ n ∧ (used c.w h.start bs').Perm ((q, n) :: R)
  keep : ∀ r t, (r, t) ∈ R → ∀ x, r ≤ x → x < r + t → h'.mem x = h.mem x
  copy : ∀ i, i < s → i < size → h'.mem (q + i) = h.mem (p + i)
  fixed : c.grow = false → h'.stop = h.stop

theorem shrink_ok (c : Cfg) (hc : c.ok) (h : Heap) (bs : List Blk) (p s n size : Nat) (hinv : Inv c h bs)
    (hp : (p, s) ∈ used c.w h.start bs) (hn : n < s) (hd : (4 * c.w) ∣ n) (hsz : size ≤ n) (m' : Mem)
    (hm' : m' =
      let blk := (p + c.M - c.H) % c.M
      let nxtblk := (blk + 2 * c.H + s) % c.M
      let mid := (blk + 2 * c.H + n) % c.M
      let m := wr c.w h.mem blk n
      let m := wr c.w m (c.nix mid 2) 1
      let m := wr c.w m (c.nix mid 1) n
      let sz := (s + c.M - (n + 2 * c.H) % c.M) % c.M
      let m := wr c.w m (c.ix mid 0) sz
      let m := wr c.w m (c.ix mid 1) 0
      let m := wr c.w m (c.nix nxtblk 2) 0
      wr c.w m (c.nix nxtblk 1) sz) :
    ∃ bs' R, Resize c h bs p s size { h with mem := m' } p bs' R := by
  obtain ⟨hw, hM8, -⟩ := hc.facts
  have h1w := one_lt c.w hw
  have hMd : c.M = 256 ^ c.w := rfl
  obtain ⟨pre, post, e, ep⟩ := used_split _ _ _ _ _ hp
  subst e
  obtain ⟨hlay, hstop, hlt, hne, hal⟩ := hinv
  have hlay0 := hlay
  rw [lay_append] at hlay
  obtain ⟨hlp, ⟨t1, t2, t3, t4⟩, hds, hlpost⟩ := hlay
  have hstop0 := hstop
  rw [span_append] at hstop
  simp only [span, Blk.flag] at hstop t1 t2 t3 t4 hds
  have hgap := dvd_gap hd hds hn
  have hblk : (p + c.M - c.H) % c.M = h.start + span c.w pre := by
    unfold Cfg.H
    rw [ep, show h.start + span c.w pre + 2 * c.w + c.M - 2 * c.w = h.start + span c.w pre + c.M by omega, Nat.add_mod_right,
      Nat.mod_eq_of_lt (by omega)]
  generalize hA : h.start + span c.w pre = a at *
  have hnx : (a + 2 * c.H + s) % c.M = a + 4 * c.w + s := by
    unfold Cfg.H
    rw [Nat.mod_eq_of_lt (by omega)]; omega
  have hmid : (a + 2 * c.H + n) % c.M = a + 4 * c.w + n := by
    unfold Cfg.H
    rw [Nat.mod_eq_of_lt (by omega)]; omega
  have hsz2 : (s + c.M - (n + 2 * c.H) % c.M) % c.M = s - n - 4 * c.w := by
    unfold Cfg.H
    rw [Nat.mod_eq_of_lt (show n + 2 * (2 * c.w) < c.M by omega),
      show s + c.M - (n + 2 * (2 * c.w)) = s - n - 4 * c.w + c.M by omega, Nat.add_mod_right,
      Nat.mod_eq_of_lt (by omega)]
  simp only at hm'
  rw [hblk, hnx, hmid, hsz2, ix_eq c (by omega), ix_eq c (by omega),
    nix_eq c (by omega) (by omega), nix_eq c (by omega) (by omega), nix_eq c (by omega) (by omega), nix_eq c (by omega) (by omega)] at hm'
  simp only [Nat.zero_mul, Nat.one_mul, Nat.add_zero] at hm'
  rw [show a + 4 * c.w + n - 2 * c.w = a + 2 * c.w + n by omega, show a + 4 * c.w + n - c.w = a + 3 * c.w + n by omega] at hm'
  generalize hrest : s - n - 4 * c.w = r at *
  have hs' : s = n + 4 * c.w + r := by omega
  subst hs'
  rw [show a + 4 * c.w + (n + 4 * c.w + r) - 2 * c.w = a + 6 * c.w + n + r by omega,
    show a + 4 * c.w + (n + 4 * c.w + r) - c.w = a + 7 * c.w + n + r by omega] at hm'
  have hframe : ∀ x, (x < a ∨ (a + c.w ≤ x ∧ x < a + 2 * c.w + n) ∨ a + (8 * c.w + n + r) ≤ x) → m' x = h.mem x := by
    intro x hx
    rw [hm', wr_other _ _ _ _ _ (by omega), wr_other _ _ _ _ _ (by omega), wr_other _ _ _ _ _ (by omega),
        wr_other _ _ _ _ _ (by omega), wr_other _ _ _ _ _ (by omega), wr_other _ _ _ _ _ (by omega), wr_other _ _ _ _ _ (by omega)]
  refine ⟨pre ++ ([⟨n, true⟩, ⟨r, false⟩] ++ post), used c.w h.start pre ++ used c.w (a + (8 * c.w + n + r)) post,
    ⟨⟨?_, ?_, hlt, by simp, hal⟩, rfl, ?_, ⟨n, hsz, ?_⟩, ?_, ?_, fun _ => rfl⟩⟩
  · refine lay_replace (mid := [⟨n + 4 * c.w + r, true⟩]) (m := h.mem) hlay0 (by simp only [span]; omega) ?_ ?_
    · intro x hx
      simp only [span] at hx
      exact hframe x (by omega)
    · rw [hA]
      refine ⟨⟨?_, ?_, ?_, ?_⟩, hd, ⟨?_, ?_, ?_, ?_⟩, ?_, trivial⟩
      · try simp only
        rw [hm', rd_wr_ne _ _ _ _ _ (by omega), rd_wr_ne _ _ _ _ _ (by omega), rd_wr_ne _ _ _ _ _ (by omega),
          rd_wr_ne _ _ _ _ _ (by omega), rd_wr_ne _ _ _ _ _ (by omega), rd_wr_ne _ _ _ _ _ (by omega), rd_wr_same _ _ _ _ (by omega)]
      · try simp only
        rw [rd_congr _ m' h.mem _ (fun i hi => hframe _ (by omega)), t2]; rfl
      · try simp only
        rw [hm', rd_wr_ne _ _ _ _ _ (by omega), rd_wr_ne _ _ _ _ _ (by omega), rd_wr_ne _ _ _ _ _ (by omega),
          rd_wr_ne _ _ _ _ _ (by omega), rd_wr_ne _ _ _ _ _ (by omega), rd_wr_same _ _ _ _ h1w]; rfl
      · try simp only
        rw [hm', rd_wr_ne _ _ _ _ _ (by omega), rd_wr_ne _ _ _ _ _ (by omega), rd_wr_ne _ _ _ _ _ (by omega),
          rd_wr_ne _ _ _ _ _ (by omega), rd_wr_same _ _ _ _ (by omega)]
      · try simp only
        rw [show a + (4 * c.w + n) = a + 4 * c.w + n by omega]
        rw [hm', rd_wr_ne _ _ _ _ _ (by omega), rd_wr_ne _ _ _ _ _ (by omega), rd_wr_ne _ _ _ _ _ (by omega),
          rd_wr_same _ _ _ _ (by omega)]
      · try simp only
        rw [show a + (4 * c.w + n) = a + 4 * c.w + n by omega]
        rw [hm', rd_wr_ne _ _ _ _ _ (by omega), rd_wr_ne _ _ _ _ _ (by omega), rd_wr_same _ _ _ _ (by omega)]; rfl
      · try simp only
        rw [show a + (4 * c.w + n) + 2 * c.w + r = a + 6 * c.w + n + r by omega]
        rw [hm', rd_wr_ne _ _ _ _ _ (by omega), rd_wr_same _ _ _ _ (by omega)]; rfl
      · try simp only
        rw [show a + (4 * c.w + n) + 3 * c.w + r = a + 7 * c.w + n + r by omega]
        rw [hm', rd_wr_same _ _ _ _ (by omega)]
      · try simp only
        rw [show r = n + 4 * c.w + r - n - 4 * c.w by omega]
        exact Nat.dvd_sub (Nat.dvd_sub hds hd) (Nat.dvd_refl _)
  · rw [span_append, span_append]
    simp only [span]
    omega
  · rw [used_mid, hA, ep, show a + (8 * c.w + n + r) = a + (4 * c.w + (n + 4 * c.w + r)) by omega]
    exact List.perm_middle
  · rw [used_append, used_append, hA, ep]
    simp only [used, if_true, Bool.false_eq_true, if_false, List.nil_append, List.append_nil, span]
    rw [show a + (4 * c.w + n + (4 * c.w + r + 0)) = a + (8 * c.w + n + r) by omega]
    simp only [List.cons_append, List.nil_append]
    exact List.perm_middle
  · intro q t hq x hx1 hx2
    refine hframe x ?_
    rw [List.mem_append] at hq
    rcases hq with hq | hq
    · have := used_range _ _ _ _ _ hq; omega
    · have := used_range _ _ _ _ _ hq; omega
  · intro i hi1 hi2
    exact hframe _ (by omega)

theorem realloc_ok (c : Cfg) (hc : c.ok) (os : Nat → Bool) (h : Heap) (bs : List Blk) (p s size : Nat)
    (hinv : Inv c h bs) (hp : (p, s) ∈ used c.w h.start bs) (hreq : reqOk c size) :
    ∃ h' q, realloc c os h p size = some (h', q) ∧
      ((q = 0 ∧ h' = h) ∨ (q ≠ 0 ∧ size ≠ 0 ∧ ∃ bs' R, Resize c h bs p s size h' q bs' R)) := by
  obtain ⟨hw, hM8, hdM, hM2, hdM2⟩ := hc.facts
  have hpr := used_range _ _ _ _ _ hp
  unfold realloc
  by_cases h0 : size = 0 ∨ size > c.M - 2 * c.H
  · rw [if_pos h0]; exact ⟨h, 0, rfl, Or.inl ⟨rfl, rfl⟩⟩
  rw [if_neg h0, if_neg (show ¬ p = 0 by omega)]
  simp only
  obtain ⟨r1, r2, r3, r4, r5⟩ := roundSize_eq c hc size (by omega) (by omega)
  have hreq' : reqOk c (roundSize c size) := fun hg => r5 _ (Nat.dvd_sub hdM2 (Nat.dvd_refl _)) (hreq hg)
  generalize roundSize c size = n at *
  have hsz : rd c.w h.mem ((p + c.M - c.H) % c.M) = s := by
    obtain ⟨pre, post, e, ep⟩ := used_split _ _ _ _ _ hp
    have hl := hinv.lay
    have hst := hinv.stop
    have hlt := hinv.lt
    rw [e] at hl hst
    rw [lay_append] at hl
    rw [span_append] at hst
    simp only [span] at hst
    unfold Cfg.H
    rw [ep, show h.start + span c.w pre + 2 * c.w + c.M - 2 * c.w = h.start + span c.w pre + c.M by omega, Nat.add_mod_right,
      Nat.mod_eq_of_lt (by omega)]
    exact hl.2.1.hsize
  rw [hsz]
  by_cases hge : s ≥ n
  · rw [if_pos hge]
    by_cases hgt : s > n
    · rw [if_pos hgt]
      exact ⟨_, _, rfl, Or.inr ⟨by omega, by omega, shrink_ok c hc h bs p s n size hinv hp hgt r2 r1 _ rfl⟩⟩
    · rw [if_neg hgt]
      have hsn : s = n := by omega
      obtain ⟨pre, post, e, ep⟩ := used_split _ _ _ _ _ hp
      have hperm : (used c.w h.start bs).Perm ((p, s) :: (used c.w h.start pre ++ used c.w (h.start + span c.w pre + (4 * c.w + s)) post)) := by
        rw [e, used_mid, ep]
        exact List.perm_middle
      exact ⟨h, p, rfl, Or.inr ⟨by omega, by omega, bs, _, ⟨hinv, rfl, hperm, ⟨s, by omega, hperm⟩, fun _ _ _ _ _ _ => rfl, fun _ _ _ => rfl, fun _ => rfl⟩⟩⟩
  · rw [if_neg hge]
    obtain ⟨h1, p2, e1, hcase⟩ := malloc_ok c hc os h bs n hinv hreq'
    rw [e1]
    simp only
    rcases hcase with ⟨hz, hh⟩ | ⟨hnz, _, bs1, ha⟩
    · rw [if_neg (by simp [hz]), hh]
      exact ⟨h, 0, rfl, Or.inl ⟨rfl, rfl⟩⟩
    · rw [if_pos hnz]
      obtain ⟨n2, hn2, hperm1⟩ := ha.perm
      have hstart := ha.start
      have hp2 : (p2, n2) ∈ used c.w h.start bs1 := hperm1.symm.subset (by simp)
      have hp1 : (p, s) ∈ used c.w h.start bs1 := hperm1.symm.subset (by simp [hp])
      have hap : Apart c.w (p2, n2) (p, s) := by
        have := apart_perm c.w hperm1 (used_apart c.w h.start bs1)
        exact (List.pairwise_cons.1 this).1 _ hp
      have hcopy : ∀ x, (memcpy h1.mem p2 p s).1 x = if p2 ≤ x ∧ x < p2 + s then h1.mem (p + (x - p2)) else h1.mem x := by
        intro x
        unfold Apart at hap
        simp only at hap
        rcases hap with h | h
        · exact copyFwd_le s p2 p h1.mem (by omega) x
        · exact copyFwd_disj s p2 p h1.mem (by omega) x
      generalize hm2 : (memcpy h1.mem p2 p s).1 = m2 at *
      have hinv2 : Inv c { h1 with mem := m2 } bs1 := by
        refine ⟨?_, ha.inv.stop, ha.inv.lt, ha.inv.ne, ha.inv.align⟩
        refine lay_data c.w h1.mem m2 h1.start bs1 p2 n2 ha.inv.lay (by rw [hstart]; exact hp2) ?_
        intro x hx
        rw [hcopy x, if_neg (by omega)]
      obtain ⟨bs3, hr⟩ := free_ok c hc { h1 with mem := m2 } bs1 p s hinv2 (by simp only; rw [hstart]; exact hp1)
      have hrs : (free c { h1 with mem := m2 } p).start = h.start := by rw [hr.start]; exact hstart
      have hu := hr.perm
      simp only at hu
      rw [hstart] at hu
      obtain ⟨pre, post, e, ep⟩ := used_split _ _ _ _ _ hp
      have hperm0 : (used c.w h.start bs).Perm ((p, s) :: (used c.w h.start pre ++ used c.w (h.start + span c.w pre + (4 * c.w + s)) post)) := by
        rw [e, used_mid, ep]
        exact List.perm_middle
      generalize (used c.w h.start pre ++ used c.w (h.start + span c.w pre + (4 * c.w + s)) post) = R at hperm0
      have hafter : (used c.w h.start bs3).Perm ((p2, n2) :: R) := by
        have h1 : ((p, s) :: used c.w h.start bs3).Perm ((p, s) :: (p2, n2) :: R) :=
          hu.symm.trans (hperm1.trans ((hperm0.cons _).trans (List.Perm.swap _ _ _)))
        exact h1.cons_inv
      refine ⟨_, p2, rfl, Or.inr ⟨hnz, by omega, bs3, R, ⟨hr.inv, hrs, hperm0, ⟨n2, by omega, hafter⟩, ?_, ?_, fun hf => hr.stop.trans (ha.fixed hf)⟩⟩⟩
      · intro q t hq x hx1 hx2
        have hq3 : (q, t) ∈ used c.w h.start bs3 := hafter.symm.subset (by simp [hq])
        have hq0 : (q, t) ∈ used c.w h.start bs := hperm0.symm.subset (by simp [hq])
        have k1 := hr.keep q t (by simp only; rw [hstart]; exact hq3) x hx1 hx2
        rw [k1]
        simp only
        have hap2 : Apart c.w (p2, n2) (q, t) := by
          have := apart_perm c.w hperm1 (used_apart c.w h.start bs1)
          exact (List.pairwise_cons.1 this).1 _ hq0
        unfold Apart at hap2
        simp only at hap2
        rw [hcopy x, if_neg (by omega)]
        exact ha.keep q t hq0 x hx1 hx2
      · intro i hi1 hi2
        have hp23 : (p2, n2) ∈ used c.w h.start bs3 := hafter.symm.subset (by simp)
        rw [hr.keep p2 n2 (by simp only; rw [hstart]; exact hp23) (p2 + i) (by omega) (by omega)]
        simp only
        rw [hcopy, if_pos (by omega), show p + (p2 + i - p2) = p + i by omega]
        exact ha.keep p s hp (p + i) (by omega) (by omega)

end Smlr.Heap
