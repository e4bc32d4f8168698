import Verif.Heap.Lemmas
import Mathlib.Data.List.Chain
set_option autoImplicit false
namespace Smlr.Heap
open Smlr.Mem

/-- no two adjacent free blocks -/
def NoAdj (bs : List Blk) : Prop := bs.IsChain (fun x y => x.used = true ∨ y.used = true)

/-- the heap consists of the blocks `bs` -/
structure Inv (c : Cfg) (h : Heap) (bs : List Blk) : Prop where
  lay : Lay c.w h.mem h.start bs
  stop : h.start + span c.w bs = h.stop
  lt : h.stop < c.M
  ne : bs ≠ []
  align : (4 * c.w) ∣ (h.start + 2 * c.w)

theorem used_mid (w a s : Nat) (pre post : List Blk) :
    used w a (pre ++ (⟨s, true⟩ :: post)) =
      used w a pre ++ ((a + span w pre + 2 * w, s) :: used w (a + span w pre + (4 * w + s)) post) := by
  rw [used_append]; simp [used]

theorem used_mid_free (w a s : Nat) (pre post : List Blk) :
    used w a (pre ++ (⟨s, false⟩ :: post)) = used w a pre ++ used w (a + span w pre + (4 * w + s)) post := by
  rw [used_append]; simp [used]

/-- allocation of a block of at least `size` bytes at `p`, seen on the block list -/
structure Alloc (c : Cfg) (h : Heap) (bs : List Blk) (size : Nat) (h' : Heap) (p : Nat) (bs' : List Blk) : Prop where
  inv : Inv c h' bs'
  start : h'.start = h.start
  perm : ∃ n, (size ≤ n ∧ n < size + 4 * c.w) ∧ (used c.w h.start bs').Perm ((p, n) :: used c.w h.start bs)
  keep : ∀ q s, (q, s) ∈ used c.w h.start bs → ∀ x, q ≤ x → x < q + s → h'.mem x = h.mem x
  noadj : NoAdj bs → NoAdj bs'
  fixed : c.grow = false → h'.stop = h.stop

theorem roundSize_eq (c : Cfg) (hc : c.ok) (size : Nat) (h0 : size ≠ 0) (h1 : size ≤ c.M - 2 * c.H) :
    size ≤ roundSize c size ∧ (4 * c.w) ∣ roundSize c size ∧ roundSize c size < size + 4 * c.w ∧
    roundSize c size ≤ c.M - 4 * c.w ∧ ∀ k, (4 * c.w) ∣ k → size ≤ k → roundSize c size ≤ k := by
  obtain ⟨hw, hM8, hdM, -⟩ := hc.facts
  unfold roundSize Cfg.H at *
  rw [Nat.mod_eq_of_lt (show size + 2 * (2 * c.w) - 1 < c.M by omega)]
  rw [show 2 * (2 * c.w) = 4 * c.w by omega]
  generalize hn : 4 * c.w = n at *
  have hn0 : 0 < n := by omega
  have hmod := Nat.mod_lt (size + n - 1) hn0
  have hdiv := Nat.div_add_mod (size + n - 1) n
  have hd : n ∣ (size + n - 1) - (size + n - 1) % n := ⟨(size + n - 1) / n, by omega⟩
  have hmin : ∀ k, n ∣ k → size ≤ k → (size + n - 1) - (size + n - 1) % n ≤ k := by
    intro k hk hsk
    rcases Nat.lt_or_ge k ((size + n - 1) - (size + n - 1) % n) with h | h
    · have := dvd_gap hk hd h; omega
    · exact h
  refine ⟨by omega, hd, by omega, ?_, hmin⟩
  exact hmin _ (Nat.dvd_sub hdM (Nat.dvd_refl _)) (by omega)

theorem noadj_carved (w n sz : Nat) (pre post : List Blk) (h : NoAdj (pre ++ (⟨sz, false⟩ :: post))) :
    NoAdj (pre ++ (carved w n sz ++ post)) := by
  unfold NoAdj at *
  rw [List.isChain_append] at *
  obtain ⟨h1, h2, h3⟩ := h
  rw [List.isChain_cons] at h2
  unfold carved
  split
  · refine ⟨h1, ?_, ?_⟩
    · rw [List.singleton_append, List.isChain_cons]
      exact ⟨by simp, h2.2⟩
    · intro x _ y hy
      simp only [List.singleton_append, List.head?_cons, Option.mem_def, Option.some.injEq] at hy
      right; rw [← hy]
  · refine ⟨h1, ?_, ?_⟩
    · simp only [List.cons_append, List.nil_append]
      rw [List.isChain_cons, List.isChain_cons]
      refine ⟨by simp, ?_, h2.2⟩
      intro y hy
      right
      simpa using h2.1 y hy
    · intro x _ y hy
      simp only [List.cons_append, List.head?_cons, Option.mem_def, Option.some.injEq] at hy
      right; rw [← hy]

theorem carve_alloc (c : Cfg) (hc : c.ok) (h : Heap) (pre post : List Blk) (b : Blk) (size n : Nat)
    (hinv : Inv c h (pre ++ b :: post)) (hb : ¬ unfit n b) (hd : (4 * c.w) ∣ n) (hsz : size ≤ n ∧ n < size + 4 * c.w) :
    Alloc c h (pre ++ b :: post) size { h with mem := carve c h.mem (h.start + span c.w pre) n }
      (h.start + span c.w pre + 2 * c.w) (pre ++ (carved c.w n b.size ++ post)) := by
  obtain ⟨hlay, hstop, hlt, hne, hal⟩ := hinv
  have hlay0 := hlay
  rw [lay_append] at hlay
  obtain ⟨hlp, htb, hdb, hlpost⟩ := hlay
  have hb1 : b.used = false := by
    cases hu : b.used with
    | false => rfl
    | true => exact absurd (Or.inr hu) hb
  have hb2 : n ≤ b.size := by
    rcases Nat.lt_or_ge b.size n with h | h
    · exact absurd (Or.inl h) hb
    · exact h
  have hbe : b = ⟨b.size, false⟩ := by cases b; simp_all
  rw [span_append] at hstop
  simp only [span] at hstop
  obtain ⟨c1, c2⟩ := carve_eq c hc h.mem (h.start + span c.w pre) n b.size (hbe ▸ htb) hdb hd hb2 (by omega)
  have hcs : b.size = n ∨ n + 4 * c.w ≤ b.size := by
    rcases Nat.lt_or_ge n b.size with h | h
    · exact Or.inr (dvd_gap hd hdb h)
    · left; omega
  have hspan := span_carved c.w n b.size hcs
  refine ⟨⟨?_, ?_, hlt, by unfold carved; split <;> simp, hal⟩, rfl, ?_, ?_, ?_, fun _ => rfl⟩
  · refine lay_replace (mid := [b]) (m := h.mem) hlay0 (by rw [hspan]; simp [span]) ?_ c1
    intro x hx
    simp only [span] at hx
    exact c2 x (by omega)
  · rw [span_append, span_append, hspan]; simp only; omega
  · refine ⟨n, hsz, ?_⟩
    rw [hbe, used_mid_free]
    rw [used_append, used_append, hspan]
    have : used c.w (h.start + span c.w pre) (carved c.w n b.size) = [(h.start + span c.w pre + 2 * c.w, n)] := by
      unfold carved; split <;> simp [used]
    rw [this]
    exact List.perm_middle
  · intro q s hq x hx1 hx2
    refine c2 x ?_
    rw [hbe, used_mid_free, List.mem_append] at hq
    rcases hq with hq | hq
    · have := used_range _ _ _ _ _ hq; omega
    · have := used_range _ _ _ _ _ hq; omega
  · intro hna
    rw [hbe] at hna
    exact noadj_carved c.w n b.size pre post hna

/-- writing the four tags of an allocated block at the end of the heap -/
theorem write_used (c : Cfg) (hc : c.ok) (m : Mem) (a n : Nat) (hM : a + (4 * c.w + n) < c.M) :
    Tags c.w (wr c.w (wr c.w (wr c.w (wr c.w m (c.ix a 0) n) (c.ix a 1) 1)
      (c.nix ((a + 2 * c.H + n) % c.M) 2) 1) (c.nix ((a + 2 * c.H + n) % c.M) 1) n) a ⟨n, true⟩ ∧
    ∀ x, ¬ (a ≤ x ∧ x < a + (4 * c.w + n)) →
      wr c.w (wr c.w (wr c.w (wr c.w m (c.ix a 0) n) (c.ix a 1) 1)
      (c.nix ((a + 2 * c.H + n) % c.M) 2) 1) (c.nix ((a + 2 * c.H + n) % c.M) 1) n x = m x := by
  obtain ⟨hw, hM8, -⟩ := hc.facts
  have h1w := one_lt c.w hw
  have hn : n < 256 ^ c.w := by have : c.M = 256 ^ c.w := rfl; omega
  have hmid : (a + 2 * c.H + n) % c.M = a + 4 * c.w + n := by
    unfold Cfg.H
    rw [Nat.mod_eq_of_lt (by omega)]; omega
  rw [hmid, ix_eq c (by omega), ix_eq c (by omega), nix_eq c (by omega) (by omega), nix_eq c (by omega) (by omega)]
  simp only [Nat.zero_mul, Nat.one_mul, Nat.add_zero]
  rw [show a + 4 * c.w + n - 2 * c.w = a + 2 * c.w + n by omega, show a + 4 * c.w + n - c.w = a + 3 * c.w + n by omega]
  refine ⟨⟨?_, ?_, ?_, ?_⟩, ?_⟩
  · try simp only
    rw [rd_wr_ne _ _ _ _ _ (by omega), rd_wr_ne _ _ _ _ _ (by omega), rd_wr_ne _ _ _ _ _ (by omega), rd_wr_same _ _ _ _ hn]
  · try simp only
    rw [rd_wr_ne _ _ _ _ _ (by omega), rd_wr_ne _ _ _ _ _ (by omega), rd_wr_same _ _ _ _ h1w]; rfl
  · try simp only
    rw [rd_wr_ne _ _ _ _ _ (by omega), rd_wr_same _ _ _ _ h1w]; rfl
  · try simp only
    rw [rd_wr_same _ _ _ _ hn]
  · intro x hx
    rw [wr_other _ _ _ _ _ (by omega), wr_other _ _ _ _ _ (by omega), wr_other _ _ _ _ _ (by omega), wr_other _ _ _ _ _ (by omega)]

/-- sbrk with a positive increment -/
theorem sbrk_pos (c : Cfg) (os : Nat → Bool) (brk inc nb : Nat) (hi : inc < c.M / 2) (hb : brk < c.M)
    (h : sbrk c os brk inc = some nb) : brk + inc < c.M := by
  unfold sbrk at h
  simp only at h
  rw [if_pos hi] at h
  by_cases hov : brk + inc < c.M
  · exact hov
  · exfalso
    have : (brk + inc) % c.M = brk + inc - c.M := by
      rw [Nat.mod_eq_sub_mod (by omega), Nat.mod_eq_of_lt (by omega)]
    rw [this, if_pos (by omega)] at h
    simp at h

theorem grow_finish (c : Cfg) (hc : c.ok) (h : Heap) (pre mid : List Blk) (size n togrow nb : Nat) (os : Nat → Bool)
    (hg : c.grow = true)
    (hinv : Inv c h (pre ++ mid)) (hmid : mid = [] ∨ ∃ t, mid = [⟨t, false⟩] ∧ t < n) (hd : (4 * c.w) ∣ n) (hsz : size ≤ n ∧ n < size + 4 * c.w)
    (htg : togrow = 4 * c.w + n - span c.w mid) (hpos : togrow < c.M / 2)
    (hs : sbrk c os h.stop togrow = some nb) :
    Alloc c h (pre ++ mid) size
      (Heap.mk (wr c.w (wr c.w (wr c.w (wr c.w h.mem (c.ix (h.start + span c.w pre) 0) n) (c.ix (h.start + span c.w pre) 1) 1)
          (c.nix ((h.start + span c.w pre + 2 * c.H + n) % c.M) 2) 1) (c.nix ((h.start + span c.w pre + 2 * c.H + n) % c.M) 1) n)
          h.start ((h.stop + togrow) % c.M))
      (h.start + span c.w pre + 2 * c.w) (pre ++ [⟨n, true⟩]) := by
  obtain ⟨hw, hM8, -⟩ := hc.facts
  obtain ⟨hlay, hstop, hlt, hne, hal⟩ := hinv
  have hnb := sbrk_pos c os h.stop togrow nb hpos hlt hs
  rw [span_append] at hstop
  have hms : span c.w mid ≤ 4 * c.w + n := by
    rcases hmid with e | ⟨t, e, ht⟩
    · rw [e]; simp [span]
    · rw [e]; simp only [span]; omega
  have hmu : ∀ a, used c.w a mid = [] := by
    intro a
    rcases hmid with e | ⟨t, e, ht⟩
    · rw [e]; simp [used]
    · rw [e]; simp [used]
  rw [lay_append] at hlay
  obtain ⟨w1, w2⟩ := write_used c hc h.mem (h.start + span c.w pre) n (by omega)
  rw [Nat.mod_eq_of_lt hnb]
  refine ⟨⟨?_, ?_, by simp only; omega, by simp, hal⟩, rfl, ⟨n, hsz, ?_⟩, ?_, ?_, ?_⟩
  · rw [lay_append]
    exact ⟨lay_congr c.w h.mem _ pre h.start (fun x h1 h2 => w2 x (by omega)) hlay.1, w1, hd, trivial⟩
  · rw [span_append]; simp only [span]; omega
  · rw [used_append, used_append, hmu]
    simp only [used, List.append_nil, if_true]
    exact List.perm_append_singleton _ _
  · intro q s hq x hx1 hx2
    refine w2 x ?_
    rw [used_append, hmu, List.append_nil] at hq
    have := used_range _ _ _ _ _ hq; omega
  · intro hna
    unfold NoAdj at *
    rw [List.isChain_append] at *
    refine ⟨hna.1, by simp, ?_⟩
    intro x _ y hy
    simp only [List.head?_cons, Option.mem_def, Option.some.injEq] at hy
    right; rw [← hy]
  · intro h'; rw [hg] at h'; simp at h'

/-- the condition under which the growing variant is safe; see the counterexample otherwise -/
def reqOk (c : Cfg) (size : Nat) : Prop := c.grow = true → size ≤ c.M / 2 - 4 * c.w

theorem malloc_ok (c : Cfg) (hc : c.ok) (os : Nat → Bool) (h : Heap) (bs : List Blk) (size : Nat)
    (hinv : Inv c h bs) (hreq : reqOk c size) :
    ∃ h' p, malloc c os h size = some (h', p) ∧
      ((p = 0 ∧ h' = h) ∨ (p ≠ 0 ∧ size ≠ 0 ∧ ∃ bs', Alloc c h bs size h' p bs')) := by
  obtain ⟨hw, hM8, hdM, hM2, hdM2⟩ := hc.facts
  unfold malloc
  by_cases h0 : size = 0 ∨ size > c.M - 2 * c.H
  · rw [if_pos h0]; exact ⟨h, 0, rfl, Or.inl ⟨rfl, rfl⟩⟩
  · rw [if_neg h0]
    simp only
    obtain ⟨r1, r2, r3, r4, r5⟩ := roundSize_eq c hc size (by omega) (by omega)
    generalize roundSize c size = n at *
    rcases findFit_eq c hc h.mem n bs h.start h.start (h.stop + 1) h.stop hinv.lay hinv.stop hinv.lt (by have := hinv.stop; omega)
      with ⟨hun, e⟩ | ⟨pre, b, post, e0, hun, hb, e⟩
    · rw [e]
      simp only
      cases hg : c.grow with
      | false => exact ⟨h, 0, rfl, Or.inl ⟨rfl, rfl⟩⟩
      | true =>
        simp only [if_true]
        have hn : n ≤ c.M / 2 - 4 * c.w := r5 _ (Nat.dvd_sub hdM2 (Nat.dvd_refl _)) (hreq hg)
        rcases List.eq_nil_or_concat bs with hnil | ⟨pre, b, hcons⟩
        · exact absurd hnil hinv.ne
        rw [List.concat_eq_append] at hcons
        subst hcons
        rw [lastAddr_append]
        have hl := hinv.lay
        rw [lay_append] at hl
        obtain ⟨hlp, htb, hdb, -⟩ := hl
        have hst := hinv.stop
        have hlt := hinv.lt
        rw [span_append] at hst
        simp only [span] at hst
        unfold growHeap
        simp only
        rw [ix_eq c (show h.start + span c.w pre + 1 * c.w < c.M by omega), Nat.one_mul, htb.hflag, htb.hsize]
        have hub := hun b (by simp)
        by_cases hbf : b.flag = 0
        · rw [if_pos hbf]
          have hbu := (flag_zero b).1 hbf
          have hbs : b.size < n := by
            rcases hub with h | h
            · exact h
            · rw [hbu] at h; simp at h
          have htg : (n + c.M - b.size) % c.M = n - b.size := by
            rw [show n + c.M - b.size = n - b.size + c.M by omega, Nat.add_mod_right, Nat.mod_eq_of_lt (by omega)]
          rw [htg]
          cases hsb : sbrk c os h.stop (n - b.size) with
          | none => exact ⟨h, 0, rfl, Or.inl ⟨rfl, rfl⟩⟩
          | some nb =>
            refine ⟨_, _, rfl, Or.inr ⟨?_, by omega, pre ++ [⟨n, true⟩], ?_⟩⟩
            · unfold Cfg.H; rw [Nat.mod_eq_of_lt (by omega)]; omega
            · have hbe : b = ⟨b.size, false⟩ := by cases b; simp_all
              have := grow_finish c hc h pre [b] size n (n - b.size) nb os hg hinv (Or.inr ⟨b.size, by rw [← hbe], hbs⟩) r2 (by omega)
                (by simp only [span]; omega) (by omega) hsb
              rw [ix_eq c (show h.start + span c.w pre + 1 * c.w < c.M by omega), Nat.one_mul] at this
              rw [show (h.start + span c.w pre + c.H) % c.M = h.start + span c.w pre + 2 * c.w by
                unfold Cfg.H; rw [Nat.mod_eq_of_lt (by omega)]]
              exact this
        · rw [if_neg hbf]
          have htg : (n + 2 * c.H) % c.M = n + 4 * c.w := by
            unfold Cfg.H; rw [Nat.mod_eq_of_lt (by omega)]; omega
          rw [htg]
          by_cases hneg : n + 4 * c.w = 0 ∨ n + 4 * c.w ≥ c.M / 2
          · rw [if_pos hneg]; exact ⟨h, 0, rfl, Or.inl ⟨rfl, rfl⟩⟩
          · rw [if_neg hneg]
            cases hsb : sbrk c os h.stop (n + 4 * c.w) with
            | none => exact ⟨h, 0, rfl, Or.inl ⟨rfl, rfl⟩⟩
            | some nb =>
              have hnb := sbrk_pos c os _ _ nb (by omega) hlt hsb
              refine ⟨_, _, rfl, Or.inr ⟨?_, by omega, (pre ++ [b]) ++ [⟨n, true⟩], ?_⟩⟩
              · unfold Cfg.H; rw [Nat.mod_eq_of_lt (by omega)]; omega
              · have hpre : h.start + span c.w (pre ++ [b]) = h.stop := hinv.stop
                have := grow_finish c hc h (pre ++ [b]) [] size n (n + 4 * c.w) nb os hg (by simpa using hinv) (Or.inl rfl) r2 (by omega)
                  (by simp only [span]; omega) (by omega) hsb
                rw [hpre, List.append_nil] at this
                rw [show (h.stop + c.H) % c.M = h.stop + 2 * c.w by
                  unfold Cfg.H; rw [Nat.mod_eq_of_lt (by omega)]]
                exact this
    · rw [e]
      simp only
      subst e0
      have hst := hinv.stop
      have hlt := hinv.lt
      rw [span_append] at hst
      simp only [span] at hst
      have hp : (h.start + span c.w pre + c.H) % c.M = h.start + span c.w pre + 2 * c.w := by
        unfold Cfg.H; rw [Nat.mod_eq_of_lt (by omega)]
      rw [hp]
      exact ⟨_, _, rfl, Or.inr ⟨by omega, by omega, _, carve_alloc c hc h pre post b size n hinv hb r2 ⟨r1, r3⟩⟩⟩

/-- release of the block at `p`, seen on the block list -/
structure Release (c : Cfg) (h : Heap) (bs : List Blk) (h' : Heap) (p s : Nat) (bs' : List Blk) : Prop where
  inv : Inv c h' bs'
  start : h'.start = h.start
  stop : h'.stop = h.stop
  perm : (used c.w h.start bs).Perm ((p, s) :: used c.w h.start bs')
  keep : ∀ q t, (q, t) ∈ used c.w h.start bs' → ∀ x, q ≤ x → x < q + t → h'.mem x = h.mem x
  noadj : NoAdj bs → NoAdj bs'

theorem free_ok (c : Cfg) (hc : c.ok) (h : Heap) (bs : List Blk) (p s : Nat)
    (hinv : Inv c h bs) (hp : (p, s) ∈ used c.w h.start bs) :
    ∃ bs', Release c h bs (free c h p) p s bs' := by
  obtain ⟨pre, post, e, ep⟩ := used_split _ _ _ _ _ hp
  subst e
  obtain ⟨hlay, hstop, hlt, hne, hal⟩ := hinv
  obtain ⟨m', pre', s', post', s'', e1, j1, j2, l, f⟩ := free_eq c hc h s pre post hlay hstop hlt
  rw [ep, e1]
  have hspan : span c.w pre' + (4 * c.w + s') = span c.w pre + (4 * c.w + s) := by
    rcases j1 with ⟨a1, a2, -⟩ | ⟨t, a1, a2⟩
    · rw [a1, a2]
    · rw [a1, a2, span_append]; simp only [span]; omega
  have hspan2 : 4 * c.w + s'' + span c.w post' = 4 * c.w + s' + span c.w post := by
    rcases j2 with ⟨a1, a2, -⟩ | ⟨t, a1, a2⟩
    · rw [a1, a2]
    · rw [a1, a2]; simp only [span]; omega
  have hu1 : used c.w h.start pre = used c.w h.start pre' := by
    rcases j1 with ⟨a1, a2, -⟩ | ⟨t, a1, a2⟩
    · rw [a1]
    · rw [a1, used_append]; simp [used]
  have hu2 : used c.w (h.start + span c.w pre + (4 * c.w + s)) post =
      used c.w (h.start + span c.w pre' + (4 * c.w + s'')) post' := by
    rcases j2 with ⟨a1, a2, -⟩ | ⟨t, a1, a2⟩
    · rw [a1, a2, Nat.add_assoc, ← hspan, Nat.add_assoc]
    · rw [a1, a2]
      simp only [used, Bool.false_eq_true, if_false, List.nil_append]
      congr 1; omega
  refine ⟨pre' ++ ⟨s'', false⟩ :: post', ⟨⟨l, ?_, hlt, by simp, hal⟩, rfl, rfl, ?_, ?_, ?_⟩⟩
  · rw [span_append] at *; simp only [span] at *; omega
  · rw [used_mid, used_mid_free, hu1, hu2]
    exact List.perm_middle
  · intro q t hq x hx1 hx2
    rw [used_mid_free, List.mem_append] at hq
    refine f x ?_
    rcases hq with hq | hq
    · have := used_range _ _ _ _ _ hq; omega
    · have := used_range _ _ _ _ _ hq; omega
  · intro hna
    unfold NoAdj at *
    rw [List.isChain_append, List.isChain_cons] at *
    obtain ⟨n1, ⟨n2, n3⟩, n4⟩ := hna
    refine ⟨?_, ⟨?_, ?_⟩, ?_⟩
    · rcases j1 with ⟨a1, a2, -⟩ | ⟨t, a1, a2⟩
      · rw [a1]; exact n1
      · rw [a1, List.isChain_append] at n1; exact n1.1
    · intro y hy
      right
      rcases j2 with ⟨a1, a2, a3⟩ | ⟨t, a1, a2⟩
      · rw [a1] at hy
        cases post with
        | nil => simp at hy
        | cons z zs =>
          simp only [List.head?_cons, Option.mem_def, Option.some.injEq] at hy
          subst hy
          cases hz : z.used with
          | true => rfl
          | false => exfalso; exact a3 zs z.size (by cases z; simp_all)
      · rw [a1, List.isChain_cons] at n3
        simpa using n3.1 y hy
    · rcases j2 with ⟨a1, a2, a3⟩ | ⟨t, a1, a2⟩
      · rw [a1]; exact n3
      · rw [a1, List.isChain_cons] at n3; exact n3.2
    · intro x hx y hy
      left
      rcases j1 with ⟨a1, a2, a3⟩ | ⟨t, a1, a2⟩
      · rw [a1] at hx
        rcases List.eq_nil_or_concat pre with hnil | ⟨q, z, hcons⟩
        · rw [hnil] at hx; simp at hx
        · rw [List.concat_eq_append] at hcons
          rw [hcons] at hx
          simp only [List.getLast?_append_of_ne_nil, List.getLast?_singleton, ne_eq, List.cons_ne_self, not_false_eq_true,
            Option.mem_def, List.getLast?_append, Option.some_or, Option.some.injEq] at hx
          subst hx
          cases hz : z.used with
          | true => rfl
          | false => exfalso; exact a3 q z.size (by rw [hcons]; cases z; simp_all)
      · rw [a1, List.isChain_append] at n1
        simpa using n1.2.2 x hx ⟨t, false⟩ (by simp)

end Smlr.Heap
