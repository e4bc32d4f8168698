import Verif.Heap.Model
import Verif.Mem.Lemmas
set_option autoImplicit false
namespace Smlr.Heap
open Smlr.Mem

/-! ### words -/

theorem wr_other : ∀ (w : Nat) (m : Mem) (a v x : Nat), (x < a ∨ a + w ≤ x) → wr w m a v x = m x := by
  intro w
  induction w with
  | zero => intros; rfl
  | succ w ih =>
    intro m a v x h
    simp only [wr]
    rw [ih _ _ _ _ (by omega), upd_ne _ _ (by omega)]

theorem rd_congr : ∀ (w : Nat) (m m' : Mem) (a : Nat), (∀ i, i < w → m (a+i) = m' (a+i)) → rd w m a = rd w m' a := by
  intro w
  induction w with
  | zero => intros; rfl
  | succ w ih =>
    intro m m' a h
    have h0 := h 0 (by omega)
    simp only [Nat.add_zero] at h0
    simp only [rd]
    rw [h0, ih m m' (a+1) (fun i hi => by
      have := h (i+1) (by omega)
      rwa [show a + (i+1) = a + 1 + i by omega] at this)]

theorem rd_wr_same : ∀ (w : Nat) (m : Mem) (a v : Nat), v < 256 ^ w → rd w (wr w m a v) a = v := by
  intro w
  induction w with
  | zero => intro m a v h; simp at h; simp [rd, h]
  | succ w ih =>
    intro m a v h
    simp only [rd, wr]
    rw [wr_other _ _ _ _ _ (by omega), upd_same, ih _ _ _ (by rw [Nat.pow_succ] at h; omega), UInt8.toNat_ofNat']
    simp only [Nat.reducePow]
    omega

theorem rd_wr_ne (w : Nat) (m : Mem) (a b v : Nat) (h : b + w ≤ a ∨ a + w ≤ b) : rd w (wr w m a v) b = rd w m b :=
  rd_congr _ _ _ _ (fun i hi => wr_other _ _ _ _ _ (by omega))

theorem rd_lt : ∀ (w : Nat) (m : Mem) (a : Nat), rd w m a < 256 ^ w := by
  intro w
  induction w with
  | zero => intros; simp [rd]
  | succ w ih =>
    intro m a
    have := ih m (a+1)
    have h2 := (m a).toNat_lt
    simp only [rd, Nat.pow_succ]
    simp only [Nat.reducePow] at h2
    omega

/-- well-formed configurations: 16- and 32-bit -/
def Cfg.ok (c : Cfg) : Prop := c.w = 2 ∨ c.w = 4

theorem Cfg.ok.facts {c : Cfg} (h : c.ok) : 0 < c.w ∧ 8 * c.w < c.M ∧ (4 * c.w) ∣ c.M ∧ 2 * (c.M / 2) = c.M ∧ (4 * c.w) ∣ c.M / 2 := by
  unfold Cfg.M
  rcases h with h | h <;> rw [h] <;> decide +kernel

theorem ix_eq (c : Cfg) {p i : Nat} (h : p + i * c.w < c.M) : c.ix p i = p + i * c.w := Nat.mod_eq_of_lt h

theorem nix_eq (c : Cfg) {p i : Nat} (h : i * c.w ≤ p) (hp : p < c.M + i * c.w) : c.nix p i = p - i * c.w := by
  unfold Cfg.nix
  rw [show p + c.M - i * c.w = p - i * c.w + c.M by omega, Nat.add_mod_right, Nat.mod_eq_of_lt (by omega)]

theorem dvd_gap {n a b : Nat} (h1 : n ∣ a) (h2 : n ∣ b) (h : a < b) : a + n ≤ b := by
  obtain ⟨x, rfl⟩ := h1
  obtain ⟨y, rfl⟩ := h2
  have : x < y := Nat.lt_of_mul_lt_mul_left h
  have : n * (x+1) ≤ n * y := Nat.mul_le_mul_left n (by omega)
  rw [Nat.mul_add] at this
  omega

/-! ### block lists -/

structure Blk where
  size : Nat
  used : Bool
deriving DecidableEq

def Blk.flag (b : Blk) : Nat := if b.used then 1 else 0

/-- the boundary tags of block `b` are stored at address `a` -/
structure Tags (w : Nat) (m : Mem) (a : Nat) (b : Blk) : Prop where
  hsize : rd w m a = b.size
  hflag : rd w m (a + w) = b.flag
  fflag : rd w m (a + 2 * w + b.size) = b.flag
  fsize : rd w m (a + 3 * w + b.size) = b.size

def span (w : Nat) : List Blk → Nat
  | [] => 0
  | b :: bs => 4 * w + b.size + span w bs

/-- the blocks `bs` tile memory from address `a` -/
def Lay (w : Nat) (m : Mem) : Nat → List Blk → Prop
  | _, [] => True
  | a, b :: bs => Tags w m a b ∧ (4 * w) ∣ b.size ∧ Lay w m (a + (4 * w + b.size)) bs

/-- (data pointer, size) of the allocated blocks -/
def used (w : Nat) : Nat → List Blk → List (Nat × Nat)
  | _, [] => []
  | a, b :: bs => (if b.used then [(a + 2 * w, b.size)] else []) ++ used w (a + (4 * w + b.size)) bs

theorem span_append (w : Nat) (xs ys : List Blk) : span w (xs ++ ys) = span w xs + span w ys := by
  induction xs with
  | nil => simp [span]
  | cons b bs ih => simp only [List.cons_append, span, ih]; omega

theorem used_append (w : Nat) : ∀ (xs ys : List Blk) (a : Nat),
    used w a (xs ++ ys) = used w a xs ++ used w (a + span w xs) ys := by
  intro xs
  induction xs with
  | nil => intro ys a; simp [used, span]
  | cons b bs ih =>
    intro ys a
    simp only [List.cons_append, used, ih, List.append_assoc, span]
    rw [show a + (4 * w + b.size) + span w bs = a + (4 * w + b.size + span w bs) by omega]

theorem lay_append (w : Nat) (m : Mem) : ∀ (xs ys : List Blk) (a : Nat),
    Lay w m a (xs ++ ys) ↔ Lay w m a xs ∧ Lay w m (a + span w xs) ys := by
  intro xs
  induction xs with
  | nil => intro ys a; simp [Lay, span]
  | cons b bs ih =>
    intro ys a
    simp only [List.cons_append, Lay, ih, span, and_assoc]
    rw [show a + (4 * w + b.size) + span w bs = a + (4 * w + b.size + span w bs) by omega]

theorem Tags.congr {w : Nat} {m m' : Mem} {a : Nat} {b : Blk} (h : Tags w m a b)
    (hm : ∀ x, (a ≤ x ∧ x < a + 2 * w) ∨ (a + 2 * w + b.size ≤ x ∧ x < a + 4 * w + b.size) → m' x = m x) :
    Tags w m' a b := by
  refine ⟨?_, ?_, ?_, ?_⟩
  · rw [rd_congr w m' m _ (fun i hi => hm _ (by omega))]; exact h.hsize
  · rw [rd_congr w m' m _ (fun i hi => hm _ (by omega))]; exact h.hflag
  · rw [rd_congr w m' m _ (fun i hi => hm _ (by omega))]; exact h.fflag
  · rw [rd_congr w m' m _ (fun i hi => hm _ (by omega))]; exact h.fsize

theorem lay_congr (w : Nat) (m m' : Mem) : ∀ (bs : List Blk) (a : Nat),
    (∀ x, a ≤ x → x < a + span w bs → m' x = m x) → Lay w m a bs → Lay w m' a bs := by
  intro bs
  induction bs with
  | nil => intros; trivial
  | cons b bs ih =>
    intro a hm h
    simp only [span] at hm
    exact ⟨h.1.congr (fun x hx => hm x (by omega) (by omega)), h.2.1, ih _ (fun x h1 h2 => hm x (by omega) (by omega)) h.2.2⟩

/-- replacing the middle part of the tiling -/
theorem lay_replace {w : Nat} {m m' : Mem} {pre mid mid' post : List Blk} {a : Nat}
    (h : Lay w m a (pre ++ (mid ++ post))) (hs : span w mid' = span w mid)
    (hm : ∀ x, ¬ (a + span w pre ≤ x ∧ x < a + span w pre + span w mid) → m' x = m x)
    (hmid : Lay w m' (a + span w pre) mid') : Lay w m' a (pre ++ (mid' ++ post)) := by
  rw [lay_append, lay_append] at *
  refine ⟨lay_congr w m m' pre a (fun x _ _ => hm x (by omega)) h.1, hmid, ?_⟩
  rw [hs]
  exact lay_congr w m m' post _ (fun x _ _ => hm x (by omega)) h.2.2

theorem used_range (w : Nat) : ∀ (bs : List Blk) (a p s : Nat), (p, s) ∈ used w a bs →
    a + 2 * w ≤ p ∧ p + s + 2 * w ≤ a + span w bs := by
  intro bs
  induction bs with
  | nil => intro a p s h; simp [used] at h
  | cons b bs ih =>
    intro a p s h
    simp only [used, List.mem_append] at h
    simp only [span]
    rcases h with h | h
    · split at h
      · simp only [List.mem_singleton, Prod.mk.injEq] at h
        omega
      · simp at h
    · have := ih _ _ _ h; omega

/-- locating an allocated block -/
theorem used_split (w : Nat) : ∀ (bs : List Blk) (a p s : Nat), (p, s) ∈ used w a bs →
    ∃ pre post, bs = pre ++ (⟨s, true⟩ :: post) ∧ p = a + span w pre + 2 * w := by
  intro bs
  induction bs with
  | nil => intro a p s h; simp [used] at h
  | cons b bs ih =>
    intro a p s h
    simp only [used, List.mem_append] at h
    rcases h with h | h
    · split at h
      · rename_i hb
        simp only [List.mem_singleton, Prod.mk.injEq] at h
        refine ⟨[], bs, ?_, by simp [span, h.1]⟩
        cases b; simp_all
      · simp at h
    · obtain ⟨pre, post, e1, e2⟩ := ih _ _ _ h
      exact ⟨b :: pre, post, by rw [e1]; rfl, by simp only [span]; omega⟩

/-- distinct allocated blocks are apart -/
theorem used_disj (w : Nat) : ∀ (bs : List Blk) (a : Nat),
    (used w a bs).Pairwise (fun x y => x.1 + x.2 + 4 * w ≤ y.1) := by
  intro bs
  induction bs with
  | nil => intro a; simp [used]
  | cons b bs ih =>
    intro a
    simp only [used, List.pairwise_append]
    refine ⟨by split <;> simp, ih _, ?_⟩
    intro x hx y hy
    have := used_range w bs _ y.1 y.2 hy
    split at hx
    · simp only [List.mem_singleton] at hx
      subst hx
      simp only
      omega
    · simp at hx

theorem used_dvd (w : Nat) (m : Mem) : ∀ (bs : List Blk) (a p s : Nat), Lay w m a bs → (p, s) ∈ used w a bs →
    ∃ k, p = a + 2 * w + 4 * w * k := by
  intro bs
  induction bs with
  | nil => intro a p s _ h; simp [used] at h
  | cons b bs ih =>
    intro a p s hl h
    simp only [used, List.mem_append] at h
    rcases h with h | h
    · split at h
      · simp only [List.mem_singleton, Prod.mk.injEq] at h
        exact ⟨0, by omega⟩
      · simp at h
    · obtain ⟨k, e⟩ := ih _ _ _ hl.2.2 h
      obtain ⟨j, hj⟩ := hl.2.1
      refine ⟨k + 1 + j, ?_⟩
      rw [Nat.mul_add, Nat.mul_add, ← hj]; omega

theorem lay_dvd (w : Nat) (m : Mem) : ∀ (bs : List Blk) (a : Nat), Lay w m a bs → (4 * w) ∣ span w bs := by
  intro bs
  induction bs with
  | nil => intro a _; exact ⟨0, by simp [span]⟩
  | cons b bs ih =>
    intro a h
    simp only [span]
    exact Nat.dvd_add (Nat.dvd_add (Nat.dvd_refl _) h.2.1) (ih _ h.2.2)

/-! ### the search -/

/-- the block does not satisfy a request of `n` bytes -/
def unfit (n : Nat) (b : Blk) : Prop := b.size < n ∨ b.used = true

instance (n : Nat) (b : Blk) : Decidable (unfit n b) := by unfold unfit; infer_instance

theorem flag_zero (b : Blk) : b.flag = 0 ↔ b.used = false := by
  unfold Blk.flag; cases b.used <;> simp

/-- address of the last block -/
def lastAddr (w : Nat) : Nat → Nat → List Blk → Nat
  | _, l, [] => l
  | a, _, b :: bs => lastAddr w (a + (4 * w + b.size)) a bs

theorem lastAddr_append (w : Nat) : ∀ (pre : List Blk) (b : Blk) (a l : Nat),
    lastAddr w a l (pre ++ [b]) = a + span w pre := by
  intro pre
  induction pre with
  | nil => intro b a l; simp [lastAddr, span]
  | cons x xs ih => intro b a l; simp only [List.cons_append, lastAddr, ih, span]; omega

theorem findFit_eq (c : Cfg) (hc : c.ok) (m : Mem) (n : Nat) : ∀ (bs : List Blk) (a l fuel stop : Nat),
    Lay c.w m a bs → a + span c.w bs = stop → stop < c.M → span c.w bs < fuel →
    ((∀ b ∈ bs, unfit n b) ∧ findFit c m stop n fuel a l = some (.nofit (lastAddr c.w a l bs))) ∨
    ∃ pre b post, bs = pre ++ b :: post ∧ (∀ x ∈ pre, unfit n x) ∧ ¬ unfit n b ∧
      findFit c m stop n fuel a l = some (.fit (a + span c.w pre)) := by
  obtain ⟨hw, hM, -⟩ := hc.facts
  intro bs
  induction bs with
  | nil =>
    intro a l fuel stop _ hs _ hf
    left
    refine ⟨by simp, ?_⟩
    cases fuel with
    | zero => simp only [span] at hf; omega
    | succ f =>
      simp only [span, Nat.add_zero] at hs
      subst hs
      simp [findFit, lastAddr]
  | cons b bs ih =>
    intro a l fuel stop hl hs hst hf
    cases fuel with
    | zero => omega
    | succ f =>
      simp only [span] at hs hf
      obtain ⟨ht, hd, hl'⟩ := hl
      have hix : c.ix a 1 = a + c.w := by rw [ix_eq c (by omega)]; omega
      have hnx : (a + 2 * c.H + b.size) % c.M = a + (4 * c.w + b.size) := by
        unfold Cfg.H
        rw [Nat.mod_eq_of_lt (by omega)]; omega
      simp only [findFit]
      rw [if_pos (by omega), ht.hsize, hix, ht.hflag, hnx]
      have hfz := flag_zero b
      by_cases hfit : b.size ≥ n ∧ b.flag = 0
      · rw [if_pos hfit]
        right
        refine ⟨[], b, bs, rfl, by simp, ?_, by simp [span]⟩
        unfold unfit; rw [hfz.1 hfit.2]; simp; omega
      · rw [if_neg hfit]
        have hun : unfit n b := by
          unfold unfit
          by_cases h : b.size < n
          · exact Or.inl h
          · right
            cases hb : b.used with
            | true => rfl
            | false => exact absurd ⟨by omega, hfz.2 hb⟩ hfit
        rcases ih (a + (4 * c.w + b.size)) a f stop hl' (by omega) hst (by omega) with ⟨h1, h2⟩ | ⟨pre, x, post, e, h1, h2, h3⟩
        · left
          refine ⟨?_, by rw [h2]; rfl⟩
          intro y hy
          rcases List.mem_cons.1 hy with rfl | hy
          · exact hun
          · exact h1 y hy
        · right
          refine ⟨b :: pre, x, post, by rw [e]; rfl, ?_, h2, ?_⟩
          · intro y hy
            rcases List.mem_cons.1 hy with rfl | hy
            · exact hun
            · exact h1 y hy
          · rw [h3]; simp only [span]; congr 2; omega

/-! ### marking and splitting -/

/-- Four tag writes of one block produce its tags. -/
theorem tags_write (w : Nat) (m : Mem) (a : Nat) (b : Blk) (hb : b.size < 256 ^ w) (hw : 0 < w)
    (h1 : rd w m a = b.size) (h2 : rd w m (a+w) = b.flag) (h3 : rd w m (a + 2*w + b.size) = b.flag)
    (h4 : rd w m (a + 3*w + b.size) = b.size) : Tags w m a b := ⟨h1, h2, h3, h4⟩

theorem flag_lt (b : Blk) (w : Nat) (hw : 0 < w) : b.flag < 256 ^ w := by
  have : 256 ^ 1 ≤ 256 ^ w := Nat.pow_le_pow_right (by omega) hw
  unfold Blk.flag; split <;> omega

theorem one_lt (w : Nat) (hw : 0 < w) : 1 < 256 ^ w := by
  have : 256 ^ 1 ≤ 256 ^ w := Nat.pow_le_pow_right (by omega) hw
  omega

/-- what `carve` makes of a free block of `sz` bytes -/
def carved (w n sz : Nat) : List Blk :=
  if sz = n then [⟨n, true⟩] else [⟨n, true⟩, ⟨sz - n - 4 * w, false⟩]

theorem span_carved (w n sz : Nat) (h : sz = n ∨ n + 4 * w ≤ sz) : span w (carved w n sz) = 4 * w + sz := by
  unfold carved
  split
  · rename_i e; simp [span, e]
  · simp only [span]; omega

theorem carve_eq (c : Cfg) (hc : c.ok) (m : Mem) (a n sz : Nat) (ht : Tags c.w m a ⟨sz, false⟩)
    (hd1 : (4 * c.w) ∣ sz) (hd2 : (4 * c.w) ∣ n) (hle : n ≤ sz) (hM : a + (4 * c.w + sz) < c.M) :
    Lay c.w (carve c m a n) a (carved c.w n sz) ∧
    ∀ x, ¬ (a ≤ x ∧ x < a + (4 * c.w + sz)) → carve c m a n x = m x := by
  obtain ⟨hw, hM8, -⟩ := hc.facts
  have h1w := one_lt c.w hw
  have hnx : (a + 2 * c.H + sz) % c.M = a + 4 * c.w + sz := by
    unfold Cfg.H
    rw [Nat.mod_eq_of_lt (by omega)]; omega
  obtain ⟨t1, t2, t3, t4⟩ := ht
  simp only [Blk.flag] at t1 t2 t3 t4
  unfold carve carved
  simp only [t1]
  by_cases he : sz = n
  · subst he
    rw [if_pos rfl, if_pos rfl, hnx, ix_eq c (by omega), nix_eq c (by omega) (by omega), Nat.one_mul,
      show a + 4 * c.w + sz - 2 * c.w = a + 2 * c.w + sz by omega]
    refine ⟨⟨⟨?_, ?_, ?_, ?_⟩, hd1, trivial⟩, ?_⟩
    · rw [rd_wr_ne _ _ _ _ _ (by omega), rd_wr_ne _ _ _ _ _ (by omega)]; exact t1
    · rw [rd_wr_ne _ _ _ _ _ (by omega), rd_wr_same _ _ _ _ h1w]; rfl
    · rw [rd_wr_same _ _ _ _ h1w]; rfl
    · simp only; rw [rd_wr_ne _ _ _ _ _ (by omega), rd_wr_ne _ _ _ _ _ (by omega)]; exact t4
    · intro x hx
      rw [wr_other _ _ _ _ _ (by omega), wr_other _ _ _ _ _ (by omega)]
  · have hgap := dvd_gap hd2 hd1 (by omega)
    have hmid : (a + 2 * c.H + n) % c.M = a + 4 * c.w + n := by
      unfold Cfg.H
      rw [Nat.mod_eq_of_lt (by omega)]; omega
    have hsz : (sz + c.M - (n + 2 * c.H) % c.M) % c.M = sz - n - 4 * c.w := by
      unfold Cfg.H
      rw [Nat.mod_eq_of_lt (show n + 2 * (2 * c.w) < c.M by omega),
        show sz + c.M - (n + 2 * (2 * c.w)) = sz - n - 4 * c.w + c.M by omega, Nat.add_mod_right,
        Nat.mod_eq_of_lt (by omega)]
    have hn : n < 256 ^ c.w := by have : c.M = 256 ^ c.w := rfl; omega
    have hr : sz - n - 4 * c.w < 256 ^ c.w := by have : c.M = 256 ^ c.w := rfl; omega
    have h0w : 0 < 256 ^ c.w := by omega
    rw [if_neg he, if_neg he, hnx, hmid, hsz, ix_eq c (by omega), ix_eq c (by omega), ix_eq c (by omega), ix_eq c (by omega),
      nix_eq c (by omega) (by omega), nix_eq c (by omega) (by omega), nix_eq c (by omega) (by omega)]
    simp only [Nat.zero_mul, Nat.one_mul, Nat.add_zero]
    rw [show a + 4 * c.w + n - 2 * c.w = a + 2 * c.w + n by omega, show a + 4 * c.w + n - c.w = a + 3 * c.w + n by omega]
    generalize hrest : sz - n - 4 * c.w = r at *
    have hsz' : sz = n + 4 * c.w + r := by omega
    subst hsz'
    refine ⟨⟨⟨?_, ?_, ?_, ?_⟩, hd2, ⟨?_, ?_, ?_, ?_⟩, ?_, trivial⟩, ?_⟩
    · try simp only
      rw [rd_wr_ne _ _ _ _ _ (by omega), rd_wr_ne _ _ _ _ _ (by omega), rd_wr_ne _ _ _ _ _ (by omega),
        rd_wr_ne _ _ _ _ _ (by omega), rd_wr_ne _ _ _ _ _ (by omega), rd_wr_ne _ _ _ _ _ (by omega), rd_wr_same _ _ _ _ hn]
    · try simp only
      rw [rd_wr_ne _ _ _ _ _ (by omega), rd_wr_ne _ _ _ _ _ (by omega), rd_wr_ne _ _ _ _ _ (by omega),
        rd_wr_ne _ _ _ _ _ (by omega), rd_wr_ne _ _ _ _ _ (by omega), rd_wr_same _ _ _ _ h1w]; rfl
    · try simp only
      rw [rd_wr_ne _ _ _ _ _ (by omega), rd_wr_ne _ _ _ _ _ (by omega), rd_wr_ne _ _ _ _ _ (by omega),
        rd_wr_ne _ _ _ _ _ (by omega), rd_wr_same _ _ _ _ h1w]; rfl
    · try simp only
      rw [rd_wr_ne _ _ _ _ _ (by omega), rd_wr_ne _ _ _ _ _ (by omega), rd_wr_ne _ _ _ _ _ (by omega),
        rd_wr_same _ _ _ _ hn]
    · try simp only
      rw [show a + (4 * c.w + n) = a + 4 * c.w + n by omega]
      rw [rd_wr_ne _ _ _ _ _ (by omega), rd_wr_ne _ _ _ _ _ (by omega), rd_wr_same _ _ _ _ hr]
    · try simp only
      rw [show a + (4 * c.w + n) = a + 4 * c.w + n by omega]
      rw [rd_wr_ne _ _ _ _ _ (by omega), rd_wr_same _ _ _ _ h0w]; rfl
    · try simp only
      rw [rd_wr_ne _ _ _ _ _ (by omega), rd_wr_ne _ _ _ _ _ (by omega), rd_wr_ne _ _ _ _ _ (by omega),
        rd_wr_ne _ _ _ _ _ (by omega), rd_wr_ne _ _ _ _ _ (by omega), rd_wr_ne _ _ _ _ _ (by omega), rd_wr_ne _ _ _ _ _ (by omega)]
      rw [show a + (4 * c.w + n) + 2 * c.w + r = a + 2 * c.w + (n + 4 * c.w + r) by omega, t3]; rfl
    · try simp only
      rw [show a + (4 * c.w + n) + 3 * c.w + r = a + 4 * c.w + (n + 4 * c.w + r) - c.w by omega, rd_wr_same _ _ _ _ hr]
    · try simp only
      rw [show r = n + 4 * c.w + r - n - 4 * c.w by omega]
      exact Nat.dvd_sub (Nat.dvd_sub hd1 hd2) (Nat.dvd_refl _)
    · intro x hx
      rw [wr_other _ _ _ _ _ (by omega), wr_other _ _ _ _ _ (by omega), wr_other _ _ _ _ _ (by omega),
        wr_other _ _ _ _ _ (by omega), wr_other _ _ _ _ _ (by omega), wr_other _ _ _ _ _ (by omega), wr_other _ _ _ _ _ (by omega)]

/-! ### freeing -/

/-- the two writes that join adjacent free blocks -/
theorem join_tags (w : Nat) (hw : 0 < w) (m : Mem) (a s t : Nat) (h1 : Tags w m a ⟨s, false⟩)
    (h2 : Tags w m (a + (4 * w + s)) ⟨t, false⟩) (hlt : s + (t + 4 * w) < 256 ^ w) :
    Tags w (wr w (wr w m a (s + (t + 4 * w))) (a + (7 * w + s + t)) (s + (t + 4 * w))) a ⟨s + (t + 4 * w), false⟩ := by
  obtain ⟨-, p2, -, -⟩ := h1
  obtain ⟨-, -, q3, -⟩ := h2
  simp only [Blk.flag] at *
  refine ⟨?_, ?_, ?_, ?_⟩
  · simp only
    rw [rd_wr_ne _ _ _ _ _ (by omega), rd_wr_same _ _ _ _ hlt]
  · simp only [Blk.flag]
    rw [rd_wr_ne _ _ _ _ _ (by omega), rd_wr_ne _ _ _ _ _ (by omega), p2]
  · simp only [Blk.flag]
    rw [rd_wr_ne _ _ _ _ _ (by omega), rd_wr_ne _ _ _ _ _ (by omega),
      show a + 2 * w + (s + (t + 4 * w)) = a + (4 * w + s) + 2 * w + t by omega, q3]
  · simp only
    rw [show a + 3 * w + (s + (t + 4 * w)) = a + (7 * w + s + t) by omega, rd_wr_same _ _ _ _ hlt]

/-- effect on the list of the blocks before the freed one -/
def JoinP (w : Nat) (pre : List Blk) (s : Nat) (pre' : List Blk) (s' : Nat) : Prop :=
  (pre' = pre ∧ s' = s ∧ ∀ q t, pre ≠ q ++ [⟨t, false⟩]) ∨
  (∃ t, pre = pre' ++ [⟨t, false⟩] ∧ s' = t + (s + 4 * w))

/-- effect on the list of the blocks after the freed one -/
def JoinN (w : Nat) (post : List Blk) (s : Nat) (post' : List Blk) (s' : Nat) : Prop :=
  (post' = post ∧ s' = s ∧ ∀ q t, post ≠ ⟨t, false⟩ :: q) ∨
  (∃ t, post = ⟨t, false⟩ :: post' ∧ s' = s + (t + 4 * w))

theorem joinPrev_eq (c : Cfg) (hc : c.ok) (m : Mem) (a s : Nat) (pre post : List Blk)
    (hl : Lay c.w m a (pre ++ (⟨s, false⟩ :: post)))
    (hM : a + span c.w (pre ++ (⟨s, false⟩ :: post)) < c.M) :
    ∃ m' pre' s', joinPrev c m a (a + span c.w pre) (a + span c.w pre + (4 * c.w + s)) s = (m', a + span c.w pre', s') ∧
      JoinP c.w pre s pre' s' ∧ Lay c.w m' a (pre' ++ (⟨s', false⟩ :: post)) ∧
      ∀ x, ¬ (a + span c.w pre' ≤ x ∧ x < a + span c.w pre + (4 * c.w + s)) → m' x = m x := by
  obtain ⟨hw, hM8, -⟩ := hc.facts
  have hMd : c.M = 256 ^ c.w := rfl
  rw [span_append] at hM
  simp only [span] at hM
  rcases List.eq_nil_or_concat pre with hnil | ⟨q, b, hcons⟩
  · subst hnil
    refine ⟨m, [], s, ?_, Or.inl ⟨rfl, rfl, by simp⟩, hl, fun _ _ => rfl⟩
    unfold joinPrev
    exact if_neg (by simp only [span]; omega)
  · rw [List.concat_eq_append] at hcons
    subst hcons
    have hl0 := hl
    rw [List.append_assoc, lay_append] at hl
    obtain ⟨hlq, htb, hdb, hts, hds, hlp⟩ := hl
    have hsp : span c.w (q ++ [b]) = span c.w q + (4 * c.w + b.size) := by rw [span_append]; simp [span]
    rw [hsp] at hM ⊢
    have hfoot : rd c.w m (c.nix (a + (span c.w q + (4 * c.w + b.size))) 1) = b.size := by
      rw [nix_eq c (by omega) (by omega), Nat.one_mul,
        show a + (span c.w q + (4 * c.w + b.size)) - c.w = a + span c.w q + 3 * c.w + b.size by omega]
      exact htb.fsize
    have hprv : (a + (span c.w q + (4 * c.w + b.size)) + c.M + c.M - b.size - 2 * c.H) % c.M = a + span c.w q := by
      unfold Cfg.H
      rw [show a + (span c.w q + (4 * c.w + b.size)) + c.M + c.M - b.size - 2 * (2 * c.w) = a + span c.w q + c.M + c.M by omega,
        Nat.add_mod_right, Nat.add_mod_right, Nat.mod_eq_of_lt (by omega)]
    have hflag : rd c.w m (c.ix (a + span c.w q) 1) = b.flag := by
      rw [ix_eq c (by omega), Nat.one_mul]; exact htb.hflag
    unfold joinPrev
    rw [if_pos (by omega), hfoot]
    simp only
    rw [hprv, hflag]
    by_cases hbf : b.flag = 0
    · rw [if_pos hbf, htb.hsize]
      have hb : b = ⟨b.size, false⟩ := by
        have := (flag_zero b).1 hbf
        cases b; simp_all
      have hsz : (s + (b.size + 2 * c.H)) % c.M = b.size + (s + 4 * c.w) := by
        unfold Cfg.H; rw [Nat.mod_eq_of_lt (by omega)]; omega
      rw [hsz, nix_eq c (by omega) (by omega), Nat.one_mul,
        show a + (span c.w q + (4 * c.w + b.size)) + (4 * c.w + s) - c.w = a + span c.w q + (7 * c.w + b.size + s) by omega]
      refine ⟨_, q, _, rfl, Or.inr ⟨b.size, by rw [← hb], rfl⟩, ?_, ?_⟩
      · refine lay_replace (mid := [b, ⟨s, false⟩]) (mid' := [⟨b.size + (s + 4 * c.w), false⟩])
          (m := m) (by simpa using hl0) ?_ ?_ ?_
        · simp only [span]; omega
        · intro x hx
          simp only [span] at hx
          rw [wr_other _ _ _ _ _ (by omega), wr_other _ _ _ _ _ (by omega)]
        · refine ⟨join_tags c.w hw m (a + span c.w q) b.size s (hb ▸ htb) hts (by omega), ?_, trivial⟩
          exact Nat.dvd_add hdb (Nat.dvd_add hds (Nat.dvd_refl _))
      · intro x hx
        rw [wr_other _ _ _ _ _ (by omega), wr_other _ _ _ _ _ (by omega)]
    · rw [if_neg hbf]
      refine ⟨m, q ++ [b], s, by rw [hsp], Or.inl ⟨rfl, rfl, ?_⟩, hl0, fun _ _ => rfl⟩
      intro q' t e
      have := (List.append_inj' e rfl).2
      simp only [List.cons.injEq, and_true] at this
      rw [this] at hbf
      exact hbf rfl

theorem joinNext_eq (c : Cfg) (hc : c.ok) (m : Mem) (a s : Nat) (pre post : List Blk)
    (hl : Lay c.w m a (pre ++ (⟨s, false⟩ :: post))) (stop : Nat)
    (hst : a + span c.w (pre ++ (⟨s, false⟩ :: post)) = stop) (hM : stop < c.M) :
    ∃ m' post' s', joinNext c m stop (a + span c.w pre) (a + span c.w pre + (4 * c.w + s)) s = m' ∧
      JoinN c.w post s post' s' ∧ Lay c.w m' a (pre ++ (⟨s', false⟩ :: post')) ∧
      ∀ x, ¬ (a + span c.w pre ≤ x ∧ x < a + span c.w pre + (4 * c.w + s')) → m' x = m x := by
  obtain ⟨hw, hM8, -⟩ := hc.facts
  have hMd : c.M = 256 ^ c.w := rfl
  rw [span_append] at hst
  simp only [span] at hst
  cases post with
  | nil =>
    refine ⟨m, [], s, ?_, Or.inl ⟨rfl, rfl, by simp⟩, hl, fun _ _ => rfl⟩
    simp only [span] at hst
    unfold joinNext
    rw [if_neg]
    intro h; omega
  | cons b post =>
    simp only [span] at hst
    have hl0 := hl
    rw [lay_append] at hl
    obtain ⟨hlq, hts, hds, htb, hdb, hlp⟩ := hl
    simp only at htb
    have hflag : rd c.w m (c.ix (a + span c.w pre + (4 * c.w + s)) 1) = b.flag := by
      rw [ix_eq c (by omega), Nat.one_mul]; exact htb.hflag
    unfold joinNext
    rw [hflag, htb.hsize]
    simp only
    by_cases hbf : b.flag = 0
    · have hb : b = ⟨b.size, false⟩ := by
        have := (flag_zero b).1 hbf
        cases b; simp_all
      rw [if_pos ⟨by omega, hbf⟩]
      have hsz : (s + (b.size + 2 * c.H)) % c.M = s + (b.size + 4 * c.w) := by
        unfold Cfg.H; rw [Nat.mod_eq_of_lt (by omega)]; omega
      have hnn : (a + span c.w pre + (4 * c.w + s) + b.size + 2 * c.H) % c.M = a + span c.w pre + (8 * c.w + s + b.size) := by
        unfold Cfg.H; rw [Nat.mod_eq_of_lt (by omega)]; omega
      rw [hsz, hnn, nix_eq c (by omega) (by omega), Nat.one_mul,
        show a + span c.w pre + (8 * c.w + s + b.size) - c.w = a + span c.w pre + (7 * c.w + s + b.size) by omega]
      refine ⟨_, post, _, rfl, Or.inr ⟨b.size, by rw [← hb], rfl⟩, ?_, ?_⟩
      · refine lay_replace (mid := [⟨s, false⟩, b]) (mid' := [⟨s + (b.size + 4 * c.w), false⟩])
          (m := m) (by simpa using hl0) ?_ ?_ ?_
        · simp only [span]; omega
        · intro x hx
          simp only [span] at hx
          rw [wr_other _ _ _ _ _ (by omega), wr_other _ _ _ _ _ (by omega)]
        · refine ⟨join_tags c.w hw m (a + span c.w pre) s b.size hts (hb ▸ htb) (by omega), ?_, trivial⟩
          exact Nat.dvd_add hds (Nat.dvd_add hdb (Nat.dvd_refl _))
      · intro x hx
        rw [wr_other _ _ _ _ _ (by omega), wr_other _ _ _ _ _ (by omega)]
    · rw [if_neg (fun h => hbf h.2)]
      refine ⟨m, b :: post, s, rfl, Or.inl ⟨rfl, rfl, ?_⟩, hl0, fun _ _ => rfl⟩
      intro q' t e
      simp only [List.cons.injEq] at e
      rw [e.1] at hbf
      exact hbf rfl

theorem free_eq (c : Cfg) (hc : c.ok) (h : Heap) (s : Nat) (pre post : List Blk)
    (hl : Lay c.w h.mem h.start (pre ++ (⟨s, true⟩ :: post)))
    (hst : h.start + span c.w (pre ++ (⟨s, true⟩ :: post)) = h.stop) (hM : h.stop < c.M) :
    ∃ m' pre' s' post' s'', free c h (h.start + span c.w pre + 2 * c.w) = { h with mem := m' } ∧
      JoinP c.w pre s pre' s' ∧ JoinN c.w post s' post' s'' ∧
      Lay c.w m' h.start (pre' ++ (⟨s'', false⟩ :: post')) ∧
      ∀ x, ¬ (h.start + span c.w pre' ≤ x ∧ x < h.start + span c.w pre' + (4 * c.w + s'')) → m' x = h.mem x := by
  obtain ⟨hw, hM8, -⟩ := hc.facts
  have h0w : 0 < 256 ^ c.w := by have := one_lt c.w hw; omega
  have hl0 := hl
  rw [lay_append] at hl
  obtain ⟨hlq, hts, hds, hlp⟩ := hl
  simp only at hts hds hlp
  have hst0 := hst
  rw [span_append] at hst
  simp only [span] at hst
  have hblk : (h.start + span c.w pre + 2 * c.w + c.M - c.H) % c.M = h.start + span c.w pre := by
    unfold Cfg.H
    rw [show h.start + span c.w pre + 2 * c.w + c.M - 2 * c.w = h.start + span c.w pre + c.M by omega, Nat.add_mod_right,
      Nat.mod_eq_of_lt (by omega)]
  have hnx : (h.start + span c.w pre + 2 * c.w + s + c.H) % c.M = h.start + span c.w pre + (4 * c.w + s) := by
    unfold Cfg.H; rw [Nat.mod_eq_of_lt (by omega)]; omega
  unfold free
  rw [if_neg (by omega)]
  simp only
  rw [hblk, hts.hsize]
  simp only
  rw [hnx, ix_eq c (by omega), nix_eq c (by omega) (by omega), Nat.one_mul,
    show h.start + span c.w pre + (4 * c.w + s) - 2 * c.w = h.start + span c.w pre + 2 * c.w + s by omega]
  generalize hm1 : wr c.w (wr c.w h.mem (h.start + span c.w pre + c.w) 0) (h.start + span c.w pre + 2 * c.w + s) 0 = m1
  have hf1 : ∀ x, ¬ (h.start + span c.w pre ≤ x ∧ x < h.start + span c.w pre + (4 * c.w + s)) → m1 x = h.mem x := by
    intro x hx
    rw [← hm1, wr_other _ _ _ _ _ (by omega), wr_other _ _ _ _ _ (by omega)]
  have hl1 : Lay c.w m1 h.start (pre ++ (⟨s, false⟩ :: post)) := by
    refine lay_replace (mid := [⟨s, true⟩]) (mid' := [⟨s, false⟩]) (m := h.mem) hl0 (by simp [span]) ?_ ?_
    · simpa [span] using hf1
    · refine ⟨⟨?_, ?_, ?_, ?_⟩, hds, trivial⟩
      · rw [← hm1, rd_wr_ne _ _ _ _ _ (by omega), rd_wr_ne _ _ _ _ _ (by omega)]; exact hts.hsize
      · rw [← hm1, rd_wr_ne _ _ _ _ _ (by omega), rd_wr_same _ _ _ _ h0w]; rfl
      · rw [← hm1, rd_wr_same _ _ _ _ h0w]; rfl
      · simp only
        rw [← hm1, rd_wr_ne _ _ _ _ _ (by omega), rd_wr_ne _ _ _ _ _ (by omega)]; exact hts.fsize
  obtain ⟨m2, pre', s', e2, j2, l2, f2⟩ := joinPrev_eq c hc m1 h.start s pre post hl1 (by
    rw [span_append] at hst0 ⊢; simp only [span] at hst0 ⊢; omega)
  rw [e2]
  simp only
  have hspan : span c.w pre' + (4 * c.w + s') = span c.w pre + (4 * c.w + s) := by
    rcases j2 with ⟨a1, a2, -⟩ | ⟨t, a1, a2⟩
    · rw [a1, a2]
    · rw [a1, a2, span_append]; simp only [span]; omega
  obtain ⟨m3, post', s'', e3, j3, l3, f3⟩ := joinNext_eq c hc m2 h.start s' pre' post l2 h.stop (by
    rw [span_append]; simp only [span]; omega) hM
  rw [show h.start + span c.w pre + (4 * c.w + s) = h.start + span c.w pre' + (4 * c.w + s') by omega, e3]
  refine ⟨m3, pre', s', post', s'', rfl, j2, j3, l3, ?_⟩
  intro x hx
  have hs'' : s' ≤ s'' := by
    rcases j3 with ⟨a1, a2, -⟩ | ⟨t, a1, a2⟩ <;> omega
  have hpp : span c.w pre' ≤ span c.w pre := by
    rcases j2 with ⟨a1, a2, -⟩ | ⟨t, a1, a2⟩
    · rw [a1]; omega
    · rw [a1, span_append]; omega
  rw [f3 x hx, f2 x (by omega), hf1 x (by omega)]

end Smlr.Heap
