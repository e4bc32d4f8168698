import Verif.Imports.Lemmas
set_option autoImplicit false
/-! C64: the import tables are what Windows expects. -/
namespace Smlr.Imports
open Smlr.Sect (Bytes Name str)
open Smlr.Exe (le32 sub32)
open Smlr.Pe (patch patch_len)

theorem cells_last (l : List Dll) : ∀ r, r + 20 * l.length ∈ cells r l := by
  induction l with
  | nil => intro r; simp [cells]
  | cons d l ih =>
    intro r
    unfold cells
    refine List.mem_append_right _ ?_
    rw [List.length_cons, show r + 20 * (l.length + 1) = r + 20 + 20 * l.length by omega]
    exact ih _

theorem desc_step (base iofs p : Nat) (f : Bytes) (a b c a' b' c' : Nat) (f1 f2 f3 : Bytes) (hp : (sub32 iofs (base + 4096) + 1024) % 2 ^ 32 = p) (hl : p + 20 ≤ f.length)
    (ha : word f p = a) (hb : word f (p + 12) = b) (hc : word f (p + 16) = c) (ha0 : a ≠ 0) (hb0 : b ≠ 0) (hc0 : c ≠ 0) (va : sub32 a base = a') (vb : sub32 b base = b') (vc : sub32 c base = c')
    (e1 : f1 = patch f (p, le32 a' ++ le32 (word f (p + 4)) ++ le32 (word f (p + 8)) ++ le32 b' ++ le32 c')) (g2 : thunks base f1.length a' f1 = some f2) (g3 : thunks base f2.length c' f2 = some f3) :
    desc base iofs f = some (f3, some ((iofs + 20) % 2 ^ 32)) := by
  subst e1
  unfold desc
  simp only
  rw [hp, if_pos hl, ha, hb, hc, if_neg (by omega), va, vb, vc, g2]
  simp only
  rw [g3]

theorem descs_ok (base : Nat) (l : List Dll) : ∀ (n r : Nat) (f : Bytes), l.length < n → Table base f r l → (∀ d ∈ l, Named d.lookup ∧ Named d.slots) →
    (cells r l).Pairwise Apart → (∀ c ∈ cells r l, 4096 ≤ c ∧ pos c + 4 ≤ f.length) → base + f.length + 8192 ≤ 2 ^ 32 →
    ∃ f', descs base n (base + r) f = some f' ∧ f'.length = f.length ∧ Table 0 f' r l ∧ Same f f' (cells r l) := by
  induction l with
  | nil =>
    intro n r f hn ht _ _ hc hb
    obtain ⟨m, rfl⟩ : ∃ m, n = m + 1 := ⟨n - 1, by simp only [List.length_nil] at hn; omega⟩
    have hc0 := hc r (by simp [cells])
    have hc2 := hc (r + 16) (by simp [cells])
    have hq0 := pos_eq r hc0.1
    have hq2 := pos_eq (r + 16) hc2.1
    have hp : (sub32 (base + r) (base + 4096) + 1024) % 2 ^ 32 = pos r := by unfold sub32; omega
    have hl : pos r + 20 ≤ f.length := by omega
    refine ⟨f, ?_, rfl, ht, fun _ _ => rfl⟩
    have : desc base (base + r) f = some (f, none) := by
      unfold desc
      simp only
      rw [hp, if_pos hl, if_pos (.inl (show word f (pos r) = 0 from ht.1))]
    unfold descs
    rw [loop, this]
  | cons d l ih =>
    intro n r f hn ht hnm hpw hc hb
    obtain ⟨m, rfl⟩ : ∃ m, n = m + 1 := ⟨n - 1, by omega⟩
    simp only [List.length_cons] at hn
    unfold Table at ht
    obtain ⟨⟨t1, t1'⟩, ⟨t2, t2'⟩, ⟨t3, t3'⟩, t4, t5, t6⟩ := ht
    unfold cells at hpw hc
    obtain ⟨hpw1, hpR, hxR⟩ := List.pairwise_append.1 hpw
    obtain ⟨hpw2, -, hxI⟩ := List.pairwise_append.1 hpw1
    obtain ⟨hpX, -, hxL⟩ := List.pairwise_append.1 hpw2
    have hc0 := hc r (by simp)
    have hc1 := hc (r + 12) (by simp)
    have hc2 := hc (r + 16) (by simp)
    have hq0 := pos_eq r hc0.1
    have hq2 := pos_eq (r + 16) hc2.1
    have hp : (sub32 (base + r) (base + 4096) + 1024) % 2 ^ 32 = pos r := by unfold sub32; omega
    have hl : pos r + 20 ≤ f.length := by omega
    have hnext : (base + r + 20) % 2 ^ 32 = base + (r + 20) := by omega
    have hcL : ∀ c ∈ words d.ilt d.lookup.length, 4096 ≤ c ∧ pos c + 4 ≤ f.length := fun c h => hc c (by simp [h])
    have hcI : ∀ c ∈ words d.iat d.slots.length, 4096 ≤ c ∧ pos c + 4 ≤ f.length := fun c h => hc c (by simp [h])
    have hcR : ∀ c ∈ cells (r + 20) l, 4096 ≤ c ∧ pos c + 4 ≤ f.length := fun c h => hc c (by simp [h])
    have hcX : ∀ c ∈ [r, r + 12, r + 16], 4096 ≤ c := fun c h => (hc c (List.mem_append_left _ (List.mem_append_left _ (List.mem_append_left _ h)))).1
    have hlastL := hcL (d.ilt + 4 * d.lookup.length) ((words_mem _ _ _).2 ⟨_, Nat.le_refl _, rfl⟩)
    have hlastI := hcI (d.iat + 4 * d.slots.length) ((words_mem _ _ _).2 ⟨_, Nat.le_refl _, rfl⟩)
    have hqL := pos_eq _ hlastL.1
    have hqI := pos_eq _ hlastI.1
    have hnamec : base + d.name < 2 ^ 32 := by
      have := (at_word f (r + 12)).symm.trans t2
      rw [← this]
      unfold word
      have h0 := (f.getD (pos (r + 12)) 0).toNat_lt
      have h1 := (f.getD (pos (r + 12) + 1) 0).toNat_lt
      have h2 := (f.getD (pos (r + 12) + 2) 0).toNat_lt
      have h3 := (f.getD (pos (r + 12) + 3) 0).toNat_lt
      omega
    have hiltc : base + d.ilt < 2 ^ 32 := by omega
    have hiatc : base + d.iat < 2 ^ 32 := by omega
    have va : sub32 (base + d.ilt) base = d.ilt := by unfold sub32; omega
    have vb : sub32 (base + d.name) base = d.name := by unfold sub32; omega
    have vc : sub32 (base + d.iat) base = d.iat := by unfold sub32; omega
    have hq1 := pos_eq _ hc1.1
    have hw1 : word f (pos r) = base + d.ilt := by rw [← at_word]; exact t1
    have hw2 : word f (pos r + 12) = base + d.name := by rw [show pos r + 12 = pos (r + 12) by omega, ← at_word]; exact t2
    have hw3 : word f (pos r + 16) = base + d.iat := by rw [show pos r + 16 = pos (r + 16) by omega, ← at_word]; exact t3
    have apart : ∀ a b, Apart a b → Apart b a := fun a b h => h.symm
    -- the descriptor
    obtain ⟨f1, e1, l1, p1, p2, p3, s1⟩ := put3 f r d.ilt d.name d.iat (by omega) (by omega) (by omega) hc0.1 hl
    have a1 : ∀ c, 4096 ≤ c → (∀ x ∈ [r, r + 12, r + 16], Apart x c) → at_ f1 c = at_ f c := fun c h4 h => s1.at_ c h4 fun x hx => ⟨hcX x hx, apart _ _ (h x hx)⟩
    -- the lookup table
    obtain ⟨f2, g2, l2, th2, s2⟩ := thunks_ok base d.lookup f1.length d.ilt f1 (by omega)
      (thunks_congr base f f1 _ _ (fun c h => a1 c (hcL c h).1 fun x hx => hxL x hx c h) t4) (hnm d (by simp)).1 t1' (by rw [l1]; exact hlastL.2) (by omega)
    have a2 : ∀ c, 4096 ≤ c → (∀ x ∈ words d.ilt d.lookup.length, Apart x c) → at_ f2 c = at_ f1 c := fun c h4 h => s2.at_ c h4 fun x hx => ⟨(hcL x hx).1, apart _ _ (h x hx)⟩
    -- the address table
    obtain ⟨f3, g3, l3, th3, s3⟩ := thunks_ok base d.slots f2.length d.iat f2 (by omega)
      (thunks_congr base f f2 _ _ (fun c h => (a2 c (hcI c h).1 fun x hx => hxI x (List.mem_append_right _ hx) c h).trans
        (a1 c (hcI c h).1 fun x hx => hxI x (List.mem_append_left _ hx) c h)) t5) (hnm d (by simp)).2 t3' (by rw [l2, l1]; exact hlastI.2) (by omega)
    have a3 : ∀ c, 4096 ≤ c → (∀ x ∈ words d.iat d.slots.length, Apart x c) → at_ f3 c = at_ f2 c := fun c h4 h => s3.at_ c h4 fun x hx => ⟨(hcI x hx).1, apart _ _ (h x hx)⟩
    -- the others
    obtain ⟨f4, g4, l4, tb4, s4⟩ := ih m (r + 20) f3 (by omega)
      (table_congr base f f3 _ _ (fun c h => (a3 c (hcR c h).1 fun x hx => hxR x (List.mem_append_right _ hx) c h).trans
        ((a2 c (hcR c h).1 fun x hx => hxR x (List.mem_append_left _ (List.mem_append_right _ hx)) c h).trans
          (a1 c (hcR c h).1 fun x hx => hxR x (List.mem_append_left _ (List.mem_append_left _ hx)) c h))) t6)
      (fun d hd => hnm d (List.mem_cons_of_mem _ hd)) hpR (by rw [l3, l2, l1]; exact hcR) (by omega)
    have a4 : ∀ c, 4096 ≤ c → (∀ x ∈ cells (r + 20) l, Apart c x) → at_ f4 c = at_ f3 c := fun c h4 h => s4.at_ c h4 fun x hx => ⟨(hcR x hx).1, h x hx⟩
    have keep : ∀ c ∈ [r, r + 12, r + 16], at_ f4 c = at_ f1 c := by
      intro c h
      rw [a4 c (hcX c h) fun x hx => hxR c (List.mem_append_left _ (List.mem_append_left _ h)) x hx, a3 c (hcX c h) fun x hx => apart _ _ (hxI c (List.mem_append_left _ h) x hx),
        a2 c (hcX c h) fun x hx => apart _ _ (hxL c h x hx)]
    refine ⟨f4, ?_, by omega, ?_, ?_⟩
    · unfold descs
      rw [loop, desc_step base (base + r) (pos r) f (base + d.ilt) (base + d.name) (base + d.iat) d.ilt d.name d.iat f1 f2 f3 hp hl hw1 hw2 hw3 (by omega) (by omega) (by omega) va vb vc e1 g2 g3, hnext]
      exact g4
    · unfold Table
      rw [keep r (by simp), keep (r + 12) (by simp), keep (r + 16) (by simp), p1, p2, p3]
      refine ⟨⟨by omega, t1'⟩, ⟨by omega, t2'⟩, ⟨by omega, t3'⟩, ?_, ?_, tb4⟩
      · refine thunks_congr 0 f2 f4 _ _ (fun c h => ?_) th2
        rw [a4 c (hcL c h).1 fun x hx => hxR c (List.mem_append_left _ (List.mem_append_right _ h)) x hx, a3 c (hcL c h).1 fun x hx => apart _ _ (hxI c (List.mem_append_right _ h) x hx)]
      · refine thunks_congr 0 f3 f4 _ _ (fun c h => ?_) th3
        rw [a4 c (hcI c h).1 fun x hx => hxR c (List.mem_append_right _ h) x hx]
    · unfold cells
      exact (((s1.mono (fun c h => List.mem_append_left _ (List.mem_append_left _ (List.mem_append_left _ h)))).trans (s2.mono (fun c h => by simp [h]))).trans (s3.mono (fun c h => by simp [h]))).trans (s4.mono (fun c h => by simp [h]))

/-- **C64.** When the import tables in the file hold addresses, the linker makes of them the tables that Windows reads, with the same libraries and functions, and changes nothing else.
Missing from the full claim: functions imported by number. -/
theorem c64_imports_partial (base r : Nat) (f : Bytes) (l : List Dll) (h : Table base f r l) (hn : ∀ d ∈ l, Named d.lookup ∧ Named d.slots) (ha : (cells r l).Pairwise Apart)
    (hc : ∀ c ∈ cells r l, 4096 ≤ c ∧ pos c + 4 ≤ f.length) (hb : base + f.length + 8192 ≤ 2 ^ 32) :
    ∃ f', relative base (base + r) f = some f' ∧ f'.length = f.length ∧ Table 0 f' r l ∧ Same f f' (cells r l) := by
  have h1 := hc _ (cells_last l r)
  have h2 : l.length < f.length := by have := pos_eq _ h1.1; omega
  obtain ⟨f', e⟩ := descs_ok base l f.length r f h2 h hn ha hc hb
  refine ⟨f', ?_, e.2⟩
  unfold relative
  have := (hc r (by cases l <;> simp [cells])).1
  rw [if_pos (by omega)]
  exact e.1

/-- The directories in the header tell where the tables are, relative to the image, and their sizes. -/
theorem c64_dirs (sym : Name → Nat) (base r n i m : Nat) (h1 : sym (str "__dll_imports") = base + r) (h2 : sym (str "__dll_imports_end") = base + r + n) (h3 : sym (str "__dll_iats") = base + i)
    (h4 : sym (str "__dll_iats_end") = base + i + m) (hr : 4096 ≤ r) (hi : 4096 ≤ i) (hn : base + r + n < 2 ^ 32) (hm : base + i + m < 2 ^ 32) : dirs sym base = ((r, n), (i, m)) := by
  unfold dirs
  simp only [h1, h2, h3, h4]
  rw [if_pos (by omega), if_pos (by omega), if_pos (by omega), if_pos (by omega)]
  have e1 : sub32 (base + r) base = r := by unfold sub32; omega
  have e2 : sub32 (base + r + n) (base + r) = n := by unfold sub32; omega
  have e3 : sub32 (base + i) base = i := by unfold sub32; omega
  have e4 : sub32 (base + i + m) (base + i) = m := by unfold sub32; omega
  rw [e1, e2, e3, e4]

/-- Without `__dll_imports` nothing is changed, and there are no directories. -/
theorem c64_none (sym : Name → Nat) (base : Nat) (f : Bytes) (h : sym (str "__dll_imports") = 0) : relative base (sym (str "__dll_imports")) f = some f ∧ dirs sym base = ((0, 0), (0, 0)) := by
  unfold relative dirs
  rw [h]
  exact ⟨rfl, rfl⟩

/-! ### examples -/

/-- a file: a descriptor at 4096, the empty one, two tables at 4136 and 4148 with the functions `x` and `y`, the name of the library at 4160 -/
def file (base x y iat : Nat) : Bytes :=
  List.replicate 1024 0 ++ [base + 4136, 7, 8, base + 4160, base + iat, 0, 0, 0, 0, 0, x, y, 0, x, y, 0, 0x32336B, 0x615A, 0x62].flatMap le32

/-- the library in it -/
def lib : Dll := ⟨4160, 4136, [.name 4164, .name 4168], 4148, [.name 4164, .name 4168]⟩

theorem file_table : Table 0x400000 (file 0x400000 0x401044 0x401048 4148) 4096 [lib] := by
  refine ⟨⟨?_, by decide⟩, ⟨?_, by decide⟩, ⟨?_, by decide⟩, ⟨⟨?_, by decide, ?_⟩, ⟨?_, by decide, ?_⟩, ?_⟩, ⟨⟨?_, by decide, ?_⟩, ⟨?_, by decide, ?_⟩, ?_⟩, ?_, ?_, ?_⟩ <;> first | decide +kernel | (show at_ _ _ = 0; decide +kernel)

instance (a b : Nat) : Decidable (Apart a b) := inferInstanceAs (Decidable (_ ∨ _))

example : ∃ f', relative 0x400000 0x401000 (file 0x400000 0x401044 0x401048 4148) = some f' ∧ Table 0 f' 4096 [lib] ∧ at_ f' 4100 = 7 := by
  obtain ⟨f', h1, -, h3, h4⟩ := c64_imports_partial 0x400000 4096 (file 0x400000 0x401044 0x401048 4148) [lib] file_table (by
      intro d hd
      rw [List.mem_singleton.1 hd]
      have : Named [Fn.name 4164, Fn.name 4168] := by
        intro x hx
        rcases List.mem_cons.1 hx with hx | hx
        · exact ⟨_, hx⟩
        · exact ⟨_, List.mem_singleton.1 hx⟩
      exact ⟨this, this⟩) (by decide +kernel) (by decide +kernel) (by decide +kernel)
  refine ⟨f', h1, h3, ?_⟩
  rw [h4.at_ 4100 (by decide) (by decide +kernel)]
  decide +kernel

/-- A function imported by number: the address of the image is subtracted from the number, and Windows takes the result for the place of a name. -/
theorem c64_number : ∃ f', relative 0x400000 0x401000 (file 0x400000 (2 ^ 31 + 5) 0x401048 4148) = some f' ∧ (Fn.ord 5).Is 0x400000 (at_ (file 0x400000 (2 ^ 31 + 5) 0x401048 4148) 4136) ∧
    at_ f' 4136 = 0x7FC00005 ∧ ¬ (Fn.ord 5).Is 0 (at_ f' 4136) := by
  have hx : (relative 0x400000 0x401000 (file 0x400000 (2 ^ 31 + 5) 0x401048 4148)).map (fun f => at_ f 4136) = some 0x7FC00005 := by decide +kernel
  obtain ⟨f', h1, h2⟩ := Option.map_eq_some_iff.1 hx
  refine ⟨f', h1, ⟨by decide +kernel, by decide⟩, h2, ?_⟩
  rw [h2]
  intro h
  exact absurd h.1 (by decide)

/-- One table used for both purposes, which Windows allows: the address of the image is subtracted twice. -/
theorem c64_shared : ∃ f', relative 0x400000 0x401000 (file 0x400000 0x401044 0x401048 4136) = some f' ∧
    Table 0x400000 (file 0x400000 0x401044 0x401048 4136) 4096 [⟨4160, 4136, [.name 4164, .name 4168], 4136, [.name 4164, .name 4168]⟩] ∧ at_ f' 4136 = 0xFFC01044 ∧ ∀ r, ¬ (Fn.name r).Is 0 (at_ f' 4136) := by
  have hx : (relative 0x400000 0x401000 (file 0x400000 0x401044 0x401048 4136)).map (fun f => at_ f 4136) = some 0xFFC01044 := by decide +kernel
  obtain ⟨f', h1, h2⟩ := Option.map_eq_some_iff.1 hx
  refine ⟨f', h1, ?_, h2, ?_⟩
  · refine ⟨⟨?_, by decide⟩, ⟨?_, by decide⟩, ⟨?_, by decide⟩, ⟨⟨?_, by decide, ?_⟩, ⟨?_, by decide, ?_⟩, ?_⟩, ⟨⟨?_, by decide, ?_⟩, ⟨?_, by decide, ?_⟩, ?_⟩, ?_, ?_, ?_⟩ <;> first | decide +kernel | (show at_ _ _ = 0; decide +kernel)
  · intro r h
    rw [h2] at h
    exact absurd h.2.2 (by decide)

end Smlr.Imports
