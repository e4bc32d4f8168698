import Verif.Imports.Spec
import Verif.Pe.Hdrs
set_option autoImplicit false
/-! The loops over the import tables. -/
namespace Smlr.Imports
open Smlr.Sect (Bytes)
open Smlr.Exe (le32 sub32)
open Smlr.Pe (patch patch_len)

theorem at_word (f : Bytes) (r : Nat) : at_ f r = word f (pos r) := rfl

theorem pos_eq (r : Nat) (h : 4096 ≤ r) : pos r + 3072 = r := by unfold pos; omega

theorem patch_getD (f b : Bytes) (p i : Nat) (h : p + b.length ≤ f.length) : (patch f (p, b)).getD i 0 = if p ≤ i ∧ i < p + b.length then b.getD (i - p) 0 else f.getD i 0 := by
  rw [List.getD_eq_getElem?_getD]
  split
  · rename_i hi
    have : (patch f (p, b))[i]? = b[i - p]? := by
      unfold patch Fixup.File.write
      simp only
      have hl : (f.take p).length = p := by rw [List.length_take]; omega
      rw [List.append_assoc, List.getElem?_append_right (by omega), hl, List.getElem?_append_left (by omega)]
    rw [this, ← List.getD_eq_getElem?_getD]
  · rename_i hi
    rw [Pe.patch_get f (p, b) h i (by simp only; omega), ← List.getD_eq_getElem?_getD]

theorem byte (x : Nat) : (UInt8.ofNat x).toNat = x % 256 := by simp

theorem le32_word (f : Bytes) (q : Nat) : le32 (word f q) = [f.getD q 0, f.getD (q + 1) 0, f.getD (q + 2) 0, f.getD (q + 3) 0] := by
  unfold le32 word
  have h0 := (f.getD q 0).toNat_lt
  have h1 := (f.getD (q + 1) 0).toNat_lt
  have h2 := (f.getD (q + 2) 0).toNat_lt
  have h3 := (f.getD (q + 3) 0).toNat_lt
  refine congr (congrArg _ (UInt8.toNat_inj.1 ?_)) (congr (congrArg _ (UInt8.toNat_inj.1 ?_)) (congr (congrArg _ (UInt8.toNat_inj.1 ?_)) (congr (congrArg _ (UInt8.toNat_inj.1 ?_)) rfl)))
  all_goals rw [byte]; omega

theorem word_of (f : Bytes) (p v : Nat) (hv : v < 2 ^ 32) (h : ∀ j, j < 4 → f.getD (p + j) 0 = (le32 v).getD j 0) : word f p = v := by
  unfold word
  have h0 := h 0 (by decide)
  have h1 := h 1 (by decide)
  have h2 := h 2 (by decide)
  have h3 := h 3 (by decide)
  rw [Nat.add_zero] at h0
  rw [h0, h1, h2, h3]
  show (UInt8.ofNat v).toNat + 256 * (UInt8.ofNat (v / 256)).toNat + 65536 * (UInt8.ofNat (v / 65536)).toNat + 16777216 * (UInt8.ofNat (v / 16777216)).toNat = v
  rw [byte, byte, byte, byte]
  omega

theorem Same.mono {f f' : Bytes} {C D : List Nat} (h : Same f f' C) (hs : ∀ c ∈ C, c ∈ D) : Same f f' D := fun i hi => h i fun c hc => hi c (hs c hc)

theorem Same.trans {f f' f'' : Bytes} {C : List Nat} (h : Same f f' C) (h' : Same f' f'' C) : Same f f'' C := fun i hi => (h' i hi).trans (h i hi)

theorem Same.at_ {f f' : Bytes} {C : List Nat} (h : Same f f' C) (c : Nat) (hc : 4096 ≤ c) (ha : ∀ d ∈ C, 4096 ≤ d ∧ Apart c d) : at_ f' c = at_ f c := by
  have key : ∀ j, j < 4 → f'.getD (pos c + j) 0 = f.getD (pos c + j) 0 := by
    intro j hj
    apply h
    intro d hd
    obtain ⟨h1, h2⟩ := ha d hd
    unfold pos
    rcases h2 with h2 | h2 <;> omega
  unfold Imports.at_
  have h0 := key 0 (by decide)
  rw [Nat.add_zero] at h0
  rw [h0, key 1 (by decide), key 2 (by decide), key 3 (by decide)]

theorem put (f : Bytes) (r v : Nat) (hv : v < 2 ^ 32) (hp : pos r + 4 ≤ f.length) :
    (patch f (pos r, le32 v)).length = f.length ∧ at_ (patch f (pos r, le32 v)) r = v ∧ Same f (patch f (pos r, le32 v)) [r] := by
  refine ⟨patch_len f _ hp, ?_, ?_⟩
  · rw [at_word]
    apply word_of _ _ _ hv
    intro j hj
    rw [patch_getD f _ _ _ hp, if_pos ⟨by omega, by show _ < pos r + 4; omega⟩, show pos r + j - pos r = j by omega]
  · intro i hi
    have := hi r (by simp)
    rw [patch_getD f _ _ _ hp, if_neg (by show ¬ (_ ∧ _ < pos r + 4); omega)]

theorem put3 (f : Bytes) (r a b c : Nat) (ha : a < 2 ^ 32) (hb : b < 2 ^ 32) (hc : c < 2 ^ 32) (hr : 4096 ≤ r) (hp : pos r + 20 ≤ f.length) :
    ∃ f', f' = patch f (pos r, le32 a ++ le32 (word f (pos r + 4)) ++ le32 (word f (pos r + 8)) ++ le32 b ++ le32 c) ∧ f'.length = f.length ∧ at_ f' r = a ∧ at_ f' (r + 12) = b ∧ at_ f' (r + 16) = c ∧
      Same f f' [r, r + 12, r + 16] := by
  refine ⟨_, rfl, patch_len f _ hp, ?_, ?_, ?_, ?_⟩
  · rw [at_word]
    apply word_of _ _ _ ha
    intro j hj
    rw [patch_getD f _ _ _ hp, if_pos ⟨by omega, by show _ < pos r + 20; omega⟩, show pos r + j - pos r = j by omega]
    rcases (by omega : j = 0 ∨ j = 1 ∨ j = 2 ∨ j = 3) with rfl | rfl | rfl | rfl <;> rfl
  · rw [at_word, show pos (r + 12) = pos r + 12 by unfold pos; omega]
    apply word_of _ _ _ hb
    intro j hj
    rw [patch_getD f _ _ _ hp, if_pos ⟨by omega, by show _ < pos r + 20; omega⟩, show pos r + 12 + j - pos r = 12 + j by omega]
    rcases (by omega : j = 0 ∨ j = 1 ∨ j = 2 ∨ j = 3) with rfl | rfl | rfl | rfl <;> rfl
  · rw [at_word, show pos (r + 16) = pos r + 16 by unfold pos; omega]
    apply word_of _ _ _ hc
    intro j hj
    rw [patch_getD f _ _ _ hp, if_pos ⟨by omega, by show _ < pos r + 20; omega⟩, show pos r + 16 + j - pos r = 16 + j by omega]
    rcases (by omega : j = 0 ∨ j = 1 ∨ j = 2 ∨ j = 3) with rfl | rfl | rfl | rfl <;> rfl
  · intro i hi
    have h0 := hi r (by simp)
    have h1 := hi (r + 12) (by simp)
    have h2 := hi (r + 16) (by simp)
    rw [show pos (r + 12) = pos r + 12 by unfold pos; omega] at h1
    rw [show pos (r + 16) = pos r + 16 by unfold pos; omega] at h2
    rw [patch_getD f _ _ _ hp]
    split
    · rename_i hh
      have hh2 : i < pos r + 20 := hh.2
      rw [le32_word, le32_word]
      obtain ⟨j, hj⟩ : ∃ j, i = pos r + j := ⟨i - pos r, by omega⟩
      subst hj
      rw [show pos r + j - pos r = j by omega]
      rcases (by omega : j = 4 ∨ j = 5 ∨ j = 6 ∨ j = 7 ∨ j = 8 ∨ j = 9 ∨ j = 10 ∨ j = 11) with rfl | rfl | rfl | rfl | rfl | rfl | rfl | rfl <;> rfl
    · rfl

theorem words_mem (n : Nat) : ∀ r c, c ∈ words r n ↔ ∃ j, j ≤ n ∧ c = r + 4 * j := by
  induction n with
  | zero =>
    intro r c
    simp only [words, List.mem_singleton]
    constructor
    · intro h; exact ⟨0, Nat.le_refl _, by omega⟩
    · rintro ⟨j, h1, h2⟩; omega
  | succ n ih =>
    intro r c
    simp only [words, List.mem_cons, ih]
    constructor
    · rintro (h | ⟨j, h1, h2⟩)
      · exact ⟨0, by omega, by omega⟩
      · exact ⟨j + 1, by omega, by omega⟩
    · rintro ⟨j, h1, h2⟩
      cases j with
      | zero => exact .inl (by omega)
      | succ j => exact .inr ⟨j, by omega, by omega⟩

theorem thunks_congr (k : Nat) (f f' : Bytes) (l : List Fn) : ∀ r, (∀ c ∈ words r l.length, at_ f' c = at_ f c) → Thunks k f r l → Thunks k f' r l := by
  induction l with
  | nil =>
    intro r h h1
    exact (h r (by simp [words])).trans h1
  | cons x l ih =>
    intro r h h1
    refine ⟨?_, ih _ (fun c hc => h c (List.mem_cons_of_mem _ hc)) h1.2⟩
    rw [h r (by simp [words])]
    exact h1.1

theorem table_congr (k : Nat) (f f' : Bytes) (l : List Dll) : ∀ r, (∀ c ∈ cells r l, at_ f' c = at_ f c) → Table k f r l → Table k f' r l := by
  induction l with
  | nil =>
    intro r h h1
    have h : ∀ c ∈ [r, r + 12, r + 16], at_ f' c = at_ f c := h
    unfold Table at h1 ⊢
    rw [h r (by simp), h (r + 12) (by simp), h (r + 16) (by simp)]
    exact h1
  | cons d l ih =>
    intro r h h1
    unfold Table at h1 ⊢
    unfold cells at h
    obtain ⟨h1, h2, h3, h4, h5, h6⟩ := h1
    rw [h r (by simp), h (r + 12) (by simp), h (r + 16) (by simp)]
    exact ⟨h1, h2, h3, thunks_congr k f f' _ _ (fun c hc => h c (by simp [hc])) h4, thunks_congr k f f' _ _ (fun c hc => h c (by simp [hc])) h5,
      ih _ (fun c hc => h c (by simp [hc])) h6⟩

theorem pos_le (a b n : Nat) (h : pos (a + b) + 4 ≤ n) : pos a + 4 ≤ n :=
  Nat.le_trans (Nat.add_le_add_right (Nat.add_le_add_right (Nat.sub_le_sub_right (Nat.le_add_right a b) 4096) 1024) 4) h

theorem thunks_ok (base : Nat) (l : List Fn) : ∀ (n ofs : Nat) (f : Bytes), l.length < n → Thunks base f ofs l → Named l → 4096 ≤ ofs → pos (ofs + 4 * l.length) + 4 ≤ f.length → f.length + 8192 ≤ 2 ^ 32 →
    ∃ f', thunks base n ofs f = some f' ∧ f'.length = f.length ∧ Thunks 0 f' ofs l ∧ Same f f' (words ofs l.length) := by
  induction l with
  | nil =>
    intro n ofs f hn ht _ ho hp hf
    obtain ⟨m, rfl⟩ : ∃ m, n = m + 1 := ⟨n - 1, by simp only [List.length_nil] at hn; omega⟩
    have hp : pos ofs + 4 ≤ f.length := hp
    have hpos : (sub32 ofs 4096 + 1024) % 2 ^ 32 = pos ofs := by unfold sub32; unfold pos at hp ⊢; omega
    refine ⟨f, ?_, rfl, ht, fun _ _ => rfl⟩
    have : thunk base ofs f = some (f, none) := by
      unfold thunk
      simp only
      rw [hpos, if_pos hp, if_pos (show word f (pos ofs) = 0 from ht)]
    unfold thunks
    rw [loop, this]
  | cons x l ih =>
    intro n ofs f hn ht hnm ho hp hf
    obtain ⟨m, rfl⟩ : ∃ m, n = m + 1 := ⟨n - 1, by omega⟩
    simp only [List.length_cons] at hn hp
    obtain ⟨hx, ht⟩ := ht
    obtain ⟨r, rfl⟩ := hnm x (by simp)
    have hx : at_ f ofs = base + r ∧ 4096 ≤ r ∧ at_ f ofs < 2 ^ 31 := hx
    obtain ⟨hx1, hx2, hx3⟩ := hx
    have ht : Thunks base f (ofs + 4) l := ht
    have hp4 : pos ofs + 4 ≤ f.length := pos_le _ _ _ hp
    have hpos : (sub32 ofs 4096 + 1024) % 2 ^ 32 = pos ofs := by unfold sub32; unfold pos at hp4 ⊢; omega
    have hofs : (ofs + 4) % 2 ^ 32 = ofs + 4 := by unfold pos at hp4; omega
    have hw : word f (pos ofs) = base + r := hx1
    have hv : sub32 (base + r) base = r := by unfold sub32; omega
    obtain ⟨p1, p2, p3⟩ := put f ofs r (by omega) hp4
    obtain ⟨f1, hf1⟩ : ∃ x, x = patch f (pos ofs, le32 r) := ⟨_, rfl⟩
    rw [← hf1] at p1 p2 p3
    have ht1 : Thunks base f1 (ofs + 4) l := by
      refine thunks_congr base f f1 l _ (fun c hc => ?_) ht
      obtain ⟨j, -, hj⟩ := (words_mem _ _ _).1 hc
      refine p3.at_ c (by omega) fun d hd => ?_
      rw [List.mem_singleton.1 hd]
      exact ⟨ho, .inr (by omega)⟩
    obtain ⟨f', e1, e2, e3, e4⟩ := ih m (ofs + 4) f1 (by omega) ht1 (fun x hx => hnm x (List.mem_cons_of_mem _ hx)) (by omega)
      (by rw [p1, show ofs + 4 + 4 * l.length = ofs + 4 * (l.length + 1) by omega]; exact hp) (by omega)
    refine ⟨f', ?_, e2.trans p1, ⟨?_, e3⟩, ?_⟩
    · have : thunk base ofs f = some (f1, some (ofs + 4)) := by
        unfold thunk
        simp only
        rw [hpos, if_pos hp4, hw, if_neg (by omega), hv, ← hf1, hofs]
      unfold thunks
      rw [loop, this]
      exact e1
    · have : at_ f' ofs = r := by
        rw [← p2]
        refine e4.at_ ofs ho fun d hd => ?_
        obtain ⟨j, -, hj⟩ := (words_mem _ _ _).1 hd
        exact ⟨by omega, .inl (by omega)⟩
      rw [this]
      exact ⟨by omega, hx2, by omega⟩
    · exact (p3.mono (by simp [words])).trans (e4.mono fun c hc => List.mem_cons_of_mem _ hc)

end Smlr.Imports
