import Verif.Fixup.Table
set_option autoImplicit false
namespace Smlr.Fixup
open Smlr.Sect (Bytes)
open Smlr.Exe (u32 le16 le32)

/-- between two calls of `add`: `D` are complete blocks, listing `ld`; `os` are the entries of the block in the works -/
structure Inv (f0 : Bytes) (t : St) (D hd : Bytes) (ld os : List Nat) : Prop where
  bytes : t.f.bytes = f0 ++ D ++ (hd ++ ents os)
  pos : t.f.pos = t.f.bytes.length
  blockSize : t.blockSize = 2 * os.length
  total : t.total = D.length
  blockPos : t.blockPos = f0.length + D.length
  mod : D.length % 4 = 0
  done : listed D = some ld
  hd8 : hd.length = 8
  offs : ∀ o ∈ os, o < 4096
  page : t.lastPage < 2 ^ 20
  room : D.length + 2 * os.length + 10 ≤ 12 * (ld.length + os.length)
  ne : os ≠ []

/-- before the first fixup -/
def Start (f0 : Bytes) (t : St) : Prop := t = start f0

/-- what `finish` leaves -/
structure Done (f0 : Bytes) (t : St) (D : Bytes) (l : List Nat) : Prop where
  bytes : t.f.bytes = f0 ++ D
  pos : t.f.pos = t.f.bytes.length
  total : t.total = D.length
  blockPos : t.blockPos = f0.length + D.length
  mod : D.length % 4 = 0
  done : listed D = some l
  room : D.length ≤ 12 * l.length

theorem listed_append (a b : Bytes) (l l' : List Nat) (ha : listed a = some l) (hb : blocks 1 b = some l') (h : 1 ≤ b.length) : listed (a ++ b) = some (l ++ l') := by
  unfold listed at ha ⊢
  refine blocks_more _ _ _ _ (blocks_append _ _ _ _ _ _ ha hb) ?_
  rw [List.length_append]
  omega

theorem finish_ok (f0 : Bytes) (t : St) (D hd : Bytes) (ld os : List Nat) (h : Inv f0 t D hd ld os) (hr : f0.length + 12 * (ld.length + os.length) < 2 ^ 32) :
    ∃ D', Done f0 (finish t) D' (ld ++ os.map (t.lastPage * 4096 + ·)) := by
  obtain ⟨h1, h2, h3, h4, h5, h6, h7, h8, h9, h10, h11, h12⟩ := h
  have hos : 1 ≤ os.length := by
    cases os with
    | nil => exact absurd rfl h12
    | cons => simp
  obtain ⟨f, lp, bs, tot, bp⟩ := t
  obtain ⟨fb, fp⟩ := f
  simp only at h1 h2 h3 h4 h5 h10 ⊢
  -- the padding
  obtain ⟨pad, hpad, hpl, hp4, hfp⟩ : ∃ pad : Bytes, (pad = [] ∨ pad = le16 0) ∧ (if bs / 2 % 2 = 1 then bs + 2 else bs) % 2 ^ 32 = (ents os ++ pad).length ∧ (ents os ++ pad).length % 4 = 0 ∧
      (if bs / 2 % 2 = 1 then (File.mk fb fp).write (le16 0) else File.mk fb fp) = ⟨f0 ++ D ++ (hd ++ (ents os ++ pad)), (f0 ++ D ++ (hd ++ (ents os ++ pad))).length⟩ := by
    by_cases hc : bs / 2 % 2 = 1
    · refine ⟨le16 0, .inr rfl, ?_, ?_, ?_⟩
      · rw [if_pos hc, List.length_append, ents_len]
        show _ = _ + 2
        omega
      · rw [List.length_append, ents_len]
        show (_ + 2) % 4 = 0
        omega
      · rw [if_pos hc, h2, write_end, h1]
        simp only [List.append_assoc]
    · refine ⟨[], .inl rfl, ?_, ?_, ?_⟩
      · rw [if_neg hc, List.append_nil, ents_len]
        omega
      · rw [List.append_nil, ents_len]
        omega
      · rw [if_neg hc, h2, h1, List.append_nil]
  have hel : (ents os ++ pad).length ≤ 2 * os.length + 2 := by
    rw [List.length_append, ents_len]
    rcases hpad with rfl | rfl
    · simp
    · exact Nat.le_refl _
  have hb := block_ok lp os pad hpad h9 h10 (by omega) hp4
  have e8 : ((ents os ++ pad).length + 8) % 2 ^ 32 = 8 + (ents os ++ pad).length := by omega
  have hlen : (le32 (lp * 4096 % 2 ^ 32) ++ (le32 (8 + (ents os ++ pad).length) ++ (ents os ++ pad))).length = 8 + (ents os ++ pad).length := by
    simp only [List.length_append]
    show 4 + (4 + _) = _
    omega
  refine ⟨D ++ (le32 (lp * 4096 % 2 ^ 32) ++ (le32 (8 + (ents os ++ pad).length) ++ (ents os ++ pad))), ?_⟩
  have hfile : ((((File.mk (f0 ++ D ++ (hd ++ (ents os ++ pad))) (f0 ++ D ++ (hd ++ (ents os ++ pad))).length).seek (f0.length + D.length)).write (le32 (lp * 4096 % 2 ^ 32))).write
      (le32 (8 + (ents os ++ pad).length))).bytes = f0 ++ (D ++ (le32 (lp * 4096 % 2 ^ 32) ++ (le32 (8 + (ents os ++ pad).length) ++ (ents os ++ pad)))) := by
    obtain ⟨x, y, hxy, hx, hy⟩ : ∃ x y : Bytes, hd = x ++ y ∧ x.length = 4 ∧ y.length = 4 := ⟨hd.take 4, hd.drop 4, (List.take_append_drop ..).symm, by simp; omega, by simp; omega⟩
    unfold File.seek
    rw [hxy, ← List.length_append, List.append_assoc x, write_mid (f0 ++ D) x _ _ (by rw [hx]; rfl), ← List.length_append]
    rw [← List.append_assoc (f0 ++ D), write_mid _ y _ _ (by rw [hy]; rfl)]
    simp only [List.append_assoc]
  unfold finish
  simp only [show bs ≠ 0 by omega, ne_eq, not_false_eq_true, if_true, hfp, hpl, e8]
  subst h5
  have hbp : (f0.length + D.length + (8 + (ents os ++ pad).length)) % 2 ^ 32 = f0.length + (D.length + (8 + (ents os ++ pad).length)) := by omega
  constructor
  · exact hfile
  · show (_ + _) % 2 ^ 32 = _
    unfold File.seek at hfile ⊢
    simp only [hfile, hbp, List.length_append (as := D), List.length_append (as := f0), hlen]
  · show (tot + _) % 2 ^ 32 = _
    rw [List.length_append (as := D), hlen]
    omega
  · show (_ + _) % 2 ^ 32 = _
    rw [List.length_append (as := D), hlen, hbp]
  · rw [List.length_append (as := D), hlen]
    omega
  · exact listed_append _ _ _ _ h7 hb (by omega)
  · rw [List.length_append (as := D), hlen, List.length_append (as := ld), List.length_map]
    omega

/-- the entry of a fixup after `t`, which has nothing in the works -/
theorem add_fresh (f0 : Bytes) (t : St) (D : Bytes) (l : List Nat) (a : Nat) (h : Done f0 t D l) (ha : a < 2 ^ 32) (hr : f0.length + 12 * (l.length + 1) < 2 ^ 32) :
    Inv f0 { t with lastPage := a / 4096, blockSize := 2, f := (((t.f.write (le32 (a / 4096))).write (le32 0)).write (le16 (a % 4096 ||| 3 <<< 12))) } D (le32 (a / 4096) ++ le32 0) l [a % 4096] := by
  obtain ⟨h1, h2, h3, h4, h5, h6, h7⟩ := h
  obtain ⟨⟨fb, fp⟩, lp, bs, tot, bp⟩ := t
  simp only at h1 h2 h3 h4
  subst h1 h2
  have hf : ((((File.mk (f0 ++ D) (f0 ++ D).length).write (le32 (a / 4096))).write (le32 0)).write (le16 (a % 4096 ||| 3 <<< 12))) =
      ⟨f0 ++ D ++ (le32 (a / 4096) ++ le32 0 ++ ents [a % 4096]), (f0 ++ D ++ (le32 (a / 4096) ++ le32 0 ++ ents [a % 4096])).length⟩ := by
    rw [write_end, write_end, write_end]
    unfold ents
    simp only [List.append_assoc, List.flatMap_cons, List.flatMap_nil, List.append_nil]
  constructor
  · simp only [hf]
  · simp only [hf]
  · rfl
  · exact h3
  · exact h4
  · exact h5
  · exact h6
  · rfl
  · intro o ho
    simp at ho
    omega
  · show a / 4096 < _
    omega
  · show _ + 2 * 1 + 10 ≤ 12 * (_ + 1)
    omega
  · simp

theorem add_same (f0 : Bytes) (t : St) (D hd : Bytes) (ld os : List Nat) (a : Nat) (h : Inv f0 t D hd ld os) (hp : a / 4096 = t.lastPage) (hr : f0.length + 12 * (ld.length + os.length + 1) < 2 ^ 32) :
    Inv f0 (add t a) D hd ld (os ++ [a % 4096]) := by
  obtain ⟨h1, h2, h3, h4, h5, h6, h7, h8, h9, h10, h11, h12⟩ := h
  obtain ⟨⟨fb, fp⟩, lp, bs, tot, bp⟩ := t
  simp only at h1 h2 h3 h4 h5 h10 hp
  subst h1 h2
  have hf : ((File.mk (f0 ++ D ++ (hd ++ ents os)) (f0 ++ D ++ (hd ++ ents os)).length).write (le16 (a % 4096 ||| 3 <<< 12))) =
      ⟨f0 ++ D ++ (hd ++ ents (os ++ [a % 4096])), (f0 ++ D ++ (hd ++ ents (os ++ [a % 4096]))).length⟩ := by
    rw [write_end]
    unfold ents
    simp only [List.append_assoc, List.flatMap_append, List.flatMap_cons, List.flatMap_nil, List.append_nil]
  unfold add
  simp only [hp, ne_eq, not_true_eq_false, if_false, hf]
  constructor
  · rfl
  · rfl
  · show (bs + 2) % 2 ^ 32 = _
    rw [List.length_append]
    show _ = 2 * (_ + 1)
    omega
  · exact h4
  · exact h5
  · exact h6
  · exact h7
  · exact h8
  · intro o ho
    rcases List.mem_append.1 ho with ho | ho
    · exact h9 o ho
    · simp at ho
      omega
  · exact h10
  · rw [List.length_append]
    show _ + 2 * (_ + 1) + 10 ≤ 12 * (_ + (_ + 1))
    omega
  · simp

/-- the addresses given so far are those of complete blocks and those of the block in the works -/
def Good (f0 : Bytes) (t : St) (l : List Nat) : Prop :=
  (t = start f0 ∧ l = []) ∨ ∃ D hd ld os, Inv f0 t D hd ld os ∧ l = ld ++ os.map (t.lastPage * 4096 + ·)

theorem add_ok (f0 : Bytes) (t : St) (l : List Nat) (a : Nat) (h : Good f0 t l) (ha : a < 2 ^ 32) (hr : f0.length + 12 * (l.length + 1) < 2 ^ 32) : Good f0 (add t a) (l ++ [a]) := by
  have ea : a / 4096 * 4096 + a % 4096 = a := by omega
  rcases h with ⟨rfl, rfl⟩ | ⟨D, hd, ld, os, hi, rfl⟩
  · have := add_fresh f0 (start f0) [] [] a ⟨by simp [start], rfl, rfl, by simp [start], rfl, rfl, by simp⟩ ha hr
    refine .inr ⟨[], le32 (a / 4096) ++ le32 0, [], [a % 4096], ?_, ?_⟩
    · have he : a / 4096 ≠ (start f0).lastPage := by
        show _ ≠ 0xFFFFFFFF
        omega
      unfold add
      simp only [he, ne_eq, not_false_eq_true, if_true]
      exact this
    · have he : a / 4096 ≠ (start f0).lastPage := by
        show _ ≠ 0xFFFFFFFF
        omega
      unfold add
      simp only [he, ne_eq, not_false_eq_true, if_true, List.map_cons, List.map_nil, ea]
  · rw [List.length_append, List.length_map] at hr
    by_cases hp : a / 4096 = t.lastPage
    · have := add_same f0 t D hd ld os a hi hp (by omega)
      refine .inr ⟨_, _, _, _, this, ?_⟩
      have hlp : (add t a).lastPage = t.lastPage := by
        unfold add
        simp only [hp, ne_eq, not_true_eq_false, if_false]
      rw [hlp, List.map_append, List.append_assoc, ← hp]
      simp only [List.map_cons, List.map_nil, ea]
    · obtain ⟨D', hd'⟩ := finish_ok f0 t D hd ld os hi (by omega)
      have := add_fresh f0 (finish t) D' _ a hd' ha (by rw [List.length_append, List.length_map]; omega)
      refine .inr ⟨D', le32 (a / 4096) ++ le32 0, ld ++ os.map (t.lastPage * 4096 + ·), [a % 4096], ?_, ?_⟩
      · unfold add
        simp only [hp, ne_eq, not_false_eq_true, if_true]
        exact this
      · unfold add
        simp only [hp, ne_eq, not_false_eq_true, if_true, List.map_cons, List.map_nil, ea]

theorem fold_ok (f0 : Bytes) (l : List Nat) : ∀ (t : St) (l0 : List Nat), Good f0 t l0 → (∀ a ∈ l, a < 2 ^ 32) → f0.length + 12 * (l0.length + l.length) < 2 ^ 32 → Good f0 (l.foldl add t) (l0 ++ l) := by
  induction l with
  | nil =>
    intro t l0 h _ _
    rw [List.append_nil]
    exact h
  | cons a l ih =>
    intro t l0 h ha hr
    rw [List.length_cons] at hr
    have := ih (add t a) (l0 ++ [a]) (add_ok f0 t l0 a h (ha a (List.mem_cons_self ..)) (by omega)) (fun x hx => ha x (List.mem_cons_of_mem _ hx)) (by rw [List.length_append]; show _ + 12 * (_ + 1 + _) < _; omega)
    rw [List.append_assoc] at this
    exact this

theorem table_ok (f0 : Bytes) (l : List Nat) (ha : ∀ a ∈ l, a < 2 ^ 32) (hr : f0.length + 12 * (l.length + 1) < 2 ^ 32) :
    ∃ T z, table f0 l = (f0 ++ T ++ List.replicate z 0, T.length, f0.length) ∧ T ≠ [] ∧ listed T = some l ∧ z < 512 ∧ (T.length + z) % 512 = 0 ∧ T.length ≤ 12 * (l.length + 1) := by
  have hg := fold_ok f0 l (start f0) [] (.inl ⟨rfl, rfl⟩) ha (by simp; omega)
  rw [List.nil_append] at hg
  have key : ∀ (t : St) (D : Bytes), Done f0 t D l → t.total = 0 ∧ l = [] ∨ D ≠ [] → ∃ T z, (let t := if t.total = 0 then { t with f := t.f.write (le32 0 ++ le32 12 ++ le32 0), total := 12, blockPos := (t.blockPos + 12) % 2 ^ 32 } else t
      ((t.f.write (List.replicate ((512 + 2 ^ 32 - t.total) % 512) 0)).bytes, t.total, Exe.sub32 t.blockPos t.total)) = (f0 ++ T ++ List.replicate z (0 : UInt8), T.length, f0.length) ∧
      T ≠ [] ∧ listed T = some l ∧ z < 512 ∧ (T.length + z) % 512 = 0 ∧ T.length ≤ 12 * (l.length + 1) := by
    intro t D hd hz
    obtain ⟨h1, h2, h3, h4, h5, h6, h7⟩ := hd
    obtain ⟨⟨fb, fp⟩, lp, bs, tot, bp⟩ := t
    simp only at h1 h2 h3 h4 hz
    subst h1 h2 h3 h4
    by_cases hD : D = []
    · subst hD
      rcases hz with ⟨-, rfl⟩ | hz
      · refine ⟨le32 0 ++ le32 12 ++ le32 0, (512 + 2 ^ 32 - 12) % 512, ?_, by decide, by decide, by decide, by decide, by decide⟩
        simp only [List.length_nil, if_true]
        rw [List.append_nil, write_end, write_end]
        refine Prod.ext rfl (Prod.ext rfl ?_)
        show Exe.sub32 _ _ = f0.length
        unfold Exe.sub32
        omega
      · exact absurd rfl hz
    · have hl : D.length ≠ 0 := fun h => hD (List.length_eq_zero_iff.1 h)
      refine ⟨D, (512 + 2 ^ 32 - D.length) % 512, ?_, hD, h6, by omega, by omega, by omega⟩
      simp only [hl, if_false]
      rw [write_end]
      refine Prod.ext rfl (Prod.ext rfl ?_)
      show Exe.sub32 _ _ = f0.length
      unfold Exe.sub32
      omega
  unfold table close
  rcases hg with ⟨hs, rfl⟩ | ⟨D, hd, ld, os, hi, hl⟩
  · rw [hs]
    refine key (finish (start f0)) [] ?_ (.inl ⟨rfl, rfl⟩)
    exact ⟨by simp [start, finish], rfl, rfl, by simp [start, finish], rfl, rfl, by simp⟩
  · have hll : l.length = ld.length + os.length := by rw [hl, List.length_append, List.length_map]
    obtain ⟨D', hd'⟩ := finish_ok f0 _ D hd ld os hi (by omega)
    rw [← hl] at hd'
    refine key _ D' hd' (.inr ?_)
    intro h
    have := hd'.done
    rw [h] at this
    have hn : l = [] := (Option.some.inj this).symm
    rw [hn] at hl
    exact hi.ne (by simpa using (List.append_eq_nil_iff.1 hl.symm).2)

end Smlr.Fixup
