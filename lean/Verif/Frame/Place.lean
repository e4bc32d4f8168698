import Verif.Frame.Alloc
set_option autoImplicit false
namespace Smlr.Frame

theorem up_ge {W : Nat} (hW : W = 2 ∨ W = 4) (n : Nat) : n ≤ up W n := by
  unfold up
  rcases hW with rfl | rfl <;> omega

/-- where the variables are -/
structure Within (W : Nat) (h g : Nat) (p : Placed) : Prop where
  slots : ∀ l ∈ p.slots, - (g : Int) ≤ l.ofs ∧ l.ofs + l.size ≤ - (h : Int) ∧ l.ofs % W = 0
  sound : ∀ live : List Slot, (∀ l ∈ live, - (h : Int) ≤ l.ofs) → p.sound live

theorem place_iff {W : Nat} (hW : W = 2 ∨ W = 4) {flat : Bool} (ds : Decls) : ∀ {s : Ofs} {h k : Nat}, At W flat s.cur h → At W flat s.min k → h ≤ k → ds.full = true →
    if h + ds.height W ≤ lim W flat then
      ∃ p s1, place W flat ds s = some (p, s1) ∧ p.decls = ds ∧ At W flat s1.min (max k (h + ds.height W)) ∧ Within W h (h + ds.height W) p
    else place W flat ds s = none := by
  induction ds with
  | nil =>
    intro s h k hc hm hk _
    rw [if_pos (show h + Decls.height W .nil ≤ _ from hc.le)]
    refine ⟨.nil, s, rfl, rfl, ?_, ⟨fun _ h => (nomatch h), fun _ _ => trivial⟩⟩
    show At W flat s.min (max k (h + 0))
    rw [Nat.max_eq_left (by omega)]
    exact hm
  | var n rest ih =>
    intro s h k hc hm hk hf
    have hf : (decide (n.toNat ≠ 0) && rest.full) = true := hf
    rw [Bool.and_eq_true, decide_eq_true_eq] at hf
    have ha := allocLocal_iff hW hc hm hf.1
    show if h + (up W n.toNat + rest.height W) ≤ lim W flat then _ else _
    by_cases hfit : h + up W n.toNat ≤ lim W flat
    · rw [if_pos hfit] at ha
      obtain ⟨s1, e1, a1, a2⟩ := ha
      have hr := ih a1 a2 (Nat.le_max_right _ _) hf.2
      rw [← Nat.add_assoc]
      by_cases hg : h + up W n.toNat + rest.height W ≤ lim W flat
      · rw [if_pos hg] at hr ⊢
        obtain ⟨p, s2, e2, d2, a3, w⟩ := hr
        have hup := up_ge hW n.toNat
        refine ⟨.var s1.cur n p, s2, ?_, ?_, ?_, ?_, ?_⟩
        · show (allocLocal W flat n s).bind _ = _
          rw [e1, Option.bind_some, e2]
          rfl
        · show Decls.var n p.decls = _
          rw [d2]
        · show At W flat s2.min (max k (h + (up W n.toNat + rest.height W)))
          rw [show max k (h + (up W n.toNat + rest.height W)) = max (max k (h + up W n.toNat)) (h + up W n.toNat + rest.height W) by omega]
          exact a3
        · intro l hl
          show - ((h + (up W n.toNat + rest.height W) : Nat) : Int) ≤ _ ∧ _
          have hl : l ∈ slot s1.cur n :: p.slots := hl
          rcases List.mem_cons.mp hl with rfl | hl
          · have := a1.val
            have := a1.dvd
            show _ ≤ s1.cur.toInt ∧ s1.cur.toInt + (n.toNat : Int) ≤ _ ∧ s1.cur.toInt % W = 0
            refine ⟨by omega, by omega, ?_⟩
            rcases hW with rfl | rfl <;> omega
          · have := w.slots l hl
            exact ⟨by omega, by omega, this.2.2⟩
        · intro live hlive
          refine ⟨?_, w.sound _ ?_⟩
          · intro l hl x hx
            have := hlive l hl
            have := a1.val
            have hx : _ ∧ _ ∧ s1.cur.toInt ≤ x ∧ x < s1.cur.toInt + (n.toNat : Int) := hx
            omega
          · intro l hl
            rcases List.mem_cons.mp hl with rfl | hl
            · show _ ≤ s1.cur.toInt
              rw [a1.val]
              omega
            · have := hlive l hl
              omega
      · rw [if_neg hg] at hr ⊢
        show (allocLocal W flat n s).bind _ = _
        rw [e1, Option.bind_some, hr]
        rfl
    · rw [if_neg hfit] at ha
      rw [if_neg (by omega)]
      show (allocLocal W flat n s).bind _ = _
      rw [ha]
      rfl
  | scope inside rest ih1 ih2 =>
    intro s h k hc hm hk hf
    have hf : (inside.full && rest.full) = true := hf
    rw [Bool.and_eq_true] at hf
    have ha := ih1 hc hm hk hf.1
    show if h + max (inside.height W) (rest.height W) ≤ lim W flat then _ else _
    by_cases hfit : h + inside.height W ≤ lim W flat
    · rw [if_pos hfit] at ha
      obtain ⟨q, s1, e1, d1, a1, w1⟩ := ha
      have hr := ih2 (s := ⟨s.cur, s1.min⟩) hc a1 (by omega) hf.2
      by_cases hg : h + rest.height W ≤ lim W flat
      · rw [if_pos hg] at hr
        rw [if_pos (by omega)]
        obtain ⟨p, s2, e2, d2, a3, w⟩ := hr
        refine ⟨.scope q p, s2, ?_, ?_, ?_, ?_, ?_⟩
        · show (place W flat inside s).bind _ = _
          rw [e1, Option.bind_some]
          show Option.map _ (place W flat rest ⟨s.cur, s1.min⟩) = _
          rw [e2]
          rfl
        · show Decls.scope q.decls p.decls = _
          rw [d1, d2]
        · show At W flat s2.min (max k (h + max (inside.height W) (rest.height W)))
          rw [show max k (h + max (inside.height W) (rest.height W)) = max (max k (h + inside.height W)) (h + rest.height W) by omega]
          exact a3
        · intro l hl
          show - ((h + max (inside.height W) (rest.height W) : Nat) : Int) ≤ _ ∧ _
          have hl : l ∈ q.slots ++ p.slots := hl
          rcases List.mem_append.mp hl with hl | hl
          · have := w1.slots l hl
            exact ⟨by omega, by omega, this.2.2⟩
          · have := w.slots l hl
            exact ⟨by omega, by omega, this.2.2⟩
        · intro live hlive
          exact ⟨w1.sound live hlive, w.sound live hlive⟩
      · rw [if_neg hg] at hr
        rw [if_neg (by omega)]
        show (place W flat inside s).bind _ = _
        rw [e1, Option.bind_some]
        show Option.map _ (place W flat rest ⟨s.cur, s1.min⟩) = _
        rw [hr]
        rfl
    · rw [if_neg hfit] at ha
      rw [if_neg (by omega)]
      show (place W flat inside s).bind _ = _
      rw [ha]
      rfl

theorem locals_iff {W : Nat} (hW : W = 2 ∨ W = 4) {flat : Bool} (ds : Decls) (hf : ds.full = true) :
    if ds.height W ≤ lim W flat then ∃ p n, locals W flat ds = some (p, n) ∧ p.decls = ds ∧ n.toNat = ds.height W ∧ Within W 0 (ds.height W) p
    else locals W flat ds = none := by
  have hz : At W flat 0#32 0 := ⟨rfl, Nat.zero_le _, Nat.zero_mod _⟩
  have h := place_iff hW ds (s := ⟨0#32, 0#32⟩) hz hz (Nat.le_refl _) hf
  rw [Nat.zero_add] at h
  unfold locals
  split at h
  · rename_i hfit
    rw [if_pos hfit]
    obtain ⟨p, s1, e, d, a, w⟩ := h
    rw [e]
    refine ⟨p, _, rfl, d, ?_, w⟩
    rw [Nat.max_eq_right (Nat.zero_le _)] at a
    have := a.val
    have hl := lim_le W flat
    have hlt := s1.min.isLt
    rw [BitVec.toInt_eq_toNat_cond] at this
    rw [BitVec.toNat_neg]
    split at this <;> omega
  · rename_i hfit
    rw [if_neg hfit, h]
    rfl

/-! ### Parameters -/

theorem paramLoop_iff {W : Nat} (hW : W = 2 ∨ W = 4) {flat : Bool} (szs : List I32) : ∀ (o : I32), (∀ z ∈ szs, z.toNat ≠ 0) → o.toNat ≤ lim W flat →
    if o.toNat + ((szs.map BitVec.toNat).map (up W)).sum ≤ lim W flat then
      ∃ os, paramLoop W flat o szs = some os ∧ os.length = szs.length ∧ ∀ i (hi : i < os.length), os[i].toNat = o.toNat + (((szs.map BitVec.toNat).take i).map (up W)).sum
    else paramLoop W flat o szs = none := by
  induction szs with
  | nil =>
    intro o _ h
    rw [if_pos (by simpa using h)]
    exact ⟨[], rfl, rfl, fun i hi => (nomatch hi)⟩
  | cons z zs ih =>
    intro o hz ho
    have hl := lim_le W flat
    have hz0 := hz z (by simp)
    have hzlt := z.isLt
    have hadd : (z + BitVec.ofNat 32 W - 1#32).toNat = (z.toNat + (W - 1)) % 2 ^ 32 := by
      rw [BitVec.toNat_sub, BitVec.toNat_add, BitVec.toNat_ofNat, BitVec.toNat_ofNat]
      rcases hW with rfl | rfl <;> omega
    rw [List.map_cons, List.map_cons, List.sum_cons]
    have hun : paramLoop W flat o (z :: zs) = if (z + BitVec.ofNat 32 W - 1#32).toNat < z.toNat then none
        else let r := (z + BitVec.ofNat 32 W - 1#32) &&& ~~~(BitVec.ofNat 32 W - 1#32)
          if (o + r).toNat < o.toNat then none
          else if (o + r).toNat > (maxLocals W flat).toNat then none
          else (paramLoop W flat (o + r) zs).map (o :: ·) := by
      show (if z = 0#32 then none else _) = _
      rw [if_neg (fun he => hz0 (by rw [he]; rfl))]
    rw [hun, hadd]
    clear hun
    by_cases h1 : (z.toNat + (W - 1)) % 2 ^ 32 < z.toNat
    · rw [if_pos h1, if_neg (by
        have := up_ge hW z.toNat
        rcases hW with rfl | rfl <;> omega)]
    · rw [if_neg h1]
      have hr : ((z + BitVec.ofNat 32 W - 1#32) &&& ~~~(BitVec.ofNat 32 W - 1#32)).toNat = up W z.toNat := by
        rw [mask hW, hadd]
        unfold up
        rcases hW with rfl | rfl <;> omega
      generalize (z + BitVec.ofNat 32 W - 1#32) &&& ~~~(BitVec.ofNat 32 W - 1#32) = r at hr
      dsimp only
      rw [BitVec.toNat_add, hr, maxLocals_toNat]
      have hup := up_ge hW z.toNat
      have hrlt := r.isLt
      by_cases h2 : (o.toNat + up W z.toNat) % 2 ^ 32 < o.toNat
      · rw [if_pos h2, if_neg (by omega)]
      · rw [if_neg h2]
        have hno : (o.toNat + up W z.toNat) % 2 ^ 32 = o.toNat + up W z.toNat := by omega
        rw [hno]
        by_cases h3 : o.toNat + up W z.toNat > lim W flat
        · rw [if_pos h3, if_neg (by omega)]
        · rw [if_neg h3]
          have hor : (o + r).toNat = o.toNat + up W z.toNat := by rw [BitVec.toNat_add, hr, hno]
          have := ih (o + r) (fun y hy => hz y (List.mem_cons_of_mem _ hy)) (by omega)
          rw [hor, Nat.add_assoc] at this
          split at this
          · rename_i hfit
            rw [if_pos hfit]
            obtain ⟨os, e, hlen, hof⟩ := this
            rw [e]
            refine ⟨o :: os, rfl, by simp [hlen], ?_⟩
            intro i hi
            cases i with
            | zero => simp
            | succ i =>
              have := hof i (by simpa using hi)
              simp only [List.getElem_cons_succ, List.take_succ_cons, List.map_cons, List.sum_cons]
              omega
          · rename_i hfit
            rw [if_neg hfit, this]
            rfl

end Smlr.Frame
