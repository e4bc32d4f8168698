import Verif.Cg.Ctx
set_option autoImplicit false
/-! Runs of pieces of a program. -/
namespace Smlr.Cg
variable {W : Nat}

theorem Run.trans {G : Int → Wd W} {P : List Ins} {a b c : Nat} {s t u : St W} (h : Run G P a s b t) (h' : Run G P b t c u) :
    Run G P a s c u := by
  induction h with
  | refl => exact h'
  | step hs _ ih => exact .step hs (ih h')

/-- at least one step -/
def Run1 (G : Int → Wd W) (P : List Ins) (a : Nat) (s : St W) (c : Nat) (u : St W) : Prop := ∃ b t, stepP G P a s = some (b, t) ∧ Run G P b t c u

theorem Run1.run {G : Int → Wd W} {P : List Ins} {a c : Nat} {s u : St W} (h : Run1 G P a s c u) : Run G P a s c u := by
  obtain ⟨b, t, h1, h2⟩ := h
  exact .step h1 h2

theorem Run.trans1 {G : Int → Wd W} {P : List Ins} {a b c : Nat} {s t u : St W} (h : Run G P a s b t) (h' : Run1 G P b t c u) : Run1 G P a s c u := by
  cases h with
  | refl => exact h'
  | step hs h => exact ⟨_, _, hs, h.trans h'.run⟩

theorem getElem_mid (pre post : List Ins) (i : Ins) : (pre ++ i :: post)[pre.length]? = some i := by simp

theorem run_execs {G : Int → Wd W} {c : List Ins} {s s' : St W} (h : execs G c s = some s') (pre post : List Ins) :
    Run G (pre ++ c ++ post) pre.length s (pre.length + c.length) s' := by
  induction c generalizing s pre with
  | nil => cases h; exact .refl _ _
  | cons i r ih =>
    simp only [execs] at h
    cases hi : exec G s i with
    | none => rw [hi] at h; cases h
    | some t =>
      rw [hi, Option.bind_some] at h
      have h1 := ih h (pre ++ [i])
      simp only [List.append_assoc, List.cons_append, List.nil_append, List.length_append, List.length_cons,
        List.length_nil] at h1
      refine .step (pc₁ := pre.length + 1) (s₁ := t) ?_ ?_
      · have hg : (pre ++ i :: r ++ post)[pre.length]? = some i := by
          rw [List.append_assoc]; exact getElem_mid pre (r ++ post) i
        simp only [stepP, hg]
        cases i <;> first | (simp only [hi, Option.map_some]; done) | exact absurd hi (by simp [exec])
      · simp only [List.append_assoc, List.cons_append, List.length_cons]
        rw [show pre.length + (r.length + 1) = pre.length + (0 + 1) + r.length by omega]
        exact h1

theorem target_eq {P pre post : List Ins} {l : Int} (h : P = pre ++ .lab l :: post) (hn : (labs P).Nodup) :
    target P l = some pre.length := by
  subst h
  have hm : Ins.lab l ∈ pre ++ Ins.lab l :: post := by simp
  rw [target, if_pos hm]
  have hnot : Ins.lab l ∉ pre := by
    intro hp
    simp only [labs, List.filterMap_append, List.filterMap_cons] at hn
    rw [List.nodup_append] at hn
    exact hn.2.2 l (List.mem_filterMap.mpr ⟨_, hp, rfl⟩) l (by simp) rfl
  rw [List.idxOf_append_of_notMem hnot]
  simp

theorem run_jmp1 {G : Int → Wd W} {P pre post pre' post' : List Ins} {l : Int} (s : St W) (h : P = pre ++ .jmp l :: post)
    (h' : P = pre' ++ .lab l :: post') (hn : (labs P).Nodup) : Run1 G P pre.length s (pre'.length + 1) s := by
  have hg : P[pre.length]? = some (.jmp l) := by rw [h]; exact getElem_mid _ _ _
  have hl : P[pre'.length]? = some (.lab l) := by rw [h']; exact getElem_mid _ _ _
  refine ⟨pre'.length, s, (by simp only [stepP, hg, target_eq h' hn, Option.map_some]), ?_⟩
  refine .step (pc₁ := pre'.length + 1) (s₁ := s) (by simp only [stepP, hl, exec, Option.map_some]) (.refl _ _)

theorem run_jmp {G : Int → Wd W} {P pre post pre' post' : List Ins} {l : Int} (s : St W) (h : P = pre ++ .jmp l :: post)
    (h' : P = pre' ++ .lab l :: post') (hn : (labs P).Nodup) : Run G P pre.length s (pre'.length + 1) s := (run_jmp1 s h h' hn).run

theorem run_jcc1 {G : Int → Wd W} {P pre post pre' post' : List Ins} {l : Int} {c : Cc} {s : St W} {f : Flags} (h : P = pre ++ .jcc c l :: post)
    (hf : s.flags = some f) (hc : f.holds c = true)
    (h' : P = pre' ++ .lab l :: post') (hn : (labs P).Nodup) : Run1 G P pre.length s (pre'.length + 1) s := by
  have hg : P[pre.length]? = some (.jcc c l) := by rw [h]; exact getElem_mid _ _ _
  have hl : P[pre'.length]? = some (.lab l) := by rw [h']; exact getElem_mid _ _ _
  refine ⟨pre'.length, s, (by simp only [stepP, hg, hf, Option.bind_some, hc, if_true, target_eq h' hn, Option.map_some]), ?_⟩
  refine .step (pc₁ := pre'.length + 1) (s₁ := s) (by simp only [stepP, hl, exec, Option.map_some]) (.refl _ _)

theorem run_jcc {G : Int → Wd W} {P pre post pre' post' : List Ins} {l : Int} {c : Cc} {s : St W} {f : Flags} (h : P = pre ++ .jcc c l :: post)
    (hf : s.flags = some f) (hc : f.holds c = true)
    (h' : P = pre' ++ .lab l :: post') (hn : (labs P).Nodup) : Run G P pre.length s (pre'.length + 1) s := (run_jcc1 h hf hc h' hn).run

theorem run_no_jcc1 {G : Int → Wd W} {P pre post : List Ins} {l : Int} {c : Cc} {s : St W} {f : Flags} (h : P = pre ++ .jcc c l :: post)
    (hf : s.flags = some f) (hc : f.holds c = false) : Run1 G P pre.length s (pre.length + 1) s := by
  have hg : P[pre.length]? = some (.jcc c l) := by rw [h]; exact getElem_mid _ _ _
  exact ⟨pre.length + 1, s, (by simp only [stepP, hg, hf, Option.bind_some, hc, Bool.false_eq_true, if_false]), .refl _ _⟩

theorem run_no_jcc {G : Int → Wd W} {P pre post : List Ins} {l : Int} {c : Cc} {s : St W} {f : Flags} (h : P = pre ++ .jcc c l :: post)
    (hf : s.flags = some f) (hc : f.holds c = false) : Run G P pre.length s (pre.length + 1) s := (run_no_jcc1 h hf hc).run

/-! ### the stack -/

/-- only objects and the words under the stack pointer have changed -/
def Frame (A : Wd W → Prop) (sp : Wd W) (d : Nat) (M M' : Mem W) : Prop := ∀ a, ¬ A a → ¬ Zone sp d a → M' a = M a

theorem Zone.mono {sp : Wd W} {d d' : Nat} (h : d ≤ d') {a : Wd W} (hz : Zone sp d a) : Zone sp d' a := by
  obtain ⟨k, h1, h2, h3⟩ := hz
  exact ⟨k, h1, Nat.le_trans h2 (Nat.mul_le_mul_right W h), h3⟩

theorem StkOk.mono {A : Wd W → Prop} {sp : Wd W} {d d' : Nat} (h : d ≤ d') (hs : StkOk A sp d') : StkOk A sp d :=
  ⟨fun a hz => hs.free a (hz.mono h), Nat.lt_of_le_of_lt (Nat.mul_le_mul_right W h) hs.small⟩

theorem Frame.mono {A : Wd W → Prop} {sp : Wd W} {d d' : Nat} (h : d ≤ d') {M M' : Mem W} (hf : Frame A sp d M M') : Frame A sp d' M M' :=
  fun a h1 h2 => hf a h1 fun hz => h2 (hz.mono h)

theorem Frame.refl (A : Wd W → Prop) (sp : Wd W) (d : Nat) (M : Mem W) : Frame A sp d M M := fun _ _ _ => rfl

theorem Frame.trans {A : Wd W → Prop} {sp : Wd W} {d : Nat} {M N K : Mem W} (h : Frame A sp d M N) (h' : Frame A sp d N K) : Frame A sp d M K :=
  fun a h1 h2 => (h' a h1 h2).trans (h a h1 h2)

theorem zone_push {sp : Wd W} {d d' : Nat} (h : d + 1 ≤ d') {a : Wd W} (hz : Zone (sp - BitVec.ofNat _ W) d a) : Zone sp d' a := by
  obtain ⟨k, h1, h2, h3⟩ := hz
  refine ⟨W + k, by omega, ?_, ?_⟩
  · have : (d + 1) * W ≤ d' * W := Nat.mul_le_mul_right W h
    rw [Nat.add_mul] at this
    omega
  · rw [h3, BitVec.ofNat_add]
    rw [BitVec.sub_eq_add_neg, BitVec.sub_eq_add_neg, BitVec.sub_eq_add_neg, BitVec.neg_add, BitVec.sub_eq_add_neg, BitVec.add_assoc]

theorem StkOk.push {A : Wd W → Prop} {sp : Wd W} {d d' : Nat} (h : d + 1 ≤ d') (hs : StkOk A sp d') : StkOk A (sp - BitVec.ofNat _ W) d :=
  ⟨fun a hz => hs.free a (zone_push h hz), Nat.lt_of_le_of_lt (Nat.mul_le_mul_right W (by omega)) hs.small⟩

theorem Frame.push {A : Wd W → Prop} {sp : Wd W} {d d' : Nat} (h : d + 1 ≤ d') {M M' : Mem W}
    (hf : Frame A (sp - BitVec.ofNat _ W) d M M') : Frame A sp d' M M' :=
  fun a h1 h2 => hf a h1 fun hz => h2 (zone_push h hz)

theorem sub_inj {n : Nat} {a : BitVec n} {i j : Nat} (hi : i < 2 ^ n) (hj : j < 2 ^ n) (h : a - BitVec.ofNat n i = a - BitVec.ofNat n j) : i = j := by
  have h1 : BitVec.ofNat n i = BitVec.ofNat n j := by
    rw [BitVec.sub_eq_add_neg, BitVec.sub_eq_add_neg, BitVec.add_right_inj, BitVec.neg_inj] at h
    exact h
  have h2 := congrArg BitVec.toNat h1
  rw [BitVec.toNat_ofNat, BitVec.toNat_ofNat, Nat.mod_eq_of_lt hi, Nat.mod_eq_of_lt hj] at h2
  exact h2

theorem slot_addr (sp : Wd W) {i : Nat} (hi : i ≤ W) : sp - BitVec.ofNat (8 * W) W + BitVec.ofNat _ i = sp - BitVec.ofNat _ (W - i) := by
  have : BitVec.ofNat (8 * W) W = BitVec.ofNat _ (W - i) + BitVec.ofNat _ i := by
    rw [← BitVec.ofNat_add]; congr 1; omega
  rw [this, BitVec.sub_eq_add_neg, BitVec.neg_add, BitVec.sub_eq_add_neg, BitVec.sub_eq_add_neg, BitVec.add_assoc, BitVec.add_assoc,
    BitVec.add_comm (-_) (BitVec.ofNat _ i), BitVec.add_right_neg]
  simp

/-- the word on the top of the stack is not touched -/
theorem slot_kept {A : Wd W → Prop} {sp : Wd W} {d d' : Nat} (h : d + 1 ≤ d') (hs : StkOk A sp d') {M M' : Mem W}
    (hf : Frame A (sp - BitVec.ofNat _ W) d M M') :
    ld M' (sp - BitVec.ofNat _ W) W = ld M (sp - BitVec.ofNat _ W) W := by
  apply ld_congr
  intro i hi
  rw [slot_addr sp (by omega)]
  have hdW : (d + 1) * W ≤ d' * W := Nat.mul_le_mul_right W h
  have hsm := hs.small
  have e : (d + 1) * W = d * W + W := by rw [Nat.add_mul, Nat.one_mul]
  apply hf
  · exact hs.free _ ⟨W - i, by omega, by omega, rfl⟩
  · rintro ⟨k, h1, h2, h3⟩
    have : sp - BitVec.ofNat (8 * W) (W - i) = sp - BitVec.ofNat (8 * W) (W + k) := by
      rw [h3, BitVec.ofNat_add]
      rw [BitVec.sub_eq_add_neg, BitVec.sub_eq_add_neg, BitVec.sub_eq_add_neg, BitVec.neg_add, BitVec.sub_eq_add_neg, BitVec.add_assoc]
    have := sub_inj (by omega) (by omega) this
    omega

theorem push_frame {A : Wd W → Prop} {sp : Wd W} {d : Nat} (h : 1 ≤ d) (M : Mem W) (v : Nat) :
    Frame A sp d M (st M (sp - BitVec.ofNat _ W) W v) := by
  intro a _ hz
  apply st_other
  intro i hi ha
  apply hz
  rw [slot_addr sp (by omega)] at ha
  have : 1 * W ≤ d * W := Nat.mul_le_mul_right W h
  exact ⟨W - i, by omega, by omega, ha⟩

theorem push_agree {A : Wd W → Prop} {sp : Wd W} {d : Nat} (h : 1 ≤ d) (hs : StkOk A sp d) {M m : Mem W} (v : Nat) (hm : Agree A M m) :
    Agree A (st M (sp - BitVec.ofNat _ W) W v) m := by
  intro a ha
  rw [← hm a ha]
  apply st_other
  intro i hi hx
  rw [slot_addr sp (by omega)] at hx
  have : 1 * W ≤ d * W := Nat.mul_le_mul_right W h
  exact hs.free a ⟨W - i, by omega, by omega, hx⟩ ha

end Smlr.Cg
