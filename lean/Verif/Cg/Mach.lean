import Verif.Cg.Word
set_option autoImplicit false
/-! Runs of instructions without jumps: reading, extending and storing. -/
namespace Smlr.Cg
variable {W : Nat}

def execs (G : Int → Wd W) : List Ins → St W → Option (St W)
  | [], s => some s
  | i :: r, s => (exec G s i).bind (execs G r)

theorem execs_append (G : Int → Wd W) (a b : List Ins) (s : St W) : execs G (a ++ b) s = (execs G a s).bind (execs G b) := by
  induction a generalizing s with
  | nil => rfl
  | cons i r ih =>
    simp only [List.cons_append, execs]
    cases h : exec G s i with
    | none => rfl
    | some t => simp only [Option.bind_some, ih]

theorem execs_app {G : Int → Wd W} {a b : List Ins} {s t u : St W} (h : execs G a s = some t) (h' : execs G b t = some u) :
    execs G (a ++ b) s = some u := by
  rw [execs_append, h]; exact h'

theorem execs_one (G : Int → Wd W) (i : Ins) (s : St W) : execs G [i] s = exec G s i := by
  simp only [execs]
  cases exec G s i <;> rfl

theorem pow_eq (n : Nat) : 256 ^ n = 2 ^ (8 * n) := by rw [Nat.pow_mul]

theorem pow_dvd {k : Nat} (h : k ≤ W) : 256 ^ k ∣ 2 ^ (8 * W) := by
  rw [← pow_eq]; exact Nat.pow_dvd_pow _ h

theorem ofNat_mod_toNat (x : Wd W) : BitVec.ofNat (8 * W) x.toNat = x := by simp

theorem ext_congr {sz : Int} {r q : Nat} (h : r % 256 ^ sz.natAbs = q % 256 ^ sz.natAbs) : conv sz r = conv sz q := by
  simp only [conv]
  have h' : ((r : Int) % (256 ^ sz.natAbs : Nat)) = ((q : Int) % (256 ^ sz.natAbs : Nat)) := by
    rw [← Int.natCast_emod, ← Int.natCast_emod, h]
  split
  · simpa using h'
  · exact bmod_congr h'

theorem ext_ok (hW : W = 2 ∨ W = 4) {sz : Int} (hz : okSz W sz) (G : Int → Wd W) (s : St W) (r : Nat)
    (h : s.ax.toNat % 256 ^ sz.natAbs = r % 256 ^ sz.natAbs) :
    execs G (extendA W sz) s = some { s with ax := wd W (conv sz r) } := by
  rw [← ext_congr h]
  have full : wd W (conv (W : Int) s.ax.toNat) = s.ax := by
    have : (0:Int) < W := by omega
    simp only [conv, if_pos this]
    have e : (256 : Int) ^ (W : Int).natAbs = 2 ^ (8 * W) := by
      rw [Int.natAbs_natCast, Int.pow_mul]
      rfl
    rw [e, wd_emod, wd_toNat]
  rcases hz with rfl | rfl | rfl | ⟨h4, rfl | rfl⟩
  · have : extendA W W = [] := by
      rcases hW with rfl | rfl <;> rfl
    rw [this, full]; rfl
  · rcases hW with rfl | rfl
    · simp [extendA, p2, execs, exec, exec2, size2, Opd.size, read, write, conv]
      have h1 := s.ax.isLt
      apply BitVec.eq_of_toNat_eq
      simp [BitVec.toNat_ofInt, wd]
      omega
    · simp [extendA, p2, execs, exec, exec2, Opd.size, read, write, conv]
      apply BitVec.eq_of_toNat_eq
      simp [BitVec.toNat_ofInt, wd]
      omega
  · rcases hW with rfl | rfl
    · simp [extendA, execs, exec, exec0, sext_eq, conv]
    · simp [extendA, p2, execs, exec, exec2, Opd.size, read, write, conv, sext_eq]
      exact congrArg _ (bmod_congr (by omega))
  · subst h4
    simp [extendA, p2, execs, exec, exec2, Opd.size, read, write, conv]
    apply BitVec.eq_of_toNat_eq
    simp [BitVec.toNat_ofInt, wd]
    omega
  · subst h4
    simp [extendA, p2, execs, exec, exec2, Opd.size, read, write, conv, sext_eq]
    exact congrArg _ (bmod_congr (by omega))

/-- the machine value of an object -/
theorem readA_ok (hW : W = 2 ∨ W = 4) {sz : Int} (hz : okSz W sz) (G : Int → Wd W) (s : St W) (a : Adr) :
    execs G (readA W sz a) s = some { s with ax := wd W (val s.mem (ea G s a) sz) } := by
  have key : ∃ x : Wd W, execs G (p2 W .mov (selA W sz) (.mem a none)) s = some { s with ax := x } ∧
      x.toNat % 256 ^ sz.natAbs = ld s.mem (ea G s a) sz.natAbs % 256 ^ sz.natAbs := by
    rcases hz with rfl | rfl | rfl | ⟨h4, rfl | rfl⟩
    · refine ⟨_, by simp [selA, p2, execs, exec, exec2, Opd.size, size2, read, write]; rfl, ?_⟩
      simp only [Int.natAbs_natCast, BitVec.toNat_ofNat, pow_eq]
      simp
    · have h1 : selA W 1 = .al := by rcases hW with rfl | rfl <;> rfl
      refine ⟨_, by rw [h1]; simp [p2, execs, exec, exec2, Opd.size, size2, read, write]; rfl, ?_⟩
      have := ld_lt s.mem (ea G s a) 1
      rcases hW with rfl | rfl
      · have := s.ax.isLt
        simp
      · have := s.ax.isLt
        simp
    · have h1 : selA W (-1) = .al := by rcases hW with rfl | rfl <;> rfl
      refine ⟨_, by rw [h1]; simp [p2, execs, exec, exec2, Opd.size, size2, read, write]; rfl, ?_⟩
      have := ld_lt s.mem (ea G s a) 1
      rcases hW with rfl | rfl
      · have := s.ax.isLt
        simp
      · have := s.ax.isLt
        simp
    · subst h4
      refine ⟨_, by simp [selA, p2, execs, exec, exec2, Opd.size, size2, read, write]; rfl, ?_⟩
      have := ld_lt s.mem (ea G s a) 2
      have := s.ax.isLt
      simp
    · subst h4
      refine ⟨_, by simp [selA, p2, execs, exec, exec2, Opd.size, size2, read, write]; rfl, ?_⟩
      have := ld_lt s.mem (ea G s a) 2
      have := s.ax.isLt
      simp
  obtain ⟨x, h1, h2⟩ := key
  rw [readA, execs_append, h1, Option.bind_some, ext_ok hW hz G _ _ h2]
  rfl

theorem readC_ok (hW : W = 2 ∨ W = 4) {sz : Int} (hz : okSz W sz) (G : Int → Wd W) (s : St W) (a : Adr) :
    execs G (readC W sz a) s = some { s with cx := wd W (val s.mem (ea G s a) sz) } := by
  have l1 := ld_lt s.mem (ea G s a) 1
  have l2 := ld_lt s.mem (ea G s a) 2
  rcases hz with rfl | rfl | rfl | ⟨h4, rfl | rfl⟩
  · have h1 : readC W W a = [.i2 .mov .cx (.mem a none)] := by rcases hW with rfl | rfl <;> rfl
    rw [h1]
    simp [execs, exec, exec2, Opd.size, size2, read, write, val, conv]
    have : 0 < W := by omega
    rw [if_pos this]
    have e : (256 : Int) ^ W = 2 ^ (8 * W) := by
      rw [Int.pow_mul]; rfl
    rw [e, wd_emod, wd_nat]
  · rcases hW with rfl | rfl
    · simp [readC, p2, execs, exec, exec2, Opd.size, read, write, val, conv]
      apply BitVec.eq_of_toNat_eq
      simp [BitVec.toNat_ofInt, wd]
      omega
    · simp [readC, p2, execs, exec, exec2, Opd.size, read, write, val, conv]
      apply BitVec.eq_of_toNat_eq
      simp [BitVec.toNat_ofInt, wd]
      omega
  · rcases hW with rfl | rfl
    · simp [readC, p2, execs, exec, exec2, Opd.size, read, write, val, conv, sext_eq]
      exact congrArg _ (bmod_congr (by omega))
    · simp [readC, p2, execs, exec, exec2, Opd.size, read, write, val, conv, sext_eq]
      exact congrArg _ (bmod_congr (by omega))
  · subst h4
    simp [readC, p2, execs, exec, exec2, Opd.size, read, write, val, conv]
    apply BitVec.eq_of_toNat_eq
    simp [BitVec.toNat_ofInt, wd]
    omega
  · subst h4
    simp [readC, p2, execs, exec, exec2, Opd.size, read, write, val, conv, sext_eq]
    exact congrArg _ (bmod_congr (by omega))

/-- storing ax into an object, and the value of the assignment -/
theorem store_ok (hW : W = 2 ∨ W = 4) {sz : Int} (hz : okSz W sz) (G : Int → Wd W) (s : St W) (a : Adr) :
    execs G (p2 W .mov (.mem a none) (selA W sz) ++ extendA W sz) s =
      some { s with mem := upd s.mem (ea G s a) sz s.ax, ax := wd W (conv sz s.ax.toNat) } := by
  have key : execs G (p2 W .mov (.mem a none) (selA W sz)) s = some { s with mem := upd s.mem (ea G s a) sz s.ax } := by
    rcases hz with rfl | rfl | rfl | ⟨h4, rfl | rfl⟩
    · simp [selA, p2, execs, exec, exec2, Opd.size, size2, read, write, upd]
    · have h1 : selA W 1 = .al := by rcases hW with rfl | rfl <;> rfl
      rw [h1]
      simp [p2, execs, exec, exec2, Opd.size, size2, read, write, upd]
      exact st_mod _ _ _ _ _ (by rcases hW with rfl | rfl <;> simp <;> omega)
    · have h1 : selA W (-1) = .al := by rcases hW with rfl | rfl <;> rfl
      rw [h1]
      simp [p2, execs, exec, exec2, Opd.size, size2, read, write, upd]
      exact st_mod _ _ _ _ _ (by rcases hW with rfl | rfl <;> simp <;> omega)
    · subst h4
      simp [selA, p2, execs, exec, exec2, Opd.size, size2, read, write, upd]
      exact st_mod _ _ _ _ _ (by simp)
    · subst h4
      simp [selA, p2, execs, exec, exec2, Opd.size, size2, read, write, upd]
      exact st_mod _ _ _ _ _ (by simp)
  rw [execs_append, key, Option.bind_some, ext_ok hW hz G _ _ rfl]

theorem natAbs_le (hW : W = 2 ∨ W = 4) {sz : Int} (hz : okSz W sz) : sz.natAbs ≤ W := by
  rcases hz with rfl | rfl | rfl | ⟨h4, rfl | rfl⟩ <;> simp <;> omega

theorem wd_mod (v : Int) {n : Nat} (hn : n ≤ W) : (((wd W v).toNat % 256 ^ n : Nat) : Int) = v % (256 ^ n : Nat) := by
  rw [BitVec.toNat_ofInt]
  have h1 : (0:Int) < (2 ^ (8 * W) : Nat) := by exact_mod_cast Nat.two_pow_pos _
  have h2 := Int.emod_nonneg v (Int.ne_of_gt h1)
  rw [Int.natCast_emod, Int.toNat_of_nonneg h2]
  exact Int.emod_emod_of_dvd _ (by exact_mod_cast pow_dvd hn)

theorem conv_wd {sz : Int} (h : sz.natAbs ≤ W) (v : Int) : conv sz ((wd W v).toNat : Int) = conv sz v := by
  have := wd_mod v h
  rw [Int.natCast_emod] at this
  simp only [conv]
  split
  · simpa using this
  · exact bmod_congr this

theorem conv_mod (sz : Int) (x : Int) : conv sz x % (256 ^ sz.natAbs : Nat) = x % (256 ^ sz.natAbs : Nat) := by
  simp only [conv]
  split
  · have : ((256 ^ sz.natAbs : Nat) : Int) = 256 ^ sz.natAbs := by simp
    rw [this, Int.emod_emod]
  · rw [Int.bmod_emod]

theorem st_wd (m : Mem W) (a : Wd W) {n : Nat} (hn : n ≤ W) {u v : Int} (h : u % (256 ^ n : Nat) = v % (256 ^ n : Nat)) :
    st m a n (wd W u).toNat = st m a n (wd W v).toNat := by
  apply st_mod
  have h1 := wd_mod u hn
  have h2 := wd_mod v hn
  omega

theorem upd_congr (m : Mem W) (a : Wd W) {sz : Int} (hn : sz.natAbs ≤ W) {u v : Int}
    (h : u % (256 ^ sz.natAbs : Nat) = v % (256 ^ sz.natAbs : Nat)) : upd m a sz (wd W u) = upd m a sz (wd W v) :=
  st_wd m a hn h

theorem upd_val_add (m : Mem W) (a : Wd W) {sz : Int} (hn : sz.natAbs ≤ W) (k : Int) :
    upd m a sz (wd W (val m a sz + k)) = upd m a sz (wd W (ld m a sz.natAbs + k)) := by
  apply upd_congr m a hn
  rw [val, Int.add_emod, conv_mod, ← Int.add_emod]

theorem lt_two_pow' (hW : W = 2 ∨ W = 4) : W ≤ 2 ^ (8 * W) := by
  rcases hW with rfl | rfl <;> decide

theorem val_upd (hW : W = 2 ∨ W = 4) (m : Mem W) (a : Wd W) {sz : Int} (hz : okSz W sz) (v : Int) :
    val (upd m a sz (wd W v)) a sz = conv sz v := by
  have h := natAbs_le hW hz
  rw [val, upd, ld_st _ _ _ _ (Nat.le_trans h (lt_two_pow' hW)), ← conv_wd h v]
  exact ext_congr (Nat.mod_mod _ _)

theorem st_self (m : Mem W) (a : Wd W) (n : Nat) : st m a n (ld m a n) = m := by
  induction n generalizing a with
  | zero => rfl
  | succ n ih =>
    funext x
    simp only [st, ld]
    have h1 := (m a).isLt
    have h2 : ((m a).toNat + 256 * ld m (a + 1) n) / 256 = ld m (a + 1) n := by omega
    rw [h2, ih]
    by_cases hx : x = a
    · rw [if_pos hx, hx]
      apply BitVec.eq_of_toNat_eq
      simp
      omega
    · rw [if_neg hx]

theorem selM_eq (hW : W = 2 ∨ W = 4) {sz : Int} (hz : okSz W sz) (a : Adr) : selM W a sz = .mem a (some sz.natAbs) := by
  rcases hz with rfl | rfl | rfl | ⟨h4, rfl | rfl⟩
  · simp [selM]
  · rcases hW with rfl | rfl <;> rfl
  · rcases hW with rfl | rfl <;> rfl
  · subst h4; rfl
  · subst h4; rfl

theorem ld_word (m : Mem W) (a : Wd W) {n : Nat} (hn : n ≤ W) (f : Wd W) (k : Int) (h : f = wd W k) :
    st m a n (BitVec.ofNat (8 * W) (ld m a n) + f).toNat = st m a n (wd W (ld m a n + k)).toNat := by
  rw [← wd_nat, h, ← BitVec.ofInt_add]

/-- adding to an object in memory -/
theorem inc_ok (hW : W = 2 ∨ W = 4) {sz : Int} (hz : okSz W sz) (G : Int → Wd W) (s : St W) (a : Adr) (dec : Bool) :
    exec G s (.i1 (if dec then .dec else .inc) (selM W a sz)) =
      some { s with mem := upd s.mem (ea G s a) sz (wd W (val s.mem (ea G s a) sz + if dec then -1 else 1)), flags := none } := by
  have h := natAbs_le hW hz
  rw [selM_eq hW hz, upd_val_add _ _ h]
  cases dec
  · simp only [exec, exec1, Opd.size, Option.bind_some, write, read, Bool.false_eq_true, if_false]
    refine congrArg some (congrArg (fun x => { s with mem := x, flags := none }) ?_)
    exact ld_word _ _ h _ 1 (by apply BitVec.eq_of_toNat_eq; simp [BitVec.toNat_ofInt, wd])
  · simp only [exec, exec1, Opd.size, Option.bind_some, write, read, if_true]
    refine congrArg some (congrArg (fun x => { s with mem := x, flags := none }) ?_)
    rw [BitVec.sub_eq_add_neg]
    exact ld_word _ _ h _ (-1) (by rw [wd, BitVec.ofInt_neg]; rfl)

end Smlr.Cg
