import Verif.Stdio.Write
set_option autoImplicit false
namespace Smlr.Stdio

/-- a stream neither read nor written since it was positioned can be read or written -/
theorem RInv.toW {f : File} {os : Os} {a : Abs} (h : RInv f os a) (hr : f.rd = false) : ∃ p : Nat, WInv f os a.content p ∧ a.tell = p := by
  have hn := h.neutral hr
  have hfr := h.fresh hr
  have hrw : f.rwok = true := by
    cases e : f.rwok with
    | true => rfl
    | false => have := h.ro e; rw [hr] at this; cases this
  have hw : os.wpos = os.pos := by unfold Os.wpos; rw [h.append.2]; simp
  refine ⟨os.pos, ⟨hr, fun e => ?_, by rw [h.append.1, h.append.2], fun e => ?_, hfr.1, hfr.2, fun e => ?_, h.buf, Or.inl hn, ?_, ?_⟩, ?_⟩
  · rw [hrw] at e; cases e
  · rw [h.append.1] at e; cases e
  · exact h.nobuf e
  · rw [hn.1]; simp [splice_nil, h.data]
  · rw [hn.1, hw]; rfl
  · have := h.tell; rw [hn.2] at this; omega

theorem WInv.toR {f : File} {os : Os} {c : Str} {p : Nat} (h : WInv f os c p) (hw : f.wr = false) : RInv f os (Abs.at c p) := by
  have hn : f.ptr = 0 ∧ f.cnt = 0 := by
    rcases h.pend with h | h
    · exact h
    · rw [hw] at h; cases h.1
  have hrw : f.rwok = true := by
    cases e : f.rwok with
    | true => rfl
    | false => have := h.wo e; rw [hw] at this; cases this
  have hap : f.append = false := by
    cases e : f.append with
    | false => rfl
    | true => have := h.apwo e; rw [hrw] at this; cases this
  have hap2 : os.append = false := by rw [← h.ap]; exact hap
  have hwp : os.wpos = os.pos := by unfold Os.wpos; rw [hap2]; simp
  have hc := h.content
  have hp := h.pos
  rw [hn.1] at hc hp
  simp only [List.take_zero, splice_nil] at hc
  rw [hwp] at hp
  refine ⟨hw, fun e => ?_, fun _ => hn, fun _ => ⟨h.eof, h.ungot⟩, ⟨hap, hap2⟩, hc.symm, h.nobuf, h.buf, ?_, ?_, ?_, ?_, ?_⟩
  · rw [hrw] at e; cases e
  · rw [hn.1, hn.2]; simp
  · rw [hn.1, hn.2]; simp [Abs.at, hc, hp]
  · rw [hn.2]; simp [Abs.at, hp]
  · intro e; rw [h.eof] at e; cases e
  · intro _; rw [hn.1, hn.2]; simp

theorem clean_rest (buf data : Str) (n pos q m : Nat) (hn : n ≤ pos) (hb : buf.take n = (data.drop (pos - n)).take n) (hm : q + m = n) :
    (buf.drop q).take m ++ data.drop pos = data.drop (pos - m) := by
  have h1 : (buf.drop q).take m = (buf.take n).drop q := by
    rw [List.drop_take]; congr 1; omega
  rw [h1, hb, List.drop_take, List.drop_drop, show n - q = m by omega, show pos - n + q = pos - m by omega]
  conv => rhs; rw [← List.take_append_drop m (data.drop (pos - m))]
  rw [List.drop_drop, show pos - m + m = pos by omega]

/-- moving inside the buffer -/
theorem move_ok {f : File} {os : Os} {a : Abs} (h : RInv f os a) (hu : f.ungot = false) (hr : f.rd = true) (off : Int) (h1 : -(f.ptr : Int) ≤ off) (h2 : off ≤ f.cnt)
    (t : Nat) (ht : (t : Int) = a.tell + off) :
    RInv { f with eof := false, ptr := ((f.ptr : Int) + off).toNat, cnt := ((f.cnt : Int) - off).toNat } os (Abs.at a.content t) := by
  obtain ⟨c1, c2⟩ := h.clean hu
  have htl := h.tell
  have hfit := h.fit
  have hsum : ((f.ptr : Int) + off).toNat + ((f.cnt : Int) - off).toNat = f.ptr + f.cnt := by omega
  have hb : f.hasBuf = false → False ∨ (f.ptr = 0 ∧ f.cnt = 0) := fun e => Or.inr ⟨(h.nobuf e).1, (h.nobuf e).2.1⟩
  refine ⟨h.wr, h.ro, fun e => ?_, fun e => ?_, h.append, h.data, fun e => ?_, h.buf, ?_, ?_, ?_, ?_, ?_⟩
  · rw [hr] at e; cases e
  · rw [hr] at e; cases e
  · obtain ⟨q1, q2, q3⟩ := h.nobuf e
    exact ⟨by simp only; omega, by simp only; omega, q3⟩
  · simp only; omega
  · simp only [Abs.at]
    rw [clean_rest f.buf os.data (f.ptr + f.cnt) os.pos _ _ c1 c2 hsum, h.data]
    congr 1; omega
  · simp only [Abs.at]; omega
  · intro e; cases e
  · intro _; simp only [hsum]; exact ⟨c1, c2⟩

/-- where a seek should lead -/
def target (w : Whence) (off : Int) (cur : Int) (len : Nat) : Int :=
  (match w with | .set => 0 | .cur => cur | .end => (len : Int)) + off

theorem lseek_ok (os os' : Os) (off : Int) (w : Whence) (h : os.lseek off w = some os') :
    ∃ t : Nat, (t : Int) = target w off os.pos os.data.length ∧ t < 2 ^ 31 ∧ os' = { os with pos := t } := by
  unfold Os.lseek at h
  cases w <;> simp only at h <;>
  · split at h
    · exact absurd h (by simp)
    · rename_i hc
      simp only [Option.some.injEq] at h
      refine ⟨_, ?_, ?_, h.symm⟩
      · unfold target; simp only; omega
      · omega

/-- the relative seeks that go right: nothing was read ahead, or the target lies in the buffer of a stream opened for
reading only -/
def SeekOk (f : File) (off : Int) (w : Whence) : Prop :=
  w = .cur → f.rd = true → f.cnt ≠ 0 → f.rwok = false ∧ f.ungot = false ∧ -(f.ptr : Int) ≤ off ∧ off ≤ f.cnt

theorem reset_R {f : File} {os : Os} {a : Abs} (h : RInv f os a) (t : Nat) :
    RInv { f with eof := false, rd := f.rd && !f.rwok, wr := f.wr && !f.rwok, ungot := false, ptr := 0, cnt := 0 } { os with pos := t } (Abs.at a.content t) := by
  refine ⟨by simp [h.wr], fun e => ?_, fun _ => ⟨rfl, rfl⟩, fun _ => ⟨rfl, rfl⟩, h.append, h.data, fun e => ⟨rfl, rfl, (h.nobuf e).2.2⟩, h.buf, by simp,
    by simp [Abs.at, h.data], by simp [Abs.at], fun e => (by cases e), fun _ => (by simp)⟩
  simp only at e
  simp [h.ro e, e]

theorem seek_R {f : File} {os : Os} {a : Abs} (h : RInv f os a) (off : Int) (w : Whence) (f' : File) (os' : Os)
    (hs : fseek off w f os = (true, f', os')) (hok : SeekOk f off w) :
    ∃ t : Nat, (t : Int) = target w off a.tell a.content.length ∧ RInv f' os' (Abs.at a.content t) ∧ os'.rplan = os.rplan ∧ f'.rwok = f.rwok ∧
      (os.pos < 2 ^ 31 → os'.pos < 2 ^ 31) := by
  have htl := h.tell
  have hfl : fflush { f with eof := false } os = (true, { f with eof := false }, os) := by
    unfold fflush; rw [if_neg (by simp [h.wr])]
  have slow : (w = .cur → f.cnt = 0) → (match fflush { f with eof := false } os with
      | (false, f, os) => (false, f, os)
      | (true, f, os) =>
        let f := { f with rd := f.rd && !f.rwok, wr := f.wr && !f.rwok, ungot := false, ptr := 0, cnt := 0 }
        if f.append then (true, f, os)
        else
          match os.lseek off w with
          | none => (false, f, os)
          | some os => (true, f, os)) = (true, f', os') →
      ∃ t : Nat, (t : Int) = target w off a.tell a.content.length ∧ RInv f' os' (Abs.at a.content t) ∧ os'.rplan = os.rplan ∧ f'.rwok = f.rwok ∧
      (os.pos < 2 ^ 31 → os'.pos < 2 ^ 31) := by
    intro hcur hh
    rw [hfl] at hh
    simp only at hh
    rw [if_neg (by simp [h.append.1])] at hh
    cases hl : os.lseek off w with
    | none => rw [hl] at hh; simp at hh
    | some os2 =>
      rw [hl] at hh
      simp only [Prod.mk.injEq, true_and] at hh
      obtain ⟨t, ht, ht2, e⟩ := lseek_ok os os2 off w hl
      refine ⟨t, ?_, ?_, ?_, ?_, ?_⟩
      · rw [ht, ← h.data]
        unfold target
        cases w <;> simp only
        have := hcur rfl
        omega
      · rw [← hh.1, ← hh.2, e]; exact reset_R h t
      · rw [← hh.2, e]
      · rw [← hh.1]
      · rw [← hh.2, e]; intro _; exact ht2
  unfold fseek at hs
  simp only at hs
  by_cases hfast : ((!f.rwok && f.rd && !f.ungot) && decide (w ≠ .end) && f.hasBuf) = true
  · rw [if_pos hfast] at hs
    simp only [Bool.and_eq_true, Bool.not_eq_true', decide_eq_true_eq] at hfast
    obtain ⟨⟨⟨⟨q1, q2⟩, q3⟩, q4⟩, q5⟩ := hfast
    by_cases hc : w = .cur
    · rw [if_pos hc] at hs
      by_cases hin : (off ≥ 0 ∧ off ≤ f.cnt) ∨ (off < 0 ∧ off ≥ -(f.ptr : Int))
      · rw [if_pos hin] at hs
        simp only [Prod.mk.injEq, true_and] at hs
        have hcl := h.clean q3
        refine ⟨(a.tell + off).toNat, ?_, ?_, ?_, ?_, ?_⟩
        · subst hc; unfold target; simp only; omega
        · rw [← hs.1, ← hs.2]
          exact move_ok h q3 q2 off (by omega) (by omega) _ (by omega)
        · rw [← hs.2]
        · rw [← hs.1]
        · rw [← hs.2]; exact id
      · rw [if_neg hin] at hs
        refine slow (fun _ => ?_) hs
        rcases Nat.eq_zero_or_pos f.cnt with hz | hz
        · exact hz
        · have := hok hc q2 (by omega)
          omega
    · rw [if_neg hc] at hs
      have hset : w = .set := by cases w <;> simp_all
      cases hft : ftell { f with eof := false } os with
      | none => rw [hft] at hs; simp at hs
      | some pos =>
        rw [hft] at hs
        simp only at hs
        have hpos : pos = a.tell ∧ os.pos < 2 ^ 31 := by
          unfold ftell at hft
          cases hl : os.lseek 0 .cur with
          | none => rw [hl] at hft; cases hft
          | some os2 =>
            obtain ⟨t, ht, ht2, e⟩ := lseek_ok _ _ _ _ hl
            rw [hl] at hft
            simp only [q2, if_true, Option.some.injEq] at hft
            rw [e] at hft
            unfold target at ht
            simp only at ht hft
            omega
        by_cases hin : (off ≥ pos ∧ off - pos ≤ f.cnt) ∨ (off ≥ 0 ∧ off < pos ∧ pos - off ≤ f.ptr)
        · rw [if_pos hin] at hs
          simp only [Prod.mk.injEq, true_and] at hs
          have hcl := h.clean q3
          refine ⟨off.toNat, ?_, ?_, ?_, ?_, ?_⟩
          · subst hset; unfold target; simp only; omega
          · rw [← hs.1, ← hs.2]
            exact move_ok h q3 q2 (off - pos) (by omega) (by omega) _ (by omega)
          · rw [← hs.2]
          · rw [← hs.1]
          · rw [← hs.2]; exact id
        · rw [if_neg hin] at hs
          exact slow (fun e => absurd e hc) hs
  · rw [if_neg hfast] at hs
    refine slow (fun hc => ?_) hs
    rcases Nat.eq_zero_or_pos f.cnt with hz | hz
    · exact hz
    · exfalso
      apply hfast
      have hrd : f.rd = true := by
        cases e : f.rd with
        | true => rfl
        | false => have := (h.neutral e).2; omega
      have hhb : f.hasBuf = true := by
        cases e : f.hasBuf with
        | true => rfl
        | false => have := (h.nobuf e).2.1; omega
      obtain ⟨g1, g2, -⟩ := hok hc hrd (by omega)
      simp [g1, g2, hrd, hhb, hc]

theorem seek_W {f : File} {os : Os} {c : Str} {p : Nat} (h : WInv f os c p) (off : Int) (w : Whence) (f' : File) (os' : Os)
    (hs : fseek off w f os = (true, f', os')) :
    (f.append = true ∧ WInv f' os' c p) ∨
    (f.append = false ∧ ∃ t : Nat, (t : Int) = target w off p c.length ∧ WInv f' os' c t ∧ os'.rplan = os.rplan ∧ f'.rwok = f.rwok ∧
      os'.pos < 2 ^ 31 ∧ f'.ptr = 0 ∧ (f.rwok = true → f'.wr = false)) := by
  have h' : WInv { f with eof := false } os c p :=
    ⟨h.rd, h.wo, h.ap, h.apwo, rfl, h.ungot, h.nobuf, h.buf, h.pend, h.content, h.pos⟩
  unfold fseek at hs
  simp only at hs
  rw [if_neg (by simp [h.rd])] at hs
  obtain ⟨r, f1, os1, e1, -, hrp, g⟩ := fflush_ok _ os c p h'
  rw [e1] at hs
  cases r with
  | false => simp at hs
  | true =>
    obtain ⟨i1, hd, hp0, hc0, hwp, -, -, hrw, hap, hw1, hw2⟩ := g rfl
    simp only at hs
    have hap1 : f1.append = f.append := hap
    have i2 : ∀ os2 : Os, ∀ t : Nat, os2.data = c → os2.append = os1.append → os2.wpos = t →
        WInv { f1 with rd := f1.rd && !f1.rwok, wr := f1.wr && !f1.rwok, ungot := false, ptr := 0, cnt := 0 } os2 c t := by
      intro os2 t hd2 ha2 hw2
      refine ⟨by simp [i1.rd], fun e => ?_, by rw [ha2]; exact i1.ap, i1.apwo, i1.eof, rfl, fun e => ⟨rfl, rfl, (i1.nobuf e).2.2⟩, i1.buf, Or.inl ⟨rfl, rfl⟩, ?_, ?_⟩
      · simp only at e; simp [e, i1.wo e]
      · simp [splice_nil, hd2]
      · simp [hw2]
    by_cases ha : f.append = true
    · left
      refine ⟨ha, ?_⟩
      rw [if_pos (by rw [hap1]; exact ha)] at hs
      simp only [Prod.mk.injEq, true_and] at hs
      rw [← hs.1, ← hs.2]
      exact i2 os1 p hd rfl hwp
    · right
      have ha' : f.append = false := by simpa using ha
      refine ⟨ha', ?_⟩
      rw [if_neg (by rw [hap1]; exact ha)] at hs
      have hoa : os1.append = false := by rw [← i1.ap, hap1]; exact ha'
      have hwpos : os1.pos = p := by rw [← hwp]; unfold Os.wpos; rw [hoa]; simp
      cases hl : os1.lseek off w with
      | none => rw [hl] at hs; simp at hs
      | some os2 =>
        rw [hl] at hs
        simp only [Prod.mk.injEq, true_and] at hs
        obtain ⟨t, ht, ht2, e⟩ := lseek_ok os1 os2 off w hl
        refine ⟨t, ?_, ?_, ?_, ?_, ?_, ?_, ?_⟩
        · rw [ht, hd, hwpos]
        · rw [← hs.1, ← hs.2]
          refine i2 os2 t (by rw [e]; exact hd) (by rw [e]) ?_
          rw [e]; unfold Os.wpos; simp [hoa]
        · rw [← hs.2, e]; exact hrp
        · rw [← hs.1]; exact hrw
        · rw [← hs.2, e]; exact ht2
        · rw [← hs.1]
        · intro hrw'
          have : f1.rwok = true := by rw [hrw]; exact hrw'
          rw [← hs.1]; simp [this]

theorem tell_R {f : File} {os : Os} {a : Abs} (h : RInv f os a) (hp : os.pos < 2 ^ 31) : ftell f os = some a.tell := by
  have ht := h.tell
  unfold ftell Os.lseek
  simp only
  rw [if_neg (by omega)]
  simp only
  cases hr : f.rd with
  | true => simp only [if_true, Option.some.injEq]; omega
  | false =>
    rw [if_neg (by simp), if_neg (by simp [h.wr])]
    have := (h.neutral hr).2
    simp only [Option.some.injEq]; omega

theorem tell_W {f : File} {os : Os} {c : Str} {p : Nat} (h : WInv f os c p) (ha : f.append = false) (hp : os.pos < 2 ^ 31) : ftell f os = some (p : Int) := by
  have ht := h.pos
  have : os.wpos = os.pos := by unfold Os.wpos; rw [← h.ap, ha]; simp
  unfold ftell Os.lseek
  simp only
  rw [if_neg (by omega)]
  simp only
  rw [if_neg (by simp [h.rd])]
  by_cases hw : f.wr = true ∧ f.ptr ≠ 0
  · rw [if_pos hw]; simp only [Option.some.injEq]; omega
  · rw [if_neg hw]
    have : f.ptr = 0 := by
      rcases h.pend with q | q
      · exact q.1
      · exact Decidable.byContradiction fun e => hw ⟨q.1, e⟩
    simp only [Option.some.injEq]; omega

end Smlr.Stdio
