import Verif.Stdio.Read
set_option autoImplicit false
namespace Smlr.Stdio

theorem splice_nil (c : Str) (p : Nat) : splice c p [] = c := by simp [splice]

theorem splice_length (c : Str) (p : Nat) (b : Str) (hb : b ≠ []) : (splice c p b).length = max c.length (p + b.length) := by
  unfold splice
  rw [if_neg hb]
  simp only [List.length_append, List.length_take, List.length_replicate, List.length_drop]
  omega

theorem splice_get (c : Str) (p : Nat) (b : Str) (i : Nat) : (splice c p b)[i]? =
    if p ≤ i ∧ i < p + b.length then b[i - p]? else if i < c.length then c[i]? else if i < p ∧ b ≠ [] then some 0 else none := by
  by_cases hb : b = []
  · subst hb
    rw [splice_nil, List.length_nil, if_neg (by omega)]
    by_cases h : i < c.length
    · rw [if_pos h]
    · rw [if_neg h, if_neg (by simp)]
      exact List.getElem?_eq_none (by omega)
  · unfold splice
    rw [if_neg hb]
    by_cases h1 : p ≤ i ∧ i < p + b.length
    · rw [if_pos h1]
      rw [List.getElem?_append_left (by simp only [List.length_append, List.length_take, List.length_replicate]; omega)]
      rw [List.getElem?_append_right (by simp only [List.length_append, List.length_take, List.length_replicate]; omega)]
      congr 1
      simp only [List.length_append, List.length_take, List.length_replicate]; omega
    · rw [if_neg h1]
      by_cases h2 : i < p
      · rw [List.append_assoc, List.getElem?_append_left (by simp only [List.length_append, List.length_take, List.length_replicate]; omega)]
        by_cases h3 : i < c.length
        · rw [if_pos h3, List.getElem?_append_left (by rw [List.length_take]; omega), List.getElem?_take_of_lt h2]
        · rw [if_neg h3, if_pos ⟨h2, hb⟩, List.getElem?_append_right (by rw [List.length_take]; omega)]
          rw [List.getElem?_replicate_of_lt (by rw [List.length_take]; omega)]
      · have e : (c.take p ++ List.replicate (p - c.length) 0 ++ b).length = p + b.length := by
          simp only [List.length_append, List.length_take, List.length_replicate]; omega
        rw [List.getElem?_append_right (by omega), e, List.getElem?_drop]
        rw [show p + b.length + (i - (p + b.length)) = i by omega]
        by_cases h3 : i < c.length
        · rw [if_pos h3]
        · rw [if_neg h3, if_neg (by omega)]
          exact List.getElem?_eq_none (by omega)

theorem splice_splice (c : Str) (p : Nat) (b d : Str) : splice (splice c p b) (p + b.length) d = splice c p (b ++ d) := by
  by_cases hb : b = []
  · subst hb; simp [splice_nil]
  by_cases hd : d = []
  · subst hd; simp [splice_nil]
  apply List.ext_getElem?
  intro i
  rw [splice_get, splice_get, splice_get, splice_length _ _ _ hb, List.length_append]
  by_cases h1 : p + b.length ≤ i ∧ i < p + b.length + d.length
  · rw [if_pos h1, if_pos (by omega), List.getElem?_append_right (by omega)]
    congr 1; omega
  · rw [if_neg h1]
    by_cases h2 : p ≤ i ∧ i < p + b.length
    · rw [if_pos (by omega), if_pos h2, if_pos (by omega), List.getElem?_append_left (by omega)]
    · rw [if_neg h2, if_neg (show ¬ (p ≤ i ∧ i < p + (b.length + d.length)) by omega)]
      by_cases h3 : i < c.length
      · simp only [if_pos h3]; rw [if_pos (by omega)]
      · simp only [if_neg h3]
        by_cases h4 : i < p
        · rw [if_pos (by omega), if_pos ⟨h4, hb⟩, if_pos ⟨h4, by simp [hb]⟩]
        · rw [if_neg (by omega), if_neg (show ¬ (i < p + b.length ∧ d ≠ []) by omega), if_neg (by omega)]

/-- stream that is being written, or was neither read nor written since it was positioned: `c` is what the file will
hold when the buffer is written out, `p` the position -/
structure WInv (f : File) (os : Os) (c : Str) (p : Nat) : Prop where
  rd : f.rd = false
  wo : f.rwok = false → f.wr = true
  ap : f.append = os.append
  apwo : f.append = true → f.rwok = false
  eof : f.eof = false
  ungot : f.ungot = false
  nobuf : f.hasBuf = false → f.ptr = 0 ∧ f.cnt = 0 ∧ f.buf = []
  buf : f.hasBuf = true → f.buf.length = f.bufsz ∧ 1 ≤ f.bufsz
  pend : (f.ptr = 0 ∧ f.cnt = 0) ∨ (f.wr = true ∧ f.hasBuf = true ∧ 1 ≤ f.ptr ∧ f.ptr + f.cnt = f.bufsz)
  content : c = splice os.data os.wpos (f.buf.take f.ptr)
  pos : p = os.wpos + f.ptr

theorem write_cases (os : Os) (b : Str) :
    ∃ r os', os.write b = (r, os') ∧ os'.wplan ⊆ os.wplan ∧ os'.append = os.append ∧ os'.rplan = os.rplan ∧
      (r = some b.length → os'.data = splice os.data os.wpos b ∧ os'.pos = os.wpos + b.length) ∧ (os.wplan = [] → r = some b.length ∧ os'.wplan = []) := by
  unfold Os.write
  split
  · rename_i h
    exact ⟨_, _, rfl, by simp, rfl, rfl, fun _ => ⟨rfl, rfl⟩, fun _ => ⟨rfl, h⟩⟩
  · rename_i pl h
    exact ⟨_, _, rfl, by simp [h], rfl, rfl, fun e => (by cases e), fun e => by rw [h] at e; cases e⟩
  · rename_i k pl h
    refine ⟨_, _, rfl, by simp [h], rfl, rfl, fun e => ?_, fun e => by rw [h] at e; cases e⟩
    simp only [Option.some.injEq, List.length_take] at e
    simp only
    rw [List.take_of_length_le (by omega)]
    exact ⟨rfl, rfl⟩

theorem wpos_after (os os' : Os) (b : Str) (hb : b ≠ []) (ha : os'.append = os.append) (hd : os'.data = splice os.data os.wpos b)
    (hp : os'.pos = os.wpos + b.length) : os'.wpos = os.wpos + b.length := by
  unfold Os.wpos at hd hp ⊢
  rw [ha, hd, splice_length _ _ _ hb]
  cases h : os.append with
  | true =>
    simp only [h, if_true] at hd hp ⊢
    omega
  | false => simp only [h] at hp ⊢; simpa using hp

theorem fflush_ok (f : File) (os : Os) (c : Str) (p : Nat) (h : WInv f os c p) :
    ∃ r f' os', fflush f os = (r, f', os') ∧ (os.wplan = [] → r = true ∧ os'.wplan = []) ∧ os'.rplan = os.rplan ∧
      (r = true → WInv f' os' c p ∧ os'.data = c ∧ f'.ptr = 0 ∧ f'.cnt = 0 ∧ os'.wpos = p ∧ f'.nbf = f.nbf ∧ f'.lbf = f.lbf ∧
        f'.rwok = f.rwok ∧ f'.append = f.append ∧ (f.rwok = true → f'.wr = false) ∧ (f.rwok = false → f'.wr = f.wr)) := by
  unfold fflush
  cases hw : f.wr with
  | false =>
    rw [if_neg (by simp)]
    have hp : f.ptr = 0 ∧ f.cnt = 0 := by
      rcases h.pend with h | h
      · exact h
      · rw [hw] at h; cases h.1
    have hc := h.content
    have hpp := h.pos
    rw [hp.1] at hc hpp
    simp only [List.take_zero, splice_nil] at hc
    refine ⟨_, _, _, rfl, fun e => ⟨rfl, e⟩, rfl, fun _ => ⟨h, hc.symm, hp.1, hp.2, by omega, rfl, rfl, rfl, rfl, fun _ => hw, fun _ => hw⟩⟩
  | true =>
    rw [if_pos rfl]
    simp only
    by_cases h0 : f.ptr = 0
    · rw [if_neg (by simp [h0])]
      have hc := h.content
      have hpp := h.pos
      rw [h0] at hc hpp
      simp only [List.take_zero, splice_nil] at hc
      refine ⟨_, _, _, rfl, fun e => ⟨rfl, e⟩, rfl, fun _ => ⟨?_, hc.symm, rfl, rfl, by omega, rfl, rfl, rfl, rfl, fun e => by simp [e], fun e => by simp [e, hw]⟩⟩
      refine ⟨h.rd, fun e => by simp only at e; simp [e, hw], h.ap, h.apwo, h.eof, h.ungot, fun e => ⟨rfl, rfl, (h.nobuf e).2.2⟩, h.buf, Or.inl ⟨rfl, rfl⟩, ?_, ?_⟩
      · simp only [List.take_zero, splice_nil]; exact hc
      · simp only; omega
    · rw [if_pos h0]
      have hp : f.hasBuf = true ∧ 1 ≤ f.ptr ∧ f.ptr + f.cnt = f.bufsz := by
        rcases h.pend with h | h
        · omega
        · exact h.2
      have hbl := h.buf hp.1
      have hsz : f.bufsz - f.cnt = f.ptr := by omega
      rw [hsz]
      obtain ⟨r, os', e, -, ha, hrp, hr, hpl⟩ := write_cases os (f.buf.take f.ptr)
      have hl : (f.buf.take f.ptr).length = f.ptr := by rw [List.length_take]; omega
      rw [hl] at hr hpl
      rw [e]
      simp only
      have hne : f.buf.take f.ptr ≠ [] := by intro e; rw [e] at hl; simp at hl; omega
      by_cases hc : r = some f.ptr ∧ f.ptr ≠ 0
      · rw [if_pos hc]
        obtain ⟨hd, hpos⟩ := hr hc.1
        have hcd : c = os'.data := by rw [hd]; exact h.content
        have hwp := wpos_after os os' _ hne ha hd (by rw [hl]; exact hpos)
        have hpp := h.pos
        rw [hl] at hwp
        refine ⟨_, _, _, rfl, fun e => ⟨rfl, (hpl e).2⟩, hrp, fun _ => ⟨?_, hcd.symm, rfl, rfl, by omega, rfl, rfl, rfl, rfl, fun e => by simp [e], fun e => by simp [e, hw]⟩⟩
        refine ⟨h.rd, fun e => by simp only at e; simp [e, hw], by rw [ha]; exact h.ap, h.apwo, h.eof, h.ungot, fun e => ⟨rfl, rfl, (h.nobuf e).2.2⟩, h.buf, Or.inl ⟨rfl, rfl⟩, ?_, ?_⟩
        · simp only [List.take_zero, splice_nil]; exact hcd
        · simp only; omega
      · rw [if_neg hc]
        refine ⟨_, _, _, rfl, fun e => absurd ⟨(hpl e).1, h0⟩ hc, hrp, fun e => by cases e⟩

theorem store_ok (f : File) (os : Os) (c : Str) (p : Nat) (x : UInt8) (h : WInv f os c p) (h0 : f.cnt ≠ 0) :
    ∃ f', store x f = some f' ∧ WInv f' os (splice c p [x]) (p + 1) ∧ f'.nbf = f.nbf := by
  have hp : f.wr = true ∧ f.hasBuf = true ∧ 1 ≤ f.ptr ∧ f.ptr + f.cnt = f.bufsz := by
    rcases h.pend with h | h
    · omega
    · exact h
  have hbl := h.buf hp.2.1
  unfold store
  rw [if_pos (by omega)]
  refine ⟨_, rfl, ?_, rfl⟩
  refine ⟨h.rd, h.wo, h.ap, h.apwo, h.eof, h.ungot, fun e => ?_, ?_, Or.inr ?_, ?_, ?_⟩
  · rw [hp.2.1] at e; cases e
  · intro e; simp only [List.length_set]; exact hbl
  · exact ⟨hp.1, hp.2.1, by simp only; omega, by simp only; omega⟩
  · have e : (f.buf.set f.ptr x).take (f.ptr + 1) = f.buf.take f.ptr ++ [x] := by
      rw [List.take_add_one, List.take_set_of_le (Nat.le_refl _), List.getElem?_set_self (by omega)]; rfl
    simp only [e]
    rw [← splice_splice, ← h.content, h.pos]
    congr 2
    rw [List.length_take]; omega
  · have := h.pos; simp only; omega

theorem flushbuf_ok (cfg : Cfg) (hc : 1 ≤ cfg.bufsiz) (f : File) (os : Os) (c : Str) (p : Nat) (x : UInt8) (h : WInv f os c p) (h0 : f.cnt = 0) :
    ∃ r f' os', flushbuf cfg x f os = some (r, f', os') ∧ (os.wplan = [] → r = true ∧ os'.wplan = []) ∧
      (r = true → WInv f' os' (splice c p [x]) (p + 1)) := by
  unfold flushbuf
  rw [if_neg (by simp [h.rd])]
  obtain ⟨buf, bufsz, lbf, ptr, e1, hl, hpos, hb1, hb2⟩ := getBuf_ok cfg hc { f with wr := true } h.buf
  rw [e1]
  simp only at hb1 hb2 ⊢
  have fin : ∀ os' : Os, os'.append = os.append → os'.data = c → os'.wpos = p → ∃ f',
      store x { f with wr := true, hasBuf := true, buf := buf, bufsz := bufsz, lbf := lbf, ptr := 0, cnt := bufsz } = some f' ∧
      WInv f' os' (splice c p [x]) (p + 1) := by
    intro os' ha hd hp
    unfold store
    rw [if_pos (by simp only; omega)]
    refine ⟨_, rfl, ?_⟩
    refine ⟨h.rd, fun _ => rfl, by rw [ha]; exact h.ap, h.apwo, h.eof, h.ungot, fun e => (by cases e), ?_, Or.inr ?_, ?_, ?_⟩
    · intro _; simp only [List.length_set]; exact ⟨hl, hpos⟩
    · exact ⟨rfl, rfl, Nat.le_refl _, by simp only; omega⟩
    · have e : (buf.set 0 x).take (0 + 1) = [x] := by
        cases buf with
        | nil => simp at hl; omega
        | cons b bs => simp
      simp only [e, hd, hp]
    · simp only; omega
  by_cases hp0 : ptr = 0
  · rw [if_neg (by simp [hp0])]
    have hfp : f.ptr = 0 := by
      cases hh : f.hasBuf with
      | true => have := (hb1 hh).1; omega
      | false => exact (h.nobuf hh).1
    have hcc := h.content
    have hpp := h.pos
    rw [hfp] at hcc hpp
    simp only [List.take_zero, splice_nil] at hcc
    obtain ⟨f', e2, i2⟩ := fin os rfl hcc.symm (by omega)
    subst hp0
    simp only [e2]
    exact ⟨true, f', os, rfl, fun e => ⟨rfl, e⟩, fun _ => i2⟩
  · rw [if_pos hp0]
    have hh : f.hasBuf = true := by
      cases hh : f.hasBuf with
      | true => rfl
      | false => exact absurd (hb2 hh) hp0
    obtain ⟨q1, q2, q3⟩ := hb1 hh
    subst q1 q2 q3
    have hpe : f.ptr = f.bufsz := by
      rcases h.pend with h | h
      · omega
      · omega
    obtain ⟨r, os', e, -, ha, -, hr, hpl⟩ := write_cases os (f.buf.take f.bufsz)
    have hll : (f.buf.take f.bufsz).length = f.bufsz := by rw [List.length_take]; omega
    rw [hll] at hr hpl
    rw [e]
    simp only
    have hne : f.buf.take f.bufsz ≠ [] := by intro e; rw [e] at hll; simp at hll; omega
    by_cases hcond : r = some f.bufsz ∧ f.bufsz ≠ 0
    · rw [if_pos hcond]
      obtain ⟨hd, hpos'⟩ := hr hcond.1
      have hwp := wpos_after os os' _ hne ha hd (by rw [hll]; exact hpos')
      have hcc := h.content
      have hpp := h.pos
      rw [hpe] at hcc hpp
      obtain ⟨f', e2, i2⟩ := fin os' ha (by rw [hd, hcc]) (by omega)
      rw [e2]
      exact ⟨true, f', os', rfl, fun e => ⟨rfl, (hpl e).2⟩, fun _ => i2⟩
    · rw [if_neg hcond]
      exact ⟨_, _, _, rfl, fun e => absurd ⟨(hpl e).1, by omega⟩ hcond, fun e => by cases e⟩

theorem fputc_ok (cfg : Cfg) (hc : 1 ≤ cfg.bufsiz) (f : File) (os : Os) (c : Str) (p : Nat) (x : UInt8) (h : WInv f os c p) :
    ∃ r f' os', fputc cfg x f os = some (r, f', os') ∧ (os.wplan = [] → r = true ∧ os'.wplan = []) ∧
      (r = true → WInv f' os' (splice c p [x]) (p + 1)) := by
  have key : ∃ r f' os', fputcStore cfg x f os = some (r, f', os') ∧
      (os.wplan = [] → r = true ∧ os'.wplan = []) ∧ (r = true → WInv f' os' (splice c p [x]) (p + 1)) := by
    unfold fputcStore
    by_cases h0 : f.cnt = 0
    · rw [if_neg (by simp [h0])]
      exact flushbuf_ok cfg hc f os c p x h h0
    · rw [if_pos h0]
      obtain ⟨f', e, i, -⟩ := store_ok f os c p x h h0
      rw [e]
      exact ⟨_, _, _, rfl, fun e => ⟨rfl, e⟩, fun _ => i⟩
  obtain ⟨r, f', os', e, h1, h2⟩ := key
  unfold fputc
  rw [e]
  cases r with
  | false => exact ⟨_, _, _, rfl, h1, h2⟩
  | true =>
    simp only
    split
    · obtain ⟨r2, f2, os2, e2, g1, -, g2⟩ := fflush_ok f' os' _ _ (h2 rfl)
      rw [e2]
      exact ⟨_, _, _, rfl, fun e => g1 (h1 e).2, fun e => (g2 e).1⟩
    · exact ⟨_, _, _, rfl, h1, h2⟩

theorem fwriteChars_ok (cfg : Cfg) (hc : 1 ≤ cfg.bufsiz) : ∀ (b : Str) (f : File) (os : Os) (c : Str) (p : Nat), WInv f os c p →
    ∃ r f' os', fwriteChars cfg b f os = some (r, f', os') ∧ r ≤ b.length ∧ (os.wplan = [] → r = 0 ∧ os'.wplan = []) ∧
      (r = 0 → WInv f' os' (splice c p b) (p + b.length)) := by
  intro b
  induction b with
  | nil =>
    intro f os c p h
    exact ⟨_, _, _, rfl, Nat.le_refl _, fun e => ⟨rfl, e⟩, fun _ => by rw [splice_nil]; exact h⟩
  | cons x b ih =>
    intro f os c p h
    unfold fwriteChars
    obtain ⟨r, f1, os1, e1, h1, h2⟩ := fputc_ok cfg hc f os c p x h
    rw [e1]
    cases r with
    | false =>
      simp only
      exact ⟨_, _, _, rfl, by simp, fun e => by simp at h1; exact absurd e h1, fun e => by omega⟩
    | true =>
      simp only
      obtain ⟨r2, f2, os2, e2, l2, g1, g2⟩ := ih f1 os1 _ _ (h2 rfl)
      refine ⟨r2, f2, os2, e2, by rw [List.length_cons]; omega, fun e => g1 (h1 e).2, fun e => ?_⟩
      have := g2 e
      rw [show p + 1 = p + [x].length by rfl, splice_splice] at this
      rw [List.length_cons, Nat.add_comm b.length, ← Nat.add_assoc]
      exact this

theorem put_ok (f : File) (os : Os) (c : Str) (p : Nat) (b : Str) (h : WInv f os c p) (h0 : b.length ≤ f.cnt) :
    ∃ f', put f b = some f' ∧ WInv f' os (splice c p b) (p + b.length) ∧ f'.cnt = f.cnt - b.length := by
  unfold put
  by_cases hb : b = []
  · subst hb
    have : f.ptr ≤ f.buf.length := by
      rcases h.pend with hp | hp
      · omega
      · have := h.buf hp.2.1; omega
    rw [if_pos (by simpa using this)]
    refine ⟨f, ?_, by rw [splice_nil]; exact h, by simp⟩
    simp
  · have hbp : 0 < b.length := List.length_pos_iff.2 hb
    have hp : f.wr = true ∧ f.hasBuf = true ∧ 1 ≤ f.ptr ∧ f.ptr + f.cnt = f.bufsz := by
      rcases h.pend with h | h
      · omega
      · exact h
    have hbl := h.buf hp.2.1
    rw [if_pos (by omega)]
    have hlen : (f.buf.take f.ptr ++ b ++ f.buf.drop (f.ptr + b.length)).length = f.bufsz := by
      simp only [List.length_append, List.length_take, List.length_drop]; omega
    refine ⟨_, rfl, ?_, rfl⟩
    refine ⟨h.rd, h.wo, h.ap, h.apwo, h.eof, h.ungot, fun e => ?_, fun _ => ⟨hlen, hbl.2⟩, Or.inr ?_, ?_, ?_⟩
    · rw [hp.2.1] at e; cases e
    · exact ⟨hp.1, hp.2.1, by simp only; omega, by simp only; omega⟩
    · have e : (f.buf.take f.ptr ++ b ++ f.buf.drop (f.ptr + b.length)).take (f.ptr + b.length) = f.buf.take f.ptr ++ b := by
        rw [List.take_append_of_le_length (by simp only [List.length_append, List.length_take]; omega), List.take_of_length_le]
        simp only [List.length_append, List.length_take]; omega
      simp only [e]
      rw [← splice_splice, ← h.content, h.pos]
      congr 2
      rw [List.length_take]; omega
    · have := h.pos; simp only; omega

theorem fwriteBlocks_ok (cfg : Cfg) (hc : 1 ≤ cfg.bufsiz) : ∀ (fuel : Nat) (b : Str) (f : File) (os : Os) (c : Str) (p : Nat), b.length < fuel → WInv f os c p →
    ∃ r f' os', fwriteBlocks cfg fuel b f os = some (r, f', os') ∧ r ≤ b.length ∧ (os.wplan = [] → r = 0 ∧ os'.wplan = []) ∧
      (r = 0 → WInv f' os' (splice c p b) (p + b.length)) := by
  intro fuel
  induction fuel with
  | zero => intro b f os c p h; omega
  | succ fuel ih =>
    intro b f os c p hfu h
    unfold fwriteBlocks
    by_cases hb : b = []
    · rw [if_pos hb]
      subst hb
      exact ⟨_, _, _, rfl, Nat.le_refl _, fun e => ⟨rfl, e⟩, fun _ => by rw [splice_nil]; exact h⟩
    · rw [if_neg hb]
      by_cases h1 : f.cnt < b.length
      · rw [if_pos h1]
        have hl1 : (b.take f.cnt).length = f.cnt := by rw [List.length_take]; omega
        obtain ⟨f1, e1, i1, c1⟩ := put_ok f os c p (b.take f.cnt) h (by omega)
        rw [e1]
        simp only
        cases hd : b.drop f.cnt with
        | nil => have := congrArg List.length hd; rw [List.length_drop, List.length_nil] at this; omega
        | cons x b' =>
          simp only
          have hlen : b.length = f.cnt + 1 + b'.length := by
            have := congrArg List.length hd; rw [List.length_drop, List.length_cons] at this; omega
          have hbe : b = b.take f.cnt ++ ([x] ++ b') := by
            conv => lhs; rw [← List.take_append_drop f.cnt b, hd]
            rfl
          obtain ⟨r, f2, os2, e2, g1, g2⟩ := flushbuf_ok cfg hc f1 os _ _ x i1 (by omega)
          rw [e2]
          cases r with
          | false =>
            simp only
            exact ⟨_, _, _, rfl, by omega, fun e => by simp at g1; exact absurd e g1, fun e => by omega⟩
          | true =>
            simp only
            have i2 := g2 rfl
            have fine : ∀ f' os', WInv f' os' (splice (splice (splice c p (b.take f.cnt)) (p + (b.take f.cnt).length) [x]) (p + (b.take f.cnt).length + 1) b')
                (p + (b.take f.cnt).length + 1 + b'.length) → WInv f' os' (splice c p b) (p + b.length) := by
              intro f' os' hh
              rw [show p + (b.take f.cnt).length + 1 = p + (b.take f.cnt).length + [x].length by rfl, splice_splice, splice_splice, ← hbe] at hh
              rw [show p + b.length = p + (b.take f.cnt).length + [x].length + b'.length by rw [hl1, List.length_singleton]; omega]
              exact hh
            by_cases h2 : f2.cnt ≥ b'.length
            · rw [if_pos h2]
              obtain ⟨f3, e3, i3, -⟩ := put_ok f2 os2 _ _ b' i2 h2
              rw [e3]
              exact ⟨_, _, _, rfl, by omega, fun e => ⟨rfl, (g1 e).2⟩, fun _ => fine _ _ i3⟩
            · rw [if_neg h2]
              obtain ⟨r3, f3, os3, e3, l3, k1, k2⟩ := ih b' f2 os2 _ _ (by omega) i2
              exact ⟨r3, f3, os3, e3, by omega, fun e => k1 (g1 e).2, fun e => fine _ _ (k2 e)⟩
      · rw [if_neg h1]
        obtain ⟨f1, e1, i1, -⟩ := put_ok f os c p b h (by omega)
        rw [e1]
        exact ⟨_, _, _, rfl, by omega, fun e => ⟨rfl, e⟩, fun _ => i1⟩

theorem fwrite_ok (cfg : Cfg) (hc : 1 ≤ cfg.bufsiz) (b : Str) (esize ecount : Nat) (hb : b.length = esize * ecount)
    (f : File) (os : Os) (c : Str) (p : Nat) (h : WInv f os c p) :
    ∃ r f' os', fwrite cfg b esize ecount f os = some (r, f', os') ∧ (os.wplan = [] → (b ≠ [] → r = ecount) ∧ os'.wplan = []) ∧
      ((r = ecount ∨ b = []) → WInv f' os' (splice c p b) (p + b.length)) := by
  unfold fwrite
  by_cases h0 : b = []
  · rw [if_pos h0]
    subst h0
    exact ⟨_, _, _, rfl, fun e => ⟨by simp, e⟩, fun _ => by rw [splice_nil]; exact h⟩
  · rw [if_neg h0]
    simp only
    have key : ∃ r f' os', (if f.nbf ∨ f.lbf then fwriteChars cfg b f os else fwriteBlocks cfg (b.length + 1) b f os) = some (r, f', os') ∧
       r ≤ b.length ∧ (os.wplan = [] → r = 0 ∧ os'.wplan = []) ∧ (r = 0 → WInv f' os' (splice c p b) (p + b.length)) := by
      split
      · exact fwriteChars_ok cfg hc b f os c p h
      · exact fwriteBlocks_ok cfg hc _ b f os c p (Nat.lt_succ_self _) h
    obtain ⟨r, f', os', e, hl, g1, g2⟩ := key
    rw [e]
    simp only
    have hpos : 0 < b.length := List.length_pos_iff.2 h0
    have he : 1 ≤ esize := by
      rcases Nat.eq_zero_or_pos esize with h | h
      · subst h; simp at hb; exact absurd hb h0
      · exact h
    have hec : 1 ≤ ecount := by
      rcases Nat.eq_zero_or_pos ecount with h | h
      · subst h; simp at hb; exact absurd hb h0
      · exact h
    refine ⟨_, _, _, rfl, fun e => ⟨fun _ => ?_, (g1 e).2⟩, fun hr => g2 ?_⟩
    · rw [(g1 e).1, Nat.div_eq_of_lt (by omega)]; simp
    · rcases hr with hr | hr
      · rcases Nat.eq_zero_or_pos r with hz | hz
        · exact hz
        · have : 1 ≤ (r + esize - 1) / esize := (Nat.le_div_iff_mul_le (by omega)).2 (by omega)
          omega
      · exact absurd hr h0

end Smlr.Stdio
