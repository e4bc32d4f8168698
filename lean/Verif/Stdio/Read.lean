import Verif.Stdio.Spec
set_option autoImplicit false
namespace Smlr.Stdio

/-- abstract stream: contents of the file, what will be read next, position -/
structure Abs where
  content : Str
  rest : Str
  tell : Int

def Abs.adv (a : Abs) (k : Nat) : Abs := ⟨a.content, a.rest.drop k, a.tell + k⟩
def Abs.push (a : Abs) (c : UInt8) : Abs := ⟨a.content, c :: a.rest, a.tell - 1⟩
def Abs.at (c : Str) (p : Nat) : Abs := ⟨c, c.drop p, p⟩

/-- stream that is being read, or was neither read nor written since it was positioned -/
structure RInv (f : File) (os : Os) (a : Abs) : Prop where
  wr : f.wr = false
  ro : f.rwok = false → f.rd = true
  neutral : f.rd = false → f.ptr = 0 ∧ f.cnt = 0
  fresh : f.rd = false → f.eof = false ∧ f.ungot = false
  append : f.append = false ∧ os.append = false
  data : os.data = a.content
  nobuf : f.hasBuf = false → f.ptr = 0 ∧ f.cnt = 0 ∧ f.buf = []
  buf : f.hasBuf = true → f.buf.length = f.bufsz ∧ 1 ≤ f.bufsz
  fit : f.ptr + f.cnt ≤ f.buf.length
  rest : (f.buf.drop f.ptr).take f.cnt ++ os.data.drop os.pos = a.rest
  tell : (os.pos : Int) - f.cnt = a.tell
  eof : f.eof = true → a.rest = []
  clean : f.ungot = false → f.ptr + f.cnt ≤ os.pos ∧ f.buf.take (f.ptr + f.cnt) = (os.data.drop (os.pos - (f.ptr + f.cnt))).take (f.ptr + f.cnt)

theorem adv_zero (a : Abs) : a.adv 0 = a := by
  obtain ⟨c, r, t⟩ := a; simp [Abs.adv]

theorem adv_adv (a : Abs) (j k : Nat) : (a.adv j).adv k = a.adv (j + k) := by
  simp only [Abs.adv, List.drop_drop, Abs.mk.injEq, true_and]
  omega

/-- what a read delivers -/
theorem read_cases (os : Os) (n : Nat) (hn : 1 ≤ n) :
    (∃ os', os.read n = (none, os') ∧ none ∈ os.rplan ∧ os'.data = os.data ∧ os'.pos = os.pos ∧ os'.append = os.append ∧ os'.rplan ⊆ os.rplan) ∨
    (∃ k os', 1 ≤ k ∧ k ≤ n ∧ os.read n = (some ((os.data.drop os.pos).take k), os') ∧ os'.data = os.data ∧
      os'.pos = os.pos + ((os.data.drop os.pos).take k).length ∧ os'.append = os.append ∧ os'.rplan ⊆ os.rplan) := by
  unfold Os.read
  split
  · rename_i h
    right
    refine ⟨n, _, hn, Nat.le_refl _, rfl, rfl, rfl, rfl, ?_⟩
    simp
  · rename_i pl h
    left
    refine ⟨_, rfl, by simp [h], rfl, rfl, rfl, ?_⟩
    simp [h]
  · rename_i k pl h
    right
    refine ⟨min n (k + 1), _, by omega, by omega, rfl, rfl, rfl, rfl, ?_⟩
    simp [h]

theorem getBuf_ok (cfg : Cfg) (hc : 1 ≤ cfg.bufsiz) (f : File)
    (hb : f.hasBuf = true → f.buf.length = f.bufsz ∧ 1 ≤ f.bufsz) :
    ∃ buf bufsz lbf ptr, getBuf cfg f = { f with hasBuf := true, buf := buf, bufsz := bufsz, lbf := lbf, ptr := ptr } ∧
      buf.length = bufsz ∧ 1 ≤ bufsz ∧ (f.hasBuf = true → ptr = f.ptr ∧ buf = f.buf ∧ bufsz = f.bufsz) ∧ (f.hasBuf = false → ptr = 0) := by
  unfold getBuf
  cases hh : f.hasBuf with
  | true =>
    obtain ⟨h1, h2⟩ := hb hh
    refine ⟨f.buf, f.bufsz, f.lbf, f.ptr, ?_, h1, h2, fun _ => ⟨rfl, rfl, rfl⟩, fun h => by cases h⟩
    obtain ⟨_, _, _, _, _, _, _, _, _, hb', _, _, _, _⟩ := f
    simp only at hh
    subst hh
    rfl
  | false =>
    by_cases h2 : (!f.nbf && cfg.mallocOk) = true
    · refine ⟨List.replicate cfg.bufsiz 0, cfg.bufsiz, f.lbf, 0, ?_, by simp, hc, by simp, by simp⟩
      rw [if_neg (by simp), if_pos h2]
    · refine ⟨[0], 1, false, 0, ?_, rfl, Nat.le_refl _, by simp, by simp⟩
      rw [if_neg (by simp), if_neg h2]

theorem fillbuf_ok (cfg : Cfg) (hc : 1 ≤ cfg.bufsiz) (f : File) (os : Os) (a : Abs) (h : RInv f os a) (h0 : f.cnt = 0) :
    ∃ r f' os', fillbuf cfg f os = some (r, f', os') ∧ os'.rplan ⊆ os.rplan ∧
      (match r with
       | some c => a.rest.head? = some c ∧ RInv f' os' (a.adv 1) ∧ f'.ptr ≠ 0
       | none => RInv f' os' a ∧ (a.rest = [] ∨ (none ∈ os.rplan ∧ f'.err = true))) := by
  unfold fillbuf
  rw [if_neg (by simp [h.wr])]
  have hrest : os.data.drop os.pos = a.rest := by
    have := h.rest
    rw [h0] at this
    simpa using this
  have htell : (os.pos : Int) = a.tell := by have := h.tell; rw [h0] at this; simpa using this
  by_cases he : f.eof = true
  · rw [if_pos he]
    exact ⟨none, f, os, rfl, fun _ h => h, h, Or.inl (h.eof he)⟩
  · rw [if_neg he]
    obtain ⟨buf, bufsz, lbf, ptr, e1, hl, hpos, -, -⟩ := getBuf_ok cfg hc { f with rd := true } h.buf
    have he' : f.eof = false := by simpa using he
    rw [e1]
    simp only
    rcases read_cases os bufsz hpos with ⟨os', e2, hn, hd, hp, hap, hpl⟩ | ⟨k, os', hk1, hk2, e2, hd, hp, hap, hpl⟩
    · rw [e2]
      simp only
      refine ⟨_, _, _, rfl, hpl, ?_, Or.inr ⟨hn, rfl⟩⟩
      refine ⟨h.wr, fun _ => rfl, fun h => (by cases h), fun h => (by cases h), ⟨h.append.1, by rw [hap]; exact h.append.2⟩, by rw [hd]; exact h.data, fun h => (by cases h),
        fun _ => ⟨hl, hpos⟩, by simp, by simp [hd, hp, hrest], ?_, fun e => absurd e he, fun _ => by simp⟩
      simp only [hp]; omega
    · rw [e2]
      cases hb : (os.data.drop os.pos).take k with
      | nil =>
        simp only
        have hnil : a.rest = [] := by
          rw [← hrest]
          rcases List.take_eq_nil_iff.1 hb with h | h
          · omega
          · exact h
        rw [hb] at hp
        refine ⟨_, _, _, rfl, hpl, ?_, Or.inl hnil⟩
        refine ⟨h.wr, fun _ => rfl, fun h => (by cases h), fun h => (by cases h), ⟨h.append.1, by rw [hap]; exact h.append.2⟩, by rw [hd]; exact h.data, fun h => (by cases h),
          fun _ => ⟨hl, hpos⟩, by simp, ?_, ?_, fun _ => hnil, fun _ => by simp⟩
        · simp only [hd, hp, List.length_nil, Nat.add_zero, hrest]; simp
        · simp only [hp, List.length_nil]; omega
      | cons b bs =>
        simp only
        have hle : (b :: bs).length ≤ buf.length := by
          rw [← hb, List.length_take, hl]; omega
        rw [if_pos hle]
        have hlen : bs.length + 1 ≤ k ∧ bs.length + 1 = min k (os.data.drop os.pos).length := by
          have := congrArg List.length hb
          rw [List.length_take, List.length_cons] at this
          omega
        have hsplit : os.data.drop os.pos = (b :: bs) ++ os.data.drop (os.pos + (b :: bs).length) := by
          have h3 : os.data.drop (os.pos + (b :: bs).length) = (os.data.drop os.pos).drop k := by
            rw [List.drop_drop]
            rw [List.length_drop] at hlen
            by_cases hkk : k ≤ os.data.length - os.pos
            · rw [show (b :: bs).length = k by rw [List.length_cons]; omega]
            · rw [List.drop_of_length_le (by rw [List.length_cons]; omega), List.drop_of_length_le (by omega)]
          rw [h3, ← hb]; exact (List.take_append_drop _ _).symm
        rw [hb] at hp
        refine ⟨_, _, _, rfl, hpl, ?_, ?_, by simp⟩
        · rw [← hrest, hsplit]; rfl
        · have hbl : (b :: bs ++ buf.drop (b :: bs).length).length = bufsz := by
            rw [List.length_append, List.length_drop]; omega
          refine ⟨h.wr, fun _ => rfl, fun h => (by cases h), fun h => (by cases h), ⟨h.append.1, by rw [hap]; exact h.append.2⟩, by rw [hd]; exact h.data, fun h => (by cases h),
            fun _ => ⟨hbl, hpos⟩, ?_, ?_, ?_, fun e => absurd e he, ?_⟩
          · simp only [hbl]
            rw [List.length_cons] at hle; omega
          · simp only [hd, hp, Abs.adv]
            rw [← hrest]
            conv => rhs; rw [hsplit]
            simp
          · simp only [hp, Abs.adv, List.length_cons]; omega
          · intro _
            refine ⟨by simp only [hp, List.length_cons]; omega, ?_⟩
            simp only [hd, hp, List.length_cons]
            rw [show os.pos + (bs.length + 1) - (1 + bs.length) = os.pos by omega, hsplit, Nat.add_comm 1 bs.length]
            rw [List.take_append_of_le_length (by simp), List.take_append_of_le_length (by simp)]

theorem fgetc_ok (cfg : Cfg) (hc : 1 ≤ cfg.bufsiz) (f : File) (os : Os) (a : Abs) (h : RInv f os a) :
    ∃ r f' os', fgetc cfg f os = some (r, f', os') ∧ os'.rplan ⊆ os.rplan ∧
      (match r with
       | some c => a.rest.head? = some c ∧ RInv f' os' (a.adv 1) ∧ f'.ptr ≠ 0
       | none => RInv f' os' a ∧ (a.rest = [] ∨ (none ∈ os.rplan ∧ f'.err = true))) := by
  unfold fgetc
  by_cases h0 : f.cnt = 0
  · rw [if_neg (by simp [h0])]
    exact fillbuf_ok cfg hc f os a h h0
  · rw [if_pos h0]
    have hfit := h.fit
    have hlt : f.ptr < f.buf.length := by omega
    rw [List.getElem?_eq_getElem hlt]
    simp only
    have hdrop : f.buf.drop f.ptr = f.buf[f.ptr] :: f.buf.drop (f.ptr + 1) := List.drop_eq_getElem_cons hlt
    obtain ⟨n, hn⟩ : ∃ n, f.cnt = n + 1 := ⟨f.cnt - 1, by omega⟩
    have hr := h.rest
    rw [hdrop, hn, List.take_succ_cons, List.cons_append] at hr
    have ht := h.tell
    refine ⟨_, _, _, rfl, fun _ h => h, by rw [← hr]; rfl, ?_, by simp⟩
    refine ⟨h.wr, h.ro, fun e => absurd (h.neutral e).2 h0, fun e => absurd (h.neutral e).2 h0, h.append, h.data, fun e => absurd (h.nobuf e).2.1 h0, h.buf, ?_, ?_, ?_, ?_, ?_⟩
    · simp only; omega
    · simp only [Abs.adv, ← hr, hn]; simp
    · simp only [Abs.adv]; omega
    · intro e; have := h.eof e; rw [← hr] at this; cases this
    · intro e
      have := h.clean e
      simp only
      rw [show f.ptr + 1 + (f.cnt - 1) = f.ptr + f.cnt by omega]
      exact this

theorem take_ok (f : File) (os : Os) (a : Abs) (h : RInv f os a) (n : Nat) (hn : n ≤ f.cnt) :
    ∃ f', take f n = some (a.rest.take n, f') ∧ RInv f' os (a.adv n) ∧ f'.cnt = f.cnt - n ∧ (0 < n → f'.ptr ≠ 0) ∧ (a.rest.take n).length = n := by
  have hfit := h.fit
  unfold take
  rw [if_pos (by omega)]
  have hr := h.rest
  have hlen : ((f.buf.drop f.ptr).take f.cnt).length = f.cnt := by
    rw [List.length_take, List.length_drop]; omega
  have e : (f.buf.drop f.ptr).take n = a.rest.take n := by
    rw [← hr, List.take_append_of_le_length (by omega), List.take_take, Nat.min_eq_left hn]
  have ht := h.tell
  refine ⟨_, by rw [e], ?_, rfl, fun h => by simp only; omega, ?_⟩
  · refine ⟨h.wr, h.ro, fun e => ?_, h.fresh, h.append, h.data, fun e => ?_, h.buf, ?_, ?_, ?_, ?_, ?_⟩
    · have := h.neutral e; simp only; omega
    · have := h.nobuf e; simp only; exact ⟨by omega, by omega, this.2.2⟩
    · simp only; omega
    · simp only [Abs.adv, ← hr]
      rw [List.drop_append_of_le_length (by omega), List.drop_take, List.drop_drop]
    · simp only [Abs.adv]; omega
    · intro e; simp only [Abs.adv]; rw [h.eof e]; simp
    · intro e
      have := h.clean e
      simp only
      rw [show f.ptr + n + (f.cnt - n) = f.ptr + f.cnt by omega]
      exact this
  · rw [← e, List.length_take, List.length_drop]; omega

theorem rest_len (f : File) (os : Os) (a : Abs) (h : RInv f os a) : f.cnt ≤ a.rest.length := by
  rw [← h.rest, List.length_append, List.length_take, List.length_drop]
  have := h.fit
  omega

theorem freadLoop_ok (cfg : Cfg) (hc : 1 ≤ cfg.bufsiz) : ∀ (fuel size : Nat) (acc : Str) (f : File) (os : Os) (a : Abs),
    size < fuel → RInv f os a →
    ∃ k f' os', freadLoop cfg fuel size acc f os = some ((acc ++ a.rest.take k, size - k), f', os') ∧ k ≤ size ∧ k ≤ a.rest.length ∧
      os'.rplan ⊆ os.rplan ∧ RInv f' os' (a.adv k) ∧ (k = size → 0 < size → f'.ptr ≠ 0) ∧
      (k = min size a.rest.length ∨ (none ∈ os.rplan ∧ f'.err = true)) := by
  intro fuel
  induction fuel with
  | zero => intro size acc f os a h; omega
  | succ fuel ih =>
    intro size acc f os a hfu h
    unfold freadLoop
    by_cases h0 : size = 0
    · rw [if_pos h0]
      subst h0
      exact ⟨0, f, os, by simp, by omega, by omega, fun _ h => h, by rw [adv_zero]; exact h, by omega, by omega⟩
    · rw [if_neg h0]
      have hrl := rest_len f os a h
      by_cases h1 : f.cnt < size
      · rw [if_pos h1]
        obtain ⟨f1, e1, i1, c1, -, l1⟩ := take_ok f os a h f.cnt (Nat.le_refl _)
        rw [e1]
        simp only [l1]
        obtain ⟨r, f2, os2, e2, hs, hr⟩ := fillbuf_ok cfg hc f1 os (a.adv f.cnt) i1 (by omega)
        rw [e2]
        cases r with
        | none =>
          simp only at hr ⊢
          refine ⟨f.cnt, f2, os2, rfl, by omega, hrl, hs, hr.1, fun e => by omega, ?_⟩
          rcases hr.2 with h | h
          · left
            have : a.rest.length ≤ f.cnt := by
              have := congrArg List.length h
              simp only [Abs.adv, List.length_drop, List.length_nil] at this
              omega
            omega
          · exact Or.inr h
        | some c =>
          simp only at hr ⊢
          obtain ⟨hh, i2, p2⟩ := hr
          have hcons : ∃ t, (a.adv f.cnt).rest = c :: t := by
            cases hx : (a.adv f.cnt).rest with
            | nil => rw [hx] at hh; cases hh
            | cons x t => rw [hx] at hh; simp only [List.head?_cons, Option.some.injEq] at hh; exact ⟨t, by rw [hh]⟩
          obtain ⟨t, hcons⟩ := hcons
          simp only [Abs.adv] at hcons
          have hlt : f.cnt + 1 ≤ a.rest.length := by
            have := congrArg List.length hcons
            rw [List.length_drop, List.length_cons] at this
            omega
          have hacc : ∀ k, acc ++ a.rest.take f.cnt ++ [c] ++ ((a.adv f.cnt).adv 1).rest.take k = acc ++ a.rest.take (f.cnt + 1 + k) := by
            intro k
            rw [adv_adv]
            simp only [Abs.adv]
            have : a.rest.take (f.cnt + 1) = a.rest.take f.cnt ++ [c] := by
              rw [List.take_add, hcons]; rfl
            rw [List.take_add, this]
            simp
          by_cases h2 : f2.cnt ≥ size - f.cnt - 1
          · rw [if_pos h2]
            obtain ⟨f3, e3, i3, c3, p3, l3⟩ := take_ok f2 os2 _ i2 (size - f.cnt - 1) h2
            rw [e3]
            have hrl2 := rest_len f2 os2 _ i2
            simp only [Abs.adv, List.length_drop] at hrl2
            refine ⟨size, f3, os2, ?_, Nat.le_refl _, by omega, hs, ?_, fun _ _ => ?_, Or.inl (by omega)⟩
            · simp only
              rw [hacc, show f.cnt + 1 + (size - f.cnt - 1) = size by omega, Nat.sub_self]
            · have := i3; rw [adv_adv, adv_adv, show f.cnt + (1 + (size - f.cnt - 1)) = size by omega] at this; exact this
            · by_cases h3 : 0 < size - f.cnt - 1
              · exact p3 h3
              · have h4 : size - f.cnt - 1 = 0 := by omega
                rw [h4] at e3
                unfold take at e3
                split at e3
                · simp only [Option.some.injEq, Prod.mk.injEq] at e3
                  rw [← e3.2]; exact p2
                · cases e3
          · rw [if_neg h2]
            obtain ⟨k, f3, os3, e3, k1, k2, hs3, i3, p3, m3⟩ := ih (size - f.cnt - 1) (acc ++ a.rest.take f.cnt ++ [c]) f2 os2 _ (by omega) i2
            rw [e3, hacc]
            refine ⟨f.cnt + 1 + k, f3, os3, by rw [show size - f.cnt - 1 - k = size - (f.cnt + 1 + k) by omega], by omega, ?_, fun x hx => hs (hs3 hx), ?_, fun e1 e2 => ?_, ?_⟩
            · rw [adv_adv] at k2; simp only [Abs.adv, List.length_drop] at k2; omega
            · rw [adv_adv, adv_adv, ← Nat.add_assoc] at i3; exact i3
            · exact p3 (by omega) (by omega)
            · rw [adv_adv] at m3
              simp only [Abs.adv, List.length_drop] at m3
              rcases m3 with m | m
              · left; omega
              · exact Or.inr ⟨hs m.1, m.2⟩
      · rw [if_neg h1]
        obtain ⟨f1, e1, i1, c1, p1, l1⟩ := take_ok f os a h size (by omega)
        rw [e1]
        exact ⟨size, f1, os, by simp, Nat.le_refl _, by omega, fun _ h => h, i1, fun _ => p1, Or.inl (by omega)⟩

theorem fgetsLoop_ok (cfg : Cfg) (hc : 1 ≤ cfg.bufsiz) : ∀ (n : Nat) (acc : Str) (f : File) (os : Os) (a : Abs), RInv f os a →
    ∃ k e f' os', fgetsLoop cfg n acc f os = some ((acc ++ a.rest.take k, e), f', os') ∧ k ≤ (upToNl (a.rest.take n)).length ∧
      os'.rplan ⊆ os.rplan ∧ RInv f' os' (a.adv k) ∧ (e = false → 0 < n → f'.ptr ≠ 0) ∧
      (e = false → k = (upToNl (a.rest.take n)).length ∧ (0 < n → 0 < k) ∧ (0x0A ∈ a.rest.take k ∨ k = n)) ∧
      (e = true → 0x0A ∉ a.rest.take k ∧ k < n ∧ (k = a.rest.length ∨ (none ∈ os.rplan ∧ f'.err = true))) := by
  intro n
  induction n with
  | zero =>
    intro acc f os a h
    exact ⟨0, false, f, os, by simp [fgetsLoop], by simp, fun _ h => h, by rw [adv_zero]; exact h, fun _ h => by omega, by simp [upToNl], by simp⟩
  | succ n ih =>
    intro acc f os a h
    unfold fgetsLoop
    obtain ⟨r, f1, os1, e1, hs1, hr⟩ := fgetc_ok cfg hc f os a h
    rw [e1]
    cases r with
    | none =>
      simp only at hr ⊢
      refine ⟨0, true, f1, os1, by simp, by simp, hs1, by rw [adv_zero]; exact hr.1, by simp, by simp, fun _ => ?_⟩
      refine ⟨by simp, by omega, ?_⟩
      rcases hr.2 with h | h
      · left; rw [h]; simp
      · exact Or.inr h
    | some c =>
      simp only at hr ⊢
      obtain ⟨hh, i1, p1⟩ := hr
      obtain ⟨t, hcons⟩ : ∃ t, a.rest = c :: t := by
        cases hx : a.rest with
        | nil => rw [hx] at hh; cases hh
        | cons x t => rw [hx] at hh; simp only [List.head?_cons, Option.some.injEq] at hh; exact ⟨t, by rw [hh]⟩
      by_cases hnl : c = 0x0A
      · rw [if_pos hnl]
        refine ⟨1, false, f1, os1, by simp [hcons], ?_, hs1, i1, fun _ _ => p1, fun _ => ⟨?_, by omega, Or.inl ?_⟩, by simp⟩
        · rw [hcons, List.take_succ_cons, upToNl, if_pos hnl]; simp
        · rw [hcons, List.take_succ_cons, upToNl, if_pos hnl]; rfl
        · rw [hcons, hnl]; simp
      · rw [if_neg hnl]
        obtain ⟨k, e, f2, os2, e2, k1, hs2, i2, p2, m2, m3⟩ := ih (acc ++ [c]) f1 os1 _ i1
        have hadv : (a.adv 1).rest = t := by simp [Abs.adv, hcons]
        have hln : (upToNl (a.rest.take (n + 1))).length = (upToNl (t.take n)).length + 1 := by
          rw [hcons, List.take_succ_cons, upToNl, if_neg hnl]; simp
        rw [hadv] at k1 m2 m3
        rw [e2, hadv]
        refine ⟨k + 1, e, f2, os2, by simp [hcons], by omega, fun x hx => hs1 (hs2 hx), ?_, ?_, ?_, ?_⟩
        · rw [adv_adv, Nat.add_comm] at i2; exact i2
        · intro he _
          by_cases hn : 0 < n
          · exact p2 he hn
          · have hn0 : n = 0 := by omega
            subst hn0
            simp only [fgetsLoop, Option.some.injEq, Prod.mk.injEq] at e2
            rw [← e2.2.1]; exact p1
        · intro he
          obtain ⟨q1, q2, q3⟩ := m2 he
          refine ⟨by omega, by omega, ?_⟩
          rcases q3 with q | q
          · left; rw [hcons, List.take_succ_cons]; exact List.mem_cons_of_mem _ q
          · right; omega
        · intro he
          obtain ⟨q1, q2, q3⟩ := m3 he
          refine ⟨?_, by omega, ?_⟩
          · rw [hcons, List.take_succ_cons]
            intro hm
            rcases List.mem_cons.1 hm with hm | hm
            · exact hnl hm.symm
            · exact q1 hm
          · rcases q3 with m | m
            · left; rw [hcons, List.length_cons]; omega
            · exact Or.inr ⟨hs1 m.1, m.2⟩

theorem ungetc_ok (c : UInt8) (f : File) (os : Os) (a : Abs) (h : RInv f os a) :
    (f.ptr = 0 ∧ ungetc c f os = some (false, f, os)) ∨
    (f.ptr ≠ 0 ∧ ∃ f', ungetc c f os = some (true, f', os) ∧ RInv f' os (a.push c)) := by
  unfold ungetc
  by_cases h0 : f.ptr = 0
  · left; exact ⟨h0, by rw [if_pos h0]⟩
  · right
    refine ⟨h0, ?_⟩
    rw [if_neg h0]
    have hfit := h.fit
    have hlt : f.ptr - 1 < f.buf.length := by omega
    rw [List.getElem?_eq_getElem hlt]
    simp only
    have ht := h.tell
    by_cases hb : f.buf[f.ptr - 1] ≠ c
    · rw [if_pos hb]
      refine ⟨_, rfl, ?_⟩
      refine ⟨h.wr, h.ro, fun e => absurd (h.neutral e).1 h0, fun e => absurd (h.neutral e).1 h0, h.append, h.data, fun e => absurd (h.nobuf e).1 h0, fun e => ?_, ?_, ?_, ?_, ?_, ?_⟩
      · simp only [List.length_set]; exact h.buf e
      · simp only [List.length_set]; omega
      · simp only [Abs.push, ← h.rest]
        have : (f.buf.set (f.ptr - 1) c).drop (f.ptr - 1) = c :: f.buf.drop f.ptr := by
          rw [List.drop_eq_getElem_cons (by rw [List.length_set]; exact hlt)]
          rw [List.getElem_set_self, show f.ptr - 1 + 1 = f.ptr by omega, List.drop_set_of_lt (by omega)]
        rw [this, List.take_succ_cons, List.cons_append]
      · simp only [Abs.push]; omega
      · simp
      · simp
    · rw [if_neg hb]
      have hbe : f.buf[f.ptr - 1] = c := by simpa using hb
      refine ⟨_, rfl, ?_⟩
      refine ⟨h.wr, h.ro, fun e => absurd (h.neutral e).1 h0, fun e => absurd (h.neutral e).1 h0, h.append, h.data, fun e => absurd (h.nobuf e).1 h0, h.buf, ?_, ?_, ?_, ?_, ?_⟩
      · simp only; omega
      · simp only [Abs.push, ← h.rest]
        rw [List.drop_eq_getElem_cons hlt, show f.ptr - 1 + 1 = f.ptr by omega, hbe, List.take_succ_cons, List.cons_append]
      · simp only [Abs.push]; omega
      · simp
      · intro e
        have := h.clean e
        simp only
        rw [show f.ptr - 1 + (f.cnt + 1) = f.ptr + f.cnt by omega]
        exact this

end Smlr.Stdio
