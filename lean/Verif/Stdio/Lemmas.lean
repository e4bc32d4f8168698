import Verif.Stdio.Seek
set_option autoImplicit false
namespace Smlr.Stdio

theorem count_eq (es ec k : Nat) (he : 0 < es) (hk : k ≤ es * ec) : ec - (es * ec - k + es - 1) / es = k / es := by
  have hd := Nat.div_add_mod k es
  have hm := Nat.mod_lt k he
  generalize hq : k / es = q at *
  generalize hr : k % es = r at *
  have hqe : q ≤ ec := by
    rw [← hq]; exact Nat.div_le_of_le_mul hk
  have e1 : es * ec = es * q + es * (ec - q) := by rw [← Nat.mul_add]; congr 1; omega
  have e2 : es * ec - k + es - 1 = es * (ec - q) + (es - 1 - r) := by
    rcases Nat.eq_zero_or_pos (ec - q) with h0 | h0
    · rw [h0] at e1 ⊢; omega
    · have : es ≤ es * (ec - q) := Nat.le_mul_of_pos_right _ h0
      omega
  rw [e2, Nat.mul_add_div he, Nat.div_eq_of_lt (by omega)]
  omega

theorem rstep_ok (cfg : Cfg) (hc : 1 ≤ cfg.bufsiz) (o : ROp) (f : File) (os : Os) (a : Abs) (p : Bool) (h : RInv f os a) (hp : p = true → f.ptr ≠ 0) :
    ∃ u f' os' a' p', rstep cfg o f os = some (u, f', os') ∧ RInv f' os' a' ∧ a'.content = a.content ∧ os'.rplan ⊆ os.rplan ∧
      (p' = true → f'.ptr ≠ 0) ∧ RStep (none ∈ os.rplan) a.rest p o u a'.rest p' := by
  cases o with
  | getc =>
    obtain ⟨r, f', os', e, hs, hr⟩ := fgetc_ok cfg hc f os a h
    cases r with
    | some c =>
      obtain ⟨h1, h2, h3⟩ := hr
      obtain ⟨tl, ht⟩ : ∃ tl, a.rest = c :: tl := by
        cases hh : a.rest with
        | nil => rw [hh] at h1; cases h1
        | cons x tl => rw [hh] at h1; simp only [List.head?_cons, Option.some.injEq] at h1; exact ⟨tl, by rw [h1]⟩
      refine ⟨_, f', os', a.adv 1, true, by simp [rstep, e]; rfl, h2, rfl, hs, fun _ => h3, ?_⟩
      have : (a.adv 1).rest = tl := by simp [Abs.adv, ht]
      rw [this, ht]
      exact .getc c tl p
    | none =>
      obtain ⟨h1, h2⟩ := hr
      refine ⟨_, f', os', a, false, by simp [rstep, e]; rfl, h1, rfl, hs, fun e => (by cases e), ?_⟩
      rcases h2 with h2 | h2
      · rw [h2]; exact .getcEnd p
      · exact .getcErr _ p h2.1
  | read es ec =>
    by_cases h0 : es * ec = 0
    · refine ⟨_, f, os, a, p, ?_, h, rfl, fun _ h => h, hp, .read0 es ec _ p h0⟩
      simp [rstep, fread, h0]
    · have hes : 0 < es := by
        rcases Nat.eq_zero_or_pos es with e | e
        · rw [e] at h0; simp at h0
        · exact e
      obtain ⟨k, f', os', e, hk1, hk2, hs, hi, hpt, hm⟩ := freadLoop_ok cfg hc (es * ec + 1) (es * ec) [] f os a (by omega) h
      rw [List.nil_append] at e
      have e' : rstep cfg (.read es ec) f os = some (.data (a.rest.take k) (k / es), f', os') := by
        have := count_eq es ec k hes hk1
        simp [rstep, fread, h0, e, this]
      by_cases hfull : k = es * ec
      · refine ⟨_, f', os', _, true, e', hi, rfl, hs, fun _ => hpt hfull (by omega), ?_⟩
        have hd : k / es = ec := by rw [hfull]; exact Nat.mul_div_cancel_left _ hes
        have := RStep.read (io := none ∈ os.rplan) es ec a.rest p (by omega) (by omega)
        rw [hd, hfull]; exact this
      · refine ⟨_, f', os', _, false, e', hi, rfl, hs, fun e => (by cases e), ?_⟩
        rcases hm with hm | hm
        · have hk : k = a.rest.length := by omega
          have := RStep.readEnd (io := none ∈ os.rplan) es ec a.rest p (by omega)
          simp only [Abs.adv]
          rw [hk, List.take_length, List.drop_length]
          exact this
        · exact .readErr es ec k _ p hm.1 (by omega) (by omega)
  | gets n =>
    obtain ⟨k, e, f', os', e1, hk, hs, hi, hpt, hF, hT⟩ := fgetsLoop_ok cfg hc (n - 1) [] f os a h
    rw [List.nil_append] at e1
    by_cases hn : n ≤ 1
    · have hz : n - 1 = 0 := by omega
      rw [hz] at e1
      simp only [fgetsLoop, Option.some.injEq, Prod.mk.injEq] at e1
      obtain ⟨⟨e2, e3⟩, e4, e5⟩ := e1
      refine ⟨_, f, os, a, p, ?_, h, rfl, fun _ h => h, hp, .gets1 n _ p hn⟩
      simp [rstep, fgets, hz, fgetsLoop]
    · have hkl : k ≤ a.rest.length := by
        refine Nat.le_trans hk ?_
        have : ∀ s : Str, (upToNl s).length ≤ s.length := by
          intro s
          induction s with
          | nil => simp [upToNl]
          | cons c s ih => unfold upToNl; split <;> simp <;> omega
        refine Nat.le_trans (this _) ?_
        rw [List.length_take]; omega
      cases e with
      | false =>
        obtain ⟨h1, h2, h3⟩ := hF rfl
        have htk : a.rest.take k = upToNl (a.rest.take (n - 1)) := by
          have : ∀ s : Str, s.take (upToNl s).length = upToNl s := by
            intro s
            induction s with
            | nil => simp [upToNl]
            | cons c s ih => unfold upToNl; split <;> simp [ih]
          have h4 := this (a.rest.take (n - 1))
          rw [List.take_take, ← h1, Nat.min_eq_left] at h4
          · exact h4
          · refine Nat.le_trans (Nat.le_of_eq h1) ?_
            have : ∀ s : Str, (upToNl s).length ≤ s.length := by
              intro s
              induction s with
              | nil => simp [upToNl]
              | cons c s ih => unfold upToNl; split <;> simp <;> omega
            refine Nat.le_trans (this _) ?_
            rw [List.length_take]; omega
        refine ⟨.line (some (a.rest.take k)), f', os', _, true, ?_, hi, rfl, hs, fun _ => hpt rfl (by omega), ?_⟩
        · simp [rstep, fgets, e1]
        · have := RStep.gets (io := none ∈ os.rplan) n a.rest p (by omega) (by
            rcases h3 with h3 | h3
            · exact Or.inl (List.mem_of_mem_take h3)
            · right; omega)
          rw [htk]
          simp only [Abs.adv]
          rw [h1]
          exact this
      | true =>
        obtain ⟨h1, h2, h3⟩ := hT rfl
        have e2 : rstep cfg (.gets n) f os = some (.line (if k = 0 then none else some (a.rest.take k)), f', os') := by
          have hk0 : a.rest.take k = [] ↔ k = 0 := by
            rw [← List.length_eq_zero_iff, List.length_take]; omega
          by_cases hkz : k = 0
          · simp [rstep, fgets, e1, hkz]
          · have : a.rest.take k ≠ [] := fun e => hkz (hk0.1 e)
            simp only [rstep, fgets, e1, Option.map_some]
            rw [if_neg (by simp [this]), if_neg hkz]
        refine ⟨_, f', os', _, false, e2, hi, rfl, hs, fun e => (by cases e), ?_⟩
        rcases h3 with h3 | h3
        · have := RStep.getsEnd (io := none ∈ os.rplan) n a.rest p (by omega) (by
            rw [h3, List.take_length] at h1; exact h1)
          simp only [Abs.adv]
          rw [h3, List.take_length, List.drop_length]
          have hz : (a.rest.length = 0) = (a.rest = []) := by simp
          simp only [hz]
          exact this
        · exact .getsErr n k _ p h3.1 (by omega) (by omega) h1
  | ungetc c =>
    rcases ungetc_ok c f os a h with ⟨h1, h2⟩ | ⟨h1, f', h2, h3⟩
    · refine ⟨_, f, os, a, false, by simp [rstep, h2]; rfl, h, rfl, fun _ h => h, fun e => (by cases e), ?_⟩
      cases p with
      | true => exact absurd h1 (hp rfl)
      | false => exact .pushFail c _
    · refine ⟨_, f', os, a.push c, false, by simp [rstep, h2]; rfl, h3, rfl, fun _ h => h, fun e => (by cases e), ?_⟩
      exact .push c _ p

theorem RStep.mono {io io' : Prop} (hi : io → io') {r p o u r' p'} (h : RStep io r p o u r' p') : RStep io' r p o u r' p' := by
  cases h with
  | getc => exact .getc ..
  | getcEnd => exact .getcEnd ..
  | getcErr _ _ h => exact .getcErr _ _ (hi h)
  | read0 _ _ _ _ h => exact .read0 _ _ _ _ h
  | read _ _ _ _ h1 h2 => exact .read _ _ _ _ h1 h2
  | readEnd _ _ _ _ h => exact .readEnd _ _ _ _ h
  | readErr _ _ _ _ _ h h1 h2 => exact .readErr _ _ _ _ _ (hi h) h1 h2
  | gets1 _ _ _ h => exact .gets1 _ _ _ h
  | gets _ _ _ h1 h2 => exact .gets _ _ _ h1 h2
  | getsEnd _ _ _ h1 h2 => exact .getsEnd _ _ _ h1 h2
  | getsErr _ _ _ _ h h1 h2 h3 => exact .getsErr _ _ _ _ (hi h) h1 h2 h3
  | push => exact .push ..
  | pushFail => exact .pushFail ..

theorem RTrace.mono {io io' : Prop} (hi : io → io') {r p o u r'} (h : RTrace io r p o u r') : RTrace io' r p o u r' := by
  induction h with
  | nil => exact .nil ..
  | cons h _ ih => exact .cons (h.mono hi) ih

theorem rrun_ok (cfg : Cfg) (hc : 1 ≤ cfg.bufsiz) : ∀ (ops : List ROp) (f : File) (os : Os) (a : Abs) (p : Bool), RInv f os a → (p = true → f.ptr ≠ 0) →
    ∃ us f' os' r', rrun cfg ops f os = some (us, f', os') ∧ os'.data = a.content ∧ RTrace (none ∈ os.rplan) a.rest p ops us r' := by
  intro ops
  induction ops with
  | nil => intro f os a p h hp; exact ⟨[], f, os, a.rest, rfl, h.data, .nil ..⟩
  | cons o ops ih =>
    intro f os a p h hp
    obtain ⟨u, f1, os1, a1, p1, e1, i1, ct, hs, hp1, st⟩ := rstep_ok cfg hc o f os a p h hp
    obtain ⟨us, f2, os2, r2, e2, hd, tr⟩ := ih f1 os1 a1 p1 i1 hp1
    refine ⟨u :: us, f2, os2, r2, by simp [rrun, e1, e2], by rw [hd, ct], .cons st (tr.mono fun h => hs h)⟩

theorem opened_R (base f : File) (os : Os) (hb : base = openRead ∨ base = openUpdate) (ho : Opened base f) (ha : os.append = false) :
    RInv f os (Abs.at os.data os.pos) := by
  have base_ok : RInv base os (Abs.at os.data os.pos) := by
    rcases hb with rfl | rfl
    · exact ⟨rfl, fun _ => rfl, fun _ => ⟨rfl, rfl⟩, fun _ => ⟨rfl, rfl⟩, ⟨rfl, ha⟩, rfl, fun _ => ⟨rfl, rfl, rfl⟩, fun e => (by cases e), by simp [openRead],
        by simp [openRead, Abs.at], by simp [openRead, Abs.at], fun e => (by cases e), fun _ => (by simp [openRead])⟩
    · exact ⟨rfl, fun e => (by cases e), fun _ => ⟨rfl, rfl⟩, fun _ => ⟨rfl, rfl⟩, ⟨rfl, ha⟩, rfl, fun _ => ⟨rfl, rfl, rfl⟩, fun e => (by cases e), by simp [openUpdate],
        by simp [openUpdate, Abs.at], by simp [openUpdate, Abs.at], fun e => (by cases e), fun _ => (by simp [openUpdate])⟩
  have hp : base.ptr = 0 ∧ base.cnt = 0 ∧ base.hasBuf = false := by rcases hb with rfl | rfl <;> exact ⟨rfl, rfl, rfl⟩
  rcases ho with rfl | ⟨nbf, lbf, size, hs, rfl⟩
  · exact base_ok
  · unfold setvbuf
    cases nbf with
    | true => exact ⟨base_ok.wr, base_ok.ro, base_ok.neutral, base_ok.fresh, base_ok.append, base_ok.data, base_ok.nobuf, base_ok.buf, base_ok.fit, base_ok.rest, base_ok.tell, base_ok.eof, base_ok.clean⟩
    | false =>
      have h := base_ok
      refine ⟨h.wr, h.ro, fun _ => ⟨rfl, hp.2.1⟩, h.fresh, h.append, h.data, fun e => (by cases e), fun _ => ⟨by simp, hs⟩, ?_, ?_, h.tell, h.eof, ?_⟩
      · show 0 + base.cnt ≤ (List.replicate size (0 : UInt8)).length
        rw [hp.2.1]; omega
      · show ((List.replicate size (0 : UInt8)).drop 0).take base.cnt ++ os.data.drop os.pos = (Abs.at os.data os.pos).rest
        rw [hp.2.1]; simp [Abs.at]
      · intro _
        show 0 + base.cnt ≤ os.pos ∧ (List.replicate size (0 : UInt8)).take (0 + base.cnt) = (os.data.drop (os.pos - (0 + base.cnt))).take (0 + base.cnt)
        rw [hp.2.1]; simp

theorem opened_W (base f : File) (os : Os) (hb : (base = openWrite ∨ base = openUpdate) ∧ os.append = false ∨ base = openAppend ∧ os.append = true) (ho : Opened base f) :
    WInv f os os.data os.wpos := by
  have base_ok : WInv base os os.data os.wpos := by
    rcases hb with ⟨rfl | rfl, ha⟩ | ⟨rfl, ha⟩
    · exact ⟨rfl, fun _ => rfl, ha.symm, fun e => (by cases e), rfl, rfl, fun _ => ⟨rfl, rfl, rfl⟩, fun e => (by cases e), Or.inl ⟨rfl, rfl⟩, by simp [openWrite, splice_nil], rfl⟩
    · exact ⟨rfl, fun e => (by cases e), ha.symm, fun e => (by cases e), rfl, rfl, fun _ => ⟨rfl, rfl, rfl⟩, fun e => (by cases e), Or.inl ⟨rfl, rfl⟩, by simp [openUpdate, splice_nil], rfl⟩
    · exact ⟨rfl, fun e => rfl, ha.symm, fun _ => rfl, rfl, rfl, fun _ => ⟨rfl, rfl, rfl⟩, fun e => (by cases e), Or.inl ⟨rfl, rfl⟩, by simp [openAppend, splice_nil], rfl⟩
  have hp : base.ptr = 0 ∧ base.cnt = 0 := by
    rcases hb with ⟨rfl | rfl, ha⟩ | ⟨rfl, ha⟩ <;> exact ⟨rfl, rfl⟩
  rcases ho with rfl | ⟨nbf, lbf, size, hs, rfl⟩
  · exact base_ok
  · have h := base_ok
    unfold setvbuf
    cases nbf with
    | true => exact ⟨h.rd, h.wo, h.ap, h.apwo, h.eof, h.ungot, h.nobuf, h.buf, h.pend, h.content, h.pos⟩
    | false =>
      exact ⟨h.rd, h.wo, h.ap, h.apwo, h.eof, h.ungot, fun e => (by cases e), fun _ => ⟨by simp, hs⟩, Or.inl ⟨rfl, hp.2⟩, by simp [splice_nil], rfl⟩

theorem wstep_ok (cfg : Cfg) (hc : 1 ≤ cfg.bufsiz) (o : WOp) (ho : o.Ok) (f : File) (os : Os) (c : Str) (p : Nat) (h : WInv f os c p) :
    ∃ u f' os', wstep cfg o f os = some (u, f', os') ∧ (os.wplan = [] → u = true ∧ os'.wplan = []) ∧
      (u = true → WInv f' os' (splice c p o.bytes) (p + o.bytes.length)) := by
  cases o with
  | putc x =>
    obtain ⟨r, f', os', e, h1, h2⟩ := fputc_ok cfg hc f os c p x h
    exact ⟨r, f', os', e, h1, h2⟩
  | write b es ec =>
    obtain ⟨r, f', os', e, h1, h2⟩ := fwrite_ok cfg hc b es ec ho f os c p h
    have hb0 : b = [] ↔ es * ec = 0 := by
      have : b.length = es * ec := ho
      rw [← this]; exact List.length_eq_zero_iff.symm
    refine ⟨decide (r = ec) || decide (es * ec = 0), f', os', by simp [wstep, e], ?_, ?_⟩
    · intro hw
      obtain ⟨q1, q2⟩ := h1 hw
      refine ⟨?_, q2⟩
      by_cases hb : b = []
      · simp [hb0.1 hb]
      · simp [q1 hb]
    · intro hu
      simp only [Bool.or_eq_true, decide_eq_true_eq] at hu
      exact h2 (by rcases hu with hu | hu; exact Or.inl hu; exact Or.inr (hb0.2 hu))
  | flush =>
    obtain ⟨r, f', os', e, h1, -, h2⟩ := fflush_ok f os c p h
    refine ⟨r, f', os', by simp [wstep, e], h1, fun hr => ?_⟩
    simp only [WOp.bytes, splice_nil, List.length_nil, Nat.add_zero]
    exact (h2 hr).1

/-- the bytes of a sequence of output operations -/
def wbytes (ops : List WOp) : Str := (ops.map WOp.bytes).flatten

theorem wrun_ok (cfg : Cfg) (hc : 1 ≤ cfg.bufsiz) : ∀ (ops : List WOp) (f : File) (os : Os) (c : Str) (p : Nat), (∀ o ∈ ops, o.Ok) → WInv f os c p →
    (os.wplan = [] → ∃ us f' os', wrun cfg ops f os = some (us, f', os') ∧ (∀ u ∈ us, u = true) ∧ os'.wplan = []) ∧
    (∀ us f' os', wrun cfg ops f os = some (us, f', os') → (∀ u ∈ us, u = true) → WInv f' os' (splice c p (wbytes ops)) (p + (wbytes ops).length)) := by
  intro ops
  induction ops with
  | nil =>
    intro f os c p ho h
    refine ⟨fun hw => ⟨[], f, os, rfl, by simp, hw⟩, fun us f' os' e hu => ?_⟩
    simp only [wrun, Option.some.injEq, Prod.mk.injEq] at e
    obtain ⟨-, rfl, rfl⟩ := e
    simpa [wbytes, splice_nil] using h
  | cons o ops ih =>
    intro f os c p ho h
    obtain ⟨u, f1, os1, e1, h1, h2⟩ := wstep_ok cfg hc o (ho o (by simp)) f os c p h
    refine ⟨fun hw => ?_, fun us f' os' e hu => ?_⟩
    · obtain ⟨q1, q2⟩ := h1 hw
      obtain ⟨us, f2, os2, e2, q3, q4⟩ := (ih f1 os1 _ _ (fun o h => ho o (by simp [h])) (h2 q1)).1 q2
      exact ⟨u :: us, f2, os2, by simp [wrun, e1, e2], by simp [q1]; exact fun h => by simpa using q3 _ h, q4⟩
    · simp only [wrun, e1] at e
      cases e2 : wrun cfg ops f1 os1 with
      | none => rw [e2] at e; simp at e
      | some r =>
        obtain ⟨us2, f2, os2⟩ := r
        rw [e2] at e
        simp only [Option.some.injEq, Prod.mk.injEq] at e
        obtain ⟨rfl, rfl, rfl⟩ := e
        have hu1 : u = true := hu u (by simp)
        have := (ih f1 os1 _ _ (fun o h => ho o (by simp [h])) (h2 hu1)).2 us2 f2 os2 e2 (fun x hx => hu x (by simp [hx]))
        rw [splice_splice] at this
        simp only [wbytes, List.map_cons, List.flatten_cons, List.length_append] at this ⊢
        rw [← Nat.add_assoc]; exact this

theorem wbytes_total (cfg : Cfg) (hc : 1 ≤ cfg.bufsiz) (o : WOp) (ho : o.Ok) (f : File) (os : Os) (c : Str) (p : Nat) (h : WInv f os c p) :
    ∃ u f' os', wstep cfg o f os = some (u, f', os') := by
  obtain ⟨u, f', os', e, -⟩ := wstep_ok cfg hc o ho f os c p h
  exact ⟨u, f', os', e⟩

theorem overlaid_splice (c : Str) (p : Nat) (b : Str) : Overlaid c p b (splice c p b) := by
  have hl : (splice c p b).length = (if b = [] then c.length else max c.length (p + b.length)) := by
    by_cases hb : b = []
    · rw [if_pos hb, hb, splice_nil]
    · rw [if_neg hb, splice_length _ _ _ hb]
  refine ⟨hl, fun i hi => ?_⟩
  rw [splice_get]
  by_cases h1 : p ≤ i ∧ i < p + b.length
  · rw [if_pos h1, if_pos h1]
  · rw [if_neg h1, if_neg h1]
    by_cases h2 : i < c.length
    · rw [if_pos h2, if_pos h2]
    · rw [if_neg h2, if_neg h2]
      rw [hl] at hi
      by_cases hb : b = []
      · rw [if_pos hb] at hi; omega
      · rw [if_neg hb] at hi
        rw [if_pos ⟨by omega, hb⟩]

/-- whatever `fseek` returns, an input stream stays consistent -/
theorem seek_R_any {f : File} {os : Os} {a : Abs} (h : RInv f os a) (off : Int) (w : Whence) (b : Bool) (f' : File) (os' : Os)
    (hs : fseek off w f os = (b, f', os')) : ∃ a', RInv f' os' a' ∧ a'.content = a.content := by
  have hfl : fflush { f with eof := false } os = (true, { f with eof := false }, os) := by
    unfold fflush; rw [if_neg (by simp [h.wr])]
  have slow : (match fflush { f with eof := false } os with
      | (false, f, os) => (false, f, os)
      | (true, f, os) =>
        let f := { f with rd := f.rd && !f.rwok, wr := f.wr && !f.rwok, ungot := false, ptr := 0, cnt := 0 }
        if f.append then (true, f, os)
        else
          match os.lseek off w with
          | none => (false, f, os)
          | some os => (true, f, os)) = (b, f', os') →
      ∃ a', RInv f' os' a' ∧ a'.content = a.content := by
    intro hh
    rw [hfl] at hh
    simp only at hh
    rw [if_neg (by simp [h.append.1])] at hh
    cases hl : os.lseek off w with
    | none =>
      rw [hl] at hh
      simp only [Prod.mk.injEq] at hh
      refine ⟨Abs.at a.content os.pos, ?_, rfl⟩
      rw [← hh.2.1, ← hh.2.2]
      exact reset_R h os.pos
    | some os2 =>
      rw [hl] at hh
      simp only [Prod.mk.injEq] at hh
      obtain ⟨t, ht, ht2, e⟩ := lseek_ok os os2 off w hl
      refine ⟨Abs.at a.content t, ?_, rfl⟩
      rw [← hh.2.1, ← hh.2.2, e]
      exact reset_R h t
  unfold fseek at hs
  simp only at hs
  by_cases hfast : ((!f.rwok && f.rd && !f.ungot) && decide (w ≠ .end) && f.hasBuf) = true
  · rw [if_pos hfast] at hs
    simp only [Bool.and_eq_true, Bool.not_eq_true', decide_eq_true_eq] at hfast
    obtain ⟨⟨⟨⟨q1, q2⟩, q3⟩, q4⟩, q5⟩ := hfast
    have hcl := h.clean q3
    have htl := h.tell
    by_cases hc : w = .cur
    · rw [if_pos hc] at hs
      by_cases hin : (off ≥ 0 ∧ off ≤ f.cnt) ∨ (off < 0 ∧ off ≥ -(f.ptr : Int))
      · rw [if_pos hin] at hs
        simp only [Prod.mk.injEq] at hs
        refine ⟨Abs.at a.content (a.tell + off).toNat, ?_, rfl⟩
        rw [← hs.2.1, ← hs.2.2]
        exact move_ok h q3 q2 off (by omega) (by omega) _ (by omega)
      · rw [if_neg hin] at hs
        exact slow hs
    · rw [if_neg hc] at hs
      cases hft : ftell { f with eof := false } os with
      | none =>
        rw [hft] at hs
        simp only [Prod.mk.injEq] at hs
        refine ⟨a, ?_, rfl⟩
        rw [← hs.2.1, ← hs.2.2]
        exact ⟨h.wr, h.ro, h.neutral, fun e => (by rw [show f.rd = true from q2] at e; cases e), h.append, h.data, h.nobuf, h.buf, h.fit, h.rest, h.tell, fun e => (by cases e), h.clean⟩
      | some pos =>
        rw [hft] at hs
        simp only at hs
        have hpos : pos = a.tell := by
          unfold ftell at hft
          cases hl : os.lseek 0 .cur with
          | none => rw [hl] at hft; cases hft
          | some os2 =>
            obtain ⟨t, ht, ht2, e⟩ := lseek_ok _ _ _ _ hl
            rw [hl] at hft
            simp only [q2, if_true, Option.some.injEq] at hft
            rw [e] at hft
            unfold target at ht
            simp only at ht hft
            omega
        by_cases hin : (off ≥ pos ∧ off - pos ≤ f.cnt) ∨ (off ≥ 0 ∧ off < pos ∧ pos - off ≤ f.ptr)
        · rw [if_pos hin] at hs
          simp only [Prod.mk.injEq] at hs
          refine ⟨Abs.at a.content off.toNat, ?_, rfl⟩
          rw [← hs.2.1, ← hs.2.2]
          exact move_ok h q3 q2 (off - pos) (by omega) (by omega) _ (by omega)
        · rw [if_neg hin] at hs
          exact slow hs
  · rw [if_neg hfast] at hs
    exact slow hs

theorem rewind_R {f : File} {os : Os} {a : Abs} (h : RInv f os a) : RInv (rewind f os).1 (rewind f os).2 (Abs.at a.content 0) := by
  unfold rewind
  have hfl : fflush f os = (true, f, os) := by unfold fflush; rw [if_neg (by simp [h.wr])]
  rw [hfl]
  simp only
  rw [if_neg (by simp [h.append.1])]
  have hl : os.lseek 0 .set = some { os with pos := 0 } := by simp [Os.lseek]
  rw [hl]
  have r := reset_R h 0
  exact ⟨r.wr, r.ro, r.neutral, r.fresh, r.append, r.data, r.nobuf, r.buf, r.fit, r.rest, r.tell, r.eof, r.clean⟩

theorem rewind_W {f : File} {os : Os} {c : Str} {p : Nat} (h : WInv f os c p) (hf : (fflush f os).1 = true) :
    ∃ q, WInv (rewind f os).1 (rewind f os).2 c q ∧ (f.append = false → q = 0) := by
  unfold rewind
  obtain ⟨r, f1, os1, e1, -, hrp, g⟩ := fflush_ok f os c p h
  rw [e1] at hf ⊢
  simp only at hf
  obtain ⟨i1, hd, hp0, hc0, hwp, -, -, hrw, hap, hw1, hw2⟩ := g hf
  simp only
  have i2 : ∀ os2 : Os, ∀ t : Nat, os2.data = c → os2.append = os1.append → os2.wpos = t →
      WInv { f1 with rd := f1.rd && !f1.rwok, wr := f1.wr && !f1.rwok, ungot := false, err := false, eof := false, ptr := 0, cnt := 0 } os2 c t := by
    intro os2 t hd2 ha2 hw2
    refine ⟨by simp [i1.rd], fun e => ?_, by rw [ha2]; exact i1.ap, i1.apwo, rfl, rfl, fun e => ⟨rfl, rfl, (i1.nobuf e).2.2⟩, i1.buf, Or.inl ⟨rfl, rfl⟩, ?_, ?_⟩
    · simp only at e; simp [e, i1.wo e]
    · simp [splice_nil, hd2]
    · simp [hw2]
  by_cases ha : f1.append = true
  · rw [if_pos ha]
    exact ⟨p, i2 os1 p hd rfl hwp, fun e => by rw [← hap, ha] at e; cases e⟩
  · rw [if_neg ha]
    have hl : os1.lseek 0 .set = some { os1 with pos := 0 } := by simp [Os.lseek]
    rw [hl]
    have hoa : os1.append = false := by rw [← i1.ap]; simpa using ha
    exact ⟨0, i2 { os1 with pos := 0 } 0 hd rfl (by unfold Os.wpos; simp [hoa]), fun _ => rfl⟩

theorem reach_inv {cfg : Cfg} (hc : 1 ≤ cfg.bufsiz) {f : File} {os : Os} (h : Reach cfg f os) : (∃ a, RInv f os a) ∨ (∃ c p, WInv f os c p) := by
  induction h with
  | openRead f os ho ha => exact Or.inl ⟨_, opened_R _ f os (Or.inl rfl) ho ha⟩
  | openWrite f os ho ha => exact Or.inr ⟨_, _, opened_W _ f os (Or.inl ⟨Or.inl rfl, ha⟩) ho⟩
  | openAppend f os ho ha => exact Or.inr ⟨_, _, opened_W _ f os (Or.inr ⟨rfl, ha⟩) ho⟩
  | openUpdate f os ho ha => exact Or.inl ⟨_, opened_R _ f os (Or.inr rfl) ho ha⟩
  | read o f os u f' os' _ hw e ih =>
    have : ∃ a, RInv f os a := by
      rcases ih with ih | ⟨c, p, ih⟩
      · exact ih
      · exact ⟨_, ih.toR hw⟩
    obtain ⟨a, ha⟩ := this
    obtain ⟨u1, f1, os1, a1, p1, e1, i1, -⟩ := rstep_ok cfg hc o f os a false ha (fun e => by cases e)
    rw [e1] at e
    simp only [Option.some.injEq, Prod.mk.injEq] at e
    obtain ⟨-, rfl, rfl⟩ := e
    exact Or.inl ⟨a1, i1⟩
  | write o f os f' os' _ hr ho e ih =>
    have : ∃ c p, WInv f os c p := by
      rcases ih with ⟨a, ih⟩ | ih
      · obtain ⟨p, hp, -⟩ := ih.toW hr; exact ⟨_, _, hp⟩
      · exact ih
    obtain ⟨c, p, ha⟩ := this
    obtain ⟨u1, f1, os1, e1, -, i1⟩ := wstep_ok cfg hc o ho f os c p ha
    rw [e1] at e
    simp only [Option.some.injEq, Prod.mk.injEq] at e
    obtain ⟨hu, rfl, rfl⟩ := e
    exact Or.inr ⟨_, _, i1 hu⟩
  | flush f os f' os' _ e ih =>
    rcases ih with ⟨a, ih⟩ | ⟨c, p, ih⟩
    · have hfl : fflush f os = (true, f, os) := by unfold fflush; rw [if_neg (by simp [ih.wr])]
      rw [hfl] at e
      simp only [Prod.mk.injEq, true_and] at e
      obtain ⟨rfl, rfl⟩ := e
      exact Or.inl ⟨a, ih⟩
    · obtain ⟨r, f1, os1, e1, -, -, g⟩ := fflush_ok f os c p ih
      rw [e1] at e
      simp only [Prod.mk.injEq] at e
      obtain ⟨hr, rfl, rfl⟩ := e
      exact Or.inr ⟨c, p, (g hr).1⟩
  | seek off w f os f' os' _ e ih =>
    rcases ih with ⟨a, ih⟩ | ⟨c, p, ih⟩
    · obtain ⟨a', h', -⟩ := seek_R_any ih off w _ _ _ e
      exact Or.inl ⟨a', h'⟩
    · rcases seek_W ih off w _ _ e with ⟨-, h'⟩ | ⟨-, t, -, h', -⟩
      · exact Or.inr ⟨_, _, h'⟩
      · exact Or.inr ⟨_, _, h'⟩
  | seekFail off w f os f' os' _ hw e ih =>
    have : ∃ a, RInv f os a := by
      rcases ih with ih | ⟨c, p, ih⟩
      · exact ih
      · exact ⟨_, ih.toR hw⟩
    obtain ⟨a, ha⟩ := this
    obtain ⟨a', h', -⟩ := seek_R_any ha off w _ _ _ e
    exact Or.inl ⟨a', h'⟩
  | rewind f os _ hf ih =>
    rcases ih with ⟨a, ih⟩ | ⟨c, p, ih⟩
    · exact Or.inl ⟨_, rewind_R ih⟩
    · obtain ⟨q, h', -⟩ := rewind_W ih hf
      exact Or.inr ⟨_, _, h'⟩

end Smlr.Stdio
