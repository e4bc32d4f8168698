import Verif.Stdio.Lemmas
set_option autoImplicit false
/-! Properties C13 (buffered input), C14 (buffered output), C15 (positioning). -/
namespace Smlr.Stdio

/-- **C13** whatever the buffer size, the buffering mode, the sizes of the reads of the underlying file, and however
`fgetc`, `fread`, `fgets` and `ungetc` are mixed: every access stays in the buffer, and the operations deliver the bytes
of the file in order, each once, pushed back characters first, stopping short only at the end of the file or at a read
error; right after a successful read one character can be pushed back. -/
theorem c13_read (cfg : Cfg) (hc : 1 ≤ cfg.bufsiz) (f : File) (os : Os) (ho : Opened openRead f ∨ Opened openUpdate f)
    (ha : os.append = false) (ops : List ROp) :
    ∃ us f' os' r', rrun cfg ops f os = some (us, f', os') ∧ os'.data = os.data ∧
      RTrace (none ∈ os.rplan) (os.data.drop os.pos) false ops us r' := by
  have h : RInv f os (Abs.at os.data os.pos) := by
    rcases ho with ho | ho
    · exact opened_R _ f os (Or.inl rfl) ho ha
    · exact opened_R _ f os (Or.inr rfl) ho ha
  exact rrun_ok cfg hc ops f os _ false h (fun e => by cases e)

/-- ten bytes through a buffer of three, the underlying file giving at most two bytes at a time -/
example : ∃ f' os', rrun ⟨8, true⟩ [.getc, .read 2 2, .ungetc 9, .gets 3, .read 4 2, .getc] (setvbuf openRead false false 3)
    { data := [0, 1, 2, 3, 4, 5, 6, 7, 8, 10], pos := 0, rplan := [some 1, some 1, some 1, some 1, some 0, some 0] } =
    some ([.byte (some 0), .data [1, 2, 3, 4] 2, .pushed true, .line (some [9, 5]), .data [6, 7, 8, 10] 1, .byte none], f', os') :=
  ⟨_, _, rfl⟩

example : Opened openRead (setvbuf openRead false false 3) := Or.inr ⟨false, false, 3, by omega, rfl⟩

/-- reading characters till the end delivers the whole file -/
theorem c13_whole (cfg : Cfg) (hc : 1 ≤ cfg.bufsiz) (f : File) (os : Os) (ho : Opened openRead f) (ha : os.append = false)
    (hp : os.pos = 0) (hr : none ∉ os.rplan) :
    ∃ f' os', rrun cfg (List.replicate (os.data.length + 1) .getc) f os = some (os.data.map (fun c => .byte (some c)) ++ [.byte none], f', os') := by
  obtain ⟨us, f', os', r', e, -, tr⟩ := c13_read cfg hc f os (Or.inl ho) ha (List.replicate (os.data.length + 1) .getc)
  rw [hp, List.drop_zero] at tr
  have key : ∀ (d : Str) (p : Bool) (us : List ROut) (r' : Str), RTrace (none ∈ os.rplan) d p (List.replicate (d.length + 1) .getc) us r' →
      us = d.map (fun c => .byte (some c)) ++ [.byte none] := by
    intro d
    induction d with
    | nil =>
      intro p us r' h
      cases h with
      | cons h1 h2 =>
        cases h2
        cases h1 with
        | getcEnd => rfl
        | getcErr _ _ h => exact absurd h hr
    | cons c d ih =>
      intro p us r' h
      rw [List.length_cons, List.replicate_succ] at h
      cases h with
      | cons h1 h2 =>
        cases h1 with
        | getc => rw [ih _ _ _ h2]; rfl
        | getcErr _ _ h => exact absurd h hr
  rw [key _ _ _ _ tr] at e
  exact ⟨f', os', e⟩

example : ∃ f' os', rrun ⟨2, true⟩ (List.replicate 4 .getc) openRead { data := [7, 8, 9], pos := 0 } =
    some ([.byte (some 7), .byte (some 8), .byte (some 9), .byte none], f', os') := ⟨_, _, rfl⟩

/-- a defect of `ungetc`: the standard promises one character of push-back, but after the end of the file was met
`ungetc` fails, since `ptr` is then at the beginning of the buffer (fillbuf.c:66-70, ungetc.c:15-16) -/
theorem c13_defect : ∃ f' os', rrun ⟨8, true⟩ [.getc, .getc, .ungetc 65] openRead { data := [65], pos := 0 } =
    some ([.byte (some 65), .byte none, .pushed false], f', os') := ⟨_, _, rfl⟩

/-- **C14** whatever the buffer size and the buffering mode, and however `fputc`, `fwrite` and `fflush` are mixed: if every
operation reports success and the final `fflush` does, the file holds the bytes given, in order, each once, from the
initial position (the end for an appending stream) on, and is otherwise unchanged. -/
theorem c14_write (cfg : Cfg) (hc : 1 ≤ cfg.bufsiz) (f : File) (os : Os)
    (ho : (Opened openWrite f ∨ Opened openUpdate f) ∧ os.append = false ∨ Opened openAppend f ∧ os.append = true)
    (ops : List WOp) (hops : ∀ o ∈ ops, o.Ok) (us : List Bool) (f' f'' : File) (os' os'' : Os)
    (hr : wrun cfg ops f os = some (us, f', os')) (hu : ∀ u ∈ us, u = true) (hf : fflush f' os' = (true, f'', os'')) :
    Overlaid os.data (if os.append then os.data.length else os.pos) (ops.map WOp.bytes).flatten os''.data := by
  have h : WInv f os os.data os.wpos := by
    rcases ho with ⟨ho | ho, ha⟩ | ⟨ho, ha⟩
    · exact opened_W _ f os (Or.inl ⟨Or.inl rfl, ha⟩) ho
    · exact opened_W _ f os (Or.inl ⟨Or.inr rfl, ha⟩) ho
    · exact opened_W _ f os (Or.inr ⟨rfl, ha⟩) ho
  have h1 := (wrun_ok cfg hc ops f os _ _ hops h).2 us f' os' hr hu
  obtain ⟨r, f1, os1, e1, -, -, g⟩ := fflush_ok f' os' _ _ h1
  rw [e1] at hf
  simp only [Prod.mk.injEq] at hf
  obtain ⟨hr, rfl, rfl⟩ := hf
  rw [(g hr).2.1]
  exact overlaid_splice _ _ _

/-- the bytes end up as they are for a new file -/
theorem c14_new (b c' : Str) (h : Overlaid [] 0 b c') : c' = b := by
  obtain ⟨h1, h2⟩ := h
  have hl : c'.length = b.length := by
    rw [h1]; split
    · rename_i h; simp [h]
    · simp
  apply List.ext_getElem?
  intro i
  by_cases hi : i < c'.length
  · rw [h2 i hi, if_pos (by omega)]; rfl
  · rw [List.getElem?_eq_none (by omega), List.getElem?_eq_none (by omega)]

/-- and at the end of a file appended to -/
theorem c14_append (c b c' : Str) (h : Overlaid c c.length b c') : c' = c ++ b := by
  obtain ⟨h1, h2⟩ := h
  have hl : c'.length = c.length + b.length := by
    rw [h1]; split
    · rename_i h; simp [h]
    · omega
  apply List.ext_getElem?
  intro i
  by_cases hi : i < c'.length
  · rw [h2 i hi]
    by_cases hc : i < c.length
    · rw [if_neg (by omega), if_pos hc, List.getElem?_append_left hc]
    · rw [if_pos (by omega), List.getElem?_append_right (by omega)]
  · rw [List.getElem?_eq_none (by omega), List.getElem?_eq_none (by simp; omega)]

/-- when the underlying writes succeed, every operation reports success, and no access leaves the buffer -/
theorem c14_success (cfg : Cfg) (hc : 1 ≤ cfg.bufsiz) (f : File) (os : Os)
    (ho : (Opened openWrite f ∨ Opened openUpdate f) ∧ os.append = false ∨ Opened openAppend f ∧ os.append = true)
    (ops : List WOp) (hops : ∀ o ∈ ops, o.Ok) (hw : os.wplan = []) :
    ∃ us f' os', wrun cfg ops f os = some (us, f', os') ∧ (∀ u ∈ us, u = true) ∧ (fflush f' os').1 = true := by
  have h : WInv f os os.data os.wpos := by
    rcases ho with ⟨ho | ho, ha⟩ | ⟨ho, ha⟩
    · exact opened_W _ f os (Or.inl ⟨Or.inl rfl, ha⟩) ho
    · exact opened_W _ f os (Or.inl ⟨Or.inr rfl, ha⟩) ho
    · exact opened_W _ f os (Or.inr ⟨rfl, ha⟩) ho
  obtain ⟨q1, q2⟩ := wrun_ok cfg hc ops f os _ _ hops h
  obtain ⟨us, f', os', e, hu, hw'⟩ := q1 hw
  obtain ⟨r, f1, os1, e1, h1, -⟩ := fflush_ok f' os' _ _ (q2 us f' os' e hu)
  exact ⟨us, f', os', e, hu, by rw [e1]; exact (h1 hw').1⟩

/-- seven bytes through a buffer of three, into the middle of a file -/
example : ∃ f' os', wrun ⟨8, true⟩ [.putc 1, .write [2, 3, 4, 5] 2 2, .flush, .putc 6, .write [7] 1 1] (setvbuf openUpdate false false 3)
    { data := [9, 9, 9], pos := 1 } = some ([true, true, true, true, true], f', os') ∧
    ((fflush f' os').2.2.data = [9, 1, 2, 3, 4, 5, 6, 7]) := ⟨_, _, rfl, rfl⟩

example : Overlaid [9, 9, 9] 1 [1, 2, 3, 4, 5, 6, 7] [9, 1, 2, 3, 4, 5, 6, 7] := overlaid_splice [9, 9, 9] 1 [1, 2, 3, 4, 5, 6, 7]

/-- a defect of `fputc`: on a stream opened for reading, with unread bytes in its buffer, `fputc` reports success although
nothing is ever written (fputc.c:23-27 looks at `cnt` only) -/
theorem c14_defect : ∃ u f1 os1 f2 os2, fgetc ⟨8, true⟩ openRead { data := [65, 66, 67], pos := 0 } = some (u, f1, os1) ∧
    fputc ⟨8, true⟩ 90 f1 os1 = some (true, f2, os2) ∧ fflush f2 os2 = (true, f2, os2) ∧ os2.data = [65, 66, 67] :=
  ⟨_, _, _, _, _, rfl, rfl, rfl, rfl⟩

/-- **C15** (partly) on any stream a program can get, when `fseek` reports success — for `SEEK_CUR` on a stream that has
bytes left in its input buffer, only if the target lies in that buffer and the stream was opened for reading only and
has no pushed back character — then the stream is at the position asked for: `ftell` says so, any sequence of input
operations from here delivers the file's bytes from there on, and any sequence of output operations puts its bytes there.
The contents of the file, pending output included, are kept.  Missing: the other uses of `SEEK_CUR`, which go wrong; see
the defects below. -/
theorem c15_seek_partial (cfg : Cfg) (hc : 1 ≤ cfg.bufsiz) (f : File) (os : Os) (hr : Reach cfg f os) (ha : f.append = false)
    (off : Int) (w : Whence) (f' : File) (os' : Os) (p0 : Int) (hs : fseek off w f os = (true, f', os')) (hp0 : ftell f os = some p0)
    (hin : InBuffer f off w) :
    ∃ (t : Nat) (c : Str), (t : Int) = dest w off p0 c.length ∧ c = (fflush f os).2.2.data ∧ ftell f' os' = some (t : Int) ∧
      (f.rd = true ∨ f.rwok = true → ∀ ops : List ROp, ∃ us f2 os2 r, rrun cfg ops f' os' = some (us, f2, os2) ∧
        RTrace (none ∈ os'.rplan) (c.drop t) false ops us r) ∧
      (f.wr = true ∨ f.rwok = true → ∀ (ops : List WOp) us f2 os2 f3 os3, (∀ o ∈ ops, o.Ok) → wrun cfg ops f' os' = some (us, f2, os2) →
        (∀ u ∈ us, u = true) → fflush f2 os2 = (true, f3, os3) → Overlaid c t (ops.map WOp.bytes).flatten os3.data) := by
  have hdt : ∀ w off cur len, target w off cur len = dest w off cur len := by
    intro w off cur len
    unfold target dest
    cases w <;> simp
  have wr_ok : ∀ (c : Str) (t : Nat), WInv f' os' c t → ∀ (ops : List WOp) us f2 os2 f3 os3, (∀ o ∈ ops, o.Ok) → wrun cfg ops f' os' = some (us, f2, os2) →
        (∀ u ∈ us, u = true) → fflush f2 os2 = (true, f3, os3) → Overlaid c t (ops.map WOp.bytes).flatten os3.data := by
    intro c t h ops us f2 os2 f3 os3 ho e hu hf
    have h1 := (wrun_ok cfg hc ops f' os' _ _ ho h).2 us f2 os2 e hu
    obtain ⟨r, f1, os1, e1, -, -, g⟩ := fflush_ok f2 os2 _ _ h1
    rw [e1] at hf
    simp only [Prod.mk.injEq] at hf
    obtain ⟨hr, rfl, rfl⟩ := hf
    rw [(g hr).2.1]
    exact overlaid_splice _ _ _
  have rd_ok : ∀ (c : Str) (t : Nat), RInv f' os' (Abs.at c t) → ∀ ops : List ROp, ∃ us f2 os2 r, rrun cfg ops f' os' = some (us, f2, os2) ∧
        RTrace (none ∈ os'.rplan) (c.drop t) false ops us r := by
    intro c t h ops
    obtain ⟨us, f2, os2, r, e, -, tr⟩ := rrun_ok cfg hc ops f' os' _ false h (fun e => by cases e)
    exact ⟨us, f2, os2, r, e, tr⟩
  have hpos : os.pos < 2 ^ 31 := by
    unfold ftell at hp0
    cases hl : os.lseek 0 .cur with
    | none => rw [hl] at hp0; cases hp0
    | some os2 =>
      obtain ⟨t, ht, ht2, e⟩ := lseek_ok _ _ _ _ hl
      unfold target at ht
      simp only at ht
      omega
  rcases reach_inv hc hr with ⟨a, h⟩ | ⟨c, p, h⟩
  · have hfl : fflush f os = (true, f, os) := by unfold fflush; rw [if_neg (by simp [h.wr])]
    obtain ⟨t, ht, hi, -, hrw, hp'⟩ := seek_R h off w f' os' hs hin
    have h0 := tell_R h hpos
    rw [hp0] at h0
    simp only [Option.some.injEq] at h0
    refine ⟨t, a.content, ?_, ?_, ?_, fun _ => rd_ok _ _ hi, fun hw => ?_⟩
    · rw [ht, hdt, h0]
    · rw [hfl]; exact h.data.symm
    · exact tell_R hi (hp' hpos)
    · rcases hw with hw | hw
      · rw [h.wr] at hw; cases hw
      · have hrd : f'.rd = false := by
          unfold fseek at hs
          simp only at hs
          rw [if_neg (by simp [hw])] at hs
          have hfl2 : fflush { f with eof := false } os = (true, { f with eof := false }, os) := by
            unfold fflush; rw [if_neg (by simp [h.wr])]
          rw [hfl2] at hs
          simp only at hs
          rw [if_neg (by simp [h.append.1])] at hs
          cases hl : os.lseek off w with
          | none => rw [hl] at hs; simp at hs
          | some os2 =>
            rw [hl] at hs
            simp only [Prod.mk.injEq, true_and] at hs
            rw [← hs.1]; simp [hw]
        obtain ⟨p, hp, hpt⟩ := hi.toW hrd
        have : p = t := by simp only [Abs.at] at hpt; omega
        subst this
        exact wr_ok _ _ hp
  · rcases seek_W h off w f' os' hs with ⟨e, -⟩ | ⟨-, t, ht, hi, -, hrw, hp', hpt, hwr⟩
    · rw [ha] at e; cases e
    · have h0 := tell_W h ha hpos
      rw [hp0] at h0
      simp only [Option.some.injEq] at h0
      have happ' : f'.append = false := by
        obtain ⟨r, f1, os1, e1, -, -, g⟩ := fflush_ok { f with eof := false } os c p
          ⟨h.rd, h.wo, h.ap, h.apwo, rfl, h.ungot, h.nobuf, h.buf, h.pend, h.content, h.pos⟩
        unfold fseek at hs
        simp only at hs
        rw [if_neg (by simp [h.rd])] at hs
        rw [e1] at hs
        cases r with
        | false => simp at hs
        | true =>
          have ga : f1.append = f.append := (g rfl).2.2.2.2.2.2.2.2.1
          simp only at hs
          rw [if_neg (by rw [ga, ha]; simp)] at hs
          cases hl : os1.lseek off w with
          | none => rw [hl] at hs; simp at hs
          | some os2 =>
            rw [hl] at hs
            simp only [Prod.mk.injEq, true_and] at hs
            rw [← hs.1]; simp [ga, ha]
      refine ⟨t, c, ?_, ?_, tell_W hi happ' hp', fun hw => ?_, fun _ => wr_ok _ _ hi⟩
      · rw [ht, hdt, h0]
      · obtain ⟨r, f1, os1, e1, -, -, g⟩ := fflush_ok f os c p h
        have hr : r = true := by
          have e2 : (fflush { f with eof := false } os).1 = (fflush f os).1 := by
            have : ({ f with eof := false } : File) = f := by
              have := h.eof
              cases f; simp only at this; subst this; rfl
            rw [this]
          rw [e1] at e2
          cases r with
          | true => rfl
          | false =>
            exfalso
            unfold fseek at hs
            simp only at hs
            rw [if_neg (by simp [h.rd])] at hs
            cases hx : fflush { f with eof := false } os with
            | mk b rest =>
              rw [hx] at e2 hs
              simp only at e2
              subst e2
              simp at hs
        rw [e1]; exact (g hr).2.1.symm
      · rcases hw with hw | hw
        · rw [h.rd] at hw; cases hw
        · exact rd_ok _ _ (hi.toR (hwr hw))

/-- back inside the buffer: four bytes read, two back, the third byte comes next -/
example : ∃ us f os f' os', rrun ⟨8, true⟩ [.read 1 4] openRead { data := [5, 6, 7, 8, 9], pos := 0 } = some (us, f, os) ∧
    Reach ⟨8, true⟩ f os ∧ InBuffer f (-2) .cur ∧ fseek (-2) .cur f os = (true, f', os') ∧ ftell f os = some 4 ∧ ftell f' os' = some 2 := by
  refine ⟨[.data [5, 6, 7, 8] 4], _, _, _, _, rfl, ?_, ?_, rfl, rfl, rfl⟩
  · exact .read (.read 1 4) openRead { data := [5, 6, 7, 8, 9], pos := 0 } _ _ _ (.openRead _ _ (Or.inl rfl) rfl) rfl rfl
  · intro _ _ _; exact ⟨rfl, rfl, by decide, by decide⟩

/-- a defect of `fseek`: on an update stream ("r+"), `fseek(f, 0, SEEK_CUR)` after reading one byte of six — as the standard
demands before a write — moves to the sixth: the read-ahead is not taken off (fseek.c:55-66) -/
theorem c15_defect : ∃ u f os f' os', fgetc ⟨8, true⟩ openUpdate { data := [1, 2, 3, 4, 5, 6], pos := 0 } = some (u, f, os) ∧
    ftell f os = some 1 ∧ fseek 0 .cur f os = (true, f', os') ∧ ftell f' os' = some 6 :=
  ⟨_, _, _, _, _, rfl, rfl, rfl, rfl⟩

/-- the same on a stream opened for reading, when the target is outside the buffer -/
theorem c15_defect_read : ∃ u f os f' os',
    fgetc ⟨8, true⟩ (setvbuf openRead false false 4) { data := [1, 2, 3, 4, 5, 6, 7, 8, 9], pos := 0 } = some (u, f, os) ∧
    ftell f os = some 1 ∧ fseek 4 .cur f os = (true, f', os') ∧ ftell f' os' = some 8 :=
  ⟨_, _, _, _, _, rfl, rfl, rfl, rfl⟩

/-- another: a failing `fseek` moves the stream -/
theorem c15_defect_fail : ∃ u f os f' os', fgetc ⟨8, true⟩ openRead { data := [1, 2, 3, 4, 5, 6], pos := 0 } = some (u, f, os) ∧
    ftell f os = some 1 ∧ fseek (-1) .set f os = (false, f', os') ∧ ftell f' os' = some 6 :=
  ⟨_, _, _, _, _, rfl, rfl, rfl, rfl⟩

end Smlr.Stdio
