import Verif.Stdio.Props
set_option autoImplicit false
/-! Further properties of C13 and C14: the end-of-file indicator, and when output must have reached the file. -/
namespace Smlr.Stdio

/-! ### the buffering mode stays -/

/-- `f` has the buffering mode of `f0`, and a line buffered stream has its buffer -/
def Mode (f0 f : File) : Prop := f.nbf = f0.nbf ∧ f.lbf = f0.lbf ∧ (f.lbf = true → f.hasBuf = true)

theorem getBuf_mode {f0 f : File} (cfg : Cfg) (h : Mode f0 f) : Mode f0 (getBuf cfg f) := by
  obtain ⟨h1, h2, h3⟩ := h
  unfold getBuf
  split
  · exact ⟨h1, h2, h3⟩
  · rename_i hb
    have hl : f.lbf = false := by
      cases hl : f.lbf with
      | false => rfl
      | true => exact absurd (h3 hl) hb
    split
    · exact ⟨h1, h2, fun _ => rfl⟩
    · exact ⟨h1, by rw [← h2, hl], fun _ => rfl⟩

theorem store_mode {f0 f f' : File} (c : UInt8) (h : Mode f0 f) (e : store c f = some f') : Mode f0 f' := by
  unfold store at e
  split at e
  · simp only [Option.some.injEq] at e; subst e; exact h
  · cases e

theorem put_mode {f0 f f' : File} (b : Str) (h : Mode f0 f) (e : put f b = some f') : Mode f0 f' := by
  unfold put at e
  split at e
  · simp only [Option.some.injEq] at e; subst e; exact h
  · cases e

theorem flushbuf_mode {f0 f f' : File} {os os' : Os} {r : Bool} (cfg : Cfg) (c : UInt8) (h : Mode f0 f)
    (e : flushbuf cfg c f os = some (r, f', os')) : Mode f0 f' ∧ (r = true → f'.wr = true) := by
  unfold flushbuf at e
  split at e
  · rename_i hrd
    simp only [Option.some.injEq, Prod.mk.injEq] at e
    obtain ⟨rfl, rfl, -⟩ := e; exact ⟨h, fun h => by cases h⟩
  · simp only at e
    have hm : Mode f0 (getBuf cfg { f with wr := true }) := getBuf_mode cfg (f := { f with wr := true }) h
    have hw : (getBuf cfg { f with wr := true }).wr = true := by
      unfold getBuf; split
      · rfl
      · split <;> rfl
    obtain ⟨g, hg⟩ : ∃ g, g = getBuf cfg { f with wr := true } := ⟨_, rfl⟩
    rw [← hg] at e hm hw
    have fin : ∀ os2, (match store c { g with cnt := g.bufsz, ptr := 0 } with
        | none => none
        | some f => (some (true, f, os2) : Res Bool)) = some (r, f', os') → Mode f0 f' ∧ f'.wr = true := by
      intro os2 e
      cases hs : store c { g with cnt := g.bufsz, ptr := 0 } with
      | none => rw [hs] at e; cases e
      | some f2 =>
        rw [hs] at e
        simp only [Option.some.injEq, Prod.mk.injEq] at e
        obtain ⟨-, rfl, -⟩ := e
        refine ⟨store_mode (f := { g with cnt := g.bufsz, ptr := 0 }) c hm hs, ?_⟩
        unfold store at hs
        split at hs
        · simp only [Option.some.injEq] at hs; subst hs; exact hw
        · cases hs
    split at e
    · split at e
      · exact ⟨(fin _ e).1, fun _ => (fin _ e).2⟩
      · simp only [Option.some.injEq, Prod.mk.injEq] at e
        obtain ⟨rfl, rfl, -⟩ := e; exact ⟨hm, fun h => by cases h⟩
    · exact ⟨(fin _ e).1, fun _ => (fin _ e).2⟩

theorem fflush_mode {f0 f f' : File} {os os' : Os} {r : Bool} (h : Mode f0 f) (e : fflush f os = (r, f', os')) :
    Mode f0 f' ∧ (r = true → f.wr = true → f'.ptr = 0) := by
  unfold fflush at e
  split at e
  · simp only at e
    split at e
    · split at e
      · simp only [Prod.mk.injEq] at e; obtain ⟨-, rfl, -⟩ := e; exact ⟨h, fun _ _ => rfl⟩
      · simp only [Prod.mk.injEq] at e; obtain ⟨rfl, rfl, -⟩ := e; exact ⟨h, fun h => by cases h⟩
    · simp only [Prod.mk.injEq] at e; obtain ⟨-, rfl, -⟩ := e; exact ⟨h, fun _ _ => rfl⟩
  · rename_i hw
    simp only [Prod.mk.injEq] at e; obtain ⟨-, rfl, -⟩ := e; exact ⟨h, fun _ h => absurd h hw⟩

theorem fputc_mode {f0 f f' : File} {os os' : Os} {r : Bool} (cfg : Cfg) (c : UInt8) (h : Mode f0 f) (hw : f.cnt ≠ 0 → f.wr = true)
    (e : fputc cfg c f os = some (r, f', os')) :
    Mode f0 f' ∧ (r = true → f0.nbf = true ∨ (f0.lbf = true ∧ c = 0x0A) → f'.ptr = 0) := by
  unfold fputc at e
  cases hs : fputcStore cfg c f os with
  | none => rw [hs] at e; cases e
  | some x =>
    obtain ⟨b, f1, os1⟩ := x
    have h1 : Mode f0 f1 ∧ (b = true → f1.wr = true) := by
      unfold fputcStore at hs
      split at hs
      · rename_i hcnt
        cases hst : store c f with
        | none => rw [hst] at hs; cases hs
        | some f2 =>
          rw [hst] at hs
          simp only [Option.some.injEq, Prod.mk.injEq] at hs
          obtain ⟨-, rfl, -⟩ := hs
          refine ⟨store_mode c h hst, fun _ => ?_⟩
          unfold store at hst
          split at hst
          · simp only [Option.some.injEq] at hst; subst hst; exact hw hcnt
          · cases hst
      · exact flushbuf_mode cfg c h hs
    rw [hs] at e
    cases b with
    | false =>
      simp only [Option.some.injEq, Prod.mk.injEq] at e
      obtain ⟨rfl, rfl, -⟩ := e
      exact ⟨h1.1, fun h => by cases h⟩
    | true =>
      simp only at e
      obtain ⟨⟨m1, m2, m3⟩, hw1⟩ := h1
      split at e
      · cases hf : fflush f1 os1 with
        | mk b2 rest =>
          obtain ⟨f2, os2⟩ := rest
          rw [hf] at e
          simp only [Option.some.injEq, Prod.mk.injEq] at e
          obtain ⟨rfl, rfl, -⟩ := e
          have := fflush_mode (f0 := f0) ⟨m1, m2, m3⟩ hf
          exact ⟨this.1, fun hb _ => this.2 hb (hw1 rfl)⟩
      · rename_i hn
        simp only [Option.some.injEq, Prod.mk.injEq] at e
        obtain ⟨rfl, rfl, -⟩ := e
        refine ⟨⟨m1, m2, m3⟩, fun _ hx => ?_⟩
        rw [← m1, ← m2] at hx
        exact absurd hx hn

theorem fwriteChars_mode (cfg : Cfg) (hc : 1 ≤ cfg.bufsiz) (f0 : File) : ∀ (b : Str) (f : File) (os : Os) (c : Str) (p : Nat) (f' : File) (os' : Os),
    WInv f os c p → Mode f0 f → fwriteChars cfg b f os = some (0, f', os') →
    Mode f0 f' ∧ ∀ x, b.getLast? = some x → f0.nbf = true ∨ (f0.lbf = true ∧ x = 0x0A) → f'.ptr = 0
  | [], f, os, c, p, f', os', h, hm, e => by
    simp only [fwriteChars, Option.some.injEq, Prod.mk.injEq, true_and] at e
    obtain ⟨rfl, -⟩ := e
    exact ⟨hm, fun x hx => by simp at hx⟩
  | y :: b, f, os, c, p, f', os', h, hm, e => by
    obtain ⟨r, f1, os1, e1, -, h2⟩ := fputc_ok cfg hc f os c p y h
    have hw : f.cnt ≠ 0 → f.wr = true := by
      intro hn
      rcases h.pend with h | h
      · exact absurd h.2 hn
      · exact h.1
    have m1 := fputc_mode cfg y hm hw e1
    unfold fwriteChars at e
    rw [e1] at e
    cases r with
    | false => simp at e
    | true =>
      simp only at e
      have := fwriteChars_mode cfg hc f0 b f1 os1 _ _ f' os' (h2 rfl) m1.1 e
      refine ⟨this.1, fun x hx hf => ?_⟩
      cases b with
      | nil =>
        simp only [List.getLast?_singleton, Option.some.injEq] at hx
        subst hx
        simp only [fwriteChars, Option.some.injEq, Prod.mk.injEq, true_and] at e
        obtain ⟨rfl, -⟩ := e
        exact m1.2 rfl hf
      | cons z b =>
        rw [List.getLast?_cons_cons] at hx
        exact this.2 x hx hf

theorem fwriteBlocks_mode (cfg : Cfg) (f0 : File) : ∀ (fuel : Nat) (b : Str) (f : File) (os : Os) (r : Nat) (f' : File) (os' : Os),
    Mode f0 f → fwriteBlocks cfg fuel b f os = some (r, f', os') → Mode f0 f'
  | 0, b, f, os, r, f', os', hm, e => by simp [fwriteBlocks] at e
  | fuel + 1, b, f, os, r, f', os', hm, e => by
    unfold fwriteBlocks at e
    split at e
    · simp only [Option.some.injEq, Prod.mk.injEq] at e; obtain ⟨-, rfl, -⟩ := e; exact hm
    · split at e
      · cases hp : put f (b.take f.cnt) with
        | none => rw [hp] at e; cases e
        | some f1 =>
          rw [hp] at e; simp only at e
          have m1 := put_mode _ hm hp
          cases hd : b.drop f.cnt with
          | nil => rw [hd] at e; cases e
          | cons y b2 =>
            rw [hd] at e; simp only at e
            cases hf : flushbuf cfg y f1 os with
            | none => rw [hf] at e; cases e
            | some x =>
              obtain ⟨u, f2, os2⟩ := x
              rw [hf] at e
              have m2 := (flushbuf_mode cfg y m1 hf).1
              cases u with
              | false => simp only [Option.some.injEq, Prod.mk.injEq] at e; obtain ⟨-, rfl, -⟩ := e; exact m2
              | true =>
                simp only at e
                split at e
                · cases hp2 : put f2 b2 with
                  | none => rw [hp2] at e; cases e
                  | some f3 =>
                    rw [hp2] at e
                    simp only [Option.some.injEq, Prod.mk.injEq] at e; obtain ⟨-, rfl, -⟩ := e
                    exact put_mode _ m2 hp2
                · exact fwriteBlocks_mode cfg f0 fuel b2 f2 os2 r f' os' m2 e
      · cases hp : put f b with
        | none => rw [hp] at e; cases e
        | some f1 =>
          rw [hp] at e
          simp only [Option.some.injEq, Prod.mk.injEq] at e; obtain ⟨-, rfl, -⟩ := e
          exact put_mode _ hm hp

/-- one output operation: the mode stays, and nothing is left in the buffer when the last byte given asks for that -/
theorem wstep_mode (cfg : Cfg) (hc : 1 ≤ cfg.bufsiz) (f0 : File) (o : WOp) (ho : o.Ok) (f : File) (os : Os) (c : Str) (p : Nat) (f' : File) (os' : Os)
    (h : WInv f os c p) (hm : Mode f0 f) (e : wstep cfg o f os = some (true, f', os')) :
    Mode f0 f' ∧ ∀ x, o.bytes.getLast? = some x → f0.nbf = true ∨ (f0.lbf = true ∧ x = 0x0A) → f'.ptr = 0 := by
  have hw : f.cnt ≠ 0 → f.wr = true := by
    intro hn
    rcases h.pend with h | h
    · exact absurd h.2 hn
    · exact h.1
  cases o with
  | putc y =>
    have := fputc_mode cfg y hm hw e
    refine ⟨this.1, fun x hx hf => ?_⟩
    simp only [WOp.bytes, List.getLast?_singleton, Option.some.injEq] at hx
    subst hx; exact this.2 rfl hf
  | flush =>
    simp only [wstep, Option.some.injEq] at e
    exact ⟨(fflush_mode hm e).1, fun x hx => by simp [WOp.bytes] at hx⟩
  | write b es ec =>
    simp only [wstep] at e
    have hbl : b.length = es * ec := ho
    by_cases hb : b = []
    · simp only [fwrite, hb, if_true, Option.map_some, Option.some.injEq, Prod.mk.injEq] at e
      obtain ⟨-, rfl, -⟩ := e
      exact ⟨hm, fun x hx => by simp [WOp.bytes, hb] at hx⟩
    · have hpos : 0 < b.length := List.length_pos_iff.2 hb
      have hes : 0 < es := Nat.pos_of_ne_zero (fun h => by rw [h, Nat.zero_mul] at hbl; omega)
      have hec : 0 < ec := Nat.pos_of_ne_zero (fun h => by rw [h, Nat.mul_zero] at hbl; omega)
      simp only [fwrite, if_neg hb] at e
      -- all bytes taken
      have zero : ∀ r, ec - (r + es - 1) / es = ec → r = 0 := by
        intro r hr
        have h1 : (r + es - 1) / es = 0 := by omega
        rw [Nat.div_eq_zero_iff] at h1
        omega
      by_cases hmode : f.nbf = true ∨ f.lbf = true
      · rw [if_pos hmode] at e
        cases hr : fwriteChars cfg b f os with
        | none => rw [hr] at e; simp at e
        | some x =>
          obtain ⟨r, f1, os1⟩ := x
          rw [hr] at e
          simp only [Option.map_some, Option.some.injEq, Prod.mk.injEq, Bool.or_eq_true, decide_eq_true_eq] at e
          obtain ⟨hr1, rfl, -⟩ := e
          have : r = 0 := by
            rcases hr1 with h | h
            · exact zero r h
            · omega
          subst this
          exact fwriteChars_mode cfg hc f0 b f os c p f1 os1 h hm hr
      · rw [if_neg hmode] at e
        cases hr : fwriteBlocks cfg (b.length + 1) b f os with
        | none => rw [hr] at e; simp at e
        | some x =>
          obtain ⟨r, f1, os1⟩ := x
          rw [hr] at e
          simp only [Option.map_some, Option.some.injEq, Prod.mk.injEq] at e
          obtain ⟨-, rfl, -⟩ := e
          refine ⟨fwriteBlocks_mode cfg f0 _ b f os r f1 os1 hm hr, fun x _ hx => ?_⟩
          rw [hm.1, hm.2.1] at hmode
          rcases hx with hx | hx
          · exact absurd (Or.inl hx) hmode
          · exact absurd (Or.inr hx.1) hmode

theorem wrun_mode (cfg : Cfg) (hc : 1 ≤ cfg.bufsiz) (f0 : File) : ∀ (ops : List WOp) (f : File) (os : Os) (c : Str) (p : Nat) (us : List Bool) (f' : File) (os' : Os),
    (∀ o ∈ ops, o.Ok) → WInv f os c p → Mode f0 f → wrun cfg ops f os = some (us, f', os') → (∀ u ∈ us, u = true) → Mode f0 f'
  | [], f, os, c, p, us, f', os', _, _, hm, e, _ => by
    simp only [wrun, Option.some.injEq, Prod.mk.injEq] at e; obtain ⟨-, rfl, -⟩ := e; exact hm
  | o :: ops, f, os, c, p, us, f', os', ho, h, hm, e, hu => by
    obtain ⟨u, f1, os1, e1, -, h2⟩ := wstep_ok cfg hc o (ho o (by simp)) f os c p h
    simp only [wrun, e1] at e
    cases h3 : wrun cfg ops f1 os1 with
    | none => rw [h3] at e; cases e
    | some y =>
      obtain ⟨vs, g, og⟩ := y
      rw [h3] at e
      simp only [Option.some.injEq, Prod.mk.injEq] at e
      obtain ⟨rfl, rfl, rfl⟩ := e
      have hut : u = true := hu u (by simp)
      subst hut
      exact wrun_mode cfg hc f0 ops f1 os1 _ _ vs g og (fun o h => ho o (by simp [h])) (h2 rfl)
        (wstep_mode cfg hc f0 o (ho o (by simp)) f os c p f1 os1 h hm e1).1 h3 (fun v hv => hu v (by simp [hv]))

theorem wrun_append (cfg : Cfg) : ∀ (a b : List WOp) (f : File) (os : Os) (us : List Bool) (f2 : File) (os2 : Os),
    wrun cfg (a ++ b) f os = some (us, f2, os2) →
    ∃ us1 f1 os1 us2, wrun cfg a f os = some (us1, f1, os1) ∧ wrun cfg b f1 os1 = some (us2, f2, os2) ∧ us = us1 ++ us2
  | [], b, f, os, us, f2, os2, h => ⟨[], f, os, us, rfl, h, rfl⟩
  | o :: a, b, f, os, us, f2, os2, h => by
    simp only [List.cons_append, wrun] at h
    cases h1 : wstep cfg o f os with
    | none => rw [h1] at h; cases h
    | some x =>
      obtain ⟨u, g, og⟩ := x
      rw [h1] at h; simp only at h
      cases h2 : wrun cfg (a ++ b) g og with
      | none => rw [h2] at h; cases h
      | some y =>
        obtain ⟨vs, g2, og2⟩ := y
        rw [h2] at h
        simp only [Option.some.injEq, Prod.mk.injEq] at h
        obtain ⟨rfl, rfl, rfl⟩ := h
        obtain ⟨us1, f1, os1, us2, e1, e2, e3⟩ := wrun_append cfg a b g og vs g2 og2 h2
        exact ⟨u :: us1, f1, os1, us2, by simp [wrun, h1, e1], e2, by rw [e3]; rfl⟩


theorem opened_mode {base f : File} (hb : base.lbf = false) (h : Opened base f) : Mode f f := by
  refine ⟨rfl, rfl, fun hl => ?_⟩
  rcases h with rfl | ⟨nbf, lbf, size, -, rfl⟩
  · rw [hb] at hl; cases hl
  · unfold setvbuf at hl ⊢
    split at hl
    · simp at hl
    · rename_i h; rw [if_neg h]

/-- **C14** without any `fflush`: after each operation that reports success on an unbuffered stream, and after each one that ends
in a newline on a line buffered stream, all bytes given so far are in the file -/
theorem c14_immediate (cfg : Cfg) (hc : 1 ≤ cfg.bufsiz) (f : File) (os : Os)
    (ho : (Opened openWrite f ∨ Opened openUpdate f) ∧ os.append = false ∨ Opened openAppend f ∧ os.append = true)
    (ops : List WOp) (o : WOp) (hops : ∀ o' ∈ ops ++ [o], o'.Ok) (us : List Bool) (f' : File) (os' : Os)
    (hr : wrun cfg (ops ++ [o]) f os = some (us, f', os')) (hu : ∀ u ∈ us, u = true) (x : UInt8) (hx : o.bytes.getLast? = some x)
    (hm : f.nbf = true ∨ (f.lbf = true ∧ x = 0x0A)) :
    Overlaid os.data (if os.append then os.data.length else os.pos) ((ops ++ [o]).map WOp.bytes).flatten os'.data := by
  have h : WInv f os os.data os.wpos ∧ Mode f f := by
    rcases ho with ⟨ho | ho, ha⟩ | ⟨ho, ha⟩
    · exact ⟨opened_W _ f os (Or.inl ⟨Or.inl rfl, ha⟩) ho, opened_mode rfl ho⟩
    · exact ⟨opened_W _ f os (Or.inl ⟨Or.inr rfl, ha⟩) ho, opened_mode rfl ho⟩
    · exact ⟨opened_W _ f os (Or.inr ⟨rfl, ha⟩) ho, opened_mode rfl ho⟩
  have hall := (wrun_ok cfg hc (ops ++ [o]) f os _ _ hops h.1).2 us f' os' hr hu
  obtain ⟨us1, f1, os1, us2, e1, e2, rfl⟩ := wrun_append cfg ops [o] f os us f' os' hr
  have ho1 : ∀ o' ∈ ops, o'.Ok := fun o' h => hops o' (by simp [h])
  have hu1 : ∀ u ∈ us1, u = true := fun u h => hu u (by simp [h])
  have w1 := (wrun_ok cfg hc ops f os _ _ ho1 h.1).2 us1 f1 os1 e1 hu1
  have m1 := wrun_mode cfg hc f ops f os _ _ us1 f1 os1 ho1 h.1 h.2 e1 hu1
  have hptr : f'.ptr = 0 := by
    simp only [wrun] at e2
    cases hs : wstep cfg o f1 os1 with
    | none => rw [hs] at e2; cases e2
    | some y =>
      obtain ⟨u, f2, os2⟩ := y
      rw [hs] at e2
      simp only [Option.some.injEq, Prod.mk.injEq] at e2
      obtain ⟨rfl, rfl, rfl⟩ := e2
      have : u = true := hu u (by simp)
      subst this
      exact (wstep_mode cfg hc f o (hops o (by simp)) f1 os1 _ _ f2 os2 w1 m1 hs).2 x hx hm
  have hcon := hall.content
  rw [hptr, List.take_zero, splice_nil] at hcon
  rw [← hcon]
  exact overlaid_splice _ _ _

/-- two lines through a line buffered stream: each is in the file as soon as its newline is written -/
example : ∃ f' os', wrun ⟨8, true⟩ [.putc 65, .write [66, 10] 1 2] (setvbuf openWrite false true 16) { data := [], pos := 0 } =
    some ([true, true], f', os') ∧ os'.data = [65, 66, 10] := ⟨_, _, rfl, rfl⟩
example : (setvbuf openWrite false true 16).lbf = true := rfl

/-! ### the end-of-file indicator -/

/-- **C13** when `fgetc` returns `EOF` on a stream that may be read, the cause can be told: either the end-of-file indicator is
set, and then the file has been read to its end, or the error indicator is, and then a read has failed.  Once the end of the file has been met,
`EOF` is returned again and again without another read -/
theorem c13_eof (cfg : Cfg) (hc : 1 ≤ cfg.bufsiz) (f : File) (os : Os) (hr : Reach cfg f os) (hw : f.wr = false)
    (f' : File) (os' : Os) (h : fgetc cfg f os = some (none, f', os')) :
    ((f'.eof = true ∧ os.data.length ≤ os.pos) ∨ (f'.err = true ∧ none ∈ os.rplan)) ∧
    (f'.eof = true → fgetc cfg f' os' = some (none, f', os')) := by
  have hb : f.hasBuf = true → 1 ≤ f.bufsz := by
    rcases reach_inv hc hr with ⟨a, h⟩ | ⟨c, p, h⟩
    · exact fun hb => (h.buf hb).2
    · exact fun hb => (h.buf hb).2
  have he : f.eof = true → os.data.length ≤ os.pos := by
    intro he
    rcases reach_inv hc hr with ⟨a, h⟩ | ⟨c, p, h⟩
    · have := h.eof he
      rw [← h.rest] at this
      have := (List.append_eq_nil_iff.1 this).2
      exact List.drop_eq_nil_iff.1 this
    · rw [h.eof] at he; cases he
  unfold fgetc at h
  split at h
  · split at h
    · simp at h
    · cases h
  · rename_i hcnt
    unfold fillbuf at h
    rw [if_neg (by simp [hw])] at h
    split at h
    · rename_i hf
      simp only [Option.some.injEq, Prod.mk.injEq, true_and] at h
      obtain ⟨rfl, rfl⟩ := h
      refine ⟨Or.inl ⟨hf, he hf⟩, fun _ => ?_⟩
      unfold fgetc; rw [if_neg hcnt]; unfold fillbuf; rw [if_neg (by simp [hw]), if_pos hf]
    · rename_i hf
      simp only at h
      obtain ⟨g, hg⟩ : ∃ g, g = getBuf cfg { f with rd := true } := ⟨_, rfl⟩
      rw [← hg] at h
      have hgw : g.wr = false ∧ 1 ≤ g.bufsz ∧ g.eof = f.eof := by
        rw [hg]; unfold getBuf; split
        · rename_i hb'; exact ⟨hw, hb hb', rfl⟩
        · split
          · exact ⟨hw, hc, rfl⟩
          · exact ⟨hw, Nat.le_refl 1, rfl⟩
      rcases read_cases os g.bufsz hgw.2.1 with ⟨os2, e, hpl, -⟩ | ⟨k, os2, hk, -, e, -⟩
      · rw [e] at h
        simp only [Option.some.injEq, Prod.mk.injEq, true_and] at h
        obtain ⟨rfl, rfl⟩ := h
        refine ⟨Or.inr ⟨rfl, hpl⟩, fun h => ?_⟩
        simp only [hgw.2.2] at h
        exact absurd h hf
      · rw [e] at h
        cases hd : (os.data.drop os.pos).take k with
        | nil =>
          rw [hd] at h
          simp only [Option.some.injEq, Prod.mk.injEq, true_and] at h
          obtain ⟨rfl, rfl⟩ := h
          refine ⟨Or.inl ⟨rfl, ?_⟩, fun _ => ?_⟩
          · rcases List.take_eq_nil_iff.1 hd with h | h
            · omega
            · exact List.drop_eq_nil_iff.1 h
          · unfold fgetc; rw [if_neg (by simp)]; unfold fillbuf; rw [if_neg (by simp [hgw.1]), if_pos rfl]
        | cons b bs =>
          rw [hd] at h
          simp only at h
          split at h
          · simp at h
          · cases h

example : ∃ u f os f' os', fgetc ⟨8, true⟩ openRead { data := [65], pos := 0 } = some (u, f, os) ∧ Reach ⟨8, true⟩ f os ∧
    fgetc ⟨8, true⟩ f os = some (none, f', os') ∧ f'.eof = true :=
  ⟨_, _, _, _, _, rfl, .read .getc openRead { data := [65], pos := 0 } _ _ _ (.openRead _ _ (Or.inl rfl) rfl) rfl rfl, rfl, rfl⟩

end Smlr.Stdio
