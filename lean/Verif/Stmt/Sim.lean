import Verif.Stmt.Rel
set_option autoImplicit false
/-! The simulation: a step of the statement is some steps of the code, and no steps only finitely often in a row. -/
namespace Smlr.Stmt
open Spec

section
variable {L : Lang} {σ : Type} {sem : List L.X → σ → Option (Int × σ)} {code : List (I L.X)} {X : Ctx L}

theorem lt_of_get {α : Type} {l : List α} {p : Nat} {i : α} (h : l[p]? = some i) : p < l.length := by
  rcases Nat.lt_or_ge p l.length with h' | h'
  · exact h'
  · rw [List.getElem?_eq_none h'] at h; cases h

def Halted (sem : List L.X → σ → Option (Int × σ)) (code : List (I L.X)) (m : Mc σ) : Prop := mstep sem code m = none ∧ m.pc < code.length

/-- constants are constant -/
def ConstOk (sem : List L.X → σ → Option (Int × σ)) : Prop := ∀ e v, L.const e = some v → ∀ st, sem (L.rpn e) st = some (L.trunc v, st)

theorem go1 {Q : σ → Prop} {m m1 : Mc σ} (h : Q m.st) (h1 : Q m1.st) (hs : mstep sem code m = some m1) : Go sem code Q 1 m m1 := .step h hs (.refl _ h1)

theorem Go.lead {Q : σ → Prop} (hU : Uniq code) {n p q : Nat} {acc : Option Int} {st : σ} {m : Mc σ} (hl : Lead code p q) (h : Go sem code Q n ⟨q, acc, st⟩ m) (hQ : Q st) :
    ∃ k, Go sem code Q (k + n) ⟨p, acc, st⟩ m := by
  obtain ⟨k, hk⟩ := hl
  exact ⟨k, ((hk.go hU acc st).mono (fun s e => by rw [e]; exact hQ)).trans h⟩

theorem Lead.go (hU : Uniq code) {Q : σ → Prop} {p q : Nat} {acc : Option Int} {st : σ} (hl : Lead code p q) (hQ : Q st) : ∃ n, Go sem code Q n ⟨p, acc, st⟩ ⟨q, acc, st⟩ := by
  obtain ⟨n, h⟩ := hl
  exact ⟨n, (h.go hU acc st).mono (fun s e => by rw [e]; exact hQ)⟩

theorem LeadP.go (hU : Uniq code) {Q : σ → Prop} {p q : Nat} {acc : Option Int} {st : σ} (hl : LeadP code p q) (hQ : Q st) : ∃ n, Go sem code Q (n + 1) ⟨p, acc, st⟩ ⟨q, acc, st⟩ := by
  obtain ⟨n, h⟩ := hl
  exact ⟨n, (h.go hU acc st).mono (fun s e => by rw [e]; exact hQ)⟩

theorem step_eval {m : Mc σ} {e : List L.X} (h : code[m.pc]? = some (.eval e)) : mstep sem code m = (sem e m.st).map fun r => ⟨m.pc + 1, none, r.2⟩ := by
  unfold mstep; rw [h]

theorem step_evalR {m : Mc σ} {e : List L.X} (h : code[m.pc]? = some (.evalR e)) : mstep sem code m = (sem e m.st).map fun r => ⟨m.pc + 1, some r.1, r.2⟩ := by
  unfold mstep; rw [h]

/-! ### conditions -/

theorem cn_none (hc : ConstOk sem) {c : L.E} {l p q : Nat} {acc : Option Int} {st : σ} (h : CN code (some c) l p q) (hs : sem (L.rpn c) st = none) :
    Halted sem code ⟨p, acc, st⟩ := by
  unfold CN at h
  cases hv : L.const c with
  | some v => rw [hc c v hv] at hs; cases hs
  | none =>
    simp only [hv] at h
    rcases h with ⟨h, -⟩ | ⟨h, -⟩
    · refine ⟨?_, lt_of_get h⟩
      unfold mstep; rw [h]; simp [hs]
    · refine ⟨?_, lt_of_get h⟩
      rw [step_evalR h]; simp [hs]

theorem cn_zero (hU : Uniq code) (hc : ConstOk sem) {c : L.E} {l p q z : Nat} {acc : Option Int} {st st' : σ} (h : CN code (some c) l p q) (hz : code[z]? = some (.lab l))
    (hs : sem (L.rpn c) st = some (0, st')) : ∃ n acc', Go sem code (fun s => s = st ∨ s = st') (n + 1) ⟨p, acc, st⟩ ⟨z, acc', st'⟩ := by
  unfold CN at h
  cases hv : L.const c with
  | some v =>
    simp only [hv] at h
    rw [hc c v hv] at hs
    simp only [Option.some.injEq, Prod.mk.injEq] at hs
    obtain ⟨h0, rfl⟩ := hs
    rw [if_pos h0] at h
    exact ⟨0, acc, go1 (.inl rfl) (.inl rfl) (step_jmp hU h hz)⟩
  | none =>
    simp only [hv] at h
    rcases h with ⟨h, -⟩ | ⟨h, h', -⟩
    · refine ⟨0, none, go1 (.inl rfl) (.inr rfl) ?_⟩
      unfold mstep; rw [h]; simp [hs, find_lab hU hz]
    · refine ⟨1, some 0, .step (.inl rfl) (by rw [step_evalR h, hs]; rfl) (go1 (.inr rfl) (.inr rfl) ?_)⟩
      unfold mstep; simp only [h']; simp [find_lab hU hz]

theorem cn_pos (hc : ConstOk sem) {c : L.E} {l p q : Nat} {acc : Option Int} {st st' : σ} {v : Int} (h : CN code (some c) l p q) (h0 : v ≠ 0)
    (hs : sem (L.rpn c) st = some (v, st')) : ∃ n acc', Go sem code (fun s => s = st ∨ s = st') n ⟨p, acc, st⟩ ⟨q, acc', st'⟩ := by
  unfold CN at h
  cases hv : L.const c with
  | some w =>
    simp only [hv] at h
    rw [hc c w hv] at hs
    simp only [Option.some.injEq, Prod.mk.injEq] at hs
    obtain ⟨h1, rfl⟩ := hs
    rw [if_neg (by rw [h1]; exact h0)] at h
    exact ⟨0, acc, by rw [h]; exact .refl _ (.inl rfl)⟩
  | none =>
    simp only [hv] at h
    rcases h with ⟨h, rfl⟩ | ⟨h, h', rfl⟩
    · refine ⟨1, none, go1 (.inl rfl) (.inr rfl) ?_⟩
      unfold mstep; rw [h]; simp [hs, h0]
    · refine ⟨2, some v, .step (.inl rfl) (by rw [step_evalR h, hs]; rfl) (go1 (.inr rfl) (.inr rfl) ?_)⟩
      unfold mstep; simp only [h']; simp [h0]

theorem cy_none (hc : ConstOk sem) {c : L.E} {l p q : Nat} {acc : Option Int} {st : σ} (h : CY code c l p q) (hs : sem (L.rpn c) st = none) :
    Halted sem code ⟨p, acc, st⟩ := by
  unfold CY at h
  cases hv : L.const c with
  | some v => rw [hc c v hv] at hs; cases hs
  | none =>
    simp only [hv] at h
    rcases h with ⟨h, -⟩ | ⟨h, -⟩
    · refine ⟨?_, lt_of_get h⟩
      unfold mstep; rw [h]; simp [hs]
    · refine ⟨?_, lt_of_get h⟩
      rw [step_evalR h]; simp [hs]

theorem cy_pos (hU : Uniq code) (hc : ConstOk sem) {c : L.E} {l p q z : Nat} {acc : Option Int} {st st' : σ} {v : Int} (h : CY code c l p q) (hz : code[z]? = some (.lab l)) (h0 : v ≠ 0)
    (hs : sem (L.rpn c) st = some (v, st')) : ∃ n acc', Go sem code (fun s => s = st ∨ s = st') n ⟨p, acc, st⟩ ⟨z, acc', st'⟩ := by
  unfold CY at h
  cases hv : L.const c with
  | some w =>
    simp only [hv] at h
    rw [hc c w hv] at hs
    simp only [Option.some.injEq, Prod.mk.injEq] at hs
    obtain ⟨h1, rfl⟩ := hs
    rw [if_neg (by rw [h1]; exact h0)] at h
    exact ⟨1, acc, go1 (.inl rfl) (.inl rfl) (step_jmp hU h hz)⟩
  | none =>
    simp only [hv] at h
    rcases h with ⟨h, -⟩ | ⟨h, h', -⟩
    · refine ⟨1, none, go1 (.inl rfl) (.inr rfl) ?_⟩
      unfold mstep; rw [h]; simp [hs, find_lab hU hz, h0]
    · refine ⟨2, some v, .step (.inl rfl) (by rw [step_evalR h, hs]; rfl) (go1 (.inr rfl) (.inr rfl) ?_)⟩
      unfold mstep; simp only [h']; simp [find_lab hU hz, h0]

theorem cy_zero (hc : ConstOk sem) {c : L.E} {l p q : Nat} {acc : Option Int} {st st' : σ} (h : CY code c l p q)
    (hs : sem (L.rpn c) st = some (0, st')) : ∃ n acc', Go sem code (fun s => s = st ∨ s = st') n ⟨p, acc, st⟩ ⟨q, acc', st'⟩ := by
  unfold CY at h
  cases hv : L.const c with
  | some w =>
    simp only [hv] at h
    rw [hc c w hv] at hs
    simp only [Option.some.injEq, Prod.mk.injEq] at hs
    obtain ⟨h1, rfl⟩ := hs
    rw [if_pos h1] at h
    exact ⟨0, acc, by rw [h]; exact .refl _ (.inl rfl)⟩
  | none =>
    simp only [hv] at h
    rcases h with ⟨h, rfl⟩ | ⟨h, h', rfl⟩
    · refine ⟨1, none, go1 (.inl rfl) (.inr rfl) ?_⟩
      unfold mstep; rw [h]; simp [hs]
    · refine ⟨2, some 0, .step (.inl rfl) (by rw [step_evalR h, hs]; rfl) (go1 (.inr rfl) (.inr rfl) ?_)⟩
      unfold mstep; simp only [h']; simp

/-! ### matching configurations -/

def ssize : Stmt L → Nat
  | .nil => 0
  | .cons s ss => ssize s + ssize ss + 2
  | .block s => ssize s + 1
  | .dow b _ => ssize b + 2
  | .for .none _ _ _ => 1
  | .for _ _ _ _ => 2
  | .ift _ a => ssize a + 1
  | .ife _ a _ => ssize a + 1
  | .case _ s => ssize s + 1
  | .default s => ssize s + 1
  | .label _ s => ssize s + 1
  | _ => 1

def ksize : Cont L → Nat
  | .stop => 0
  | .seq ss k => ssize ss + 1 + ksize k
  | .loop _ _ _ k => 1 + ksize k
  | .dow _ _ k => 1 + ksize k
  | .switch k => 1 + ksize k

def csize : Conf L σ → Nat
  | .run s k _ => ssize s + ksize k
  | _ => 0

variable (code X)

def Match (S : Conf L σ) (m : Mc σ) : Prop :=
  match S with
  | .run s k st => m.st = st ∧ ∃ p0 q bt ct cs ds, Lead code m.pc p0 ∧ C code X s bt ct p0 q cs ds ∧ MK code X k q bt ct
  | .test c e b k st => m.st = st ∧ ∃ la lc q r p1 z t cs ds bt' ct', Test code c q p1 m.pc ∧ C code X b (some la) (some lc) q r cs ds ∧ Back code c e q p1 r ∧
      code[t]? = some (.lab lc) ∧ Back code c e q p1 t ∧ code[z]? = some (.lab la) ∧ Lead code z p1 ∧ MK code X k p1 bt' ct'
  | .done r st => m.st = st ∧ m.pc = code.length ∧ ∀ v, r = some v → m.acc = some v

/-- how the code ends -/
structure Ends : Prop where
  len : code.length = X.ep + 1
  lab : ∃ l, code[X.ep]? = some (.lab l)
  main : X.isMain = true → code[X.pe]? = some (.evalR L.zero) ∧ X.ep = X.pe + 1
  other : X.isMain = false → X.ep = X.pe

variable (sem)

/-- what the simulation is to give -/
def Goal (S : Conf L σ) (m : Mc σ) (o : Option (Conf L σ)) : Prop :=
  match o with
  | some S' => ∃ n m', Go sem code (fun s => s = S.st ∨ s = S'.st) n m m' ∧ Match code X S' m' ∧ (0 < n ∨ csize S' < csize S)
  | none => ∃ n m', Go sem code (· = S.st) n m m' ∧ Halted sem code m'

variable {sem code X}

theorem goal_stay {S S' : Conf L σ} {m : Mc σ} (h : Match code X S' m) (hst : m.st = S.st) (hm : csize S' < csize S) : Goal sem code X S m (some S') :=
  ⟨0, m, .refl _ (.inl hst), h, .inr hm⟩

/-- `Match` of a statement that ends -/
theorem match_nil {k : Cont L} {m : Mc σ} {p : Nat} {bt ct : Option Nat} (hl : Lead code m.pc p) (hk : MK code X k p bt ct) : Match code X (.run .nil k m.st) m :=
  ⟨rfl, p, p, bt, ct, [], [], hl, .nil, hk⟩

theorem goal_eff (hU : Uniq code) {S : Conf L σ} {m : Mc σ} {p : Nat} {e : List L.X} {f : σ → Conf L σ} (hf : ∀ st, (f st).st = st) (hst : m.st = S.st) (hl : Lead code m.pc p)
    (he : code[p]? = some (.eval e)) (h : ∀ st, Match code X (f st) ⟨p + 1, none, st⟩) : Goal sem code X S m (eff sem e m.st f) := by
  obtain ⟨pc, acc, st⟩ := m
  simp only at hst hl h
  unfold eff
  cases hs : sem e st with
  | none =>
    obtain ⟨n, hn⟩ := hl.go (sem := sem) (acc := acc) hU (Q := (· = S.st)) hst
    refine ⟨n, _, hn, ?_, lt_of_get he⟩
    rw [step_eval he]; simp [hs]
  | some r =>
    simp only [Option.map_some]
    obtain ⟨n, hn⟩ := hl.go (sem := sem) (acc := acc) hU (Q := fun s => s = S.st ∨ s = (f r.2).st) (.inl hst)
    exact ⟨n + 1, _, hn.trans (go1 (.inl hst) (.inr (hf _).symm) (by rw [step_eval he]; simp [hs])), h r.2, .inl (by omega)⟩

theorem goal_choose (hU : Uniq code) (hc : ConstOk sem) {S : Conf L σ} {m : Mc σ} {c : L.E} {l p q z : Nat} {f g : σ → Conf L σ} (hf : ∀ st, (f st).st = st) (hg : ∀ st, (g st).st = st)
    (hst : m.st = S.st)
    (hn : CN code (some c) l p q) (hz : code[z]? = some (.lab l)) (h1 : ∀ acc st, Match code X (f st) ⟨q, acc, st⟩) (h2 : ∀ acc st, Match code X (g st) ⟨z, acc, st⟩)
    (hm : LeadP code m.pc p ∨ (Lead code m.pc p ∧ ∀ st, csize (f st) < csize S)) : Goal sem code X S m (choose sem c m.st f g) := by
  obtain ⟨pc, acc, st⟩ := m
  simp only at hst hm
  have hl : Lead code pc p := hm.elim LeadP.lead And.left
  unfold choose
  cases hs : sem (L.rpn c) st with
  | none =>
    obtain ⟨n, h⟩ := hl.go (sem := sem) (acc := acc) hU (Q := (· = S.st)) hst
    exact ⟨n, _, h, cn_none hc hn hs⟩
  | some r =>
    obtain ⟨v, st'⟩ := r
    simp only [Option.map_some]
    by_cases h0 : v = 0
    · subst h0
      rw [if_pos rfl]
      obtain ⟨n, h⟩ := hl.go (sem := sem) (acc := acc) hU (Q := fun s => s = S.st ∨ s = (g st').st) (.inl hst)
      obtain ⟨n', acc', h'⟩ := cn_zero (acc := acc) hU hc hn hz hs
      exact ⟨_, _, h.trans (h'.mono (fun s e => by rw [← hst, hg]; exact e)), h2 acc' st', .inl (by omega)⟩
    · rw [if_neg h0]
      obtain ⟨n', acc', h'⟩ := cn_pos (acc := acc) hc hn h0 hs
      have h'' := h'.mono (R := fun s => s = S.st ∨ s = (f st').st) (fun s e => by rw [← hst, hf]; exact e)
      rcases hm with hm | ⟨hm, hlt⟩
      · obtain ⟨n, h⟩ := hm.go (sem := sem) (acc := acc) hU (Q := fun s => s = S.st ∨ s = (f st').st) (.inl hst)
        exact ⟨_, _, h.trans h'', h1 acc' st', .inl (by omega)⟩
      · obtain ⟨n, h⟩ := hm.go (sem := sem) (acc := acc) hU (Q := fun s => s = S.st ∨ s = (f st').st) (.inl hst)
        exact ⟨_, _, h.trans h'', h1 acc' st', .inr (hlt st')⟩

/-- `je` to the first case that fits -/
theorem go_je (hU : Uniq code) {v : Int} {st : σ} : ∀ (cs : List (Int × Nat)) (y : Nat), (∀ i c, cs[i]? = some c → code[y + i]? = some (.je c.1 c.2)) →
    (∀ l z, firstCase v cs = some l → code[z]? = some (.lab l) → ∃ n, Go sem code (· = st) n ⟨y, some v, st⟩ ⟨z, some v, st⟩) ∧
    (firstCase v cs = none → ∃ n, Go sem code (· = st) n ⟨y, some v, st⟩ ⟨y + cs.length, some v, st⟩)
  | [], y, _ => ⟨fun l z h => (by cases h), fun _ => ⟨0, .refl _ rfl⟩⟩
  | c :: cs, y, h => by
    have h0 : code[y]? = some (.je c.1 c.2) := h 0 c rfl
    have ih := go_je hU (v := v) (st := st) cs (y + 1) (fun i d hd => by rw [show y + 1 + i = y + (i + 1) by omega]; exact h (i + 1) d hd)
    by_cases e : c.1 = v
    · refine ⟨fun l z hl hz => ?_, fun hn => by simp [firstCase, e] at hn⟩
      simp only [firstCase, if_pos e, Option.some.injEq] at hl
      refine ⟨1, go1 rfl rfl ?_⟩
      unfold mstep
      simp only [h0]
      rw [hl]
      simp [e, find_lab hU hz]
    · have hs : mstep sem code ⟨y, some v, st⟩ = some ⟨y + 1, some v, st⟩ := by
        unfold mstep
        simp only [h0]
        simp
        intro h
        exact absurd h.symm e
      simp only [firstCase, if_neg e]
      refine ⟨fun l z hl hz => ?_, fun hn => ?_⟩
      · obtain ⟨n, hn⟩ := ih.1 l z hl hz
        exact ⟨n + 1, .step rfl hs hn⟩
      · obtain ⟨n, hn⟩ := ih.2 hn
        rw [show y + 1 + cs.length = y + (c :: cs).length by simp only [List.length_cons]; omega] at hn
        exact ⟨n + 1, .step rfl hs hn⟩

theorem go_end {P : Prop} (hE : Ends code X) (hU : Uniq code) {m : Mc σ} (hl : Lead code m.pc X.ep)
    (h : ∀ n, Go sem code (· = m.st) (n + 1) m ⟨code.length, m.acc, m.st⟩ → P) : P := by
  obtain ⟨pc, acc, st⟩ := m
  obtain ⟨n, hn⟩ := hl.go (sem := sem) (acc := acc) hU (Q := (· = st)) rfl
  obtain ⟨l, hl⟩ := hE.lab
  exact h n (hn.trans (go1 rfl rfl (by rw [step_lab hl, hE.len])))

/-- the simulation -/
theorem sim (hU : Uniq code) (hc : ConstOk sem) (hE : Ends code X) (hz : ∀ st, sem L.zero st = some (0, st)) {S : Conf L σ} {m : Mc σ} (hm : Match code X S m)
    (hS : ∀ r st, S ≠ .done r st) (hb : ∃ q cs ds, C code X X.body none none 0 q cs ds ∧ MK code X .stop q none none) : Goal sem code X S m (step sem X.isMain X.body S) := by
  cases S with
  | done r st => exact absurd rfl (hS r st)
  | test c e b k st =>
    obtain ⟨rfl, la, lc, q, r, p1, z, t, cs, ds, bt', ct', ht, hC, h1, h2, h3, h4, h5, hk⟩ := hm
    have body : ∀ (u : Nat) (hu : Lead code u q) (acc : Option Int) (st : σ), Match code X (.run b (.loop c e b k) st) ⟨u, acc, st⟩ := fun u hu acc st =>
      ⟨rfl, q, r, _, _, cs, ds, hu, hC, la, lc, q, r, p1, z, t, cs, ds, bt', ct', rfl, rfl, hC, h1, h2, h3, h4, h5, h1, hk⟩
    cases c with
    | none =>
      rcases ht with ⟨l, t', u, z', g1, g2, gu, g3, g4⟩ | ⟨h, -⟩
      · have g2 : u = t' := g2
        subst g2
        obtain ⟨n, hn⟩ := g1.go (sem := sem) (acc := m.acc) hU (Q := fun s => s = m.st ∨ s = m.st) (.inl rfl)
        exact ⟨n + 1, _, hn, body _ gu _ _, .inl (by omega)⟩
      · cases h
    | some c =>
      rcases ht with ⟨l, t', u, z', g1, g2, gu, g3, g4⟩ | ⟨h, g⟩
      · exact goal_choose hU hc (fun _ => rfl) (fun _ => rfl) rfl g2 g3 (body u gu) (fun acc st => match_nil (m := ⟨z', acc, st⟩) g4 hk) (.inl g1)
      · unfold condZero at h
        cases hv : L.const c with
        | none => simp [hv] at h
        | some v =>
          simp [hv] at h
          obtain ⟨n, hn⟩ := g.go (sem := sem) (acc := m.acc) hU (Q := fun s => s = m.st ∨ s = m.st) (.inl rfl)
          simp only [step, choose, hc c v hv, Option.map_some, h, if_true]
          exact ⟨n + 1, _, hn, match_nil (m := ⟨p1, m.acc, m.st⟩) (.refl _) hk, .inl (by omega)⟩
  | run s k st =>
    obtain ⟨rfl, p0, q, bt, ct, cs, ds, hl, hC, hk⟩ := hm
    cases hC with
    | nil =>
      cases k with
      | stop =>
        have hp : Lead code m.pc X.pe := hl.trans hk.2.2
        simp only [step]
        cases hM : X.isMain with
        | false =>
          refine go_end (sem := sem) hE hU (by rw [hE.other hM]; exact hp) fun n hn => ?_
          exact ⟨n + 1, _, hn.mono (fun s e => .inl e), ⟨rfl, rfl, fun v h => by simp at h⟩, .inl (by omega)⟩
        | true =>
          obtain ⟨g1, g2⟩ := hE.main hM
          obtain ⟨n, hn⟩ := hp.go (sem := sem) (acc := m.acc) hU (Q := fun s => s = m.st ∨ s = m.st) (.inl rfl)
          have g3 : mstep sem code ⟨X.pe, m.acc, m.st⟩ = some ⟨X.ep, some 0, m.st⟩ := by rw [step_evalR g1, g2]; simp [hz]
          refine go_end (sem := sem) (m := ⟨X.ep, some 0, m.st⟩) hE hU (.refl X.ep) fun n' hn' => ?_
          have g5 : Go sem code (fun s => s = m.st ∨ s = m.st) 1 ⟨X.pe, m.acc, m.st⟩ ⟨X.ep, some 0, m.st⟩ := go1 (.inl rfl) (.inl rfl) g3
          have g4 := (hn.trans g5).trans (hn'.mono (fun s e => .inl e))
          exact ⟨_, _, g4, ⟨rfl, rfl, fun v h => by simpa using h⟩, .inl (by omega)⟩
      | seq ss k =>
        obtain ⟨p1, q1, cs1, ds1, g1, g2, g3⟩ := hk
        exact goal_stay ⟨rfl, p1, q1, bt, ct, cs1, ds1, hl.trans g1, g2, g3⟩ rfl (by simp [csize, ssize, ksize])
      | loop c e b k =>
        obtain ⟨la, lc, q1, r, p1, z, t, cs, ds, bt', ct', h1, h2, h3, h4, h5, h6, h7, h8, h9, h10⟩ := hk
        subst h1 h2
        have h9 := h9.lead hl
        cases e with
        | none => exact goal_stay ⟨rfl, la, lc, q1, r, p1, z, t, cs, ds, bt', ct', h9, h3, h4, h5, h6, h7, h8, h10⟩ rfl (by simp [csize, ssize, ksize]; omega)
        | some e =>
          obtain ⟨t', g1, g2, g3⟩ := h9
          exact goal_eff hU (fun _ => rfl) rfl g1 g2 (fun st => ⟨rfl, la, lc, q1, r, p1, z, t, cs, ds, bt', ct', g3, h3, h4, h5, h6, h7, h8, h10⟩)
      | dow b c k =>
        obtain ⟨la, lb, lc, q1, r, p1, z, t, s, u, v, cs, ds, bt', ct', h1, h2, h3, h4, h5, h6, h7, h8, h9, h10, h11, h12, h13, h14⟩ := hk
        subst h1 h2
        have h13 := hl.transP h13
        simp only [step, choose]
        cases hs : sem (L.rpn c) m.st with
        | none =>
          obtain ⟨n, h⟩ := h13.go (sem := sem) (acc := m.acc) hU (Q := (· = m.st)) rfl
          exact ⟨n + 1, _, h, cy_none hc h5 hs⟩
        | some x =>
          obtain ⟨w, st'⟩ := x
          simp only [Option.map_some]
          obtain ⟨n, h⟩ := h13.go (sem := sem) (acc := m.acc) hU (Q := fun s => s = m.st ∨ s = st') (.inl rfl)
          by_cases h0 : w = 0
          · subst h0
            rw [if_pos rfl]
            obtain ⟨n', acc', h'⟩ := cy_zero (acc := m.acc) hc h5 hs
            exact ⟨_, _, h.trans h', match_nil (m := ⟨v, acc', st'⟩) h6 h14, .inl (by omega)⟩
          · rw [if_neg h0]
            obtain ⟨n', acc', h'⟩ := cy_pos (acc := m.acc) hU hc h5 h7 h0 hs
            exact ⟨_, _, h.trans h', ⟨rfl, q1, r, _, _, cs, ds, h8, h3, la, lb, lc, q1, r, p1, z, t, s, u, v, cs, ds, bt', ct', rfl, rfl, h3, h4, h5, h6, h7, h8, h9, h10, h11, h12, h4, h14⟩,
              .inl (by omega)⟩
      | switch k =>
        obtain ⟨l, p1, bt', z, h1, h2, h3, h4, h5⟩ := hk
        exact goal_stay (match_nil (hl.trans h4) h5) rfl (by simp [csize, ssize, ksize])
    | cons h h' => exact goal_stay ⟨rfl, p0, _, bt, ct, _, _, hl, h, _, _, _, _, .refl _, h', hk⟩ rfl (by simp [csize, ssize, ksize]; omega)
    | @decl es _ _ _ h =>
      cases es with
      | nil => exact goal_stay (match_nil hl hk) rfl (by simp [csize, ssize])
      | cons e es =>
        refine goal_eff hU (fun _ => rfl) rfl hl (h 0 e rfl) (fun st => ⟨rfl, p0 + 1, p0 + 1 + es.length, bt, ct, [], [], .refl _, ?_, ?_⟩)
        · refine .decl fun i e' hi => ?_
          rw [show p0 + 1 + i = p0 + (i + 1) by omega]
          exact h (i + 1) e' hi
        · rwa [show p0 + 1 + es.length = p0 + (e :: es).length by simp; omega]
    | empty => exact goal_stay (match_nil hl hk) rfl (by simp [csize, ssize])
    | expr h => exact goal_eff hU (fun _ => rfl) rfl hl h (fun st => match_nil (m := ⟨p0 + 1, none, st⟩) (.refl _) hk)
    | block h => exact goal_stay ⟨rfl, p0, q, bt, ct, cs, ds, hl, h, hk⟩ rfl (by simp [csize, ssize])
    | ret0 h =>
      refine go_end (sem := sem) hE hU (hl.trans h) fun n hn => ?_
      exact ⟨n + 1, _, hn.mono (fun s e => .inl e), ⟨rfl, rfl, fun v h => by cases h⟩, .inl (by omega)⟩
    | @ret e _ _ _ _ h h' =>
      simp only [step]
      cases hs : sem (L.rpn e) m.st with
      | none =>
        obtain ⟨n, hn⟩ := hl.go (sem := sem) (acc := m.acc) hU (Q := (· = m.st)) rfl
        exact ⟨n, _, hn, by rw [step_evalR h]; simp [hs], lt_of_get h⟩
      | some r =>
        obtain ⟨v, st'⟩ := r
        obtain ⟨n, hn⟩ := hl.go (sem := sem) (acc := m.acc) hU (Q := fun s => s = m.st ∨ s = st') (.inl rfl)
        have g3 : mstep sem code ⟨p0, m.acc, m.st⟩ = some ⟨p0 + 1, some v, st'⟩ := by rw [step_evalR h]; simp [hs]
        refine go_end (sem := sem) (m := ⟨p0 + 1, some v, st'⟩) hE hU h' fun n' hn' => ?_
        exact ⟨_, _, (hn.trans (go1 (.inl rfl) (.inr rfl) g3)).trans (hn'.mono (fun s e => .inr e)), ⟨rfl, rfl, fun v h => by simpa using h⟩, .inl (by omega)⟩
    | whl ht hb' hr hc1 hc2 ha ha' => exact goal_stay ⟨rfl, _, _, _, _, _, _, _, cs, ds, bt, ct, ht.lead hl, hb', hr, hc1, hc2, ha, ha', hk⟩ rfl (by simp [csize, ssize]; omega)
    | @«for» i c e b _ _ la lc _ p q' r t z _ _ _ hi ht hb' hr hc1 hc2 ha ha' =>
      cases i with
      | none =>
        have hi : p = p0 := hi
        subst hi
        exact goal_stay ⟨rfl, _, _, _, _, _, _, _, cs, ds, bt, ct, ht.lead hl, hb', hr, hc1, hc2, ha, ha', hk⟩ rfl (by simp [csize, ssize]; omega)
      | expr i =>
        obtain ⟨hi, rfl⟩ := hi
        exact goal_eff hU (fun _ => rfl) rfl hl hi (fun st => ⟨rfl, p0 + 1, q, bt, ct, cs, ds, .refl _, .for (i := .none) rfl ht hb' hr hc1 hc2 ha ha', hk⟩)
      | decl is =>
        obtain ⟨hi, rfl⟩ := hi
        cases is with
        | nil => exact goal_stay ⟨rfl, p0, q, bt, ct, cs, ds, hl, .for (i := .none) rfl ht hb' hr hc1 hc2 ha ha', hk⟩ rfl (by simp [csize, ssize])
        | cons i is =>
          refine goal_eff hU (fun _ => rfl) rfl hl (hi 0 i rfl) (fun st => ⟨rfl, p0 + 1, q, bt, ct, cs, ds, .refl _, .for (i := .decl is) ⟨fun j e' hj => ?_, ?_⟩ ht hb' hr hc1 hc2 ha ha', hk⟩)
          · rw [show p0 + 1 + j = p0 + (j + 1) by omega]
            exact hi (j + 1) e' hj
          · simp; omega
    | dow hp hl1 hl' hb' hr hy hv hc1 hc2 ha ha' =>
      exact goal_stay ⟨rfl, _, _, _, _, cs, ds, hl.trans hp, hb', _, _, _, _, _, _, _, _, _, _, _, _, _, _, _, rfl, rfl, hb', hr, hy, hv, hl1, hl', hc1, hc2, ha, ha', hr, hk⟩ rfl
        (by simp [csize, ssize, ksize]; omega)
    | ift h hz hz' ha hr =>
      exact goal_choose hU hc (fun _ => rfl) (fun _ => rfl) rfl h hz (fun acc st => ⟨rfl, _, _, bt, ct, _, _, .refl _, ha, hk.lead _ _ hr⟩)
        (fun acc st => match_nil (m := ⟨_, acc, st⟩) hz' hk) (.inr ⟨hl, fun st => by simp [csize, ssize]⟩)
    | ife h hz hz' ha hr hb' hv =>
      exact goal_choose hU hc (fun _ => rfl) (fun _ => rfl) rfl h hz (fun acc st => ⟨rfl, _, _, bt, ct, _, _, .refl _, ha, hk.lead _ _ hr⟩)
        (fun acc st => ⟨rfl, _, _, bt, ct, _, _, hz', hb', hk.lead _ _ hv⟩) (.inr ⟨hl, fun st => by simp [csize, ssize]⟩)
    | @brk l _ _ _ h =>
      cases k with
      | stop => exact absurd hk.1 (by simp)
      | seq ss k =>
        obtain ⟨p1, q1, cs1, ds1, g1, g2, g3⟩ := hk
        exact goal_stay ⟨rfl, p0, _, _, _, _, _, hl, .brk h, g3⟩ rfl (by simp [csize, ssize, ksize])
      | loop c e b k =>
        obtain ⟨la, lc, q1, r, p1, z, t, cs, ds, bt', ct', h1, h2, h3, h4, h5, h6, h7, h8, h9, h10⟩ := hk
        cases h1
        obtain ⟨n, hn⟩ := (hl.transP (leadP_jmp h h7)).go (sem := sem) (acc := m.acc) hU (Q := fun s => s = m.st ∨ s = m.st) (.inl rfl)
        exact ⟨_, _, hn, match_nil (m := ⟨z, m.acc, m.st⟩) h8 h10, .inl (by omega)⟩
      | dow b c k =>
        obtain ⟨la, lb, lc, q1, r, p1, z, t, s, u, v, cs, ds, bt', ct', h1, h2, h3, h4, h5, h6, h7, h8, h9, h10, h11, h12, h13, h14⟩ := hk
        cases h1
        obtain ⟨n, hn⟩ := (hl.transP (leadP_jmp h h11)).go (sem := sem) (acc := m.acc) hU (Q := fun s => s = m.st ∨ s = m.st) (.inl rfl)
        exact ⟨_, _, hn, match_nil (m := ⟨z, m.acc, m.st⟩) h12 h14, .inl (by omega)⟩
      | switch k =>
        obtain ⟨l, p1, bt', z, h1, h2, h3, h4, h5⟩ := hk
        cases h1
        obtain ⟨n, hn⟩ := (hl.transP (leadP_jmp h h2)).go (sem := sem) (acc := m.acc) hU (Q := fun s => s = m.st ∨ s = m.st) (.inl rfl)
        exact ⟨_, _, hn, match_nil (m := ⟨z, m.acc, m.st⟩) h3 h5, .inl (by omega)⟩
    | @cont l _ _ _ h =>
      cases k with
      | stop => exact absurd hk.2.1 (by simp)
      | seq ss k =>
        obtain ⟨p1, q1, cs1, ds1, g1, g2, g3⟩ := hk
        exact goal_stay ⟨rfl, p0, _, _, _, _, _, hl, .cont h, g3⟩ rfl (by simp [csize, ssize, ksize])
      | loop c e b k =>
        obtain ⟨la, lc, q1, r, p1, z, t, cs, ds, bt', ct', h1, h2, h3, h4, h5, h6, h7, h8, h9, h10⟩ := hk
        cases h2
        obtain ⟨n, hn⟩ := (hl.transP (leadP_jmp h h5)).go (sem := sem) (acc := m.acc) hU (Q := fun s => s = m.st ∨ s = m.st) (.inl rfl)
        exact ⟨_, _, hn, match_nil (m := ⟨t, m.acc, m.st⟩) (bt := bt) (.refl _) ⟨la, l, q1, r, p1, z, t, cs, ds, bt', ct', h1, rfl, h3, h4, h5, h6, h7, h8, h6, h10⟩, .inl (by omega)⟩
      | dow b c k =>
        obtain ⟨la, lb, lc, q1, r, p1, z, t, s, u, v, cs, ds, bt', ct', h1, h2, h3, h4, h5, h6, h7, h8, h9, h10, h11, h12, h13, h14⟩ := hk
        cases h2
        obtain ⟨n, hn⟩ := (hl.transP (leadP_jmp h h9)).go (sem := sem) (acc := m.acc) hU (Q := fun s => s = m.st ∨ s = m.st) (.inl rfl)
        exact ⟨_, _, hn, match_nil (m := ⟨t, m.acc, m.st⟩) (bt := bt) (.refl _)
          ⟨la, lb, l, q1, r, p1, z, t, s, u, v, cs, ds, bt', ct', h1, rfl, h3, h4, h5, h6, h7, h8, h9, h10, h11, h12, h10, h14⟩, .inl (by omega)⟩
      | switch k =>
        obtain ⟨l, p1, bt', z, h1, h2, h3, h4, h5⟩ := hk
        exact goal_stay ⟨rfl, p0, _, _, _, _, _, hl, .cont h, h5⟩ rfl (by simp [csize, ssize, ksize])
    | @switch e b _ _ lb ls _ r z y _ cs ds he hj hs hcs hd q1 hb' hz1 hz2 hr =>
      simp only [step]
      cases hv : sem (L.rpn e) m.st with
      | none =>
        obtain ⟨n, hn⟩ := hl.go (sem := sem) (acc := m.acc) hU (Q := (· = m.st)) rfl
        exact ⟨n, _, hn, by rw [step_evalR he]; simp [hv], lt_of_get he⟩
      | some x =>
        obtain ⟨v, st'⟩ := x
        simp only [Option.map_some]
        obtain ⟨n, hn⟩ := hl.go (sem := sem) (acc := m.acc) hU (Q := fun s => s = m.st ∨ s = st') (.inl rfl)
        have g1 : mstep sem code ⟨p0, m.acc, m.st⟩ = some ⟨p0 + 1, some v, st'⟩ := by rw [step_evalR he]; simp [hv]
        have g2 : mstep sem code ⟨p0 + 1, some v, st'⟩ = some ⟨y, some v, st'⟩ := step_jmp hU hj hs
        have g3 : mstep sem code ⟨y, some v, st'⟩ = some ⟨y + 1, some v, st'⟩ := step_lab hs
        have g4 := hn.trans (.step (.inl rfl) g1 (.step (.inr rfl) g2 (go1 (.inr rfl) (.inr rfl) g3)))
        have hk' : MK code X (.switch k) r (some lb) ct := ⟨_, _, _, _, rfl, hz1, hz2, hr, hk⟩
        have hj' := go_je (sem := sem) (v := v) (st := st') hU cs (y + 1) hcs
        have s1 := seek_place (.case v) hb' hk'
        have s2 := seek_place .default hb' hk'
        unfold select
        cases e1 : b.seek (.case v) (.switch k) with
        | some x =>
          obtain ⟨l, hl1, z1, bt1, ct1, q2, cs2, ds2, hz3, hC1, hk1⟩ := s1.1 x e1
          obtain ⟨n', hn'⟩ := hj'.1 l z1 hl1 hz3
          simp only [Option.some_or]
          exact ⟨_, _, g4.trans (hn'.mono (fun s e => .inr e)), ⟨rfl, z1 + 1, q2, bt1, ct1, cs2, ds2, (leadP_lab hz3).lead, hC1, hk1⟩, .inl (by omega)⟩
        | none =>
          have e2 : firstCase v cs = none := by
            rcases s1.2 e1 with ⟨n, h⟩ | h
            · cases h
            · exact h
          obtain ⟨n', hn'⟩ := hj'.2 e2
          have g5 := g4.trans (hn'.mono (fun s e => .inr e))
          simp only [Option.none_or]
          cases e3 : b.seek .default (.switch k) with
          | some x =>
            obtain ⟨l, hl1, z1, bt1, ct1, q2, cs2, ds2, hz3, hC1, hk1⟩ := s2.1 x e3
            cases ds with
            | nil => cases hl1
            | cons d ds =>
              simp only [labOf, List.head?_cons, Option.some.injEq] at hl1
              subst hl1
              have g6 : mstep sem code ⟨y + 1 + cs.length, some v, st'⟩ = some ⟨z1, some v, st'⟩ := step_jmp hU hd hz3
              exact ⟨_, _, g5.trans (go1 (.inr rfl) (.inr rfl) g6), ⟨rfl, z1 + 1, q2, bt1, ct1, cs2, ds2, (leadP_lab hz3).lead, hC1, hk1⟩, .inl (by omega)⟩
          | none =>
            have e4 : ds = [] := by
              rcases s2.2 e3 with ⟨n, h⟩ | h
              · cases h
              · cases ds with
                | nil => rfl
                | cons d ds => cases h
            subst e4
            exact ⟨_, _, g5, match_nil (m := ⟨y + 1 + cs.length, some v, st'⟩) hd hk, .inl (by omega)⟩
    | case hv hl1 h => exact goal_stay ⟨rfl, _, q, bt, ct, _, _, hl.trans (leadP_lab hl1).lead, h, hk⟩ rfl (by simp [csize, ssize])
    | default hl1 h => exact goal_stay ⟨rfl, _, q, bt, ct, _, _, hl.trans (leadP_lab hl1).lead, h, hk⟩ rfl (by simp [csize, ssize])
    | label hl1 h => exact goal_stay ⟨rfl, _, q, bt, ct, _, _, hl.trans (leadP_lab hl1).lead, h, hk⟩ rfl (by simp [csize, ssize])
    | @goto n _ _ _ _ hn h =>
      simp only [step]
      obtain ⟨x, hx⟩ := Option.isSome_iff_exists.mp hn
      rw [hx]
      obtain ⟨q1, cs1, ds1, hb1, hb2⟩ := hb
      obtain ⟨l, hl1, z1, bt1, ct1, q2, cs2, ds2, hz3, hC1, hk1⟩ := (seek_place (.label n) hb1 hb2).1 x hx
      simp only [labOf, Option.some.injEq] at hl1
      subst hl1
      obtain ⟨n', hn'⟩ := (hl.transP (leadP_jmp h hz3)).go (sem := sem) (acc := m.acc) hU (Q := fun s => s = m.st ∨ s = m.st) (.inl rfl)
      exact ⟨_, _, hn', ⟨rfl, z1 + 1, q2, bt1, ct1, cs2, ds2, (leadP_lab hz3).lead, hC1, hk1⟩, .inl (by omega)⟩

end

end Smlr.Stmt
