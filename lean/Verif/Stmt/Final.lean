import Verif.Stmt.Accept
import Verif.Stmt.Targets
import Verif.Stmt.Sim
set_option autoImplicit false
/-! Putting the pieces together. -/
namespace Smlr.Stmt
open Spec

section
variable {L : Lang}

/-! ### the function -/

def g0 (lab0 : Nat) : GS := ⟨lab0 + 2, [], 0, []⟩

theorem wf_g0 (lab0 : Nat) : WF (g0 lab0) := ⟨by simp [g0], by simp [g0, names], by simp [g0, glabs], by simp [g0]⟩

/-- the code around the body -/
def whole (isMain : Bool) (lab0 : Nat) (c : List (I L.X)) : List (I L.X) := c ++ (if isMain then [.evalR L.zero] else []) ++ [.lab lab0]

def fin (isMain : Bool) (lab0 : Nat) (a : List (I L.X) × GS) : Except Err (List (I L.X)) :=
  if a.2.gotos.any (fun g => g.used && !g.defd) then .error .noLabel else .ok (whole isMain lab0 a.1)

theorem fxn_run {isMain void : Bool} {mc mg n lab0 : Nat} {s : Stmt L} {rest : List (Tok L)} (hw : s.wf true) (hn : 2 * s.toks.length + 2 ≤ n) :
    fxn isMain void mc mg n lab0 (s.toks ++ .k .rbrace :: rest) = Except.and (gen ⟨isMain, void, lab0, mc, mg⟩ s (!isMain) 0 none 0 (g0 lab0)) (fin isMain lab0) := by
  unfold fxn
  obtain ⟨m, rfl⟩ : ∃ m, n = m + 1 := ⟨n - 1, by omega⟩
  obtain ⟨t, ts, ht⟩ : ∃ t ts, s.toks ++ .k .rbrace :: rest = t :: ts := by
    cases h : s.toks with
    | nil => exact ⟨_, _, rfl⟩
    | cons t ts => exact ⟨_, _, rfl⟩
  have h := (run_all ⟨isMain, void, lab0, mc, mg⟩ s).2 hw m none none [] 1 (g0 lab0) [] t ts rest (Nat.le_refl 1) (by omega) ht
  have hb : block (L := L) ⟨isMain, void, lab0, mc, mg⟩ (m + 1) none 0 ⟨s.toks ++ .k .rbrace :: rest, [], lab0 + 2, [], [], [], 1⟩ =
      lift (gen ⟨isMain, void, lab0, mc, mg⟩ s (!isMain) 0 none 0 (g0 lab0)) (.k .rbrace) rest [] none [] 1 := by
    rw [ht]
    exact h
  dsimp only
  rw [hb]
  cases gen ⟨isMain, void, lab0, mc, mg⟩ s (!isMain) 0 none 0 (g0 lab0) with
  | error e => rfl
  | ok a => rfl

theorem fxn_ok {isMain void : Bool} {mc mg n lab0 : Nat} {s : Stmt L} {rest : List (Tok L)} {code : List (I L.X)} (hw : s.wf true) (hn : 2 * s.toks.length + 2 ≤ n)
    (h : fxn isMain void mc mg n lab0 (s.toks ++ .k .rbrace :: rest) = .ok code) :
    ∃ c g', gen ⟨isMain, void, lab0, mc, mg⟩ s (!isMain) 0 none 0 (g0 lab0) = .ok (c, g') ∧ g'.gotos.any (fun g => g.used && !g.defd) = false ∧ code = whole isMain lab0 c := by
  rw [fxn_run hw hn] at h
  obtain ⟨a, ha, h⟩ := and_inv h
  unfold fin at h
  by_cases hx : a.2.gotos.any (fun g => g.used && !g.defd) = true
  · rw [if_pos hx] at h; cases h
  · rw [if_neg hx] at h
    cases h
    exact ⟨a.1, a.2, ha, by simpa using hx, rfl⟩

theorem ok_outer {void : Bool} : ∀ (s : Stmt L) (b c : Bool), s.ok void b c false → s.cases = [] ∧ s.defs = 0 := by
  intro s
  induction s with
  | cons s ss ih ih' =>
    intro b c h
    simp [Stmt.cases, Stmt.defs, ih _ _ h.1, ih' _ _ h.2]
  | ife e s ss ih ih' =>
    intro b c h
    simp [Stmt.cases, Stmt.defs, ih _ _ h.1, ih' _ _ h.2]
  | block s ih => intro b c h; exact ih _ _ h
  | whl e s ih => intro b c h; exact ih _ _ h
  | dow s e ih => intro b c h; exact ih _ _ h
  | ift e s ih => intro b c h; exact ih _ _ h
  | «for» i e1 e3 s ih => intro b c h; exact ih _ _ h
  | label n s ih => intro b c h; exact ih _ _ h
  | case e s ih => intro b c h; exact absurd h.1 (by simp)
  | default s ih => intro b c h; exact absurd h.1 (by simp)
  | _ => intros; exact ⟨rfl, rfl⟩

theorem gotos_def {gs : List Goto} (hn : (names gs).Nodup) : gs.any (fun g => g.used && !g.defd) = false ↔ ∀ n, un gs n → dn gs n := by
  rw [List.any_eq_false]
  constructor
  · rintro h n ⟨x, hx, e, hu⟩
    refine ⟨x, hx, e, ?_⟩
    have := h x hx
    rw [hu] at this
    simpa using this
  · intro h x hx hh
    rw [Bool.and_eq_true, Bool.not_eq_true'] at hh
    obtain ⟨y, hy, e, hd⟩ := h x.name ⟨x, hx, rfl, hh.1⟩
    rw [nodup_inj hn hy hx e, hh.2] at hd
    cases hd

/-- what is accepted -/
theorem accepts {isMain void : Bool} {mc mg n lab0 : Nat} {s : Stmt L} {rest : List (Tok L)} (hw : s.wf true) (hn : 2 * s.toks.length + 2 ≤ n) :
    (∃ code, fxn isMain void mc mg n lab0 (s.toks ++ .k .rbrace :: rest) = .ok code) ↔ Valid void s ∧ s.need ≤ mc ∧ NamesFit s mg := by
  have hlen : (0 : Nat) + (g0 lab0).cs.length ≤ mc := by simp [g0]
  have hgl : (g0 lab0).gotos.length ≤ mg := by simp [g0]
  have nodn : ∀ n, ¬ dn (g0 lab0).gotos n := fun n ⟨x, hx, _⟩ => by cases hx
  have noun : ∀ n, ¬ un (g0 lab0).gotos n := fun n ⟨x, hx, _⟩ => by cases hx
  constructor
  · rintro ⟨code, h⟩
    obtain ⟨c, g', hg, hu, -⟩ := fxn_ok hw hn h
    obtain ⟨w, -, -, -⟩ := gen_labs _ _ _ _ _ _ _ _ _ hg (wf_g0 lab0)
    obtain ⟨h1, h2, h3⟩ := gen_ok _ _ _ _ _ _ _ _ hg (wf_g0 lab0) hlen hgl
    refine ⟨⟨h1.1, h1.2.2.2.2.2.1, fun n hn => ?_⟩, ?_, names g'.gotos, by simpa [names] using h3, fun n hn => (h2.2.2.2.2 n).mpr (.inr hn)⟩
    · have := (gotos_def w.names).mp hu n ((h2.2.2.2.1 n).mpr (.inr hn))
      exact ((h2.2.2.1 n).mp this).resolve_left (nodn n)
    · have := h1.2.2.2.2.2.2.2
      simpa [g0] using this
  · rintro ⟨⟨hv1, hv2, hv3⟩, hnd, N, hN1, hN2⟩
    rw [fxn_run hw hn]
    have hsa : SAcc ⟨isMain, void, lab0, mc, mg⟩ s none 0 (g0 lab0) := by
      obtain ⟨h1, h2⟩ := ok_outer s false false hv1
      refine ⟨hv1, by rw [h1]; exact .nil, by rw [h1]; simp, fun h => absurd rfl h, by omega, hv2, fun n _ => nodn n, by simpa [g0] using hnd⟩
    cases hg : gen ⟨isMain, void, lab0, mc, mg⟩ s (!isMain) 0 none 0 (g0 lab0) with
    | error e => exact (gen_err _ _ _ _ _ _ _ hg (wf_g0 lab0) hlen hgl hsa ⟨N, hN1, by simp [g0, names], hN2⟩).elim
    | ok a =>
      obtain ⟨w, -, -, -⟩ := gen_labs _ _ _ _ _ _ _ _ _ hg (wf_g0 lab0)
      obtain ⟨h1, h2, h3⟩ := gen_ok _ _ _ _ _ _ _ _ hg (wf_g0 lab0) hlen hgl
      refine ⟨_, show fin isMain lab0 a = _ from if_neg ?_⟩
      rw [Bool.not_eq_true, gotos_def w.names]
      intro n hn
      have := ((h2.2.2.2.1 n).mp hn).resolve_left (noun n)
      exact (h2.2.2.1 n).mpr (.inr (hv3 n this))

/-! ### labels -/

theorem uniq_of_nodup : ∀ (code : List (I L.X)), (labs code).Nodup → Uniq code := by
  have mem : ∀ (code : List (I L.X)) (p l : Nat), code[p]? = some (.lab l) → l ∈ labs code := by
    intro code p l h
    exact List.mem_filterMap.mpr ⟨_, List.mem_of_getElem? h, rfl⟩
  intro code
  induction code with
  | nil => intro _ p q l h; simp at h
  | cons x code ih =>
    intro hn p q l hp hq
    have hn' : (labs code).Nodup := by
      cases x with
      | lab m => rw [labs_lab, List.nodup_cons] at hn; exact hn.2
      | _ => exact hn
    cases p with
    | zero =>
      cases q with
      | zero => rfl
      | succ q =>
        simp only [List.getElem?_cons_zero, Option.some.injEq] at hp
        subst hp
        rw [labs_lab, List.nodup_cons] at hn
        exact absurd (mem code q l (by simpa using hq)) hn.1
    | succ p =>
      cases q with
      | zero =>
        simp only [List.getElem?_cons_zero, Option.some.injEq] at hq
        subst hq
        rw [labs_lab, List.nodup_cons] at hn
        exact absurd (mem code p l (by simpa using hp)) hn.1
      | succ q => rw [ih hn' p q l (by simpa using hp) (by simpa using hq)]

theorem labs_whole (isMain : Bool) (lab0 : Nat) (c : List (I L.X)) : labs (whole isMain lab0 c) = labs c ++ [lab0] := by
  unfold whole
  rw [labs_append, labs_append]
  cases isMain <;> simp [labs]

theorem tgts_whole (isMain : Bool) (lab0 : Nat) (c : List (I L.X)) : tgts (whole isMain lab0 c) = tgts c := by
  unfold whole
  rw [tgts_append, tgts_append]
  cases isMain <;> simp [tgts, tgt]

theorem labels_ok {isMain void : Bool} {mc mg n lab0 : Nat} {s : Stmt L} {rest : List (Tok L)} {code : List (I L.X)} (hw : s.wf true) (hn : 2 * s.toks.length + 2 ≤ n)
    (h : fxn isMain void mc mg n lab0 (s.toks ++ .k .rbrace :: rest) = .ok code) : (labs code).Nodup ∧ ∀ l ∈ tgts code, l ∈ labs code := by
  obtain ⟨c, g', hg, hu, rfl⟩ := fxn_ok hw hn h
  obtain ⟨w, -, nd, hl⟩ := gen_labs _ _ _ _ _ _ _ _ _ hg (wf_g0 lab0)
  have hv := ((accepts hw hn).mp ⟨_, h⟩).1
  rw [labs_whole, tgts_whole]
  constructor
  · rw [List.nodup_append]
    refine ⟨nd, by simp, fun a ha b hb e => ?_⟩
    rw [List.mem_singleton] at hb
    subst e
    subst hb
    rcases (hl a ha).2.1 with h | h
    · have h : a + 2 ≤ a := h
      omega
    · cases h
  · intro l hl'
    have H := gen_tgts _ _ _ _ _ _ _ _ hg (wf_g0 lab0)
    obtain ⟨h1, h2, h3⟩ := gen_ok _ _ _ _ _ _ _ _ hg (wf_g0 lab0) (by simp [g0]) (by simp [g0])
    rcases H.tg l hl' with h | ⟨x, hx, -⟩ | h | ⟨x, hx, e, hx'⟩
    · exact List.mem_append_left _ h
    · cases hx
    · rw [h]; simp
    · have hd : dn g'.gotos x.name := (h2.2.2.1 _).mpr (.inr (hv.2.2 _ hx'))
      obtain ⟨y, hy, e1, e2⟩ := hd
      rw [nodup_inj w.names hy hx e1] at e2
      rcases H.df x hx e2 with ⟨z, hz, -⟩ | h
      · cases hz
      · exact List.mem_append_left _ (e ▸ h)

/-! ### the relation -/

theorem seek_label (n : Nat) : ∀ (s : Stmt L) (k : Cont L), n ∈ s.labels → (s.seek (.label n) k).isSome = true := by
  intro s
  induction s with
  | cons s ss ih ih' =>
    intro k h
    simp only [Stmt.seek, Option.isSome_or, Bool.or_eq_true]
    rcases List.mem_append.mp h with h | h
    · exact .inl (ih _ h)
    · exact .inr (ih' _ h)
  | ife e s ss ih ih' =>
    intro k h
    simp only [Stmt.seek, Option.isSome_or, Bool.or_eq_true]
    rcases List.mem_append.mp h with h | h
    · exact .inl (ih _ h)
    · exact .inr (ih' _ h)
  | block s ih => intro k h; exact ih _ h
  | whl e s ih => intro k h; exact ih _ h
  | dow s e ih => intro k h; exact ih _ h
  | ift e s ih => intro k h; exact ih _ h
  | «for» i e1 e3 s ih => intro k h; exact ih _ h
  | switch e s ih => intro k h; exact ih _ h
  | case e s ih =>
    intro k h
    simp only [Stmt.seek]
    split
    · rfl
    · exact ih _ h
  | default s ih =>
    intro k h
    simp only [Stmt.seek]
    split
    · rfl
    · exact ih _ h
  | label m s ih =>
    intro k h
    simp only [Stmt.seek]
    split
    · rfl
    · rename_i hm
      rcases List.mem_cons.mp h with h | h
      · exact absurd (by rw [h]) hm
      · exact ih _ h
  | _ => intro k h; cases h

def ctx (isMain : Bool) (s : Stmt L) (c : List (I L.X)) (g : GS) : Ctx L :=
  ⟨s, isMain, fun n => ((g.gotos.find? (fun x => x.name == n)).map (·.lab)).getD 0, c.length + (if isMain then 1 else 0), c.length⟩

theorem ctx_G {isMain : Bool} {s : Stmt L} {c : List (I L.X)} {g : GS} (hn : (names g.gotos).Nodup) : ∀ x ∈ g.gotos, (ctx isMain s c g).G x.name = x.lab := by
  intro x hx
  show ((g.gotos.find? (fun y => y.name == x.name)).map (·.lab)).getD 0 = x.lab
  cases hf : g.gotos.find? (fun y => y.name == x.name) with
  | none =>
    have := List.find?_eq_none.mp hf x hx
    simp at this
  | some y =>
    have h1 := List.find?_some hf
    have h2 := List.mem_of_find?_eq_some hf
    rw [nodup_inj hn h2 hx (by simpa using h1)]
    rfl

theorem ends_whole (isMain : Bool) (lab0 : Nat) (s : Stmt L) (c : List (I L.X)) (g : GS) :
    Ends (whole isMain lab0 c) (ctx isMain s c g) ∧ (whole isMain lab0 c)[(ctx isMain s c g).ep]? = some (I.lab lab0) := by
  have hl : (whole isMain lab0 c)[(ctx isMain s c g).ep]? = some (I.lab lab0) := by
    unfold whole ctx
    cases isMain <;> simp
  refine ⟨⟨?_, ⟨_, hl⟩, fun h => ?_, fun h => ?_⟩, hl⟩
  · unfold whole ctx
    cases isMain <;> simp
  · have h : isMain = true := h
    subst h
    refine ⟨?_, rfl⟩
    unfold whole ctx
    simp
  · have h : isMain = false := h
    subst h
    rfl

/-- the code of the function does what the body says -/
theorem fxn_rel {isMain void : Bool} {mc mg n lab0 : Nat} {s : Stmt L} {rest : List (Tok L)} {code : List (I L.X)} (hw : s.wf true) (hn : 2 * s.toks.length + 2 ≤ n)
    (h : fxn isMain void mc mg n lab0 (s.toks ++ .k .rbrace :: rest) = .ok code) (hr : isMain = true ∨ loopRet s = false) :
    ∃ X : Ctx L, X.body = s ∧ X.isMain = isMain ∧ Uniq code ∧ Ends code X ∧ ∃ q cs ds, C code X s none none 0 q cs ds ∧ MK code X .stop q none none := by
  have hU := uniq_of_nodup _ (labels_ok hw hn h).1
  have hv := ((accepts hw hn).mp ⟨_, h⟩).1
  obtain ⟨c, g', hg, hu, rfl⟩ := fxn_ok hw hn h
  obtain ⟨w, -, -, -⟩ := gen_labs _ _ _ _ _ _ _ _ _ hg (wf_g0 lab0)
  obtain ⟨hE, hep⟩ := ends_whole isMain lab0 s c g'
  refine ⟨ctx isMain s c g', rfl, rfl, hU, hE, ?_⟩
  have hseg : Seg (whole isMain lab0 c) 0 c := by
    have : Seg (whole isMain lab0 c) 0 (whole isMain lab0 c) := fun i x hx => by rwa [Nat.zero_add]
    unfold whole at this ⊢
    exact this.left.left
  obtain ⟨ncs, nds, hC, -⟩ := gen_C (X := ctx isMain s c g') (F := ⟨isMain, void, lab0, mc, mg⟩) hep s _ _ _ _ _ _ _ 0 hg (wf_g0 lab0) hseg (ctx_G w.names)
    (fun n hn => seek_label n s .stop (hv.2.2 n hn)) (fun ht => by
      have hm : isMain = false := by simpa using ht
      subst hm
      refine ⟨fun _ => ?_, hr.resolve_left (by simp)⟩
      rw [Nat.zero_add]
      exact .refl _)
  exact ⟨_, _, _, hC, rfl, rfl, by rw [Nat.zero_add]; exact .refl _⟩

/-! ### runs -/

variable {σ : Type} {sem : List L.X → σ → Option (Int × σ)} {code : List (I L.X)}

theorem mafter_add (a b : Nat) (m : Mc σ) : mafter sem code (a + b) m = (mafter sem code a m).bind (mafter sem code b) := by
  induction a generalizing m with
  | zero => rw [Nat.zero_add]; rfl
  | succ a ih =>
    rw [show a + 1 + b = a + b + 1 by omega]
    show (mstep sem code m).bind _ = ((mstep sem code m).bind _).bind _
    cases mstep sem code m with
    | none => rfl
    | some m' => exact ih m'

theorem after_add (isMain : Bool) (body : Stmt L) (a b : Nat) (c : Conf L σ) : after sem isMain body (a + b) c = (after sem isMain body a c).bind (after sem isMain body b) := by
  induction a generalizing c with
  | zero => rw [Nat.zero_add]; rfl
  | succ a ih =>
    rw [show a + 1 + b = a + b + 1 by omega]
    show (step sem isMain body c).bind _ = ((step sem isMain body c).bind _).bind _
    cases step sem isMain body c with
    | none => rfl
    | some m' => exact ih m'

theorem Go.after {Q : σ → Prop} {n : Nat} {m m' : Mc σ} (h : Go sem code Q n m m') : mafter sem code n m = some m' := by
  induction h with
  | refl => rfl
  | step _ hs _ ih => show (mstep sem code _).bind _ = _; rw [hs]; exact ih

theorem Go.start {Q : σ → Prop} {n : Nat} {m m' : Mc σ} (h : Go sem code Q n m m') : Q m.st := by
  cases h with
  | refl _ h => exact h
  | step h _ _ => exact h

theorem Go.mid {Q : σ → Prop} {n : Nat} {m m' : Mc σ} (h : Go sem code Q n m m') : ∀ k m'', k ≤ n → mafter sem code k m = some m'' → Q m''.st ∧ (k < n → mstep sem code m'' ≠ none) := by
  induction h with
  | refl m h =>
    intro k m'' hk ha
    have : k = 0 := by omega
    subst this
    cases ha
    exact ⟨h, fun h => by omega⟩
  | @step n m m1 m2 h hs _ ih =>
    intro k m'' hk ha
    cases k with
    | zero => cases ha; exact ⟨h, fun _ => by rw [hs]; simp⟩
    | succ k =>
      have ha : (mstep sem code m).bind (mafter sem code k) = some m'' := ha
      rw [hs] at ha
      obtain ⟨h1, h2⟩ := ih k m'' (by omega) ha
      exact ⟨h1, fun h => h2 (by omega)⟩

variable {X : Ctx L}

theorem match_st {S : Conf L σ} {m : Mc σ} (h : Match code X S m) : m.st = S.st := by
  cases S with
  | run s k st => exact h.1
  | test c e b k st => exact h.1
  | done r st => exact h.1

theorem mstep_end {m : Mc σ} (h : m.pc = code.length) : mstep sem code m = none := by
  unfold mstep
  rw [List.getElem?_eq_none (by omega)]

section
variable (hU : Uniq code) (hc : ConstOk sem) (hE : Ends code X) (hz : ∀ st, sem L.zero st = some (0, st)) (hb : ∃ q cs ds, C code X X.body none none 0 q cs ds ∧ MK code X .stop q none none)
include hU hc hE hz hb

theorem forward : ∀ (n : Nat) (S S' : Conf L σ) (m : Mc σ), Match code X S m → after sem X.isMain X.body n S = some S' → ∃ k m', mafter sem code k m = some m' ∧ Match code X S' m' := by
  intro n
  induction n with
  | zero => intro S S' m hm h; cases h; exact ⟨0, m, rfl, hm⟩
  | succ n ih =>
    intro S S' m hm h
    by_cases hd : ∃ r st, S = .done r st
    · obtain ⟨r, st, rfl⟩ := hd
      cases h
    · have hs := sim hU hc hE hz hm (fun r st h => hd ⟨r, st, h⟩) hb
      have h : (step sem X.isMain X.body S).bind (after sem X.isMain X.body n) = some S' := h
      cases ho : step sem X.isMain X.body S with
      | none => rw [ho] at h; cases h
      | some S1 =>
        rw [ho] at hs h
        obtain ⟨k, m1, g1, g2, -⟩ := hs
        obtain ⟨k', m', h1, h2⟩ := ih S1 S' m1 g2 h
        exact ⟨k + k', m', by rw [mafter_add, g1.after]; exact h1, h2⟩

theorem backward : ∀ (k N : Nat) (S : Conf L σ) (m m' : Mc σ), csize S ≤ N → Match code X S m → mafter sem code k m = some m' →
    (∃ n S', after sem X.isMain X.body n S = some S' ∧ S'.st = m'.st) ∧
    (mstep sem code m' = none → ∃ n S', after sem X.isMain X.body n S = some S' ∧ S'.st = m'.st ∧ step sem X.isMain X.body S' = none ∧
      ((∃ r st, S' = .done r st ∧ m'.pc = code.length ∧ ∀ v, r = some v → m'.acc = some v) ∨ ((∀ r st, S' ≠ .done r st) ∧ m'.pc < code.length))) := by
  intro k
  induction k using Nat.strongRecOn with
  | ind k ihk =>
  intro N
  induction N using Nat.strongRecOn with
  | ind N ihN =>
  intro S m m' hN hm ha
  by_cases hd : ∃ r st, S = .done r st
  · obtain ⟨r, st, rfl⟩ := hd
    obtain ⟨h1, h2, h3⟩ := hm
    cases k with
    | zero =>
      cases ha
      exact ⟨⟨0, _, rfl, h1.symm⟩, fun _ => ⟨0, _, rfl, h1.symm, rfl, .inl ⟨r, st, rfl, h2, h3⟩⟩⟩
    | succ k =>
      have ha : (mstep sem code m).bind (mafter sem code k) = some m' := ha
      rw [mstep_end h2] at ha
      cases ha
  · have hs := sim hU hc hE hz hm (fun r st h => hd ⟨r, st, h⟩) hb
    have h0 := match_st hm
    cases ho : step sem X.isMain X.body S with
    | none =>
      rw [ho] at hs
      obtain ⟨j, mh, g1, g2, g3⟩ := hs
      rcases Nat.lt_or_ge j k with hlt | hge
      · exfalso
        obtain ⟨i, rfl⟩ : ∃ i, k = j + (i + 1) := ⟨k - j - 1, by omega⟩
        rw [mafter_add, g1.after] at ha
        have ha : (mstep sem code mh).bind (mafter sem code i) = some m' := ha
        rw [g2] at ha
        cases ha
      · obtain ⟨q1, q2⟩ := g1.mid k m' hge ha
        refine ⟨⟨0, S, rfl, q1.symm⟩, fun hn => ⟨0, S, rfl, q1.symm, ho, .inr ⟨fun r st h => hd ⟨r, st, h⟩, ?_⟩⟩⟩
        rcases Nat.lt_or_eq_of_le hge with h | h
        · exact absurd hn (q2 h)
        · subst h
          rw [g1.after] at ha
          cases ha
          exact g3
    | some S1 =>
      rw [ho] at hs
      obtain ⟨j, m1, g1, g2, g3⟩ := hs
      have one : ∀ {n : Nat} {S' : Conf L σ}, after sem X.isMain X.body n S1 = some S' → after sem X.isMain X.body (n + 1) S = some S' := fun {n S'} h => by
        show (step sem X.isMain X.body S).bind (after sem X.isMain X.body n) = some S'
        rw [ho]; exact h
      rcases Nat.lt_or_ge k j with hlt | hge
      · obtain ⟨q1, q2⟩ := g1.mid k m' (by omega) ha
        refine ⟨?_, fun hn => absurd hn (q2 hlt)⟩
        rcases q1 with q1 | q1
        · exact ⟨0, S, rfl, q1.symm⟩
        · exact ⟨1, S1, one (n := 0) rfl, q1.symm⟩
      · obtain ⟨i, rfl⟩ : ∃ i, k = j + i := ⟨k - j, by omega⟩
        rw [mafter_add, g1.after] at ha
        have ha : mafter sem code i m1 = some m' := ha
        have hrec : (∃ n S', after sem X.isMain X.body n S1 = some S' ∧ S'.st = m'.st) ∧
            (mstep sem code m' = none → ∃ n S', after sem X.isMain X.body n S1 = some S' ∧ S'.st = m'.st ∧ step sem X.isMain X.body S' = none ∧
            ((∃ r st, S' = .done r st ∧ m'.pc = code.length ∧ ∀ v, r = some v → m'.acc = some v) ∨ ((∀ r st, S' ≠ .done r st) ∧ m'.pc < code.length))) := by
          rcases Nat.eq_zero_or_pos j with hj | hj
          · subst hj
            have g3 := g3.resolve_left (by omega)
            rw [Nat.zero_add] at ihN
            exact ihN (csize S1) (by omega) S1 m1 m' (Nat.le_refl _) g2 ha
          · exact ihk i (by omega) (csize S1) S1 m1 m' (Nat.le_refl _) g2 ha
        refine ⟨?_, fun hn => ?_⟩
        · obtain ⟨n, S', h1, h2⟩ := hrec.1
          exact ⟨n + 1, S', one h1, h2⟩
        · obtain ⟨n, S', h1, h2⟩ := hrec.2 hn
          exact ⟨n + 1, S', one h1, h2⟩

end

end

end Smlr.Stmt
