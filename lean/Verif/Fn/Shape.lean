import Verif.Fn.Spec
set_option autoImplicit false
/-! The instructions in the code of a function; how a step of the body uses evaluation. -/
namespace Smlr.Fn
open Smlr.Cg (Wd Mem Env Ins Safe Steps wd)
open Smlr.Stmt.Spec (Stmt Cont Conf Init step select choose eff)
open Smlr.Stmt (I gen GS Fx and_inv jn jy jnOpt plan swEnd retCode initCode)

variable {W : Nat}

/-! ### instructions -/

/-- what is evaluated is an expression, fused conditions are comparisons, values of cases are words -/
def Good : I (lang W).X → Prop
  | .ifNot e _ | .ifYes e _ => ∃ i : Item W, e = rpn i ∧ i.tree.isCmp = true
  | .eval e | .evalR e => ∃ i : Item W, e = rpn i
  | .je v _ => (wd W v).toInt = v
  | _ => True

def Goods (c : List (I (lang W).X)) : Prop := ∀ i ∈ c, Good i

theorem goods_nil : Goods (W := W) [] := fun _ h => by cases h
theorem goods_cons {i : I (lang W).X} {c : List (I (lang W).X)} (h : Good i) (h' : Goods c) : Goods (i :: c) := by
  intro j hj
  rcases List.mem_cons.mp hj with rfl | hj
  · exact h
  · exact h' j hj
theorem goods_app {c c' : List (I (lang W).X)} (h : Goods c) (h' : Goods c') : Goods (c ++ c') := by
  intro j hj
  rcases List.mem_append.mp hj with hj | hj
  · exact h j hj
  · exact h' j hj

theorem cmp_last (e : Cg.E) (o : Cg.Cc) (v : Int) (h : (Cg.toks e).getLast? = some (.cmp o, v)) : e.isCmp = true := by
  cases e with
  | cmp => rfl
  | un u e => simp only [Cg.toks, List.getLast?_append, List.getLast?_singleton, Option.some_or, Option.some.injEq, Prod.mk.injEq] at h; cases u <;> exact absurd h.1 (by simp [Cg.Un.tok])
  | inc k sz e => simp only [Cg.toks, List.getLast?_append, List.getLast?_singleton, Option.some_or, Option.some.injEq, Prod.mk.injEq] at h; cases k <;> exact absurd h.1 (by simp [Cg.IncK.tok])
  | padd sub sz n e => cases sub <;> simp [Cg.toks] at h
  | num | glob | loc => simp [Cg.toks] at h
  | _ => simp [Cg.toks, List.getLast?_append, List.getLast?_singleton, -List.append_assoc] at h

theorem rel_cmp (i : Item W) (h : Stmt.rel (L := lang W) i = true) : i.tree.isCmp = true := by
  unfold Stmt.rel at h
  have hr : ((lang W).rpn i).getLast? = ((Cg.toks i.tree).getLast?).map (i, ·) := List.getLast?_map
  cases hl : (Cg.toks i.tree).getLast? with
  | none => rw [hr, hl] at h; cases h
  | some t =>
    rw [hr, hl] at h
    obtain ⟨t, v⟩ := t
    cases t with
    | cmp o => exact cmp_last _ _ _ hl
    | _ => cases h

theorem good_eval (i : Item W) : Good (.eval ((lang W).rpn i)) := ⟨i, rfl⟩
theorem good_evalR (i : Item W) : Good (.evalR ((lang W).rpn i)) := ⟨i, rfl⟩

theorem goods_jn (i : Item W) (l : Nat) : Goods (jn (L := lang W) i l) := by
  unfold jn
  split
  · split
    · exact goods_cons trivial goods_nil
    · exact goods_nil
  · split
    · rename_i h; exact goods_cons ⟨i, rfl, rel_cmp i h⟩ goods_nil
    · exact goods_cons ⟨i, rfl⟩ (goods_cons trivial goods_nil)

theorem goods_jy (i : Item W) (l : Nat) : Goods (jy (L := lang W) i l) := by
  unfold jy
  split
  · split
    · exact goods_nil
    · exact goods_cons trivial goods_nil
  · split
    · rename_i h; exact goods_cons ⟨i, rfl, rel_cmp i h⟩ goods_nil
    · exact goods_cons ⟨i, rfl⟩ (goods_cons trivial goods_nil)

theorem goods_jnOpt (c : Option (Item W)) (l : Nat) : Goods (jnOpt (L := lang W) c l) := by
  cases c with
  | none => exact goods_nil
  | some c => exact goods_jn c l

/-- the list is what is on the stack for an expression -/
def IsRpn (x : List (lang W).X) : Prop := ∃ i : Item W, x = rpn i

theorem goods_evals {es : List (List (lang W).X)} (h : ∀ x ∈ es, IsRpn x) : Goods (es.map I.eval) := by
  intro j hj
  obtain ⟨x, hx, rfl⟩ := List.mem_map.mp hj
  exact h x hx

theorem goods_init {i : Init (lang W)} (h : ∀ x ∈ initsFor i, IsRpn x) : Goods (initCode i) := by
  cases i with
  | none => exact goods_nil
  | expr e => exact goods_cons (good_eval e) goods_nil
  | decl es => exact goods_evals h

theorem goods_plan (c e : Option (Item W)) (sl l : Nat) : Goods (plan (L := lang W) c e sl l).pre ∧ Goods (plan (L := lang W) c e sl l).post := by
  unfold plan
  cases e with
  | none =>
    dsimp only
    split
    · exact ⟨goods_nil, goods_nil⟩
    · exact ⟨goods_nil, goods_cons trivial goods_nil⟩
  | some e =>
    dsimp only
    split
    · refine ⟨goods_nil, goods_app (goods_cons trivial (goods_cons (good_eval e) goods_nil)) ?_⟩
      split
      · exact goods_nil
      · exact goods_cons trivial goods_nil
    · exact ⟨goods_cons trivial (goods_cons trivial (goods_cons (good_eval e) (goods_cons trivial (goods_cons trivial goods_nil)))), goods_cons trivial goods_nil⟩

/-- the values of cases are words -/
def Canon (cs : List (Int × Nat)) : Prop := ∀ c ∈ cs, (wd W c.1).toInt = c.1

theorem goods_swEnd (b l d : Nat) {cs : List (Int × Nat)} (h : Canon (W := W) cs) : Goods (swEnd (L := lang W) b l d cs) := by
  unfold swEnd
  dsimp only
  have h0 : ∀ d' : Nat, Goods (W := W) (if d' = b then [] else [.jmp d']) := by
    intro d'
    split
    · exact goods_nil
    · exact goods_cons trivial goods_nil
  refine goods_app (goods_app (goods_app (goods_cons trivial (goods_cons trivial goods_nil)) ?_) (h0 _)) (goods_cons trivial goods_nil)
  intro j hj
  obtain ⟨x, hx, rfl⟩ := List.mem_map.mp hj
  exact h x hx

theorem goods_ret (F : Fx) (tl : Bool) (e : Option (Item W)) : Goods (retCode (L := lang W) F tl e) := by
  unfold retCode
  refine goods_app ?_ ?_
  · cases e with
    | none => exact goods_nil
    | some e => exact goods_cons (good_evalR e) goods_nil
  · split
    · exact goods_nil
    · exact goods_cons trivial goods_nil

theorem addG_cs {F : Fx} {n : Nat} {d : Bool} {g : GS} {a : Nat × GS} (h : Stmt.addG F n d g = .ok a) : a.2.cs = g.cs := by
  unfold Stmt.addG at h
  split at h
  · split at h
    · split at h
      · cases h
      · cases h; rfl
    · cases h
  · split at h
    · cases h
    · cases h; rfl

theorem gen_good (F : Fx) : ∀ (s : Stmt (lang W)) (tl : Bool) (sl : Nat) (bc : Option (Nat × Nat)) (ci : Nat) (g : GS) (a : List (I (lang W).X) × GS),
    gen F s tl sl bc ci g = .ok a → (∀ x ∈ inits s, IsRpn x) → Canon (W := W) g.cs → Goods a.1 ∧ Canon (W := W) a.2.cs := by
  intro s
  induction s with
  | nil => intro tl sl bc ci g a h _ hc; cases h; exact ⟨goods_nil, hc⟩
  | cons s ss ih ih' =>
    intro tl sl bc ci g a h hi hc
    obtain ⟨b, hb, h1⟩ := and_inv h
    obtain ⟨b', hb', h2⟩ := and_inv h1
    cases h2
    obtain ⟨k1, k2⟩ := ih _ _ _ _ _ _ hb (fun x hx => hi x (List.mem_append_left _ hx)) hc
    obtain ⟨k3, k4⟩ := ih' _ _ _ _ _ _ hb' (fun x hx => hi x (List.mem_append_right _ hx)) k2
    exact ⟨goods_app k1 k3, k4⟩
  | decl es => intro tl sl bc ci g a h hi hc; cases h; exact ⟨goods_evals hi, hc⟩
  | empty => intro tl sl bc ci g a h _ hc; cases h; exact ⟨goods_nil, hc⟩
  | expr e => intro tl sl bc ci g a h _ hc; cases h; exact ⟨goods_cons (good_eval e) goods_nil, hc⟩
  | block s ih => intro tl sl bc ci g a h hi hc; exact ih _ _ _ _ _ _ h hi hc
  | ret e =>
    intro tl sl bc ci g a h _ hc
    simp only [gen] at h
    split at h
    · cases h
    · cases h; exact ⟨goods_ret F tl e, hc⟩
  | whl c b ih =>
    intro tl sl bc ci g a h hi hc
    obtain ⟨x, hx, h1⟩ := and_inv h
    cases h1
    obtain ⟨k1, k2⟩ := ih _ _ _ _ _ _ hx hi hc
    refine ⟨goods_cons trivial (goods_app (goods_jn c _) (goods_app k1 (goods_app ?_ (goods_cons trivial goods_nil)))), k2⟩
    split
    · exact goods_nil
    · exact goods_cons trivial goods_nil
  | dow b c ih =>
    intro tl sl bc ci g a h hi hc
    obtain ⟨x, hx, h1⟩ := and_inv h
    cases h1
    obtain ⟨k1, k2⟩ := ih _ _ _ _ _ _ hx hi hc
    exact ⟨goods_cons trivial (goods_app k1 (goods_cons trivial (goods_app (goods_jy c _) (goods_cons trivial goods_nil)))), k2⟩
  | ift c s ih =>
    intro tl sl bc ci g a h hi hc
    obtain ⟨x, hx, h1⟩ := and_inv h
    cases h1
    obtain ⟨k1, k2⟩ := ih _ _ _ _ _ _ hx hi hc
    exact ⟨goods_app (goods_jn c _) (goods_app k1 (goods_cons trivial goods_nil)), k2⟩
  | ife c s s' ih ih' =>
    intro tl sl bc ci g a h hi hc
    obtain ⟨b, hb, h1⟩ := and_inv h
    obtain ⟨b', hb', h2⟩ := and_inv h1
    cases h2
    obtain ⟨k1, k2⟩ := ih _ _ _ _ _ _ hb (fun x hx => hi x (List.mem_append_left _ hx)) hc
    obtain ⟨k3, k4⟩ := ih' _ _ _ _ _ _ hb' (fun x hx => hi x (List.mem_append_right _ hx)) k2
    exact ⟨goods_app (goods_jn c _) (goods_app k1 (goods_cons trivial (goods_cons trivial (goods_app k3 (goods_cons trivial goods_nil))))), k4⟩
  | «for» i c e b ih =>
    intro tl sl bc ci g a h hi hc
    obtain ⟨x, hx, h1⟩ := and_inv h
    cases h1
    obtain ⟨k1, k2⟩ := ih _ _ _ _ _ _ hx (fun x hx => hi x (List.mem_append_right _ hx)) hc
    obtain ⟨p1, p2⟩ := goods_plan c e sl g.lab
    exact ⟨goods_app (goods_init (fun x hx => hi x (List.mem_append_left _ hx))) (goods_cons trivial (goods_app (goods_jnOpt c _) (goods_app p1
      (goods_app k1 (goods_app p2 (goods_cons trivial goods_nil)))))), k2⟩
  | brk =>
    intro tl sl bc ci g a h _ hc
    cases bc with
    | none => cases h
    | some x => cases h; exact ⟨goods_cons trivial goods_nil, hc⟩
  | cont =>
    intro tl sl bc ci g a h _ hc
    cases bc with
    | none => cases h
    | some x =>
      simp only [gen] at h
      split at h
      · cases h
      · cases h; exact ⟨goods_cons trivial goods_nil, hc⟩
  | switch e b ih =>
    intro tl sl bc ci g a h hi hc
    simp only [gen] at h
    split at h
    · cases h
    · obtain ⟨x, hx, h1⟩ := and_inv h
      cases h1
      obtain ⟨k1, k2⟩ := ih _ _ _ _ _ _ hx hi (fun _ h => by cases h)
      exact ⟨goods_cons (good_evalR e) (goods_cons trivial (goods_app k1 (goods_swEnd _ _ _ k2))), hc⟩
  | case e s ih =>
    intro tl sl bc ci g a h hi hc
    simp only [gen] at h
    split at h
    · cases h
    · split at h
      · cases h
      · rename_i v hv
        split at h
        · cases h
        · split at h
          · cases h
          · obtain ⟨x, hx, h1⟩ := and_inv h
            cases h1
            obtain ⟨k1, k2⟩ := ih _ _ _ _ _ _ hx hi (fun c hc' => by
              rcases List.mem_append.mp hc' with h | h
              · exact hc c h
              · rw [List.mem_singleton] at h
                subst h
                show (wd W (wd W v).toInt).toInt = (wd W v).toInt
                rw [Cg.wd_toInt])
            exact ⟨goods_cons trivial k1, k2⟩
  | default s ih =>
    intro tl sl bc ci g a h hi hc
    simp only [gen] at h
    split at h
    · cases h
    · split at h
      · cases h
      · obtain ⟨x, hx, h1⟩ := and_inv h
        cases h1
        obtain ⟨k1, k2⟩ := ih _ _ _ _ _ _ hx hi hc
        exact ⟨goods_cons trivial k1, k2⟩
  | goto n =>
    intro tl sl bc ci g a h _ hc
    obtain ⟨x, hx, h1⟩ := and_inv h
    cases h1
    refine ⟨goods_cons trivial goods_nil, ?_⟩
    rw [show x.2.cs = g.cs from addG_cs hx]
    exact hc
  | label n s ih =>
    intro tl sl bc ci g a h hi hc
    obtain ⟨x, hx, h1⟩ := and_inv h
    obtain ⟨y, hy, h2⟩ := and_inv h1
    cases h2
    obtain ⟨k1, k2⟩ := ih _ _ _ _ _ _ hy hi (by rw [addG_cs hx]; exact hc)
    exact ⟨goods_cons trivial k1, k2⟩

theorem fxn_good {isMain void : Bool} {mc mg n lab0 : Nat} {s : Stmt (lang W)} {rest : List (Stmt.Tok (lang W))} {code : List (I (lang W).X)} (hw : s.wf true)
    (hn : 2 * s.toks.length + 2 ≤ n) (h : Stmt.fxn isMain void mc mg n lab0 (s.toks ++ .k .rbrace :: rest) = .ok code) (hi : ∀ x ∈ inits s, IsRpn x) : Goods code := by
  obtain ⟨c, g', hg, -, rfl⟩ := Stmt.fxn_ok hw hn h
  obtain ⟨k, -⟩ := gen_good _ s _ _ _ _ _ _ hg hi (fun _ h => by cases h)
  unfold Stmt.whole
  refine goods_app (goods_app k ?_) (goods_cons trivial goods_nil)
  split
  · exact goods_cons ⟨zero W, rfl⟩ goods_nil
  · exact goods_nil

/-! ### steps of the body -/

variable {L : Smlr.Stmt.Lang}

/-- a configuration with another state -/
def put {σ τ : Type} (c : Conf L σ) (st : τ) : Conf L τ :=
  match c with
  | .run s k _ => .run s k st
  | .test c e b k _ => .test c e b k st
  | .done r _ => .done r st

theorem put_st {σ τ : Type} (c : Conf L σ) (st : τ) : (put c st).st = st := by cases c <;> rfl
theorem put_self {σ : Type} (c : Conf L σ) : put c c.st = c := by cases c <;> rfl
theorem put_put {σ τ υ : Type} (c : Conf L σ) (a : τ) (b : υ) : put (put c a) b = put c b := by cases c <;> rfl
theorem put_size {σ τ : Type} (c : Conf L σ) (a : τ) : Stmt.csize (put c a) = Stmt.csize c := by cases c <;> rfl

/-- a step does nothing with the state, or there is none, or it evaluates one expression -/
inductive Kind (isMain : Bool) (body : Stmt L) (c : Conf L Unit) : Prop
  | quiet (c' : Conf L Unit) (h : ∀ (τ : Type) (sem : List L.X → τ → Option (Int × τ)) (st : τ), step sem isMain body (put c st) = some (put c' st))
  | none (h : ∀ (τ : Type) (sem : List L.X → τ → Option (Int × τ)) (st : τ), step sem isMain body (put c st) = none)
  | eval (x : List L.X) (k : Int → Conf L Unit)
      (h : ∀ (τ : Type) (sem : List L.X → τ → Option (Int × τ)) (st : τ), step sem isMain body (put c st) = (sem x st).map fun r => put (k r.1) r.2)

theorem select_put {τ : Type} (b : Stmt L) (k : Cont L) (v : Int) (st : τ) : select b k v st = put (select b k v ()) st := by
  unfold select
  split <;> rfl

theorem choose_put {τ : Type} (sem : List L.X → τ → Option (Int × τ)) (e : L.E) (st : τ) (a b : Conf L Unit) :
    choose sem e st (put a) (put b) = (sem (L.rpn e) st).map fun r => put (if r.1 = 0 then b else a) r.2 := by
  unfold choose
  congr 1
  funext r
  split <;> rfl

theorem kind (isMain : Bool) (body : Stmt L) (c : Conf L Unit) : Kind isMain body c := by
  cases c with
  | done r st => exact .none fun _ _ _ => rfl
  | test c e b k st =>
    cases c with
    | none => exact .quiet (.run b (.loop none e b k) ()) fun _ _ _ => rfl
    | some c => exact .eval (L.rpn c) (fun v => if v = 0 then .run .nil k () else .run b (.loop (some c) e b k) ()) fun _ sem st => choose_put sem c st (.run b (.loop (some c) e b k) ()) (.run .nil k ())
  | run s k st =>
    cases s with
    | nil =>
      cases k with
      | stop => exact .quiet (.done (if isMain then some 0 else none) ()) fun _ _ _ => rfl
      | seq ss k => exact .quiet (.run ss k ()) fun _ _ _ => rfl
      | loop c e b k =>
        cases e with
        | none => exact .quiet (.test c none b k ()) fun _ _ _ => rfl
        | some e => exact .eval (L.rpn e) (fun _ => .test c (some e) b k ()) fun _ _ _ => rfl
      | dow b c k => exact .eval (L.rpn c) (fun v => if v = 0 then .run .nil k () else .run b (.dow b c k) ()) fun _ sem st => choose_put sem c st (.run b (.dow b c k) ()) (.run .nil k ())
      | switch k => exact .quiet (.run .nil k ()) fun _ _ _ => rfl
    | cons s ss => exact .quiet (.run s (.seq ss k) ()) fun _ _ _ => rfl
    | decl es =>
      cases es with
      | nil => exact .quiet (.run .nil k ()) fun _ _ _ => rfl
      | cons e es => exact .eval e (fun _ => .run (.decl es) k ()) fun _ _ _ => rfl
    | empty => exact .quiet (.run .nil k ()) fun _ _ _ => rfl
    | expr e => exact .eval (L.rpn e) (fun _ => .run .nil k ()) fun _ _ _ => rfl
    | block ss => exact .quiet (.run ss k ()) fun _ _ _ => rfl
    | ret e =>
      cases e with
      | none => exact .quiet (.done none ()) fun _ _ _ => rfl
      | some e => exact .eval (L.rpn e) (fun v => .done (some v) ()) fun _ _ _ => rfl
    | whl c b => exact .quiet (.test (some c) none b k ()) fun _ _ _ => rfl
    | dow b c => exact .quiet (.run b (.dow b c k) ()) fun _ _ _ => rfl
    | ift c a => exact .eval (L.rpn c) (fun v => if v = 0 then .run .nil k () else .run a k ()) fun _ sem st => choose_put sem c st (.run a k ()) (.run .nil k ())
    | ife c a b => exact .eval (L.rpn c) (fun v => if v = 0 then .run b k () else .run a k ()) fun _ sem st => choose_put sem c st (.run a k ()) (.run b k ())
    | «for» i c e b =>
      cases i with
      | none => exact .quiet (.test c e b k ()) fun _ _ _ => rfl
      | expr i => exact .eval (L.rpn i) (fun _ => .run (.for .none c e b) k ()) fun _ _ _ => rfl
      | decl is =>
        cases is with
        | nil => exact .quiet (.run (.for .none c e b) k ()) fun _ _ _ => rfl
        | cons i is => exact .eval i (fun _ => .run (.for (.decl is) c e b) k ()) fun _ _ _ => rfl
    | brk =>
      cases k with
      | stop => exact .none fun _ _ _ => rfl
      | seq ss k => exact .quiet (.run .brk k ()) fun _ _ _ => rfl
      | loop c e b k => exact .quiet (.run .nil k ()) fun _ _ _ => rfl
      | dow b c k => exact .quiet (.run .nil k ()) fun _ _ _ => rfl
      | switch k => exact .quiet (.run .nil k ()) fun _ _ _ => rfl
    | cont =>
      cases k with
      | stop => exact .none fun _ _ _ => rfl
      | seq ss k => exact .quiet (.run .cont k ()) fun _ _ _ => rfl
      | loop c e b k => exact .quiet (.run .nil (.loop c e b k) ()) fun _ _ _ => rfl
      | dow b c k => exact .quiet (.run .nil (.dow b c k) ()) fun _ _ _ => rfl
      | switch k => exact .quiet (.run .cont k ()) fun _ _ _ => rfl
    | switch e b =>
      refine .eval (L.rpn e) (fun v => select b k v ()) fun _ sem st => ?_
      show (sem (L.rpn e) st).map (fun r => select b k r.1 r.2) = _
      congr 1
      funext r
      exact select_put b k r.1 r.2
    | case e s => exact .quiet (.run s k ()) fun _ _ _ => rfl
    | default s => exact .quiet (.run s k ()) fun _ _ _ => rfl
    | goto n =>
      cases h : body.seek (.label n) .stop with
      | none => exact .none fun _ _ _ => by show (body.seek (.label n) .stop).map _ = _; rw [h]; rfl
      | some x => exact .quiet (.run x.1 x.2 ()) fun _ _ _ => by show (body.seek (.label n) .stop).map _ = _; rw [h]; rfl
    | label n s => exact .quiet (.run s k ()) fun _ _ _ => rfl

theorem match_put {σ τ : Type} {code : List (I L.X)} {X : Stmt.Ctx L} {c : Conf L σ} {pc : Nat} {acc : Option Int} {st : σ} (h : Stmt.Match code X c ⟨pc, acc, st⟩) (st' : τ) :
    Stmt.Match code X (put c st') ⟨pc, acc, st'⟩ := by
  cases c with
  | run s k st => exact ⟨rfl, h.2⟩
  | test c e b k st => exact ⟨rfl, h.2⟩
  | done r st => exact ⟨rfl, h.2⟩

end Smlr.Fn
