import Verif.Cg.Tree
set_option autoImplicit false
/-! `GenFuse` on the stack of an expression, as a function of the tree. -/
namespace Smlr.Cg

theorem get_app {X Y : List T} {t : T} {i : Int} (h : i = X.length) : get (X ++ t :: Y) i = some t := by
  subst h
  have : ¬ ((X.length : Int) < 0) := by omega
  simp [get, this]

theorem ins_app {X Y : List T} {t : T} {i : Int} (h : i = X.length) : ins (X ++ Y) i t = X ++ t :: Y := by
  subst h
  simp [ins]

theorem put_app {X Y : List T} {t u : T} {i : Int} (h : i = X.length) : put (X ++ t :: Y) i u = X ++ u :: Y := by
  subst h
  simp [put]

theorem del_app {X Y Z : List T} {i c : Int} (h : i = X.length) (hc : c = Y.length) : del (X ++ (Y ++ Z)) i c = X ++ Z := by
  subst h hc
  have : ((X.length : Int) + (Y.length : Int)).toNat = X.length + Y.length := by omega
  simp [del, this]

/-- what an operand is after fusing -/
inductive Cls
  | num (v : Int) | id (x : Int) | loc (o : Int)
  | dId (sz x : Int) | dLoc (sz o : Int) | dAcc (sz : Int)
  | acc
  deriving DecidableEq

def cls : E → Cls
  | .num v => .num v
  | .glob x => .id x
  | .loc o => .loc o
  | .un .plus e => cls e
  | .deref sz e =>
    match cls e with
    | .id x => .dId sz x
    | .loc o => .dLoc sz o
    | _ => .dAcc sz
  | _ => .acc

/-- `GetOperandInfo` of a value -/
def rInfo (W : Nat) : Cls → Info
  | .num v => ⟨.opNum, v, W, false⟩
  | .id x => ⟨.opIdent, x, W, false⟩
  | .loc o => ⟨.opLoc, o, W, false⟩
  | .dId sz x => ⟨.opIIdent, x, sz, true⟩
  | .dLoc sz o => ⟨.opILoc, o, sz, true⟩
  | .dAcc sz => ⟨.opIAcc, 0, sz, true⟩
  | .acc => ⟨.opAcc, 0, W, false⟩

/-- `GetOperandInfo` of an address of an object -/
def lInfo (sz : Int) : Cls → Info
  | .id x => ⟨.opIIdent, x, sz, false⟩
  | .loc o => ⟨.opILoc, o, sz, false⟩
  | _ => ⟨.opIAcc, 0, sz, false⟩

def unF (ind : Bool) (tok : Tok) (sz : Int) (c : Cls) (F : List T) : List T :=
  match c with
  | .id x => [(tok, sz), (if ind then .opIIdent else .opIdent, x)]
  | .loc o => [(tok, sz), (if ind then .opILoc else .opLoc, o)]
  | _ => F ++ [(tok, sz), (if ind then .opIAcc else .opAcc, 0)]

def postF (tok : Tok) (sz n : Int) (c : Cls) (F : List T) : List T :=
  match c with
  | .id x => [(tok, sz), (.opIIdent, x), (.opNum, n)]
  | .loc o => [(tok, sz), (.opILoc, o), (.opNum, n)]
  | _ => F ++ [(tok, sz), (.opIAcc, 0), (.opNum, n)]

def lpart (L R : Info) (F : List T) : List T :=
  if !L.typ.isAcc then []
  else if R.typ.isAcc then (if L.delDeref then F.dropLast.dropLast else F) ++ [(.push, 0)]
  else if L.delDeref then F.dropLast.dropLast else F

def rpart (R : Info) (F : List T) : List T :=
  if !R.typ.isAcc then [] else if R.delDeref then F.dropLast.dropLast else F

def ltyp (L R : Info) : Tok :=
  if !L.typ.isAcc then L.typ else if R.typ.isAcc then (if L.typ = .opAcc then .opStk else .opIStk) else L.typ

def binF (tok : Tok) (L R : Info) (Fl Fr : List T) : List T :=
  lpart L R Fl ++ rpart R Fr ++ [(tok, (L.size + 8) * 16 + (R.size + 8)), (ltyp L R, L.val), (R.typ, R.val)]

/-- the fused stack of an expression -/
def fz (W : Nat) : E → List T
  | .num v => [(.num, v)]
  | .glob x => [(.ident, x)]
  | .loc o => [(.locl, o)]
  | .deref sz e => unF false .star sz (cls e) (fz W e)
  | .un .plus e => fz W e
  | .un u e => fz W e ++ [(u.tok, 0)]
  | .inc k sz e => unF true k.tok sz (cls e) (fz W e)
  | .padd sub sz n e => postF (if sub then .psub else .padd) sz n (cls e) (fz W e)
  | .bin o l r => binF (.ar o) (rInfo W (cls l)) (rInfo W (cls r)) (fz W l) (fz W r)
  | .cmp c l r => binF (.cmp c) (rInfo W (cls l)) (rInfo W (cls r)) (fz W l) (fz W r)
  | .asg sz l r => binF .asg (lInfo sz (cls l)) (rInfo W (cls r)) (fz W l) (fz W r)
  | .asgo o sz l r => binF (.asgo o) (lInfo sz (cls l)) (rInfo W (cls r)) (fz W l) (fz W r)
  | .land lab l r => fz W l ++ [(.short, lab)] ++ fz W r ++ [(.logAnd, lab)]
  | .lor lab l r => fz W l ++ [(.short, -lab)] ++ fz W r ++ [(.logOr, lab)]
  | .cond lab c a b =>
    fz W c ++ [(.short, -lab)] ++ (fz W b ++ [(.goto, lab + 1)]) ++ [(.logAnd, lab)] ++ fz W a ++ [(.logAnd, lab + 1)]
  | .comma l r => fz W l ++ [(.void, 0)] ++ fz W r ++ [(.comma, 0)]

/-- how a fused operand ends -/
def Tail : Cls → List T → Prop
  | .num v, F => F = [(.num, v)]
  | .id x, F => F = [(.ident, x)]
  | .loc o, F => F = [(.locl, o)]
  | .dId sz x, F => F = [(.star, sz), (.opIdent, x)]
  | .dLoc sz o, F => F = [(.star, sz), (.opLoc, o)]
  | .dAcc sz, F => ∃ X, F = X ++ [(.star, sz), (.opAcc, 0)]
  | .acc, F => ∃ X t ops, F = X ++ t :: ops ∧ (∀ o ∈ ops, o.1.isOp = true) ∧ t.1.isOp = false ∧ t.1 ≠ .star ∧
      (ops = [] → t.1 ≠ .num ∧ t.1 ≠ .ident ∧ t.1 ≠ .locl)

theorem skip_ops (X ops suf : List T) (t : T) (ht : t.1.isOp = false) (ho : ∀ o ∈ ops, o.1.isOp = true) :
    ∀ k, k ≤ ops.length → skipOps (X ++ t :: ops ++ suf) (X.length + k) = X.length := by
  intro k
  induction k with
  | zero =>
    intro _
    have h : (X ++ t :: ops ++ suf)[X.length]? = some t := by simp
    cases hn : X.length with
    | zero => rw [hn] at h; simp only [Nat.add_zero, skipOps, h]; simp [ht]
    | succ n => rw [hn] at h; simp only [Nat.add_zero, skipOps, h]; simp [ht]
  | succ k ih =>
    intro hk
    have h : (X ++ t :: ops ++ suf)[X.length + k + 1]? = some ops[k] := by
      simp [List.getElem?_append, Nat.add_assoc]
      rw [if_pos (by omega)]
      rw [List.getElem?_eq_getElem (by omega)]
    have : ops[k].1.isOp = true := ho _ (List.getElem_mem _)
    rw [← Nat.add_assoc]
    simp only [skipOps, h]
    simp only [Option.map_some, Option.getD_some, this, if_true]
    exact ih (by omega)

theorem info_star (W : Nat) (X suf : List T) (sz lval : Int) (t : T) (ht : t.1.isOp = true) (i : Int)
    (hi : i = X.length + 1) :
    operandInfo W (X ++ [(.star, sz), t] ++ suf) i lval =
      if lval ≠ 0 then some ⟨.opIAcc, 0, lval, false⟩ else t.1.addInd.map fun k => ⟨k, t.2, sz, true⟩ := by
  have h1 : ¬ i < 0 := by omega
  have h2 : i.toNat = X.length + 1 := by omega
  have h3 := skip_ops X [t] suf (.star, sz) rfl (by simpa using ht) 1 (by simp)
  have h4 : get (X ++ [(.star, sz), t] ++ suf) X.length = some (.star, sz) := by
    rw [List.append_assoc]
    exact get_app rfl
  have h5 : get (X ++ [(.star, sz), t] ++ suf) (X.length + 1) = some t := by
    rw [show X ++ [(.star, sz), t] ++ suf = (X ++ [(.star, sz)]) ++ t :: suf by simp]
    exact get_app (by simp)
  simp only [operandInfo, if_neg h1, h2, h3, h4, h5, Option.bind_some]

theorem info_leaf (W : Nat) (X suf : List T) (lval : Int) (t : T) (ht : t.1.isOp = false) (hs : t.1 ≠ .star) (i : Int)
    (hi : i = X.length) :
    operandInfo W (X ++ t :: suf) i lval = some (
      if lval ≠ 0 then
        match t.1 with
        | .ident => ⟨.opIIdent, t.2, lval, false⟩
        | .locl => ⟨.opILoc, t.2, lval, false⟩
        | _ => ⟨.opIAcc, 0, lval, false⟩
      else
        match t.1 with
        | .num => ⟨.opNum, t.2, W, false⟩
        | .ident => ⟨.opIdent, t.2, W, false⟩
        | .locl => ⟨.opLoc, t.2, W, false⟩
        | _ => ⟨.opAcc, 0, W, false⟩) := by
  have h1 : ¬ i < 0 := by omega
  have h2 : i.toNat = X.length + 0 := by omega
  have h3 := skip_ops X [] suf t ht (by simp) 0 (by simp)
  have h4 : get (X ++ t :: suf) X.length = some t := get_app rfl
  have h4' : get (X ++ t :: suf) i = some t := get_app hi
  have h3' : skipOps (X ++ t :: suf) (X.length + 0) = X.length := by
    rw [← h3]; simp
  simp only [operandInfo, if_neg h1, h2, h3', h4]
  split
  · rename_i sz heq
    cases heq
    exact absurd rfl hs
  · rw [h4']; rfl

theorem info_acc (W : Nat) (X ops suf : List T) (lval : Int) (t u : T) (ht : t.1.isOp = false) (hs : t.1 ≠ .star)
    (ho : ∀ o ∈ ops, o.1.isOp = true) (hu : u.1.isOp = true) (i : Int) (hi : i = X.length + ops.length + 1) :
    operandInfo W (X ++ t :: (ops ++ [u]) ++ suf) i lval =
      some (if lval ≠ 0 then ⟨.opIAcc, 0, lval, false⟩ else ⟨.opAcc, 0, W, false⟩) := by
  have h1 : ¬ i < 0 := by omega
  have h2 : i.toNat = X.length + (ops.length + 1) := by omega
  have h3 := skip_ops X (ops ++ [u]) suf t ht (by
    intro o hm
    rcases List.mem_append.mp hm with h | h
    · exact ho o h
    · rw [List.mem_singleton.mp h]; exact hu) (ops.length + 1) (by simp)
  have h4 : get (X ++ t :: (ops ++ [u]) ++ suf) X.length = some t := by
    rw [List.append_assoc]
    exact get_app rfl
  have h5 : get (X ++ t :: (ops ++ [u]) ++ suf) i = some u := by
    rw [show X ++ t :: (ops ++ [u]) ++ suf = (X ++ t :: ops) ++ u :: suf by simp]
    exact get_app (by simp; omega)
  simp only [operandInfo, if_neg h1, h2, h3, h4]
  split
  · rename_i sz heq
    cases heq
    exact absurd rfl hs
  · rw [h5]
    cases hu' : u.1 <;> simp_all [Tok.isOp]

theorem info_r {W : Nat} {c : Cls} {F : List T} (h : Tail c F) (pre suf : List T) (i : Int)
    (hi : i = pre.length + F.length - 1) : operandInfo W (pre ++ F ++ suf) i 0 = some (rInfo W c) := by
  cases c with
  | num v => cases h; rw [List.append_assoc]; exact info_leaf W pre suf 0 _ rfl (by simp) i (by simp at hi; omega)
  | id x => cases h; rw [List.append_assoc]; exact info_leaf W pre suf 0 _ rfl (by simp) i (by simp at hi; omega)
  | loc o => cases h; rw [List.append_assoc]; exact info_leaf W pre suf 0 _ rfl (by simp) i (by simp at hi; omega)
  | dId sz x => cases h; exact info_star W pre suf sz 0 _ rfl i (by simp at hi; omega)
  | dLoc sz o => cases h; exact info_star W pre suf sz 0 _ rfl i (by simp at hi; omega)
  | dAcc sz =>
    obtain ⟨X, rfl⟩ := h
    rw [← List.append_assoc pre]
    exact info_star W (pre ++ X) suf sz 0 _ rfl i (by simp at hi ⊢; omega)
  | acc =>
    obtain ⟨X, t, ops, rfl, ho, ht, hs, hl⟩ := h
    rcases List.eq_nil_or_concat ops with rfl | ⟨ops', u, rfl⟩
    · obtain ⟨a, b, c⟩ := hl rfl
      rw [show pre ++ (X ++ [t]) ++ suf = (pre ++ X) ++ t :: suf by simp]
      rw [info_leaf W (pre ++ X) suf 0 t ht hs i (by simp at hi ⊢; omega)]
      cases h : t.1 <;> simp_all [rInfo]
    · rw [List.concat_eq_append] at *
      rw [show pre ++ (X ++ t :: (ops' ++ [u])) ++ suf = (pre ++ X) ++ t :: (ops' ++ [u]) ++ suf by simp]
      rw [info_acc W (pre ++ X) ops' suf 0 t u ht hs (fun o hm => ho o (by simp [hm])) (ho u (by simp)) i
        (by simp at hi ⊢; omega)]
      rfl

theorem info_l {W : Nat} {c : Cls} {F : List T} (h : Tail c F) (pre suf : List T) (i sz : Int) (hz : sz ≠ 0)
    (hi : i = pre.length + F.length - 1) : operandInfo W (pre ++ F ++ suf) i sz = some (lInfo sz c) := by
  cases c with
  | num v =>
    cases h
    rw [List.append_assoc]
    exact (info_leaf W pre suf sz _ rfl (by simp) i (by simp at hi; omega)).trans (by simp [hz, lInfo])
  | id x =>
    cases h
    rw [List.append_assoc]
    exact (info_leaf W pre suf sz _ rfl (by simp) i (by simp at hi; omega)).trans (by simp [hz, lInfo])
  | loc o =>
    cases h
    rw [List.append_assoc]
    exact (info_leaf W pre suf sz _ rfl (by simp) i (by simp at hi; omega)).trans (by simp [hz, lInfo])
  | dId s x => cases h; rw [info_star W pre suf s sz _ rfl i (by simp at hi; omega), if_pos hz]; rfl
  | dLoc s o => cases h; rw [info_star W pre suf s sz _ rfl i (by simp at hi; omega), if_pos hz]; rfl
  | dAcc s =>
    obtain ⟨X, rfl⟩ := h
    rw [← List.append_assoc pre, info_star W (pre ++ X) suf s sz _ rfl i (by simp at hi ⊢; omega), if_pos hz]
    rfl
  | acc =>
    obtain ⟨X, t, ops, rfl, ho, ht, hs, hl⟩ := h
    rcases List.eq_nil_or_concat ops with rfl | ⟨ops', u, rfl⟩
    · obtain ⟨a, b, c⟩ := hl rfl
      rw [show pre ++ (X ++ [t]) ++ suf = (pre ++ X) ++ t :: suf by simp]
      rw [info_leaf W (pre ++ X) suf sz t ht hs i (by simp at hi ⊢; omega)]
      cases h : t.1 <;> simp_all [lInfo]
    · rw [List.concat_eq_append] at *
      rw [show pre ++ (X ++ t :: (ops' ++ [u])) ++ suf = (pre ++ X) ++ t :: (ops' ++ [u]) ++ suf by simp]
      rw [info_acc W (pre ++ X) ops' suf sz t u ht hs (fun o hm => ho o (by simp [hm])) (ho u (by simp)) i
        (by simp at hi ⊢; omega), if_pos hz]
      rfl

end Smlr.Cg
