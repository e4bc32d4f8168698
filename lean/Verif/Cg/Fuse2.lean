import Verif.Cg.Fuse
set_option autoImplicit false
/-! `GenFuse` follows the tree. -/
namespace Smlr.Cg

theorem tail_one (X : List T) (t : T) (h : t.1.isOp = false) (hs : t.1 ≠ .star)
    (hl : t.1 ≠ .num ∧ t.1 ≠ .ident ∧ t.1 ≠ .locl) : Tail .acc (X ++ [t]) :=
  ⟨X, t, [], rfl, by simp, h, hs, fun _ => hl⟩

theorem tail_bin (tok : Tok) (L R : Info) (Fl Fr : List T) (h1 : tok.isOp = false) (h2 : tok ≠ .star)
    (hL : (ltyp L R).isOp = true ∨ ltyp L R = .opStk ∨ ltyp L R = .opIStk) (hR : R.typ.isOp = true) :
    Tail .acc (binF tok L R Fl Fr) := by
  by_cases h : (ltyp L R).isOp = true
  · refine ⟨lpart L R Fl ++ rpart R Fr, _, [_, _], rfl, ?_, h1, h2, by simp⟩
    simp [h, hR]
  · refine ⟨lpart L R Fl ++ rpart R Fr ++ [(tok, (L.size + 8) * 16 + (R.size + 8))], (ltyp L R, L.val), [(R.typ, R.val)],
      by simp [binF], by simp [hR], by simpa using h, ?_, by simp⟩
    rcases hL with hL | hL | hL
    · exact absurd hL h
    · simp [hL]
    · simp [hL]

theorem rInfo_op (W : Nat) (c : Cls) : (rInfo W c).typ.isOp = true := by cases c <;> rfl

theorem lInfo_op (sz : Int) (c : Cls) : (lInfo sz c).typ.isOp = true := by cases c <;> rfl

theorem ltyp_ok (L R : Info) (h : L.typ.isOp = true) : (ltyp L R).isOp = true ∨ ltyp L R = .opStk ∨ ltyp L R = .opIStk := by
  unfold ltyp
  split
  · exact .inl h
  · split
    · split
      · exact .inr (.inl rfl)
      · exact .inr (.inr rfl)
    · exact .inl h

theorem Un.tok_acc (u : Un) (h : u ≠ .plus) : u.tok.isOp = false ∧ u.tok ≠ .star ∧ u.tok ≠ .num ∧ u.tok ≠ .ident ∧ u.tok ≠ .locl := by
  cases u <;> first | exact absurd rfl h | decide

theorem fz_un (W : Nat) (u : Un) (e : E) (h : u ≠ .plus) : fz W (.un u e) = fz W e ++ [(u.tok, 0)] := by
  cases u <;> first | exact absurd rfl h | rfl

theorem cls_un (u : Un) (e : E) (h : u ≠ .plus) : cls (.un u e) = .acc := by
  cases u <;> first | exact absurd rfl h | rfl

theorem tail_unF (ind : Bool) (tok : Tok) (sz : Int) (c : Cls) (F : List T) (h1 : tok.isOp = false) (h2 : tok ≠ .star) :
    Tail .acc (unF ind tok sz c F) := by
  unfold unF
  split
  · exact ⟨[], _, [_], rfl, by cases ind <;> simp [Tok.isOp], h1, h2, by simp⟩
  · exact ⟨[], _, [_], rfl, by cases ind <;> simp [Tok.isOp], h1, h2, by simp⟩
  · exact ⟨F, _, [_], rfl, by cases ind <;> simp [Tok.isOp], h1, h2, by simp⟩

theorem tail_postF (tok : Tok) (sz n : Int) (c : Cls) (F : List T) (h1 : tok.isOp = false) (h2 : tok ≠ .star) :
    Tail .acc (postF tok sz n c F) := by
  unfold postF
  split
  · exact ⟨[], _, [_, _], rfl, by simp [Tok.isOp], h1, h2, by simp⟩
  · exact ⟨[], _, [_, _], rfl, by simp [Tok.isOp], h1, h2, by simp⟩
  · exact ⟨F, _, [_, _], rfl, by simp [Tok.isOp], h1, h2, by simp⟩

theorem tail_fz (W : Nat) (e : E) : Tail (cls e) (fz W e) := by
  induction e with
  | num v => rfl
  | glob x => rfl
  | loc o => rfl
  | deref sz e ih =>
    simp only [cls, fz]
    cases h : cls e with
    | id x => rfl
    | loc o => rfl
    | num v => exact ⟨fz W e, rfl⟩
    | dId s x => exact ⟨fz W e, rfl⟩
    | dLoc s x => exact ⟨fz W e, rfl⟩
    | dAcc s => exact ⟨fz W e, rfl⟩
    | acc => exact ⟨fz W e, rfl⟩
  | un u e ih =>
    by_cases h : u = .plus
    · subst h; exact ih
    · rw [cls_un u e h, fz_un W u e h]
      obtain ⟨a, b, c⟩ := u.tok_acc h
      exact tail_one _ _ a b c
  | inc k sz e ih =>
    exact tail_unF _ _ _ _ _ (by cases k <;> rfl) (by cases k <;> simp [IncK.tok])
  | padd sub sz n e ih =>
    exact tail_postF _ _ _ _ _ (by cases sub <;> rfl) (by cases sub <;> simp)
  | bin o l r ihl ihr => exact tail_bin _ _ _ _ _ rfl (by simp) (ltyp_ok _ _ (rInfo_op _ _)) (rInfo_op _ _)
  | cmp c l r ihl ihr => exact tail_bin _ _ _ _ _ rfl (by simp) (ltyp_ok _ _ (rInfo_op _ _)) (rInfo_op _ _)
  | asg sz l r ihl ihr => exact tail_bin _ _ _ _ _ rfl (by simp) (ltyp_ok _ _ (lInfo_op _ _)) (rInfo_op _ _)
  | asgo o sz l r ihl ihr => exact tail_bin _ _ _ _ _ rfl (by simp) (ltyp_ok _ _ (lInfo_op _ _)) (rInfo_op _ _)
  | land lab l r ihl ihr => exact tail_one _ _ rfl (by simp) (by simp)
  | lor lab l r ihl ihr => exact tail_one _ _ rfl (by simp) (by simp)
  | cond lab c a b ihc iha ihb => exact tail_one _ _ rfl (by simp) (by simp)
  | comma l r ihl ihr => exact tail_one _ _ rfl (by simp) (by simp)

/-- fusing turns a part of the stack into another -/
def Fus (W : Nat) (ts fs : List T) : Prop :=
  ∀ f, ts.length ≤ f → ∀ (pre suf : List T) (i : Int), i = pre.length + ts.length - 1 →
    fuse W f (pre ++ ts ++ suf) i = some (pre ++ fs ++ suf, (pre.length : Int) - 1)

theorem Fus.get {W : Nat} {X pre suf : List T} {t : T} {i : Int} (hi : i = pre.length + (X ++ [t]).length - 1) :
    Smlr.Cg.get (pre ++ (X ++ [t]) ++ suf) i = some t := by
  rw [show pre ++ (X ++ [t]) ++ suf = (pre ++ X) ++ t :: suf by simp]
  exact get_app (by simp at hi ⊢; omega)

theorem fus_leaf (W : Nat) (t : T) (h : t.1 = .num ∨ t.1 = .ident ∨ t.1 = .locl) : Fus W [t] [t] := by
  intro f hf pre suf i hi
  obtain ⟨f, rfl⟩ : ∃ g, f = g + 1 := ⟨f - 1, by simp at hf; omega⟩
  have hg : Smlr.Cg.get (pre ++ [t] ++ suf) i = some t := Fus.get (W := W) (X := []) (by simpa using hi)
  have hi' : i - 1 = pre.length - 1 := by simp at hi; omega
  rcases t with ⟨k, v⟩
  rcases h with h | h | h <;> simp only at h <;> subst h <;> simp only [fuse, hg, Option.bind_some, hi']

/-- tokens that stay behind their operand -/
def Tok.stays : Tok → Bool
  | .short | .goto | .not | .neg | .bool | .void | .uchar | .schar | .tshort | .tushort => true
  | _ => false

theorem fus_pass (W : Nat) {ts fs : List T} (h : Fus W ts fs) (k : Tok) (v : Int) (hk : k.stays = true) :
    Fus W (ts ++ [(k, v)]) (fs ++ [(k, v)]) := by
  intro f hf pre suf i hi
  obtain ⟨f, rfl⟩ : ∃ g, f = g + 1 := ⟨f - 1, by simp at hf; omega⟩
  have hg : Smlr.Cg.get (pre ++ (ts ++ [(k, v)]) ++ suf) i = some (k, v) := Fus.get (W := W) hi
  have := h f (by simp at hf; omega) pre ((k, v) :: suf) (i - 1) (by simp at hi; omega)
  rw [show pre ++ ts ++ (k, v) :: suf = pre ++ (ts ++ [(k, v)]) ++ suf by simp] at this
  rw [show pre ++ fs ++ (k, v) :: suf = pre ++ (fs ++ [(k, v)]) ++ suf by simp] at this
  cases k <;> first | (exact Bool.noConfusion hk) | (simp only [fuse, hg, Option.bind_some]; exact this)

theorem len_app3 (a b c : List T) : len (a ++ b ++ c) = (a.length : Int) + b.length + c.length := by
  simp [len]; omega

theorem fus_plus (W : Nat) {ts fs : List T} (h : Fus W ts fs) (v : Int) : Fus W (ts ++ [(.uplus, v)]) fs := by
  intro f hf pre suf i hi
  obtain ⟨f, rfl⟩ : ∃ g, f = g + 1 := ⟨f - 1, by simp at hf; omega⟩
  have hg : Smlr.Cg.get (pre ++ (ts ++ [(.uplus, v)]) ++ suf) i = some (.uplus, v) := Fus.get (W := W) hi
  have := h f (by simp at hf; omega) pre ((.uplus, v) :: suf) (i - 1) (by simp at hi; omega)
  rw [show pre ++ ts ++ (.uplus, v) :: suf = pre ++ (ts ++ [(.uplus, v)]) ++ suf by simp] at this
  simp only [fuse, hg, Option.bind_some, this]
  congr 2
  have e : del (pre ++ fs ++ ([(Tok.uplus, v)] ++ suf)) (pre ++ fs).length 1 = pre ++ fs ++ suf := del_app rfl rfl
  rw [← e]
  have : (i - 1 - (len (pre ++ (ts ++ [(Tok.uplus, v)]) ++ suf) - len (pre ++ fs ++ (Tok.uplus, v) :: suf)) + 1) =
      ((pre ++ fs).length : Int) := by
    rw [len_app3, len_app3]
    simp at hi ⊢
    omega
  rw [this]
  rfl

theorem put_put_two (pre suf : List T) (a b a' b' : T) (i : Int) (hi : i = pre.length) :
    put (put (pre ++ [a] ++ b :: suf) (i + 1) b') i a' = pre ++ [a', b'] ++ suf := by
  rw [put_app (X := pre ++ [a]) (by simp; omega), List.append_assoc, List.singleton_append, put_app hi]
  simp

/-- the last token of a fused operand, if it is an address -/
theorem Tail.last {c : Cls} {F : List T} (h : Tail c F) : ∃ X t, F = X ++ [t] ∧
    (match c with
     | .id x => X = [] ∧ t = (.ident, x)
     | .loc o => X = [] ∧ t = (.locl, o)
     | _ => t.1 ≠ .ident ∧ t.1 ≠ .locl) := by
  cases c with
  | num v => cases h; exact ⟨[], _, rfl, by simp⟩
  | id x => cases h; exact ⟨[], _, rfl, rfl, rfl⟩
  | loc o => cases h; exact ⟨[], _, rfl, rfl, rfl⟩
  | dId sz x => cases h; exact ⟨[_], _, rfl, by simp⟩
  | dLoc sz o => cases h; exact ⟨[_], _, rfl, by simp⟩
  | dAcc sz => obtain ⟨X, rfl⟩ := h; exact ⟨X ++ [(.star, sz)], (.opAcc, 0), by simp, by simp⟩
  | acc =>
    obtain ⟨X, t, ops, rfl, ho, ht, hs, hl⟩ := h
    rcases List.eq_nil_or_concat ops with rfl | ⟨ops', u, rfl⟩
    · exact ⟨X, t, rfl, (hl rfl).2.1, (hl rfl).2.2⟩
    · refine ⟨X ++ t :: ops', u, by simp, ?_⟩
      have : u.1.isOp = true := ho u (by simp)
      constructor
      · intro h; rw [h] at this; exact absurd this (by decide)
      · intro h; rw [h] at this; exact absurd this (by decide)

theorem fuseUn_ok {c : Cls} {F : List T} (h : Tail c F) (ind : Bool) (tok : Tok) (sz : Int) (pre suf : List T) (i : Int)
    (hi : i = pre.length + F.length - 1) (t : T) :
    fuseUn ind tok sz (pre ++ F ++ t :: suf) i =
      some (match c with
        | .id _ | .loc _ => pre ++ unF ind tok sz c F ++ suf
        | _ => pre ++ F ++ t :: (if ind then .opIAcc else .opAcc, 0) :: suf) := by
  obtain ⟨X, u, rfl, hx⟩ := h.last
  have hg : Smlr.Cg.get (pre ++ (X ++ [u]) ++ t :: suf) i = some u := Fus.get (W := 2) hi
  have hacc : u.1 ≠ .ident → u.1 ≠ .locl →
      fuseUn ind tok sz (pre ++ (X ++ [u]) ++ t :: suf) i =
        some (pre ++ (X ++ [u]) ++ t :: (if ind then .opIAcc else .opAcc, 0) :: suf) := by
    intro h1 h2
    have e : ins ((pre ++ (X ++ [u]) ++ [t]) ++ suf) (i + 2) (if ind then .opIAcc else .opAcc, 0) =
        (pre ++ (X ++ [u]) ++ [t]) ++ (if ind then Tok.opIAcc else Tok.opAcc, (0 : Int)) :: suf := by
      apply ins_app
      simp at hi ⊢
      omega
    have e1 : pre ++ (X ++ [u]) ++ t :: suf = (pre ++ (X ++ [u]) ++ [t]) ++ suf := by simp
    unfold fuseUn
    rw [hg]
    simp only [Option.map_some]
    rw [e1, e]
    simp
  cases c with
  | id x =>
    obtain ⟨rfl, rfl⟩ := hx
    unfold fuseUn
    rw [hg]
    simp only [Option.map_some, List.nil_append]
    rw [put_put_two _ _ _ _ _ _ _ (by simp at hi; omega)]
    rfl
  | loc o =>
    obtain ⟨rfl, rfl⟩ := hx
    unfold fuseUn
    rw [hg]
    simp only [Option.map_some, List.nil_append]
    rw [put_put_two _ _ _ _ _ _ _ (by simp at hi; omega)]
    rfl
  | num v => exact hacc hx.1 hx.2
  | dId s x => exact hacc hx.1 hx.2
  | dLoc s x => exact hacc hx.1 hx.2
  | dAcc s => exact hacc hx.1 hx.2
  | acc => exact hacc hx.1 hx.2

theorem fuseUn_ok' {c : Cls} {F : List T} (h : Tail c F) (ind : Bool) (tok : Tok) (sz : Int) (pre suf : List T) (i : Int)
    (hi : i = pre.length + F.length - 1) :
    fuseUn ind tok sz (pre ++ F ++ (tok, sz) :: suf) i = some (pre ++ unF ind tok sz c F ++ suf) := by
  rw [fuseUn_ok h ind tok sz pre suf i hi]
  cases c <;> simp [unF]

theorem fus_un (W : Nat) {ts fs : List T} {c : Cls} (h : Fus W ts fs) (ht : Tail c fs) (k : Tok) (v : Int) (ind : Bool)
    (hk : (ind = false ∧ k = .star) ∨ (ind = true ∧ (k = .inc ∨ k = .dec ∨ k = .pinc ∨ k = .pdec))) :
    Fus W (ts ++ [(k, v)]) (unF ind k v c fs) := by
  intro f hf pre suf i hi
  obtain ⟨f, rfl⟩ : ∃ g, f = g + 1 := ⟨f - 1, by simp at hf; omega⟩
  have hg : Smlr.Cg.get (pre ++ (ts ++ [(k, v)]) ++ suf) i = some (k, v) := Fus.get (W := W) hi
  have := h f (by simp at hf; omega) pre ((k, v) :: suf) (i - 1) (by simp at hi; omega)
  rw [show pre ++ ts ++ (k, v) :: suf = pre ++ (ts ++ [(k, v)]) ++ suf by simp] at this
  have hi' : i - 1 - (len (pre ++ (ts ++ [(k, v)]) ++ suf) - len (pre ++ fs ++ (k, v) :: suf)) = pre.length + fs.length - 1 := by
    rw [len_app3, len_app3]
    simp at hi ⊢
    omega
  have e := fuseUn_ok' ht ind k v pre suf _ hi'
  rcases hk with ⟨rfl, rfl⟩ | ⟨rfl, rfl | rfl | rfl | rfl⟩ <;>
    simp only [fuse, hg, Option.bind_some, this, e, Option.map_some]

theorem put_put_three (pre suf : List T) (a b c a' b' c' : T) (i : Int) (hi : i = pre.length) :
    put (put (put (pre ++ [a] ++ b :: c :: suf) (i + 2) c') (i + 1) b') i a' = pre ++ [a', b', c'] ++ suf := by
  rw [show pre ++ [a] ++ b :: c :: suf = pre ++ [a] ++ [b] ++ c :: suf by simp]
  rw [put_app (X := pre ++ [a] ++ [b]) (by simp; omega)]
  rw [show pre ++ [a] ++ [b] ++ c' :: suf = pre ++ [a] ++ b :: c' :: suf by simp, put_put_two _ _ _ _ _ _ _ hi]
  simp

theorem fusePost_ok {c : Cls} {F : List T} (h : Tail c F) (tok : Tok) (sz n : Int) (pre suf : List T) (i : Int)
    (hi : i = pre.length + F.length - 1) (t u : T) :
    fusePost tok sz n (pre ++ F ++ t :: u :: suf) i = some (pre ++ postF tok sz n c F ++ suf) := by
  obtain ⟨X, w, rfl, hx⟩ := h.last
  have hg : Smlr.Cg.get (pre ++ (X ++ [w]) ++ t :: u :: suf) i = some w := Fus.get (W := 2) hi
  have hacc : w.1 ≠ .ident → w.1 ≠ .locl →
      fusePost tok sz n (pre ++ (X ++ [w]) ++ t :: u :: suf) i =
        some (pre ++ (X ++ [w] ++ [(tok, sz), (.opIAcc, 0), (.opNum, n)]) ++ suf) := by
    intro h1 h2
    have e1 : put (put (pre ++ (X ++ [w]) ++ t :: u :: suf) (i + 1) (tok, sz)) (i + 2) (.opIAcc, 0) =
        (pre ++ (X ++ [w]) ++ [(tok, sz), (.opIAcc, 0)]) ++ suf := by
      rw [put_app (X := pre ++ (X ++ [w])) (by simp at hi ⊢; omega)]
      rw [show pre ++ (X ++ [w]) ++ (tok, sz) :: u :: suf = (pre ++ (X ++ [w]) ++ [(tok, sz)]) ++ u :: suf by simp]
      rw [put_app (by simp at hi ⊢; omega)]
      simp
    unfold fusePost
    rw [hg]
    simp only [Option.map_some]
    rw [e1, ins_app (by simp at hi ⊢; omega)]
    simp
  cases c with
  | id x =>
    obtain ⟨rfl, rfl⟩ := hx
    unfold fusePost
    rw [hg]
    simp only [Option.map_some, List.nil_append]
    rw [put_put_three _ _ _ _ _ _ _ _ _ (by simp at hi; omega)]
    rfl
  | loc o =>
    obtain ⟨rfl, rfl⟩ := hx
    unfold fusePost
    rw [hg]
    simp only [Option.map_some, List.nil_append]
    rw [put_put_three _ _ _ _ _ _ _ _ _ (by simp at hi; omega)]
    rfl
  | num v => exact hacc hx.1 hx.2
  | dId s x => exact hacc hx.1 hx.2
  | dLoc s x => exact hacc hx.1 hx.2
  | dAcc s => exact hacc hx.1 hx.2
  | acc => exact hacc hx.1 hx.2

theorem fus_post (W : Nat) {ts fs : List T} {c : Cls} (h : Fus W ts fs) (ht : Tail c fs) (k : Tok) (v n : Int)
    (hk : k = .padd ∨ k = .psub) :
    Fus W (ts ++ [(.num, n), (k, v)]) (postF k v n c fs) := by
  intro f hf pre suf i hi
  obtain ⟨f, rfl⟩ : ∃ g, f = g + 1 := ⟨f - 1, by simp at hf; omega⟩
  have e0 : ts ++ [(.num, n), (k, v)] = (ts ++ [(.num, n)]) ++ [(k, v)] := by simp
  have hg : Smlr.Cg.get (pre ++ (ts ++ [(.num, n), (k, v)]) ++ suf) i = some (k, v) := by
    rw [e0]
    exact Fus.get (W := W) (by rw [← e0]; exact hi)
  have hg1 : Smlr.Cg.get (pre ++ (ts ++ [(.num, n), (k, v)]) ++ suf) (i - 1) = some (.num, n) := by
    rw [show pre ++ (ts ++ [(.num, n), (k, v)]) ++ suf = (pre ++ ts) ++ (.num, n) :: (k, v) :: suf by simp]
    exact get_app (by simp at hi ⊢; omega)
  have := h f (by simp at hf; omega) pre ((.num, n) :: (k, v) :: suf) (i - 1 - 1) (by simp at hi; omega)
  rw [show pre ++ ts ++ (.num, n) :: (k, v) :: suf = pre ++ (ts ++ [(.num, n), (k, v)]) ++ suf by simp] at this
  have hi' : i - 1 - 1 - (len (pre ++ (ts ++ [(.num, n), (k, v)]) ++ suf) - len (pre ++ fs ++ (.num, n) :: (k, v) :: suf)) =
      pre.length + fs.length - 1 := by
    rw [len_app3, len_app3]
    simp at hi ⊢
    omega
  have e := fusePost_ok ht k v n pre suf _ hi' (.num, n) (k, v)
  rcases hk with rfl | rfl <;> simp only [fuse, hg, hg1, Option.bind_some, this, e, Option.map_some]

theorem fuseLeft_ok (pre Fl Y : List T) (L R : Info) (idx iL iR : Int) (h0 : idx = pre.length - 1)
    (h1 : iL = pre.length + Fl.length - 1) (hd : L.delDeref = true → ∃ X a b, Fl = X ++ [a, b]) :
    fuseLeft (pre ++ Fl ++ Y) idx iL iR L R =
      (pre ++ lpart L R Fl ++ Y, (pre.length : Int) + (lpart L R Fl).length - 1,
       iR - iL + (pre.length + (lpart L R Fl).length - 1), ltyp L R) := by
  unfold fuseLeft lpart ltyp
  by_cases hL : L.typ.isAcc = true
  · simp only [hL, Bool.not_true, Bool.false_eq_true, if_false]
    by_cases hR : R.typ.isAcc = true
    · simp only [hR, if_true]
      have e : ins (pre ++ Fl ++ Y) (iL + 1) (.push, 0) = pre ++ Fl ++ (Tok.push, (0 : Int)) :: Y :=
        ins_app (by simp; omega)
      rw [e]
      by_cases hD : L.delDeref = true
      · obtain ⟨X, a, b, rfl⟩ := hd hD
        simp only [hD, if_true]
        have e1 : del ((pre ++ X) ++ ([a, b] ++ (Tok.push, (0 : Int)) :: Y)) (iL + 1 - 2) 2 = pre ++ X ++ (Tok.push, (0 : Int)) :: Y :=
          del_app (by simp at h1 ⊢; omega) (by simp)
        have e2 : (X ++ [a, b]).dropLast.dropLast = X := by
          rw [show X ++ [a, b] = (X ++ [a]) ++ [b] by simp, List.dropLast_concat, List.dropLast_concat]
        rw [show pre ++ (X ++ [a, b]) ++ (Tok.push, (0 : Int)) :: Y = (pre ++ X) ++ ([a, b] ++ (Tok.push, (0 : Int)) :: Y) by simp, e1, e2]
        simp only [Prod.mk.injEq]
        refine ⟨by simp, ?_, ?_, trivial⟩
        · simp at h1 ⊢; omega
        · simp at h1 ⊢; omega
      · simp only [hD, Bool.false_eq_true, if_false]
        simp only [Prod.mk.injEq]
        refine ⟨by simp, ?_, ?_, trivial⟩
        · simp at h1 ⊢; omega
        · simp at h1 ⊢; omega
    · simp only [hR, Bool.false_eq_true, if_false]
      by_cases hD : L.delDeref = true
      · obtain ⟨X, a, b, rfl⟩ := hd hD
        simp only [hD, if_true]
        have e1 : del ((pre ++ X) ++ ([a, b] ++ Y)) (iL - 1) 2 = pre ++ X ++ Y :=
          del_app (by simp at h1 ⊢; omega) (by simp)
        have e2 : (X ++ [a, b]).dropLast.dropLast = X := by
          rw [show X ++ [a, b] = (X ++ [a]) ++ [b] by simp, List.dropLast_concat, List.dropLast_concat]
        rw [show pre ++ (X ++ [a, b]) ++ Y = (pre ++ X) ++ ([a, b] ++ Y) by simp, e1, e2]
        simp only [Prod.mk.injEq]
        refine ⟨trivial, ?_, ?_, trivial⟩
        · simp at h1 ⊢; omega
        · simp at h1 ⊢; omega
      · simp only [hD, Bool.false_eq_true, if_false]
        simp only [Prod.mk.injEq]
        refine ⟨trivial, ?_, ?_, trivial⟩
        · omega
        · omega
  · simp only [hL, Bool.not_false, if_true]
    have e : del (pre ++ (Fl ++ Y)) (idx + 1) (iL - idx) = pre ++ Y := del_app (by omega) (by omega)
    rw [List.append_assoc, e]
    simp only [Prod.mk.injEq, List.append_nil, true_and, and_true, List.length_nil]
    constructor <;> simp <;> omega

theorem fuseRight_ok (pre Fr Y : List T) (R : Info) (iL iR : Int) (h0 : iL = pre.length - 1)
    (h1 : iR = pre.length + Fr.length - 1) (hd : R.delDeref = true → ∃ X a b, Fr = X ++ [a, b]) :
    fuseRight (pre ++ Fr ++ Y) iL iR R = (pre ++ rpart R Fr ++ Y, (pre.length : Int) + (rpart R Fr).length - 1) := by
  unfold fuseRight rpart
  by_cases hR : R.typ.isAcc = true
  · simp only [hR, Bool.not_true, Bool.false_eq_true, if_false]
    by_cases hD : R.delDeref = true
    · obtain ⟨X, a, b, rfl⟩ := hd hD
      simp only [hD, if_true]
      have e1 : del ((pre ++ X) ++ ([a, b] ++ Y)) (iR - 1) 2 = pre ++ X ++ Y :=
        del_app (by simp at h1 ⊢; omega) (by simp)
      have e2 : (X ++ [a, b]).dropLast.dropLast = X := by
        rw [show X ++ [a, b] = (X ++ [a]) ++ [b] by simp, List.dropLast_concat, List.dropLast_concat]
      rw [show pre ++ (X ++ [a, b]) ++ Y = (pre ++ X) ++ ([a, b] ++ Y) by simp, e1, e2]
      simp only [Prod.mk.injEq]
      refine ⟨trivial, ?_⟩
      simp at h1 ⊢; omega
    · simp only [hD, Bool.false_eq_true, if_false]
      simp only [Prod.mk.injEq]
      exact ⟨trivial, h1⟩
  · simp only [hR, Bool.not_false, if_true]
    have e : del (pre ++ (Fr ++ Y)) (iL + 1) (iR - iL) = pre ++ Y := del_app (by omega) (by omega)
    rw [List.append_assoc, e]
    simp only [Prod.mk.injEq, List.append_nil, true_and, List.length_nil]
    simp
    omega

theorem fuseBin_ok (tok : Tok) (pre Fl Fr suf : List T) (t : T) (L R : Info) (idx iL iR : Int) (h0 : idx = pre.length - 1)
    (h1 : iL = pre.length + Fl.length - 1) (h2 : iR = pre.length + Fl.length + Fr.length - 1)
    (hl : L.delDeref = true → ∃ X a b, Fl = X ++ [a, b]) (hr : R.delDeref = true → ∃ X a b, Fr = X ++ [a, b]) :
    fuseBin tok (pre ++ Fl ++ (Fr ++ t :: suf)) idx iL iR L R = pre ++ binF tok L R Fl Fr ++ suf := by
  unfold fuseBin
  rw [fuseLeft_ok pre Fl (Fr ++ t :: suf) L R idx iL iR h0 h1 hl]
  dsimp only
  have e : pre ++ lpart L R Fl ++ (Fr ++ t :: suf) = (pre ++ lpart L R Fl) ++ Fr ++ (t :: suf) := by simp
  rw [e, fuseRight_ok (pre ++ lpart L R Fl) Fr (t :: suf) R _ _ (by simp) (by simp; omega) hr]
  dsimp only
  rw [put_app (by simp; omega)]
  have e2 : ∀ u : T, pre ++ lpart L R Fl ++ rpart R Fr ++ u :: suf = (pre ++ lpart L R Fl ++ rpart R Fr ++ [u]) ++ suf := by
    intro u; simp
  rw [e2, ins_app (by simp; omega), ins_app (by simp; omega)]
  simp [binF]

theorem Tail.rdel {W : Nat} {c : Cls} {F : List T} (h : Tail c F) (hd : (rInfo W c).delDeref = true) :
    ∃ X a b, F = X ++ [a, b] := by
  cases c with
  | num v => exact absurd hd (by simp [rInfo])
  | id x => exact absurd hd (by simp [rInfo])
  | loc o => exact absurd hd (by simp [rInfo])
  | dId sz x => exact ⟨[], _, _, h⟩
  | dLoc sz o => exact ⟨[], _, _, h⟩
  | dAcc sz => obtain ⟨X, h⟩ := h; exact ⟨X, _, _, h⟩
  | acc => exact absurd hd (by simp [rInfo])

theorem lInfo_del (sz : Int) (c : Cls) : (lInfo sz c).delDeref = false := by cases c <;> rfl

/-- the information on the left operand for an operator on the stack -/
def leftInfo (W : Nat) (t : T) (c : Cls) : Info :=
  match t.1 with
  | .asg | .asgo _ => lInfo t.2 c
  | _ => rInfo W c

def Tok.binary : Tok → Bool
  | .asg | .asgo _ | .ar _ | .cmp _ => true
  | _ => false

def Tok.assigns : Tok → Bool
  | .asg | .asgo _ => true
  | _ => false

theorem fus_bin (W : Nat) {tl tr fl fr : List T} {cl cr : Cls} (hl : Fus W tl fl) (hr : Fus W tr fr) (tcl : Tail cl fl)
    (tcr : Tail cr fr) (k : Tok) (v : Int) (hk : k.binary = true) (hv : k.assigns = true → v ≠ 0) :
    Fus W (tl ++ tr ++ [(k, v)]) (binF k (leftInfo W (k, v) cl) (rInfo W cr) fl fr) := by
  intro f hf pre suf i hi
  obtain ⟨f, rfl⟩ : ∃ g, f = g + 1 := ⟨f - 1, by simp at hf; omega⟩
  have hg : Smlr.Cg.get (pre ++ (tl ++ tr ++ [(k, v)]) ++ suf) i = some (k, v) := Fus.get (W := W) hi
  have H1 := hr f (by simp at hf; omega) (pre ++ tl) ((k, v) :: suf) (i - 1) (by simp at hi ⊢; omega)
  rw [show pre ++ tl ++ tr ++ (k, v) :: suf = pre ++ (tl ++ tr ++ [(k, v)]) ++ suf by simp] at H1
  have hiR : i - 1 - (len (pre ++ (tl ++ tr ++ [(k, v)]) ++ suf) - len (pre ++ tl ++ fr ++ (k, v) :: suf)) =
      ((pre ++ tl).length : Int) + fr.length - 1 := by
    rw [len_app3, len_app3]
    simp at hi ⊢
    omega
  have H2 := info_r (W := W) tcr (pre ++ tl) ((k, v) :: suf) _ rfl
  have H3 := hl f (by simp at hf; omega) pre (fr ++ (k, v) :: suf) ((pre ++ tl).length - 1) (by simp)
  rw [show pre ++ tl ++ (fr ++ (k, v) :: suf) = pre ++ tl ++ fr ++ (k, v) :: suf by simp] at H3
  have hL : ((pre ++ tl).length : Int) - 1 - (len (pre ++ tl ++ fr ++ (k, v) :: suf) - len (pre ++ fl ++ (fr ++ (k, v) :: suf))) =
      (pre.length : Int) + fl.length - 1 := by
    rw [len_app3, len_app3]
    simp
    omega
  have hR : ((pre ++ tl).length : Int) + fr.length - 1 - (len (pre ++ tl ++ fr ++ (k, v) :: suf) - len (pre ++ fl ++ (fr ++ (k, v) :: suf))) =
      (pre.length : Int) + fl.length + fr.length - 1 := by
    rw [len_app3, len_app3]
    simp
    omega
  have H4r := info_r (W := W) tcl pre (fr ++ (k, v) :: suf) _ rfl
  have H4l := fun hz => info_l (W := W) tcl pre (fr ++ (k, v) :: suf) _ v hz rfl
  have H5 := fun L (hd : L.delDeref = true → ∃ X a b, fl = X ++ [a, b]) =>
    fuseBin_ok k pre fl fr suf (k, v) L (rInfo W cr) _ _ _ rfl rfl rfl hd tcr.rdel
  cases k with
  | asg =>
    have := H4l (hv rfl)
    simp only [fuse, hg, Option.bind_some, H1, hiR, H2, H3, hL, hR, this]
    rw [H5 _ (by rw [lInfo_del]; simp)]
    rfl
  | asgo o =>
    have := H4l (hv rfl)
    simp only [fuse, hg, Option.bind_some, H1, hiR, H2, H3, hL, hR, this]
    rw [H5 _ (by rw [lInfo_del]; simp)]
    rfl
  | ar o =>
    simp only [fuse, hg, Option.bind_some, H1, hiR, H2, H3, hL, hR, H4r]
    rw [H5 _ tcl.rdel]
    rfl
  | cmp c =>
    simp only [fuse, hg, Option.bind_some, H1, hiR, H2, H3, hL, hR, H4r]
    rw [H5 _ tcl.rdel]
    rfl
  | _ => exact absurd hk (by simp [Tok.binary])

/-- something that `GetOperandInfo` finds an operand in -/
def HasTail (F : List T) : Prop := ∃ c, Tail c F

theorem fus_join (W : Nat) {tl tr fl fr : List T} (hl : Fus W tl fl) (hr : Fus W tr fr) (tcl : HasTail fl)
    (tcr : HasTail fr) (k : Tok) (v : Int) (hk : k = .logAnd ∨ k = .logOr ∨ k = .comma) :
    Fus W (tl ++ tr ++ [(k, v)]) (fl ++ fr ++ [(k, v)]) := by
  obtain ⟨cl, tcl⟩ := tcl
  obtain ⟨cr, tcr⟩ := tcr
  intro f hf pre suf i hi
  obtain ⟨f, rfl⟩ : ∃ g, f = g + 1 := ⟨f - 1, by simp at hf; omega⟩
  have hg : Smlr.Cg.get (pre ++ (tl ++ tr ++ [(k, v)]) ++ suf) i = some (k, v) := Fus.get (W := W) hi
  have H1 := hr f (by simp at hf; omega) (pre ++ tl) ((k, v) :: suf) (i - 1) (by simp at hi ⊢; omega)
  rw [show pre ++ tl ++ tr ++ (k, v) :: suf = pre ++ (tl ++ tr ++ [(k, v)]) ++ suf by simp] at H1
  have hiR : i - 1 - (len (pre ++ (tl ++ tr ++ [(k, v)]) ++ suf) - len (pre ++ tl ++ fr ++ (k, v) :: suf)) =
      ((pre ++ tl).length : Int) + fr.length - 1 := by
    rw [len_app3, len_app3]
    simp at hi ⊢
    omega
  have H2 := info_r (W := W) tcr (pre ++ tl) ((k, v) :: suf) _ rfl
  have H3 := hl f (by simp at hf; omega) pre (fr ++ (k, v) :: suf) ((pre ++ tl).length - 1) (by simp)
  rw [show pre ++ tl ++ (fr ++ (k, v) :: suf) = pre ++ tl ++ fr ++ (k, v) :: suf by simp] at H3
  have hL : ((pre ++ tl).length : Int) - 1 - (len (pre ++ tl ++ fr ++ (k, v) :: suf) - len (pre ++ fl ++ (fr ++ (k, v) :: suf))) =
      (pre.length : Int) + fl.length - 1 := by
    rw [len_app3, len_app3]
    simp
    omega
  have H4r := info_r (W := W) tcl pre (fr ++ (k, v) :: suf) _ rfl
  rcases hk with rfl | rfl | rfl <;>
    simp only [fuse, hg, Option.bind_some, H1, hiR, H2, H3, hL, H4r] <;> simp

theorem HasTail.fz (W : Nat) (e : E) : HasTail (fz W e) := ⟨_, tail_fz W e⟩

theorem hasTail_one (X : List T) (t : T) (h : t.1.isOp = false) (hs : t.1 ≠ .star)
    (hl : t.1 ≠ .num ∧ t.1 ≠ .ident ∧ t.1 ≠ .locl) : HasTail (X ++ [t]) := ⟨_, tail_one X t h hs hl⟩

theorem okSz_ne {W : Nat} {sz : Int} (hW : W = 2 ∨ W = 4) (h : okSz W sz) : sz ≠ 0 := by
  unfold okSz at h
  omega

/-- `GenFuse` of the stack of an expression -/
theorem fus_toks (W : Nat) (hW : W = 2 ∨ W = 4) (e : E) (h : e.ok W) : Fus W (toks e) (fz W e) := by
  induction e with
  | num v => exact fus_leaf W _ (.inl rfl)
  | glob x => exact fus_leaf W _ (.inr (.inl rfl))
  | loc o => exact fus_leaf W _ (.inr (.inr rfl))
  | deref sz e ih => exact fus_un W (ih h.2) (tail_fz W e) _ _ false (.inl ⟨rfl, rfl⟩)
  | un u e ih =>
    by_cases hu : u = .plus
    · subst hu; exact fus_plus W (ih h.2) 0
    · rw [fz_un W u e hu]
      refine fus_pass W (ih h.2) u.tok 0 ?_
      cases u <;> first | exact absurd rfl hu | rfl
  | inc k sz e ih => exact fus_un W (ih h.2) (tail_fz W e) _ _ true (.inr ⟨rfl, by cases k <;> simp [IncK.tok]⟩)
  | padd sub sz n e ih => exact fus_post W (ih h.2) (tail_fz W e) _ _ _ (by cases sub <;> simp)
  | bin o l r ihl ihr => exact fus_bin W (ihl h.1) (ihr h.2) (tail_fz W l) (tail_fz W r) _ _ rfl (by simp [Tok.assigns])
  | cmp c l r ihl ihr => exact fus_bin W (ihl h.1) (ihr h.2) (tail_fz W l) (tail_fz W r) _ _ rfl (by simp [Tok.assigns])
  | asg sz l r ihl ihr =>
    exact fus_bin W (ihl h.2.1) (ihr h.2.2) (tail_fz W l) (tail_fz W r) _ _ rfl (fun _ => okSz_ne hW h.1)
  | asgo o sz l r ihl ihr =>
    exact fus_bin W (ihl h.2.1) (ihr h.2.2) (tail_fz W l) (tail_fz W r) _ _ rfl (fun _ => okSz_ne hW h.1)
  | land lab l r ihl ihr =>
    exact fus_join W (fus_pass W (ihl h.2.1) .short lab rfl) (ihr h.2.2)
      (hasTail_one _ _ rfl (by simp) (by simp)) (.fz W r) _ _ (.inl rfl)
  | lor lab l r ihl ihr =>
    exact fus_join W (fus_pass W (ihl h.2.1) .short (-lab) rfl) (ihr h.2.2)
      (hasTail_one _ _ rfl (by simp) (by simp)) (.fz W r) _ _ (.inr (.inl rfl))
  | cond lab c a b ihc iha ihb =>
    refine fus_join W ?_ (iha h.2.2.1) (hasTail_one _ _ rfl (by simp) (by simp)) (.fz W a) _ _ (.inl rfl)
    exact fus_join W (fus_pass W (ihc h.2.1) .short (-lab) rfl) (fus_pass W (ihb h.2.2.2) .goto (lab + 1) rfl)
      (hasTail_one _ _ rfl (by simp) (by simp)) (hasTail_one _ _ rfl (by simp) (by simp)) _ _ (.inl rfl)
  | comma l r ihl ihr =>
    exact fus_join W (fus_pass W (ihl h.1) .void 0 rfl) (ihr h.2) (hasTail_one _ _ rfl (by simp) (by simp)) (.fz W r) _ _
      (.inr (.inr rfl))

end Smlr.Cg
