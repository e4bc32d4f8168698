import Verif.Expr.Basic
set_option autoImplicit false
/-! Processed trees have operators of the right kinds, and are numbers where they are constant. -/
namespace Smlr.Expr

structure TR.Good (r : TR) : Prop where
  ok : r.t.OK
  const : r.const = true → ∃ u v, r.t = .num u v

theorem mk_good {s : V} {ty : Ty} {const : Bool} {t : T} (h : t.OK) : (mk s ty const t).Good := by
  unfold mk
  cases const
  · exact ⟨by simpa using h, by simp⟩
  · cases hn : isNum t.root.1 with
    | true => exact ⟨by simpa using h, fun _ => by obtain ⟨u, hu⟩ := T.root_num h hn; exact ⟨u, _, by simpa using hu⟩⟩
    | false => exact ⟨by simp [T.OK], fun _ => ⟨_, _, rfl⟩⟩

theorem setVal_ok {t : T} {v : V} (h : t.OK) : (t.setVal v).OK := by cases t <;> simp_all [T.setVal, T.OK]

theorem setVal?_ok {t : T} {o : Option V} (h : t.OK) : (t.setVal? o).OK := by
  cases o
  · exact h
  · exact setVal_ok h

theorem absorb_ok {d : V} : ∀ {t t' : T}, t.OK → t.absorb d = some t' → t'.OK
  | .num u v, t', _, h => by simp only [T.absorb, Option.some.injEq] at h; subst h; trivial
  | .localOfs o, t', _, h => by simp only [T.absorb, Option.some.injEq] at h; subst h; trivial
  | .ident s, t', _, h => by cases h
  | .logic .., t', _, h => by cases h
  | .comma .., t', _, h => by cases h
  | .cond .., t', _, h => by cases h
  | .un tok v t, t', ht, h => by
    simp only [T.absorb] at h
    split at h
    · simp only [Option.map_eq_some_iff] at h
      obtain ⟨a, ha, rfl⟩ := h
      exact ⟨ht.1, absorb_ok ht.2 ha⟩
    · cases h
  | .bin tok v l r, t', ht, h => by
    simp only [T.absorb] at h
    split at h
    · simp only [Option.map_eq_some_iff] at h
      obtain ⟨a, ha, rfl⟩ := h
      exact ⟨ht.1, ht.2.1, absorb_ok ht.2.2 ha⟩
    · cases h

theorem scale_ok {t : T} {tok : Tok} {inc : Int} (h : t.OK) (hb : binTok tok = true) : (t.scale tok inc).OK := by
  unfold T.scale
  split
  · exact h
  · exact ⟨hb, h, trivial⟩

theorem arg_ok {t : T} (h : t.OK) : t.arg.OK := by
  cases t <;> simp_all [T.arg, T.OK]

theorem castCalc_tok {W : Nat} {sz : Int} {d : Bool} {s : V} {tok : Tok} (h : (castCalc W sz d s).2 = some tok) : unTok tok = true := by
  unfold castCalc at h
  split at h
  · cases h; rfl
  split at h
  · cases h; rfl
  split at h
  · split at h <;> cases h <;> rfl
  · cases d <;> simp at h; subst h; rfl

theorem binCalc_tok {W : Nat} {tok : Tok} {L R : Ty} {sl sr : V} {cl cr : Bool} (h : binTok tok = true) : binTok (binCalc W tok L R sl sr cl cr).tok = true := by
  cases tok <;> first | (cases h; done) | (simp only [binCalc]; (try split) <;> (try split) <;> first | rfl | simp_all [binTok])

theorem relTok_bin {u : Bool} {tok : Tok} (h : binTok tok = true) : binTok (relTok u tok) = true := by
  unfold relTok
  split
  · cases tok <;> first | rfl | exact h
  · exact h

theorem assignTok_bin {tok : Tok} {L R : Ty} (h : binTok tok = true) : binTok (assignTok tok L R) = true := by
  cases tok <;> first | (cases h; done) | (simp only [assignTok]; (try split) <;> rfl)

variable {c : Cfg} {ns ns' : NS} {r : TR}

theorem evVar_good {s : V} {ty : Ty} {t : T} (ht : t.OK) (h : evVar c s ty t ns = .ok (r, ns')) : r.Good := by
  unfold evVar at h
  split at h
  · obtain ⟨rfl, _⟩ := pure_eq_ok h; exact ⟨ht, by simp⟩
  · obtain ⟨a, s', h1, h2⟩ := bind_eq_ok h
    obtain ⟨rfl, _⟩ := pure_eq_ok h2; exact ⟨⟨rfl, ht⟩, by simp⟩

/-- all results of `y` are good -/
def NGood (y : N TR) : Prop := ∀ ns r ns', y ns = .ok (r, ns') → r.Good

theorem evId_good {s : V} : NGood (evId c s) := by
  intro ns r ns' h
  cases hs : c.env s with
  | none => simp only [evId, hs] at h; cases h
  | some y =>
    cases y with
    | enumConst v => simp only [evId, hs] at h; obtain ⟨rfl, _⟩ := pure_eq_ok h; exact ⟨trivial, fun _ => ⟨_, _, rfl⟩⟩
    | cast t => simp only [evId, hs] at h; cases h
    | localVar o t => simp only [evId, hs] at h; exact evVar_good (by trivial) h
    | globalVar t => simp only [evId, hs] at h; exact evVar_good (by trivial) h

theorem evCast_good {s : V} {t : Ty} {e : N TR} (he : NGood e) : NGood (evCast c s t e) := by
  intro ns r ns' h
  unfold evCast at h
  obtain ⟨r1, s1, h1, h⟩ := bind_eq_ok h
  obtain ⟨_, s2, h2, h⟩ := bind_eq_ok h
  obtain ⟨_, s3, h3, h⟩ := bind_eq_ok h
  obtain ⟨sz, s4, h4, h⟩ := bind_eq_ok h
  obtain ⟨rfl, _⟩ := pure_eq_ok h
  have hg := he _ _ _ h1
  generalize hk : castCalc c.W sz (r1.t.root.1 = .star) _ = k
  by_cases hc : (r1.const || isNum r1.t.root.1) = true
  · exact ⟨by simp only [hc, if_true]; trivial, fun _ => ⟨_, _, by simp only [hc, if_true]; rfl⟩⟩
  · refine ⟨?_, ?_⟩
    · simp only [hc]
      cases ho : k.2 with
      | none => exact hg.ok
      | some tok => exact ⟨castCalc_tok (by rw [hk]; exact ho), hg.ok⟩
    · intro hcc
      simp only [castConst, Bool.and_eq_true] at hcc
      exact absurd hcc.1 hc

theorem evSizeof_good {e : N TR} : NGood (evSizeof c e) := by
  intro ns r ns' h
  unfold evSizeof at h
  obtain ⟨r1, s1, h1, h⟩ := bind_eq_ok h
  obtain ⟨_, s2, h2, h⟩ := bind_eq_ok h
  obtain ⟨_, s3, h3, h⟩ := bind_eq_ok h
  obtain ⟨rfl, _⟩ := pure_eq_ok h
  exact ⟨trivial, fun _ => ⟨_, _, rfl⟩⟩

theorem evAddr_good {e : N TR} (he : NGood e) : NGood (evAddr e) := by
  intro ns r ns' h
  unfold evAddr at h
  obtain ⟨r1, s1, h1, h⟩ := bind_eq_ok h
  have hg := he _ _ _ h1
  split at h
  · obtain ⟨rfl, _⟩ := pure_eq_ok h
    exact ⟨hg.ok, by simp⟩
  · obtain ⟨_, s2, h2, h⟩ := bind_eq_ok h
    obtain ⟨rfl, _⟩ := pure_eq_ok h
    exact ⟨arg_ok hg.ok, by simp⟩

theorem evDeref_good {e : N TR} (he : NGood e) : NGood (evDeref c e) := by
  intro ns r ns' h
  unfold evDeref at h
  obtain ⟨r1, s1, h1, h⟩ := bind_eq_ok h
  have hg := he _ _ _ h1
  obtain ⟨_, s2, h2, h⟩ := bind_eq_ok h
  split at h
  · obtain ⟨rfl, _⟩ := pure_eq_ok h
    exact ⟨hg.ok, by simp⟩
  · obtain ⟨_, s3, h3, h⟩ := bind_eq_ok h
    obtain ⟨rfl, _⟩ := pure_eq_ok h
    exact ⟨⟨rfl, hg.ok⟩, by simp⟩

theorem evAddPtr_ok {tok : Tok} {L R : Ty} {l r : TR} {q : Ty × T} (ht : tok = .plus ∨ tok = .minus) (hl : l.Good) (hr : r.Good)
    (h : evAddPtr c tok L R l r ns = .ok (q, ns')) : q.2.OK := by
  have hb : binTok tok = true := by rcases ht with rfl | rfl <;> rfl
  unfold evAddPtr at h
  split at h
  · unfold evNumPtr at h
    obtain ⟨inc, s1, h1, h⟩ := bind_eq_ok h
    obtain ⟨rfl, _⟩ := pure_eq_ok h
    by_cases hc : l.const = true
    · simp only [hc, if_true]
      split
      · next h => exact absorb_ok hr.ok h
      · exact ⟨rfl, setVal_ok hl.ok, hr.ok⟩
    · simp only [hc]
      exact ⟨rfl, scale_ok hl.ok rfl, hr.ok⟩
  split at h
  · unfold evPtrNum at h
    obtain ⟨inc, s1, h1, h⟩ := bind_eq_ok h
    obtain ⟨rfl, _⟩ := pure_eq_ok h
    by_cases hc : r.const = true
    · simp only [hc, if_true]
      split
      · next h => exact absorb_ok hl.ok h
      · exact ⟨hb, hl.ok, setVal_ok hr.ok⟩
    · simp only [hc]
      exact ⟨hb, hl.ok, scale_ok hr.ok rfl⟩
  split at h
  · unfold evSubPtr at h
    obtain ⟨inc, s1, h1, h⟩ := bind_eq_ok h
    obtain ⟨inc', s2, h2, h⟩ := bind_eq_ok h
    obtain ⟨_, s3, h3, h⟩ := bind_eq_ok h
    obtain ⟨rfl, _⟩ := pure_eq_ok h
    exact scale_ok ⟨hb, hl.ok, hr.ok⟩ rfl
  split at h
  · cases h
  · obtain ⟨rfl, _⟩ := pure_eq_ok h
    exact ⟨hb, hl.ok, hr.ok⟩

theorem evAdd_good {tok : Tok} {el er : N TR} (ht : tok = .plus ∨ tok = .minus) (hl : NGood el) (hr : NGood er) : NGood (evAdd c tok el er) := by
  intro ns r ns' h
  unfold evAdd at h
  obtain ⟨r1, s1, h1, h⟩ := bind_eq_ok h
  obtain ⟨l1, s2, h2, h⟩ := bind_eq_ok h
  obtain ⟨_, s3, _, h⟩ := bind_eq_ok h
  obtain ⟨_, s4, _, h⟩ := bind_eq_ok h
  obtain ⟨_, s5, _, h⟩ := bind_eq_ok h
  obtain ⟨_, s6, _, h⟩ := bind_eq_ok h
  obtain ⟨q, s7, h7, h⟩ := bind_eq_ok h
  obtain ⟨rfl, _⟩ := pure_eq_ok h
  exact mk_good (evAddPtr_ok ht (hl _ _ _ h2) (hr _ _ _ h1) h7)

theorem evInc_good {tok : Tok} {e : N TR} (ht : tok = .inc ∨ tok = .dec ∨ tok = .pinc ∨ tok = .pdec) (he : NGood e) : NGood (evInc c tok e) := by
  intro ns r ns' h
  unfold evInc at h
  obtain ⟨r1, s1, h1, h⟩ := bind_eq_ok h
  obtain ⟨_, s2, _, h⟩ := bind_eq_ok h
  obtain ⟨_, s3, _, h⟩ := bind_eq_ok h
  obtain ⟨_, s4, _, h⟩ := bind_eq_ok h
  obtain ⟨inc, s5, _, h⟩ := bind_eq_ok h
  obtain ⟨rfl, _⟩ := pure_eq_ok h
  refine ⟨?_, by simp⟩
  dsimp only
  split
  · exact ⟨by rcases ht with rfl | rfl | rfl | rfl <;> rfl, arg_ok (he _ _ _ h1).ok⟩
  · exact ⟨by rcases ht with rfl | rfl | rfl | rfl <;> rfl, arg_ok (he _ _ _ h1).ok, trivial⟩

theorem evAssign_good {el er : N TR} (hl : NGood el) (hr : NGood er) : NGood (evAssign el er) := by
  intro ns r ns' h
  unfold evAssign at h
  obtain ⟨r1, s1, h1, h⟩ := bind_eq_ok h
  obtain ⟨l1, s2, h2, h⟩ := bind_eq_ok h
  obtain ⟨_, s3, _, h⟩ := bind_eq_ok h
  obtain ⟨_, s4, _, h⟩ := bind_eq_ok h
  obtain ⟨_, s5, _, h⟩ := bind_eq_ok h
  obtain ⟨rfl, _⟩ := pure_eq_ok h
  exact ⟨⟨rfl, arg_ok (hl _ _ _ h2).ok, (hr _ _ _ h1).ok⟩, by simp⟩

theorem evUnary_good {tok : Tok} {e : N TR} (ht : tok = .not ∨ tok = .uplus ∨ tok = .neg) (he : NGood e) : NGood (evUnary tok e) := by
  intro ns r ns' h
  unfold evUnary at h
  obtain ⟨r1, s1, h1, h⟩ := bind_eq_ok h
  obtain ⟨_, s2, _, h⟩ := bind_eq_ok h
  obtain ⟨rfl, _⟩ := pure_eq_ok h
  exact mk_good ⟨by rcases ht with rfl | rfl | rfl <;> rfl, (he _ _ _ h1).ok⟩

theorem evBin_good {tok : Tok} {el er : N TR} (ht : binTok tok = true) (hl : NGood el) (hr : NGood er) : NGood (evBin c tok el er) := by
  intro ns r ns' h
  unfold evBin at h
  obtain ⟨r1, s1, h1, h⟩ := bind_eq_ok h
  obtain ⟨l1, s2, h2, h⟩ := bind_eq_ok h
  obtain ⟨_, s3, _, h⟩ := bind_eq_ok h
  obtain ⟨_, s4, _, h⟩ := bind_eq_ok h
  obtain ⟨_, s5, _, h⟩ := bind_eq_ok h
  obtain ⟨rfl, _⟩ := pure_eq_ok h
  exact mk_good ⟨binCalc_tok ht, (hl _ _ _ h2).ok, setVal?_ok (hr _ _ _ h1).ok⟩

theorem evRel_good {tok : Tok} {el er : N TR} (ht : binTok tok = true) (hl : NGood el) (hr : NGood er) : NGood (evRel c tok el er) := by
  intro ns r ns' h
  unfold evRel at h
  obtain ⟨r1, s1, h1, h⟩ := bind_eq_ok h
  obtain ⟨l1, s2, h2, h⟩ := bind_eq_ok h
  obtain ⟨_, s3, _, h⟩ := bind_eq_ok h
  obtain ⟨rfl, _⟩ := pure_eq_ok h
  exact mk_good ⟨relTok_bin ht, (hl _ _ _ h2).ok, (hr _ _ _ h1).ok⟩

theorem evBool_good {e : N TR} (he : NGood e) : NGood (evBool c e) := by
  intro ns r ns' h
  unfold evBool at h
  obtain ⟨r1, s1, h1, h⟩ := bind_eq_ok h
  obtain ⟨_, s2, _, h⟩ := bind_eq_ok h
  obtain ⟨rfl, _⟩ := pure_eq_ok h
  exact mk_good ⟨rfl, (he _ _ _ h1).ok⟩

theorem evCondOp_good {tok : Tok} {e : N TR} (he : NGood e) : NGood (evCondOp c tok e) := by
  unfold evCondOp
  split
  · exact he
  · exact evBool_good he

theorem evLogic_good {isAnd : Bool} {rl rr : Tok} {el er : N TR} (hl : NGood el) (hr : NGood er) : NGood (evLogic c isAnd rl rr el er) := by
  intro ns r ns' h
  unfold evLogic at h
  obtain ⟨_, s0, _, h⟩ := bind_eq_ok h
  obtain ⟨r1, s1, h1, h⟩ := bind_eq_ok h
  obtain ⟨l1, s2, h2, h⟩ := bind_eq_ok h
  obtain ⟨rfl, _⟩ := pure_eq_ok h
  exact mk_good ⟨(evCondOp_good hl _ _ _ h2).ok, (evCondOp_good hr _ _ _ h1).ok⟩

theorem evComma_good {el er : N TR} (hl : NGood el) (hr : NGood er) : NGood (evComma el er) := by
  intro ns r ns' h
  unfold evComma at h
  obtain ⟨r1, s1, h1, h⟩ := bind_eq_ok h
  obtain ⟨l1, s2, h2, h⟩ := bind_eq_ok h
  obtain ⟨rfl, _⟩ := pure_eq_ok h
  split
  · exact ⟨⟨rfl, (hr _ _ _ h1).ok⟩, by simp⟩
  · exact mk_good ⟨(hl _ _ _ h2).ok, (hr _ _ _ h1).ok⟩

theorem evCompound_good {tok : Tok} {el er : N TR} (ht : binTok tok = true) (hl : NGood el) (hr : NGood er) : NGood (evCompound c tok el er) := by
  intro ns r ns' h
  unfold evCompound at h
  obtain ⟨r1, s1, h1, h⟩ := bind_eq_ok h
  obtain ⟨l1, s2, h2, h⟩ := bind_eq_ok h
  obtain ⟨_, s3, _, h⟩ := bind_eq_ok h
  obtain ⟨_, s4, _, h⟩ := bind_eq_ok h
  obtain ⟨_, s5, _, h⟩ := bind_eq_ok h
  obtain ⟨_, s6, _, h⟩ := bind_eq_ok h
  obtain ⟨_, s7, _, h⟩ := bind_eq_ok h
  obtain ⟨_, s8, _, h⟩ := bind_eq_ok h
  obtain ⟨t, s9, h9, h⟩ := bind_eq_ok h
  obtain ⟨rfl, _⟩ := pure_eq_ok h
  refine ⟨?_, by simp⟩
  have hro := setVal?_ok (o := (assignCalc c.W tok r1.ty r1.s r1.const).1) (hr _ _ _ h1).ok
  unfold scaleTree at h9
  split at h9
  · obtain ⟨_, s10, _, h9⟩ := bind_eq_ok h9
    obtain ⟨rfl, _⟩ := pure_eq_ok h9
    refine ⟨ht, arg_ok (hl _ _ _ h2).ok, ?_⟩
    split
    · exact setVal_ok hro
    · exact scale_ok hro rfl
  · obtain ⟨rfl, _⟩ := pure_eq_ok h9
    exact ⟨assignTok_bin ht, arg_ok (hl _ _ _ h2).ok, hro⟩

theorem hide_ok {t : T} {sc : Nat} (h : t.OK) : (t.hide sc).OK := by
  unfold T.hide
  split
  · exact ⟨rfl, h⟩
  · exact h

theorem evCond_good {ec em er : N TR} (hc : NGood ec) (hm : NGood em) (hr : NGood er) : NGood (evCond c ec em er) := by
  intro ns r ns' h
  unfold evCond at h
  obtain ⟨_, s0, _, h⟩ := bind_eq_ok h
  obtain ⟨m1, s1, h1, h⟩ := bind_eq_ok h
  obtain ⟨r1, s2, h2, h⟩ := bind_eq_ok h
  obtain ⟨_, s3, _, h⟩ := bind_eq_ok h
  obtain ⟨c1, s4, h4, h⟩ := bind_eq_ok h
  obtain ⟨_, s5, _, h⟩ := bind_eq_ok h
  obtain ⟨rfl, _⟩ := pure_eq_ok h
  unfold condRes
  by_cases hd : (c1.const && !(c1.const && (if (truncUint c.W c1.s != 0#32) = true then m1.const else r1.const))) = true
  · rw [if_pos hd]
    refine ⟨?_, by simp⟩
    dsimp only
    split
    · exact hide_ok (hm _ _ _ h1).ok
    · exact hide_ok (hr _ _ _ h2).ok
  · rw [if_neg hd]
    exact mk_good ⟨(hc _ _ _ h4).ok, (hm _ _ _ h1).ok, (hr _ _ _ h2).ok⟩

theorem ev_good : ∀ {e : E}, e.WF c.env → NGood (ev c e)
  | .num u v, _ => by intro ns r ns' h; simp only [ev] at h; obtain ⟨rfl, _⟩ := pure_eq_ok h; exact ⟨trivial, fun _ => ⟨_, _, rfl⟩⟩
  | .id s, _ => by simp only [ev]; exact evId_good
  | .cast s e, h => by
    obtain ⟨t, ht⟩ := h.1
    simp only [ev, ht]
    exact evCast_good (ev_good h.2)
  | .sizeof e, h => by simp only [ev]; exact evSizeof_good
  | .addr e, h => by simp only [ev]; exact evAddr_good (ev_good h)
  | .deref e, h => by simp only [ev]; exact evDeref_good (ev_good h)
  | .inc tok e, h => by simp only [ev]; exact evInc_good h.1 (ev_good h.2)
  | .un tok e, h => by simp only [ev]; exact evUnary_good h.1 (ev_good h.2)
  | .bool e, h => by simp only [ev]; exact evBool_good (ev_good h)
  | .add tok l r, h => by simp only [ev]; exact evAdd_good h.1 (ev_good h.2.1) (ev_good h.2.2)
  | .bin tok l r, h => by
    simp only [ev]
    exact evBin_good (by rcases h.1 with rfl | rfl | rfl | rfl | rfl | rfl | rfl | rfl <;> rfl) (ev_good h.2.1) (ev_good h.2.2)
  | .rel tok l r, h => by
    simp only [ev]
    exact evRel_good (by rcases h.1 with rfl | rfl | rfl | rfl | rfl | rfl <;> rfl) (ev_good h.2.1) (ev_good h.2.2)
  | .logic isAnd l r, h => by simp only [ev]; exact evLogic_good (ev_good h.1) (ev_good h.2)
  | .comma l r, h => by simp only [ev]; exact evComma_good (ev_good h.1) (ev_good h.2)
  | .assign l r, h => by simp only [ev]; exact evAssign_good (ev_good h.1) (ev_good h.2)
  | .compound tok l r, h => by
    simp only [ev]
    exact evCompound_good (by rcases h.1 with rfl | rfl | rfl | rfl | rfl | rfl | rfl | rfl | rfl | rfl <;> rfl) (ev_good h.2.1) (ev_good h.2.2)
  | .cond cd m r, h => by simp only [ev]; exact evCond_good (ev_good h.1) (ev_good h.2.1) (ev_good h.2.2)

end Smlr.Expr
