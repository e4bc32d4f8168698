import Verif.Heap.History
set_option autoImplicit false
/-
C08, C09, C10: the allocator.
-/
namespace Smlr.Heap
open Smlr.Mem Spec

theorem reach_good {c : Cfg} (hc : c.ok) {st0 st : St} {bs0 : List Blk} (hg : Good c st0 bs0)
    (hr : Reach c (fun op => reqOk c (Spec.size op)) st0 st) :
    ∃ bs, Good c st bs ∧ st.h.start = st0.h.start ∧ (c.grow = false → st.h.stop = st0.h.stop) := by
  induction hr with
  | refl => exact ⟨bs0, hg, rfl, fun _ => rfl⟩
  | step os op _ hv hq he ih =>
    obtain ⟨bs, h1, h2, h3⟩ := ih
    obtain ⟨st', bs', e, g1, g2, g3⟩ := good_step hc h1 os op hv hq
    rw [he] at e
    simp only [Option.some.injEq] at e
    subst e
    exact ⟨bs', g1, g2.trans h2, fun hf => (g3 hf).trans (h3 hf)⟩

theorem good_init {c : Cfg} {h : Heap} {sz : Nat} (hi : Inv c h [⟨sz, false⟩]) : Good c ⟨h, []⟩ [⟨sz, false⟩] :=
  ⟨hi, by simp [used], by simp⟩

theorem reach_mono {c : Cfg} {P Q : Op → Prop} (h : ∀ op, P op → Q op) {st0 st : St} (hr : Reach c P st0 st) : Reach c Q st0 st := by
  induction hr with
  | refl => exact .refl
  | step os op _ hv hq he ih => exact .step os op ih hv (h _ hq) he

theorem fixed_reqOk {c : Cfg} (hf : c.grow = false) (n : Nat) : reqOk c n := fun h => by rw [hf] at h; simp at h

/-- **C08**, fixed heap (DOS tiny, small, protected mode): whatever a client does with the library, its
blocks are aligned, pairwise disjoint, inside the memory given to the heap, and hold what the client
put there; every call returns. -/
theorem c08_fixed_heap (c : Cfg) (hc : c.ok) (hf : c.grow = false) (m : Mem) (start0 stop0 : Nat) (h : Heap)
    (hs : start0 < c.M) (ht : stop0 < c.M) (hi : initDos c m start0 stop0 = some h)
    (st : St) (hr : Reach c (fun _ => True) ⟨h, []⟩ st) :
    Sound c st ∧ start0 ≤ st.h.start ∧ st.h.stop ≤ stop0 ∧
    ∀ os op, valid c st op → ∃ st', step c os st op = some st' := by
  obtain ⟨k1, k2, -, k3⟩ := initDos_ok c hc m start0 stop0 h hs ht hi
  have hr' := reach_mono (Q := fun op => reqOk c (Spec.size op)) (fun op _ => fixed_reqOk hf _) hr
  obtain ⟨bs, h1, h2, h3⟩ := reach_good hc (good_init k3) hr'
  refine ⟨good_sound hc h1, by rw [h2]; exact k1, by rw [h3 hf]; exact k2, ?_⟩
  intro os op hv
  obtain ⟨st', bs', e, -⟩ := good_step hc h1 os op hv (fixed_reqOk hf _)
  exact ⟨st', e⟩

/-- **C08**, growing heap (Linux), for requests of at most `2^31 - 16` bytes.  Missing for the full
claim: larger requests, for which the claim is false; see `c08_growing_defect`. -/
theorem c08_growing_heap_partial (c : Cfg) (hc : c.ok) (os0 : Nat → Bool) (m : Mem) (start0 : Nat) (h : Heap)
    (hs : start0 < c.M) (hi : initLinux c os0 m start0 = some h)
    (st : St) (hr : Reach c (fun op => Spec.size op ≤ c.M / 2 - 4 * c.w) ⟨h, []⟩ st) :
    Sound c st ∧ start0 ≤ st.h.start ∧ st.h.stop < c.M ∧
    ∀ os op, valid c st op → Spec.size op ≤ c.M / 2 - 4 * c.w → ∃ st', step c os st op = some st' := by
  obtain ⟨k1, -, k3⟩ := initLinux_ok c hc os0 m start0 h hs hi
  have hr' := reach_mono (Q := fun op => reqOk c (Spec.size op)) (fun op h _ => h) hr
  obtain ⟨bs, h1, h2, -⟩ := reach_good hc (good_init k3) hr'
  refine ⟨good_sound hc h1, by rw [h2]; exact k1, h1.inv.lt, ?_⟩
  intro os op hv hq
  obtain ⟨st', bs', e, -⟩ := good_step hc h1 os op hv (fun _ => hq)
  exact ⟨st', e⟩

/-- the heap of a Linux program whose break is at 0x1000 -/
def demoL : Option Heap := initLinux ⟨4, true⟩ (fun _ => true) (fun _ => 0) 0x1000

/-- **C08 fails** on Linux for requests close to the top of the address space: right after
initialisation `malloc(0xFFFFFFF0)` shrinks the program break, returns a non-null pointer, and the
"block" does not lie in the heap. -/
theorem c08_growing_defect : ∃ h st, demoL = some h ∧ Reach ⟨4, true⟩ (fun _ => True) ⟨h, []⟩ st ∧
    ¬ Sound ⟨4, true⟩ st := by
  have e1 : (demoL.bind fun h => malloc ⟨4, true⟩ (fun _ => true) h 0xFFFFFFF0).map (fun r => (r.1.stop, r.2)) = some (0x1008, 0x1010) := by
    decide +kernel
  cases hd : demoL with
  | none => rw [hd] at e1; simp at e1
  | some h =>
    rw [hd] at e1
    simp only [Option.bind_some] at e1
    cases hm : malloc ⟨4, true⟩ (fun _ => true) h 0xFFFFFFF0 with
    | none => rw [hm] at e1; simp at e1
    | some r =>
      obtain ⟨h', p⟩ := r
      rw [hm] at e1
      simp only [Option.map_some, Option.some.injEq, Prod.mk.injEq] at e1
      obtain ⟨e2, e3⟩ := e1
      subst e3
      refine ⟨h, ⟨h', (0x1010, bytes h'.mem 0x1010 0xFFFFFFF0) :: []⟩, rfl,
        .step (fun _ => true) (.malloc 0xFFFFFFF0) .refl (show 0xFFFFFFF0 < 256 ^ 4 by decide) trivial ?_, ?_⟩
      · simp only [Spec.step, hm]
        rfl
      · intro hs
        have := (hs.1 0x1010 (bytes h'.mem 0x1010 0xFFFFFFF0) (List.mem_singleton_self _)).2.2.2.1
        rw [bytes_length, e2] at this
        omega

/-- the heap of a 16-bit program with the 200 bytes from 0x100 -/
def demoF : Option Heap := initDos ⟨2, false⟩ (fun _ => 0xAA) 0x100 0x1C8

/-- a client history on it: two blocks, one of them written, resized, another freed; final pointers and contents -/
example : (do
    let h ← demoF
    let st ← step ⟨2, false⟩ (fun _ => true) ⟨h, []⟩ (.malloc 10)
    let st ← step ⟨2, false⟩ (fun _ => true) st (.calloc 2 3)
    let st ← step ⟨2, false⟩ (fun _ => true) st (.write 0x108 9 7)
    let st ← step ⟨2, false⟩ (fun _ => true) st (.realloc 0x108 17)
    let st ← step ⟨2, false⟩ (fun _ => true) st (.malloc 1)
    let st ← step ⟨2, false⟩ (fun _ => true) st (.free 0x120)
    let st ← step ⟨2, false⟩ (fun _ => true) st (.malloc 1000)
    pure (st.live.map fun e => (e.1, e.2.length, (e.2.drop 9).head?))) =
    some [(0x108, 1, none), (0x130, 17, some 7)] := by
  decide +kernel

/-! ### C09 -/

/-- the invariant of histories without `realloc` -/
structure Good9 (c : Cfg) (st : St) (bs : List Blk) : Prop extends Good c st bs where
  noadj : NoAdj bs
  tight : ∀ p l s, (p, l) ∈ st.live → (p, s) ∈ used c.w st.h.start bs → s < l.length + 4 * c.w

theorem good9_alloc {c : Cfg} (hc : c.ok) {st : St} {bs bs' : List Blk} {h' : Heap} {p n : Nat} (hg : Good9 c st bs)
    (ha : Alloc c st.h bs n h' p bs') : Good9 c ⟨h', (p, bytes h'.mem p n) :: st.live⟩ bs' := by
  refine ⟨good_alloc hg.toGood ha, ha.noadj hg.noadj, ?_⟩
  obtain ⟨k, hk, hperm⟩ := ha.perm
  have hw := hc.facts.1
  have hap := apart_perm c.w hperm (used_apart c.w st.h.start bs')
  simp only [ha.start]
  intro q l s hq hs
  rcases List.mem_cons.1 (hperm.subset hs) with e | e
  · simp only [Prod.mk.injEq] at e
    obtain ⟨e1, e2⟩ := e
    subst e1 e2
    rcases List.mem_cons.1 hq with e | e
    · simp only [Prod.mk.injEq, true_and] at e
      rw [e, bytes_length]; omega
    · obtain ⟨t, t1, -⟩ := hg.cont q l e
      have := (List.pairwise_cons.1 hap).1 _ t1
      unfold Apart at this; simp only at this; omega
  · rcases List.mem_cons.1 hq with e' | e'
    · simp only [Prod.mk.injEq] at e'
      obtain ⟨e1, e2⟩ := e'
      subst e1
      have := (List.pairwise_cons.1 hap).1 _ e
      unfold Apart at this; simp only at this; omega
    · exact hg.tight q l s e' e

theorem good9_step {c : Cfg} (hc : c.ok) (hf : c.grow = false) {st st' : St} {bs : List Blk} (hg : Good9 c st bs) (os : Nat → Bool) (op : Op)
    (hv : valid c st op) (hn : noRealloc op) (he : step c os st op = some st') :
    ∃ bs', Good9 c st' bs' ∧ st'.h.start = st.h.start ∧ st'.h.stop = st.h.stop := by
  cases op with
  | malloc n =>
    obtain ⟨h', p, e, hcase⟩ := malloc_ok c hc os st.h bs n hg.inv (fixed_reqOk hf _)
    simp only [Spec.step, e, Option.map_some, Option.some.injEq] at he
    subst he
    rcases hcase with ⟨hz, hh⟩ | ⟨hnz, _, bs', ha⟩
    · rw [if_pos hz, hh]; exact ⟨bs, hg, rfl, rfl⟩
    · rw [if_neg hnz]
      exact ⟨bs', good9_alloc hc hg ha, ha.start, ha.fixed hf⟩
  | calloc k n =>
    obtain ⟨h', p, e, hcase⟩ := calloc_ok c hc os st.h bs k n hg.inv hv.1 (fixed_reqOk hf _)
    simp only [Spec.step, e, Option.map_some, Option.some.injEq] at he
    subst he
    rcases hcase with ⟨hz, hh⟩ | ⟨hnz, bs', ha, hz⟩
    · rw [if_pos hz, hh]; exact ⟨bs, hg, rfl, rfl⟩
    · rw [if_neg hnz]
      have := good9_alloc hc hg ha
      rw [hz] at this
      exact ⟨bs', this, ha.start, ha.fixed hf⟩
  | realloc p n => exact absurd hn (by simp [noRealloc])
  | free p =>
    simp only [Spec.step, Option.some.injEq] at he
    subst he
    by_cases h0 : p = 0
    · subst h0
      have e : free c st.h 0 = st.h := by unfold free; rw [if_pos rfl]
      have e2 : st.live.filter (fun e => e.1 ≠ 0) = st.live := by
        rw [List.filter_eq_self]
        intro x hx
        have := ((good_sound hc hg.toGood).1 x.1 x.2 hx).1
        simpa using this
      rw [e, e2]
      exact ⟨bs, hg, rfl, rfl⟩
    · have hpu := hg.ptrs.subset (hv.resolve_left h0)
      obtain ⟨⟨p', s⟩, hps, e⟩ := List.mem_map.1 hpu
      simp only at e
      subst e
      obtain ⟨bs', hr⟩ := free_ok c hc st.h bs p' s hg.inv hps
      have h1 := hr.perm.map (·.1)
      simp only [List.map_cons] at h1
      refine ⟨bs', ⟨⟨hr.inv, ?_, ?_⟩, hr.noadj hg.noadj, ?_⟩, hr.start, hr.stop⟩
      · simp only [hr.start]
        exact filter_perm (hg.ptrs.trans h1) (h1.nodup (ptrs_nodup _ _ hc.facts.1 _))
      · simp only [hr.start]
        intro q l hq
        rw [List.mem_filter] at hq
        obtain ⟨t, h1, h2, h3⟩ := hg.cont q l hq.1
        have hqp : q ≠ p' := by simpa using hq.2
        have h1' : (q, t) ∈ used c.w st.h.start bs' := by
          have := hr.perm.subset h1
          rcases List.mem_cons.1 this with e | e
          · simp only [Prod.mk.injEq] at e; exact absurd e.1 hqp
          · exact e
        refine ⟨t, h1', h2, ?_⟩
        rw [bytes_congr st.h.mem _ q l.length (fun x hx1 hx2 => hr.keep q t h1' x hx1 (by omega))]
        exact h3
      · simp only [hr.start]
        intro q l s' hq hs'
        rw [List.mem_filter] at hq
        exact hg.tight q l s' hq.1 (hr.perm.symm.subset (List.mem_cons_of_mem _ hs'))
  | write p i v =>
    simp only [Spec.step, Option.some.injEq] at he
    subst he
    refine ⟨bs, ⟨good_write hc hg.toGood hv, hg.noadj, ?_⟩, rfl, rfl⟩
    intro q l s hq hs
    obtain ⟨⟨q', l'⟩, he, hee⟩ := List.mem_map.1 hq
    simp only at hee
    split at hee
    · simp only [Prod.mk.injEq] at hee
      obtain ⟨e1, e2⟩ := hee
      subst e1 e2
      rw [List.length_set]
      exact hg.tight q' l' s he hs
    · simp only [Prod.mk.injEq] at hee
      obtain ⟨e1, e2⟩ := hee
      subst e1 e2
      exact hg.tight q' l' s he hs

theorem used_size_dvd {w : Nat} {m : Mem} {a : Nat} {bs : List Blk} {p s : Nat} (hl : Lay w m a bs) (h : (p, s) ∈ used w a bs) : (4 * w) ∣ s := by
  obtain ⟨pre, post, e, -⟩ := used_split _ _ _ _ _ h
  subst e
  rw [lay_append] at hl
  exact hl.2.2.1

/-- an unused stretch of a heap without adjacent free blocks is inside one free block -/
theorem room_block (w a n : Nat) (hw : 0 < w) : ∀ (bs : List Blk) (x : Nat), NoAdj bs → x ≤ a → a + (4 * w + n) ≤ x + span w bs →
    (∀ p s, (p, s) ∈ used w x bs → p + s + 2 * w ≤ a ∨ a + (4 * w + n) + 2 * w ≤ p) →
    ∃ b ∈ bs, b.used = false ∧ n ≤ b.size := by
  intro bs
  induction bs with
  | nil => intro x _ hx hs _; simp only [span] at hs; omega
  | cons b bs ih =>
    intro x hna hx hs hu
    simp only [span] at hs
    by_cases hin : a < x + (4 * w + b.size)
    · have hbf : b.used = false := by
        cases hb : b.used with
        | false => rfl
        | true =>
          have := hu (x + 2 * w) b.size (by simp [used, hb])
          omega
      refine ⟨b, by simp, hbf, ?_⟩
      rcases Nat.lt_or_ge b.size n with hlt | hge
      · exfalso
        cases bs with
        | nil => simp only [span] at hs; omega
        | cons b2 bs =>
          unfold NoAdj at hna
          rw [List.isChain_cons_cons] at hna
          have hb2 : b2.used = true := hna.1.resolve_left (by simp [hbf])
          have := hu (x + (4 * w + b.size) + 2 * w) b2.size (by simp [used, hb2])
          omega
      · exact hge
    · obtain ⟨b', h1, h2⟩ := ih (x + (4 * w + b.size)) (by unfold NoAdj at *; exact (List.isChain_cons.1 hna).2) (by omega) (by omega) (by
        intro p s hp
        refine hu p s ?_
        simp only [used]
        exact List.mem_append_right _ hp)
      exact ⟨b', List.mem_cons_of_mem _ h1, h2⟩

/-- **C09**: on a fixed heap used with malloc, calloc and free, a request succeeds whenever there is
an unused stretch of memory large enough for it: no free memory is ever lost to unmerged neighbours. -/
theorem c09_reusable (c : Cfg) (hc : c.ok) (hf : c.grow = false) (m : Mem) (start0 stop0 : Nat) (h : Heap)
    (hs : start0 < c.M) (ht : stop0 < c.M) (hi : initDos c m start0 stop0 = some h)
    (st : St) (hr : Reach c noRealloc ⟨h, []⟩ st) (os : Nat → Bool) (n : Nat) (hn : 0 < n) (hroom : Room c st n) :
    ∃ h' p, malloc c os st.h n = some (h', p) ∧ p ≠ 0 := by
  obtain ⟨hw, hM8, -⟩ := hc.facts
  obtain ⟨-, -, -, k3⟩ := initDos_ok c hc m start0 stop0 h hs ht hi
  have hg : ∃ bs, Good9 c st bs := by
    have hstart : Good9 c ⟨h, []⟩ [⟨h.stop - h.start - 4 * c.w, false⟩] :=
      ⟨good_init k3, by simp [NoAdj], by simp⟩
    induction hr with
    | refl => exact ⟨_, hstart⟩
    | @step s1 s2 os op hr' hv hq he ih =>
      by_cases hroom' : Room c s1 n
      · obtain ⟨bs, g⟩ := ih hroom'
        obtain ⟨bs', g', -⟩ := good9_step hc hf g os op hv hq he
        exact ⟨bs', g'⟩
      · have : ∀ s, Reach c noRealloc ⟨h, []⟩ s → ∃ bs, Good9 c s bs := by
          intro s hs
          induction hs with
          | refl => exact ⟨_, hstart⟩
          | step os op _ hv hq he ih =>
            obtain ⟨bs, g⟩ := ih
            obtain ⟨bs', g', -⟩ := good9_step hc hf g os op hv hq he
            exact ⟨bs', g'⟩
        exact this _ (.step os op hr' hv hq he)
  obtain ⟨bs, hg⟩ := hg
  obtain ⟨a, a1, a2, a3⟩ := hroom
  have hinv := hg.inv
  have hlt := hinv.lt
  have hup : n ≤ up c n ∧ (4 * c.w) ∣ up c n := by
    unfold up
    refine ⟨?_, Nat.dvd_mul_left _ _⟩
    have := Nat.div_add_mod (n + 4 * c.w - 1) (4 * c.w)
    have h2 := Nat.mod_lt (n + 4 * c.w - 1) (show 4 * c.w > 0 by omega)
    rw [Nat.mul_comm] at this
    omega
  have hsmall : ¬ (n = 0 ∨ n > c.M - 2 * c.H) := by unfold Cfg.H; omega
  obtain ⟨b, hb1, hb2, hb3⟩ := room_block c.w a (up c n) hw bs st.h.start hg.noadj a1 (by have := hinv.stop; omega) (by
    intro p s hp
    have hpl : p ∈ st.live.map (·.1) := hg.ptrs.symm.subset (List.mem_map.2 ⟨(p, s), hp, rfl⟩)
    obtain ⟨⟨p', l⟩, hpl', e⟩ := List.mem_map.1 hpl
    simp only at e
    subst e
    have ht := hg.tight p' l s hpl' hp
    have hsup : s ≤ up c l.length := by
      have hd : (4 * c.w) ∣ s := used_size_dvd hinv.lay hp
      obtain ⟨k, hk⟩ := hd
      unfold up
      subst hk
      rw [Nat.mul_comm (4 * c.w) k]
      refine Nat.mul_le_mul_right _ ?_
      rw [Nat.le_div_iff_mul_le (by omega)]
      rw [Nat.mul_comm (4 * c.w) k] at ht
      omega
    rcases a3 p' l hpl' with h | h
    · left; omega
    · right; omega)
  unfold malloc
  rw [if_neg hsmall]
  simp only
  obtain ⟨r1, r2, r3, r4, r5⟩ := roundSize_eq c hc n (by omega) (by omega)
  have hru := r5 _ hup.2 hup.1
  generalize roundSize c n = k at *
  rcases findFit_eq c hc st.h.mem k bs st.h.start st.h.start (st.h.stop + 1) st.h.stop hinv.lay hinv.stop hlt (by have := hinv.stop; omega)
    with ⟨hun, e⟩ | ⟨pre, b', post, e0, hun, hb', e⟩
  · exfalso
    rcases hun b hb1 with h | h
    · omega
    · rw [hb2] at h; simp at h
  · rw [e]
    simp only
    refine ⟨_, _, rfl, ?_⟩
    have hst := hinv.stop
    rw [e0, span_append] at hst
    simp only [span] at hst
    unfold Cfg.H
    rw [Nat.mod_eq_of_lt (by omega)]
    omega

/-- **C09**, as usually put: when every block has been freed, every request that the fresh heap could
satisfy can be satisfied again. -/
theorem c09_all_freed (c : Cfg) (hc : c.ok) (hf : c.grow = false) (m : Mem) (start0 stop0 : Nat) (h : Heap)
    (hs : start0 < c.M) (ht : stop0 < c.M) (hi : initDos c m start0 stop0 = some h)
    (st : St) (hr : Reach c noRealloc ⟨h, []⟩ st) (hall : st.live = []) (os : Nat → Bool) (n : Nat)
    (h0 : Heap) (p0 : Nat) (hfit : malloc c os h n = some (h0, p0)) (hp0 : p0 ≠ 0) :
    ∃ h' p, malloc c os st.h n = some (h', p) ∧ p ≠ 0 := by
  obtain ⟨hw, hM8, -⟩ := hc.facts
  obtain ⟨-, -, -, k3⟩ := initDos_ok c hc m start0 stop0 h hs ht hi
  have hst : st.h.start = h.start ∧ st.h.stop = h.stop := by
    have hr' := reach_mono (Q := fun op => reqOk c (Spec.size op)) (fun op _ => fixed_reqOk hf _) hr
    obtain ⟨bs, h1, h2, h3⟩ := reach_good hc (good_init k3) hr'
    exact ⟨h2, h3 hf⟩
  obtain ⟨h1, p1, e, hcase⟩ := malloc_ok c hc os h _ n k3 (fixed_reqOk hf _)
  rw [hfit] at e
  simp only [Option.some.injEq, Prod.mk.injEq] at e
  obtain ⟨e1, e2⟩ := e
  subst e1 e2
  rcases hcase with ⟨hz, -⟩ | ⟨-, hn, bs', ha⟩
  · exact absurd hz hp0
  · refine c09_reusable c hc hf m start0 stop0 h hs ht hi st hr os n (by omega) ?_
    obtain ⟨k, hk, hperm⟩ := ha.perm
    have hin : (p0, k) ∈ used c.w h.start bs' := hperm.symm.subset (by simp)
    have hrg := used_range _ _ _ _ _ hin
    have hd : (4 * c.w) ∣ k := used_size_dvd (by have := ha.inv.lay; rw [ha.start] at this; exact this) hin
    have hstop := ha.inv.stop
    rw [ha.fixed hf, ha.start] at hstop
    refine ⟨p0 - 2 * c.w, by omega, ?_, by rw [hall]; simp⟩
    have hupk : up c n ≤ k := by
      obtain ⟨j, hj⟩ := hd
      unfold up
      subst hj
      rw [Nat.mul_comm (4 * c.w) j]
      refine Nat.mul_le_mul_right _ ?_
      have : (n + 4 * c.w - 1) / (4 * c.w) < j + 1 := by
        rw [Nat.div_lt_iff_lt_mul (by omega), Nat.add_mul, Nat.mul_comm j]; omega
      omega
    omega

/-- realloc is excluded above for a reason: a block shrunk by `realloc` leaves its remainder unmerged
with the free block after it, and it stays so: after freeing everything, a request for the whole heap
that succeeded at first fails. -/
theorem c09_realloc_defect : (do
    let h ← demoF
    let r1 ← malloc ⟨2, false⟩ (fun _ => true) h 176          -- the whole heap
    let r2 ← malloc ⟨2, false⟩ (fun _ => true) h 64
    let r3 ← realloc ⟨2, false⟩ (fun _ => true) r2.1 r2.2 32   -- shrink in place
    let r4 ← malloc ⟨2, false⟩ (fun _ => true) (free ⟨2, false⟩ r3.1 r3.2) 176
    pure (r1.2, r2.2, r3.2, r4.2)) = some (0x108, 0x108, 0x108, 0) := by
  decide +kernel

/-- a history after which a request fits only because the freed neighbours were merged, in both directions -/
example : (do
    let h ← demoF
    let st ← step ⟨2, false⟩ (fun _ => true) ⟨h, []⟩ (.malloc 40)
    let st ← step ⟨2, false⟩ (fun _ => true) st (.malloc 40)
    let st ← step ⟨2, false⟩ (fun _ => true) st (.malloc 40)
    let st ← step ⟨2, false⟩ (fun _ => true) st (.malloc 40)
    let st ← step ⟨2, false⟩ (fun _ => true) st (.free 0x108)
    let st ← step ⟨2, false⟩ (fun _ => true) st (.free 0x168)
    let st ← step ⟨2, false⟩ (fun _ => true) st (.malloc 100)     -- fails
    let st ← step ⟨2, false⟩ (fun _ => true) st (.free 0x138)
    let st ← step ⟨2, false⟩ (fun _ => true) st (.malloc 100)
    pure (st.live.map fun e => (e.1, e.2.length))) = some [(0x108, 100), (0x198, 40)] := by
  decide +kernel

/-! ### C10 -/

/-- what `realloc p n` of the live block `(p, l)` must do: it returns; if it fails nothing has changed;
otherwise the new block has the old contents up to the smaller size, and all other live blocks keep
theirs and do not overlap the new one -/
def ReallocSpec (c : Cfg) (os : Nat → Bool) (st : St) (p : Nat) (l : List UInt8) (n : Nat) : Prop :=
  ∃ h' q, realloc c os st.h p n = some (h', q) ∧
      (q = 0 → h' = st.h) ∧
      (q ≠ 0 → (∀ i (hi : i < l.length), i < n → h'.mem (q + i) = l[i]) ∧
        ∀ r k, (r, k) ∈ st.live → r ≠ p → bytes h'.mem r k.length = k ∧
          (r + k.length ≤ q ∨ q + n ≤ r))

theorem realloc_reach (c : Cfg) (hc : c.ok) (st0 : St) (hlive : st0.live = [])
    (hinit : (c.grow = false ∧ ∃ m a b, a < c.M ∧ b < c.M ∧ initDos c m a b = some st0.h) ∨
      (c.grow = true ∧ ∃ os m a, a < c.M ∧ initLinux c os m a = some st0.h))
    (st : St) (hr : Reach c (fun op => c.grow = true → Spec.size op ≤ c.M / 2 - 4 * c.w) st0 st)
    (p : Nat) (l : List UInt8) (hp : (p, l) ∈ st.live) (n : Nat)
    (hreq : c.grow = true → n ≤ c.M / 2 - 4 * c.w) (os : Nat → Bool) :
    ReallocSpec c os st p l n := by
  obtain ⟨h0, live0⟩ := st0
  simp only at hlive hinit
  subst hlive
  have hi0 : ∃ sz, Inv c h0 [⟨sz, false⟩] := by
    rcases hinit with ⟨-, m, a, b, ha, hb, hi⟩ | ⟨-, os, m, a, ha, hi⟩
    · obtain ⟨-, -, -, k⟩ := initDos_ok c hc m a b h0 ha hb hi
      exact ⟨_, k⟩
    · obtain ⟨-, -, k⟩ := initLinux_ok c hc os m a h0 ha hi
      exact ⟨_, k⟩
  obtain ⟨sz, hi0⟩ := hi0
  obtain ⟨bs, hg, -⟩ := reach_good hc (good_init hi0) hr
  obtain ⟨s, s1, s2, s3⟩ := hg.cont p l hp
  obtain ⟨h', q, e, hcase⟩ := realloc_ok c hc os st.h bs p s n hg.inv s1 hreq
  refine ⟨h', q, e, ?_, ?_⟩
  · intro hq
    rcases hcase with ⟨-, h⟩ | ⟨h, -⟩
    · exact h
    · exact absurd hq h
  · intro hq
    rcases hcase with ⟨h, -⟩ | ⟨-, -, bs', R, hr⟩
    · exact absurd h hq
    · have hg' := good_resize hc hg hr
      refine ⟨?_, ?_⟩
      · intro i hi hin
        rw [hr.copy i (by omega) hin]
        have g := congrArg (·[i]?) s3
        rw [bytes_getElem? _ _ _ _ hi, List.getElem?_eq_getElem hi] at g
        simpa using g
      · intro r k hk hrp
        have hmem : (r, k) ∈ st.live.filter (fun e => e.1 ≠ p) := List.mem_filter.2 ⟨hk, by simpa using hrp⟩
        have hs := good_sound hc hg'
        refine ⟨(hs.1 r k (List.mem_cons_of_mem _ hmem)).2.2.2.2, ?_⟩
        have := (List.pairwise_cons.1 hs.2).1 _ hmem
        simp only [bytes_length] at this
        omega

/-- **C10**, fixed heap: all sizes. -/
theorem c10_realloc_fixed (c : Cfg) (hc : c.ok) (hf : c.grow = false) (m : Mem) (start0 stop0 : Nat) (h : Heap)
    (hs : start0 < c.M) (ht : stop0 < c.M) (hi : initDos c m start0 stop0 = some h)
    (st : St) (hr : Reach c (fun _ => True) ⟨h, []⟩ st)
    (p : Nat) (l : List UInt8) (hp : (p, l) ∈ st.live) (n : Nat) (os : Nat → Bool) : ReallocSpec c os st p l n :=
  realloc_reach c hc ⟨h, []⟩ rfl (Or.inl ⟨hf, m, start0, stop0, hs, ht, hi⟩) st
    (reach_mono (fun op _ => fixed_reqOk hf _) hr) p l hp n (fixed_reqOk hf _) os

/-- **C10**, growing heap, for requests of at most `2^31 - 16` bytes.  Missing for the full claim: the larger
requests, for which the heap itself is broken (`c08_growing_defect`). -/
theorem c10_realloc_growing_partial (c : Cfg) (hc : c.ok) (hg : c.grow = true) (os0 : Nat → Bool) (m : Mem) (start0 : Nat) (h : Heap)
    (hs : start0 < c.M) (hi : initLinux c os0 m start0 = some h)
    (st : St) (hr : Reach c (fun op => Spec.size op ≤ c.M / 2 - 4 * c.w) ⟨h, []⟩ st)
    (p : Nat) (l : List UInt8) (hp : (p, l) ∈ st.live) (n : Nat) (hn : n ≤ c.M / 2 - 4 * c.w) (os : Nat → Bool) :
    ReallocSpec c os st p l n :=
  realloc_reach c hc ⟨h, []⟩ rfl (Or.inr ⟨hg, os0, m, start0, hs, hi⟩) st
    (reach_mono (fun _ h _ => h) hr) p l hp n (fun _ => hn) os

/-- growing a block with a neighbour behind it moves it, with its contents -/
example : (do
    let h ← demoF
    let st ← step ⟨2, false⟩ (fun _ => true) ⟨h, []⟩ (.malloc 3)
    let st ← step ⟨2, false⟩ (fun _ => true) st (.calloc 1 2)
    let st ← step ⟨2, false⟩ (fun _ => true) st (.write 0x108 0 1)
    let st ← step ⟨2, false⟩ (fun _ => true) st (.write 0x108 2 3)
    let st ← step ⟨2, false⟩ (fun _ => true) st (.realloc 0x108 12)
    pure (st.live.map fun e => (e.1, e.2.take 3))) = some [(0x128, [1, 0xAA, 3]), (0x118, [0, 0])] := by
  decide +kernel

end Smlr.Heap
