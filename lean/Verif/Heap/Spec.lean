import Verif.Heap.Model
set_option autoImplicit false
/-
What a client of the allocator does and may rely on.  The client's own view of the
heap is the list of its live blocks with the bytes each should contain; the client
changes them only by writing into its blocks.
-/
namespace Smlr.Heap.Spec
open Smlr.Mem Smlr.Heap

/-- the `n` bytes at `p` -/
def bytes (m : Mem) (p n : Nat) : List UInt8 := (List.range n).map (fun i => m (p + i))

/-- machine state, with the client's live blocks: pointer and expected contents
(whose length is the requested size) -/
structure St where
  h : Heap
  live : List (Nat × List UInt8)

inductive Op
  | malloc (n : Nat)
  | calloc (k n : Nat)
  | realloc (p n : Nat)
  | free (p : Nat)
  /-- the client stores `v` at offset `i` of its block `p` -/
  | write (p i : Nat) (v : UInt8)

/-- the operations a correct client may perform -/
def valid (c : Cfg) (st : St) : Op → Prop
  | .malloc n => n < c.M
  | .calloc k n => k < c.M ∧ n < c.M
  | .realloc p n => n < c.M ∧ (p = 0 ∨ p ∈ st.live.map (·.1))
  | .free p => p = 0 ∨ p ∈ st.live.map (·.1)
  | .write p i _ => ∃ bs, (p, bs) ∈ st.live ∧ i < bs.length

/-- requested size of an operation -/
def size : Op → Nat
  | .malloc n => n
  | .calloc k n => k * n
  | .realloc _ n => n
  | _ => 0

/-- one operation; `none` if the library does not return -/
def step (c : Cfg) (os : Nat → Bool) (st : St) : Op → Option St
  | .malloc n => (malloc c os st.h n).map fun (h, p) =>
      ⟨h, if p = 0 then st.live else (p, bytes h.mem p n) :: st.live⟩
  | .calloc k n => (calloc c os st.h k n).map fun (h, p) =>
      ⟨h, if p = 0 then st.live else (p, List.replicate (k * n) 0) :: st.live⟩
  | .realloc p n => (realloc c os st.h p n).map fun (h, q) =>
      ⟨h, if q = 0 then st.live else (q, bytes h.mem q n) :: st.live.filter (fun e => e.1 ≠ p)⟩
  | .free p => some ⟨free c st.h p, st.live.filter (fun e => e.1 ≠ p)⟩
  | .write p i v => some ⟨{ st.h with mem := upd st.h.mem (p + i) v },
      st.live.map (fun e => if e.1 = p then (e.1, e.2.set i v) else e)⟩

/-- states reachable by a correct client whose requests satisfy `req` -/
inductive Reach (c : Cfg) (req : Op → Prop) (st0 : St) : St → Prop
  | refl : Reach c req st0 st0
  | step {st st' : St} (os : Nat → Bool) (op : Op) : Reach c req st0 st → valid c st op → req op →
      step c os st op = some st' → Reach c req st0 st'

/-- what the client relies on: its blocks are aligned, inside the heap, pairwise disjoint and
hold the expected bytes -/
def Sound (c : Cfg) (st : St) : Prop :=
  (∀ p bs, (p, bs) ∈ st.live → p ≠ 0 ∧ (4 * c.w) ∣ p ∧ st.h.start ≤ p ∧ p + bs.length ≤ st.h.stop ∧
    bytes st.h.mem p bs.length = bs) ∧
  st.live.Pairwise (fun x y => x.1 + x.2.length ≤ y.1 ∨ y.1 + y.2.length ≤ x.1)

/-- `n` rounded up to the allocation granularity -/
def up (c : Cfg) (n : Nat) : Nat := (n + 4 * c.w - 1) / (4 * c.w) * (4 * c.w)

/-- there is an unused stretch of the heap with room for `n` bytes and the four bookkeeping words:
it lies in the heap and does not touch any live block or its bookkeeping words (two before and two
after the rounded-up data) -/
def Room (c : Cfg) (st : St) (n : Nat) : Prop :=
  ∃ a, st.h.start ≤ a ∧ a + 4 * c.w + up c n ≤ st.h.stop ∧
    ∀ p l, (p, l) ∈ st.live → p + up c l.length + 2 * c.w ≤ a ∨ a + 4 * c.w + up c n + 2 * c.w ≤ p

/-- operations other than `realloc` -/
def noRealloc : Op → Prop
  | .realloc _ _ => False
  | _ => True

end Smlr.Heap.Spec
