import Verif.Mem.Model
set_option autoImplicit false
/-
v0100/srclib/qsort.c and bsearch.c over byte memory.
The comparison function is a function of the bytes of the two elements it is given
pointers to (`cmp : List UInt8 → List UInt8 → Int`); a callback with side effects is
not modelled.  Addresses are natural numbers (the array does not wrap around the
address space); `unsigned` index arithmetic wraps where the code relies on it.
-/
namespace Smlr.Sort
open Smlr.Mem

/-- the `n` bytes at `p`, i.e. what the callback sees through its argument -/
def bytes (m : Mem) (p n : Nat) : List UInt8 := (List.range n).map (fun k => m (p + k))

/-- v0100/srclib/qsort.c:5-13 -/
def exchange : Nat → Nat → Nat → Mem → Mem
  | 0, _, _, m => m
  | size+1, p1, p2, m =>
    let t := m p1
    let m := upd m p1 (m p2)
    let m := upd m p2 t
    exchange size (p1+1) (p2+1) m

structure Cfg where
  base : Nat
  esize : Nat
  cmp : List UInt8 → List UInt8 → Int

/-- address of element `i` -/
def Cfg.at (c : Cfg) (i : Nat) : Nat := c.base + i * c.esize

/-- `fcmp(base + i*esize, base + j*esize)` -/
def Cfg.fcmp (c : Cfg) (m : Mem) (i j : Nat) : Int :=
  c.cmp (bytes m (c.at i) c.esize) (bytes m (c.at j) c.esize)

/-- `(i - 1) >> 1` on 32-bit unsigned -/
def parentOf (i : Nat) : Nat := ((i + 4294967295) % 4294967296) / 2

/-- v0100/srclib/qsort.c:26-31, the inner `while` with current index `i` -/
def siftUp (c : Cfg) (i : Nat) (m : Mem) : Mem :=
  if i ≠ 0 ∧ c.fcmp m (parentOf i) i < 0 then
    siftUp c (parentOf i) (exchange c.esize (c.at (parentOf i)) (c.at i) m)
  else m
termination_by i
decreasing_by unfold parentOf; omega

/-- v0100/srclib/qsort.c:22-33 -/
def build (c : Cfg) : Nat → Nat → Mem → Mem
  | 0, _, m => m
  | ecount+1, heapsz, m => build c ecount (heapsz+1) (siftUp c heapsz m)

/-- choice of the child, v0100/srclib/qsort.c:43-48 -/
def candidate (c : Cfg) (heapsz i : Nat) (m : Mem) : Nat :=
  let left := 2 * i + 1
  let right := left + 1
  if right < heapsz ∧ c.fcmp m right left > 0 then right else left

/-- v0100/srclib/qsort.c:41-53, the inner `while` with current index `i` -/
def siftDown (c : Cfg) (heapsz i : Nat) (m : Mem) : Mem :=
  if i < heapsz / 2 then
    if c.fcmp m i (candidate c heapsz i m) ≥ 0 then m
    else siftDown c heapsz (candidate c heapsz i m)
      (exchange c.esize (c.at i) (c.at (candidate c heapsz i m)) m)
  else m
termination_by heapsz - i
decreasing_by unfold candidate; simp only; split <;> omega

/-- v0100/srclib/qsort.c:37-54 -/
def drain (c : Cfg) : Nat → Mem → Mem
  | 0, m => m
  | heapsz+1, m => drain c heapsz (siftDown c heapsz 0 (exchange c.esize c.base (c.at heapsz) m))

/-- v0100/srclib/qsort.c:15-55 -/
def qsort (c : Cfg) (ecount : Nat) (m : Mem) : Mem :=
  drain c ecount (build c ecount 0 m)

/-- v0100/srclib/bsearch.c:5-29; `keycmp x` is `fcmp(key, p)` where `x` are the bytes at `p` -/
def bsearch (m : Mem) (keycmp : List UInt8 → Int) (esize : Nat) (ecount base : Nat) : Option Nat :=
  if h : ecount = 0 then none else
    let mid := ecount / 2
    let p := base + mid * esize
    let t := keycmp (bytes m p esize)
    if t = 0 then some p
    else if t < 0 then bsearch m keycmp esize mid base
    else bsearch m keycmp esize (ecount - (mid + 1)) (p + esize)
termination_by ecount
decreasing_by all_goals omega

end Smlr.Sort
