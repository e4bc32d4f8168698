import Verif.Mem.Model
set_option autoImplicit false
/-
The allocator: v0100/srclib/{mm.h,malloc.c,free.c,realloc.c,calloc.c}, the variants for a
fixed heap (DOS tiny/small, DPMI, macOS) and for a growing heap (Linux).  The Windows and
DOS huge/unreal variants only call the operating system and are not modelled.

Memory is byte-addressed; an `unsigned` of `w` bytes (`w = 2` or `4`) is stored little-endian.
All `unsigned` and address arithmetic of the code wraps modulo `256^w`.
Simplification: `x & -2*HEADER_FOOTER_SZ`, with `2*HEADER_FOOTER_SZ = 4*w` a power of two, is
written `x - x % (4*w)`.
-/
namespace Smlr.Heap
open Smlr.Mem

/-- read an unsigned of `w` bytes -/
def rd : Nat → Mem → Nat → Nat
  | 0, _, _ => 0
  | w+1, m, a => (m a).toNat + 256 * rd w m (a+1)

/-- write an unsigned of `w` bytes -/
def wr : Nat → Mem → Nat → Nat → Mem
  | 0, m, _, _ => m
  | w+1, m, a, v => wr w (upd m a (UInt8.ofNat v)) (a+1) (v / 256)

/-- `w` = sizeof(unsigned); `grow` selects the Linux variant -/
structure Cfg where
  w : Nat
  grow : Bool

/-- number of values of `unsigned` -/
def Cfg.M (c : Cfg) : Nat := 256 ^ c.w

/-- `HEADER_FOOTER_SZ`, v0100/srclib/mm.h:13 -/
def Cfg.H (c : Cfg) : Nat := 2 * c.w

/-- address of `p[i]`, `p` an `unsigned*` -/
def Cfg.ix (c : Cfg) (p i : Nat) : Nat := (p + i * c.w) % c.M

/-- address of `p[-i]` -/
def Cfg.nix (c : Cfg) (p i : Nat) : Nat := (p + c.M - i * c.w) % c.M

/-- memory and the variables `__heap_start`, `__heap_stop` (malloc.c:99-100).  In the
growing variant the program break equals `__heap_stop` after `init` (malloc.c:185-207,318). -/
structure Heap where
  mem : Mem
  start : Nat
  stop : Nat

/-- result of the block search -/
inductive Found
  | fit (blk : Nat)
  | nofit (last : Nat)

/-- the `while` loop of malloc.c:263-295, up to finding a free block of sufficient size;
`none` = the loop does not end within `fuel` iterations -/
def findFit (c : Cfg) (m : Mem) (stop size : Nat) : Nat → Nat → Nat → Option Found
  | 0, _, _ => none
  | fuel+1, blk, last =>
    if blk < stop then
      let sz := rd c.w m blk
      let nxtblk := (blk + 2 * c.H + sz) % c.M
      if sz ≥ size ∧ rd c.w m (c.ix blk 1) = 0 then some (.fit blk)
      else findFit c m stop size fuel nxtblk blk
    else some (.nofit last)

/-- marking and splitting the block found: malloc.c:265-288 -/
def carve (c : Cfg) (m : Mem) (blk size : Nat) : Mem :=
  let sz := rd c.w m blk
  let nxtblk := (blk + 2 * c.H + sz) % c.M
  if sz = size then
    let m := wr c.w m (c.ix blk 1) 1
    wr c.w m (c.nix nxtblk 2) 1
  else
    let mid := (blk + 2 * c.H + size) % c.M
    let m := wr c.w m (c.ix blk 0) size
    let m := wr c.w m (c.ix blk 1) 1
    let m := wr c.w m (c.nix mid 2) 1
    let m := wr c.w m (c.nix mid 1) size
    let sz := (sz + c.M - (size + 2 * c.H) % c.M) % c.M
    let m := wr c.w m (c.ix mid 0) sz
    let m := wr c.w m (c.ix mid 1) 0
    wr c.w m (c.nix nxtblk 1) sz

/-- the size computation of malloc.c:256 and realloc.c:95 -/
def roundSize (c : Cfg) (size : Nat) : Nat :=
  (size + 2 * c.H - 1) % c.M - (size + 2 * c.H - 1) % c.M % (2 * c.H)

/-- `__sbrk(increment)` with the current break `brk`: malloc.c:55-89.  `os new` says whether
the system call moves the break to `new`.  `none` = failure (-1), otherwise the new break. -/
def sbrk (c : Cfg) (os : Nat → Bool) (brk inc : Nat) : Option Nat :=
  let nb := (brk + inc) % c.M
  if inc < c.M / 2 then            -- increment >= 0 as an int
    if nb < brk then none else if os nb then some nb else none
  else
    if nb ≥ brk then none else if os nb then some nb else none

/-- the growing part, malloc.c:297-321 -/
def growHeap (c : Cfg) (os : Nat → Bool) (h : Heap) (size last : Nat) : Heap × Nat :=
  let finish (togrow blk : Nat) : Heap × Nat :=
    match sbrk c os h.stop togrow with
    | none => (h, 0)
    | some _ =>
      let nxtblk := (blk + 2 * c.H + size) % c.M
      let m := wr c.w h.mem (c.ix blk 0) size
      let m := wr c.w m (c.ix blk 1) 1
      let m := wr c.w m (c.nix nxtblk 2) 1
      let m := wr c.w m (c.nix nxtblk 1) size
      ({ h with mem := m, stop := (h.stop + togrow) % c.M }, (blk + c.H) % c.M)
  if rd c.w h.mem (c.ix last 1) = 0 then
    finish ((size + c.M - rd c.w h.mem last) % c.M) last
  else
    let togrow := (size + 2 * c.H) % c.M
    if togrow = 0 ∨ togrow ≥ c.M / 2 then (h, 0)      -- (int)togrow <= 0
    else finish togrow h.stop

/-- malloc.c:237-324 after initialisation; a null result is 0; `none` = does not return -/
def malloc (c : Cfg) (os : Nat → Bool) (h : Heap) (size : Nat) : Option (Heap × Nat) :=
  if size = 0 ∨ size > c.M - 2 * c.H then some (h, 0) else
  let size := roundSize c size
  match findFit c h.mem h.stop size (h.stop + 1) h.start h.start with
  | none => none
  | some (.fit blk) => some ({ h with mem := carve c h.mem blk size }, (blk + c.H) % c.M)
  | some (.nofit last) => if c.grow then some (growHeap c os h size last) else some (h, 0)

/-- joining with the previous block, free.c:57-67: new memory, `blk` and `sz` -/
def joinPrev (c : Cfg) (m : Mem) (start blk nxtblk sz : Nat) : Mem × Nat × Nat :=
  if blk > start then
    let prvblk := (blk + c.M + c.M - rd c.w m (c.nix blk 1) - 2 * c.H) % c.M
    if rd c.w m (c.ix prvblk 1) = 0 then
      let sz := (sz + (rd c.w m prvblk + 2 * c.H)) % c.M
      let m := wr c.w m prvblk sz
      let m := wr c.w m (c.nix nxtblk 1) sz
      (m, prvblk, sz)
    else (m, blk, sz)
  else (m, blk, sz)

/-- joining with the next block, free.c:69-75 -/
def joinNext (c : Cfg) (m : Mem) (stop blk nxtblk sz : Nat) : Mem :=
  if nxtblk < stop ∧ rd c.w m (c.ix nxtblk 1) = 0 then
    let nxtnxtblk := (nxtblk + rd c.w m nxtblk + 2 * c.H) % c.M
    let sz := (sz + (rd c.w m nxtblk + 2 * c.H)) % c.M
    let m := wr c.w m blk sz
    wr c.w m (c.nix nxtnxtblk 1) sz
  else m

/-- free.c:44-76 -/
def free (c : Cfg) (h : Heap) (ptr : Nat) : Heap :=
  if ptr = 0 then h else
  let blk := (ptr + c.M - c.H) % c.M
  let sz := rd c.w h.mem blk
  let nxtblk := (ptr + sz + c.H) % c.M
  let m := wr c.w h.mem (c.ix blk 1) 0
  let m := wr c.w m (c.nix nxtblk 2) 0
  let r := joinPrev c m h.start blk nxtblk sz
  { h with mem := joinNext c r.1 h.stop r.2.1 nxtblk r.2.2 }

/-- realloc.c:84-129 -/
def realloc (c : Cfg) (os : Nat → Bool) (h : Heap) (ptr size : Nat) : Option (Heap × Nat) :=
  if size = 0 ∨ size > c.M - 2 * c.H then some (h, 0) else
  if ptr = 0 then malloc c os h size else
  let size := roundSize c size
  let blk := (ptr + c.M - c.H) % c.M
  let sz := rd c.w h.mem blk
  let nxtblk := (blk + 2 * c.H + sz) % c.M
  if sz ≥ size then
    if sz > size then
      let mid := (blk + 2 * c.H + size) % c.M
      let m := wr c.w h.mem blk size
      let m := wr c.w m (c.nix mid 2) 1
      let m := wr c.w m (c.nix mid 1) size
      let sz := (sz + c.M - (size + 2 * c.H) % c.M) % c.M
      let m := wr c.w m (c.ix mid 0) sz
      let m := wr c.w m (c.ix mid 1) 0
      let m := wr c.w m (c.nix nxtblk 2) 0
      let m := wr c.w m (c.nix nxtblk 1) sz
      some ({ h with mem := m }, ptr)
    else some (h, ptr)
  else
    match malloc c os h size with
    | none => none
    | some (h, ptr2) =>
      if ptr2 ≠ 0 then
        let h := { h with mem := (memcpy h.mem ptr2 ptr sz).1 }
        some (free c h ptr, ptr2)
      else some (h, 0)

/-- calloc.c:8-18 -/
def calloc (c : Cfg) (os : Nat → Bool) (h : Heap) (ecnt esize : Nat) : Option (Heap × Nat) :=
  let size := ecnt * esize % c.M
  if size = 0 ∨ size / esize ≠ ecnt then some (h, 0) else
  match malloc c os h size with
  | none => none
  | some (h, p) =>
    if p ≠ 0 then some ({ h with mem := (memset h.mem p 0 size).1 }, p) else some (h, p)

/-- writing the initial free block and the heap bounds: malloc.c:168-177 (DOS, macOS 223-232),
malloc.c:201-207 (Linux, with `stop - start = 2*HEADER_FOOTER_SZ`) -/
def initBlock (c : Cfg) (m : Mem) (start stop : Nat) : Heap :=
  let heapsz := (stop + c.M - start + c.M - 2 * c.H) % c.M
  let m := wr c.w m (c.ix start 0) heapsz
  let m := wr c.w m (c.ix start 1) 0
  let m := wr c.w m (c.nix stop 2) 0
  let m := wr c.w m (c.nix stop 1) heapsz
  { mem := m, start := start, stop := stop }

/-- `x | HEADER_FOOTER_SZ` for a multiple `x` of `HEADER_FOOTER_SZ`: the next odd multiple -/
def oddMul (c : Cfg) (x : Nat) : Nat := if x % (2 * c.H) = 0 then x + c.H else x

/-- `init` for DOS (not DPMI), malloc.c:104-178: `start0`/`stop0` are the addresses of
`_stop_alldata__` and `_start_stack__`; `none` = failure -/
def initDos (c : Cfg) (m : Mem) (start0 stop0 : Nat) : Option Heap :=
  let s := (start0 + c.H - 1) % c.M
  let start := oddMul c (s - s % c.H)
  let t := (stop0 + c.M - c.H) % c.M
  let stop := oddMul c (t - t % c.H)
  if start < start0 ∨ stop > stop0 ∨ start > stop ∨ stop - start < 2 * c.H then none
  else some (initBlock c m start stop)

/-- `init` for Linux, malloc.c:184-209: `start0` is the current break -/
def initLinux (c : Cfg) (os : Nat → Bool) (m : Mem) (start0 : Nat) : Option Heap :=
  let s := (start0 + c.H - 1) % c.M
  let start := oddMul c (s - s % c.H)
  let stop := (start + 2 * c.H) % c.M
  match sbrk c os start0 ((start + c.M - start0 + 2 * c.H) % c.M) with
  | none => none
  | some _ => some (initBlock c m start stop)

end Smlr.Heap
