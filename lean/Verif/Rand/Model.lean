import Init
set_option autoImplicit false
/-! Model of `rand` and `srand`, srclib/rand.c and srand.c. -/
namespace Smlr.Rand

/-- 32-bit library: `__Seed * 1103515245 + 12345` in `unsigned`, rand.c:10 -/
def next (s : Nat) : Nat := (s * 1103515245 + 12345) % 2 ^ 32

/-- one call: the new state and the result, rand.c:8-12 -/
def rand32 (s : Nat) : Nat × Int := (next s, ((next s >>> 16) &&& 0x7FFF : Nat))

/-- the state before the first call, rand.c:6, and after `srand(seed)`, srand.c:8-11 -/
def init32 : Nat := 1
def srand32 (seed : Nat) : Nat := seed

/-- 16-bit library: the state is two words, rand.c:16; `helper` handles them as one little-endian dword, rand.c:18-25 -/
def helper (s : Nat × Nat) : Nat × Nat :=
  let eax := s.1 + s.2 * 65536
  let eax := eax * 1103515245 % 2 ^ 32
  let eax := (eax + 12345) % 2 ^ 32
  (eax % 65536, eax / 65536)

/-- rand.c:27-31 -/
def rand16 (s : Nat × Nat) : (Nat × Nat) × Int := (helper s, ((helper s).2 &&& 0x7FFF : Nat))

/-- rand.c:16 (the second word is 0) and srand.c:17-21 -/
def init16 : Nat × Nat := (1, 0)
def srand16 (seed : Nat) : Nat × Nat := (seed, 0)

/-- the first `n` results -/
def run {σ : Type} (f : σ → σ × Int) : Nat → σ → List Int
  | 0, _ => []
  | n + 1, s => (f s).2 :: run f n (f s).1

end Smlr.Rand
