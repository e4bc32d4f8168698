import Init
set_option autoImplicit false
namespace Smlr.Exit.Spec

/-- the value of decimal digits -/
def val (s : List UInt8) : Nat := s.foldl (fun a c => a * 10 + (c.toNat - 0x30)) 0

/-- `s` is the decimal text of `n`: digits, no zero in front -/
structure Decimal (s : List UInt8) (n : Nat) : Prop where
  ne : s ≠ []
  digit : ∀ c ∈ s, 0x30 ≤ c.toNat ∧ c.toNat ≤ 0x39
  zero : s.length > 1 → s.head? ≠ some 0x30
  value : val s = n

/-- The functions `fs` are to be called in this order, and each may register others (`body`, in the order of registration): these
are called right after it, the last one first, and what they register likewise, before the rest of `fs`. -/
inductive Run (body : Nat → List Nat) : List Nat → List Nat → Prop
  | nil : Run body [] []
  | cons (f : Nat) (fs new rest : List Nat) : Run body (body f).reverse new → Run body fs rest → Run body (f :: fs) (f :: (new ++ rest))

/-- the characters of a text, one byte each -/
def bytes (s : String) : List UInt8 := s.toList.map fun c => UInt8.ofNat c.toNat

end Smlr.Exit.Spec
