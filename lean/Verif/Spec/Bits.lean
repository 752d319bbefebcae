import Mathlib.Data.Nat.Digits.Defs
/-!
# Specification of bit strings

`Nat.ofDigits (2^n) a = Σ_i a_i 2^(n i)` is the number whose binary expansion is the little-endian concatenation of the
`n`-bit words `a`.
-/
namespace Fhe

/-- What re-chunking the `inN`-bit words `a` into `outN`-bit words must produce: words of at most `outN` bits, exactly
`⌈len · inN / outN⌉` of them, spelling the same bit string. -/
def IsRechunk (inN outN : Nat) (a r : List Nat) : Prop :=
  (∀ x ∈ r, x < 2 ^ outN) ∧ r.length = (a.length * inN + outN - 1) / outN ∧
    Nat.ofDigits (2 ^ outN) r = Nat.ofDigits (2 ^ inN) a

/-- The `k`-th bit of the stream of 64-bit words `rng 0, rng 1, ...`. -/
def streamBit (rng : Nat → Nat) (k : Nat) : Bool := (rng (k / 64)).testBit (k % 64)

/-- Number of set bits among the stream bits `s, s+1, ..., s+n-1`. -/
def countBits (bit : Nat → Bool) (s n : Nat) : Nat := ((List.range n).filter fun j => bit (s + j)).length

end Fhe
