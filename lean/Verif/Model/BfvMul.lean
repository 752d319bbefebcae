import Verif.Model.BfvCipher
/-!
# Multiplication of ciphertexts

Models `impl Mul<&Ciphertext> for &Ciphertext`, `/repo/crates/fhe/src/bfv/ops/mod.rs` lines 259-358.
-/
namespace Fhe
namespace Ciphertext

/-- The inner loop `c[i + j] += &(&self_c[i] * &other_c[j])` for one `i`, lines 290-292 and 335-337; the last argument is `c[i..]`. -/
def mulRow (ai : Poly .ntt) : List (Poly .ntt) → List (Poly .ntt) → Panics (List (Poly .ntt))
  | [], c => some c
  | _ :: _, [] => none
  | bj :: bs, cj :: cs => do
    let cj ← cj.addAssign (← ai.mulAssign bj)
    return cj :: (← mulRow ai bs cs)

/-- The two nested loops, lines 289-293 and 334-338; the last argument is `c[i..]` when the loop has reached the index `i`. -/
def mulAll : List (Poly .ntt) → List (Poly .ntt) → List (Poly .ntt) → Panics (List (Poly .ntt))
  | [], _, c => some c
  | ai :: as, bs, c => do
    match ← mulRow ai bs c with
    | [] => mulAll as bs []
    | ci :: cs => return ci :: (← mulAll as bs cs)

/-- The part common to the two branches, lines 279-308 and 319-355: multiply the extended parts, and scale down. -/
def mulScaled (mp : MulParams) (par : Par) (level : Nat) (a b : List (Poly .ntt)) : Panics Ciphertext := do
  let len ← subU (a.length + b.length) 1
  let z := Poly.zero .ntt mp.dst
  let z := if (a ++ b).all (·.vt) then z.allowVt else z
  let c ← mulAll a b (List.replicate len z)
  let c ← c.mapM fun ci => unwrapMath (mp.downScaler.scale ci)
  return { par, seed := none, c, level }

/-- `impl Mul<&Ciphertext> for &Ciphertext`, lines 262-358.  (In the squaring branch the length is `2 * self_c.len() - 1`.) -/
def mul (a b : Ciphertext) : Panics Ciphertext :=
  if a.c = [] then some a
  else if b.beq a then do
    let l ← (a.par.contextLevelAt a.level).unwrap
    let x ← a.c.mapM fun ci => unwrapMath (l.mul.extender.scale ci)
    mulScaled l.mul a.par b.level x x
  else do
    check (a.par.ptrEq b.par)
    check (a.level = b.level)
    let l ← (a.par.contextLevelAt a.level).unwrap
    let x ← a.c.mapM fun ci => unwrapMath (l.mul.extender.scale ci)
    let y ← b.c.mapM fun ci => unwrapMath (l.mul.extender.scale ci)
    mulScaled l.mul a.par b.level x y

end Ciphertext
end Fhe
