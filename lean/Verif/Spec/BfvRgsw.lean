import Verif.Spec.BfvKeys
import Verif.Model.BfvRgsw
/-!
# What RGSW ciphertexts stand for
-/
namespace Fhe
open Nega

/-- The polynomial over the integers whose coefficients are the representatives in `0..t` of those of the message. -/
def IntPoly.ofMsg {N t : Nat} (m : Nega N (ZMod t)) : IntPoly N := fun j => ((m j).val : Int)

/-- The object encrypts the message `m` at level `i` under the secret `s`, with errors of at most `e`: it is a pair of key-switching keys at
that level, one from `m` and one from `m s`. -/
structure RgswCiphertext.Encrypts (par : Par) (s : IntPoly par.degree) (r : RgswCiphertext) (i : Nat) (m : par.Msg) (e : Nat) : Prop where
  fst : r.ksk0.IsFor par s (IntPoly.ofMsg m) i i e
  snd : r.ksk1.IsFor par s (IntPoly.ofMsg m * s) i i e

end Fhe
