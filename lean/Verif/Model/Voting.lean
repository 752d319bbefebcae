import Verif.Model.Mbfv
/-!
# The voting example

Models `main` of `/repo/crates/fhe/examples/voting.rs` (line numbers are of that file), without the parsing of the command line and the
output.
-/
namespace Fhe
open Res

/-- What the generator returns in the course of the program: the vectors of the common random polynomial; for each party the streams for the secret
key, the share of the public key and the share of the decryption; for each voter the three streams that an encryption uses.
`/repo/crates/fhe/examples/voting.rs` lines 105-157. -/
structure VotingRandom where
  crp : List (List Nat)
  secret : Nat → Nat → Nat
  share : Nat → Nat → Nat
  decrypt : Nat → Nat → Nat
  voteU : Nat → Nat → Nat
  vote1 : Nat → Nat → Nat
  vote2 : Nat → Nat → Nat

/-- The parameters of lines 47-49 and 98-102. -/
def votingParams : ParamsBuilder :=
  (({} : ParamsBuilder).setDegree 4096).setPlaintext 4096 |>.setModuli [0xffffee001, 0xffffc4001, 0x1ffffe0001]

/-- Lines 96-175: the result that is printed, for the given number of parties and votes, or the panic of the final assertion.  The parameters are an argument; `addr` is the
address of their allocation. -/
def voting (b : Build) (params : ParamsBuilder) (addr numParties : Nat) (votes : List Nat) (r : VotingRandom) : Res Nat := do
  let par : Par := ⟨← params.build b, addr⟩
  let crp ← CommonRandomPoly.newLeveled par 0 r.crp
  let sks ← (List.range numParties).mapM fun k => lift (SecretKey.random par (r.secret k))
  let shares ← sks.zipIdx.mapM fun p => PublicKeyShare.new p.1 crp (r.share p.2)
  let pk ← PublicKeyShare.aggregate shares
  let cts ← votes.zipIdx.mapM fun p => do
    let pt ← Plaintext.tryEncodeU64 [p.1] ⟨.poly, 0⟩ par false
    pk.tryEncrypt pt (r.voteU p.2) (r.vote1 p.2) (r.vote2 p.2)
  let tally ← lift (cts.foldlM Ciphertext.add (Ciphertext.zero par))
  let shares ← sks.zipIdx.mapM fun p => DecryptionShare.new p.1 tally (r.decrypt p.2)
  let pt ← DecryptionShare.aggregate shares
  let values ← pt.decodeU64 (some ⟨.poly, 0⟩)
  let result ← lift values[0]?
  lift (check (result = votes.sum))
  return result

end Fhe
