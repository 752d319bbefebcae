import Verif.Spec.BfvSer
import Verif.Model.BfvMultiplicator
import Verif.Model.BfvDot
import Verif.Model.Mbfv
/-!
# Objects read from arbitrary bytes

A server gets ciphertexts and keys from somebody it does not trust: any bytes that the functions `from_bytes` accept.
-/
namespace Fhe

/-- A ciphertext that every operation can take as input: an existing level, at least two parts, all of them valid polynomials of that level. -/
structure Ciphertext.Usable (par : Par) (ct : Ciphertext) : Prop where
  par_eq : ct.par = par
  level : ct.level < par.moduli.length
  parts : 2 ≤ ct.c.length
  valid : ∀ p ∈ ct.c, p.Valid ∧ par.contextAtLevel ct.level = Res.ok p.ctx

/-- The relinearization key was read from some bytes.  The base of its decomposition is not checked on reading, and shifts by 64 or more panic: this is
assumed not to happen. -/
def RelinearizationKey.Received (g : Prg) (par : Par) (k : RelinearizationKey) : Prop :=
  (∃ bytes, IsBytes bytes ∧ RelinearizationKey.fromBytes g bytes par = Res.ok k) ∧ k.ksk.logBase < 64

/-- The evaluation key was read from some bytes; the same assumption about its Galois keys. -/
def EvaluationKey.Received (b : Build) (g : Prg) (par : Par) (k : EvaluationKey) : Prop :=
  (∃ bytes, IsBytes bytes ∧ EvaluationKey.fromBytes b g bytes par = Res.ok k) ∧ ∀ x gk, k.gk.lookup x = some gk → gk.ksk.logBase < 64

/-- The RGSW ciphertext was read from some bytes; the same assumption about its two keys. -/
def RgswCiphertext.Received (g : Prg) (par : Par) (r : RgswCiphertext) : Prop :=
  (∃ bytes, IsBytes bytes ∧ RgswCiphertext.fromBytes g bytes par = Res.ok r) ∧ r.ksk0.logBase < 64 ∧ r.ksk1.logBase < 64

/-- The public key was read from some bytes. -/
def PublicKey.Received (g : Prg) (par : Par) (pk : PublicKey) : Prop := ∃ bytes, IsBytes bytes ∧ PublicKey.fromBytes g bytes par = Res.ok pk

/-- The ciphertexts a server can come to hold: those read from bytes, and whatever its operations return on those it holds, with keys read from
bytes and with plaintexts of its own. -/
inductive Ciphertext.Held (b : Build) (g : Prg) (par : Par) : Ciphertext → Prop
  | read {bytes : List Nat} {ct : Ciphertext} (hbytes : IsBytes bytes) (h : Ciphertext.fromBytes g bytes par = Res.ok ct) : Held b g par ct
  | encrypt {pk : PublicKey} {pt : Plaintext} {i : Nat} {m : par.Msg} {rngU rng1 rng2 : Nat → Nat} {r : Ciphertext} (hpk : pk.Received g par) (hpt : pt.Holds par i m) (hU : IsStream rngU)
      (h1 : IsStream rng1) (h2 : IsStream rng2) (h : pk.tryEncrypt pt rngU rng1 rng2 = Res.ok r) : Held b g par r
  | switchDown {ct r : Ciphertext} (hct : Held b g par ct) (h : ct.switchDown = Res.ok r) : Held b g par r
  | switchToLevel {ct r : Ciphertext} {target : Nat} (hct : Held b g par ct) (h : ct.switchToLevel target = Res.ok r) : Held b g par r
  | relinearize {k : RelinearizationKey} {ct r : Ciphertext} (hk : k.Received g par) (hct : Held b g par ct) (h : k.relinearizes ct = Res.ok r) : Held b g par r
  | multiply {k : RelinearizationKey} {mp : Multiplicator} {ct ct' r : Ciphertext} (hk : k.Received g par) (hmp : Multiplicator.default b k = Res.ok mp) (hct : Held b g par ct)
      (hct' : Held b g par ct') (h : mp.multiply ct ct' = Res.ok r) : Held b g par r
  | multiplySwitch {k : RelinearizationKey} {mp mp' : Multiplicator} {ct ct' r : Ciphertext} (hk : k.Received g par) (hmp : Multiplicator.default b k = Res.ok mp)
      (hmp' : mp.enableModSwitching = Res.ok mp') (hct : Held b g par ct) (hct' : Held b g par ct') (h : mp'.multiply ct ct' = Res.ok r) : Held b g par r
  | rows {k : EvaluationKey} {ct r : Ciphertext} (hk : k.Received b g par) (hct : Held b g par ct) (h : k.rotatesRows ct = Res.ok r) : Held b g par r
  | columns {k : EvaluationKey} {ct r : Ciphertext} {t : Nat} (hk : k.Received b g par) (hct : Held b g par ct) (h : k.rotatesColumnsBy ct t = Res.ok r) : Held b g par r
  | innerSum {k : EvaluationKey} {ct r : Ciphertext} (hk : k.Received b g par) (hct : Held b g par ct) (h : k.computesInnerSum ct = Res.ok r) : Held b g par r
  | expand {k : EvaluationKey} {ct r : Ciphertext} {size : Nat} {out : List Ciphertext} (hk : k.Received b g par) (hct : Held b g par ct) (h : k.expands ct size = Res.ok out) (hr : r ∈ out) :
      Held b g par r
  | dot {cts : List Ciphertext} {pts : List Plaintext} {r : Ciphertext} (hct : ∀ ct ∈ cts, Held b g par ct) (hpt : ∀ pt ∈ pts, ∃ i m, pt.Holds par i m) (h : dotProductScalar cts pts = Res.ok r) :
      Held b g par r
  | add {ct ct' r : Ciphertext} (hct : Held b g par ct) (hct' : Held b g par ct') (h : ct.add ct' = some r) : Held b g par r
  | sub {ct ct' r : Ciphertext} (hct : Held b g par ct) (hct' : Held b g par ct') (h : ct.sub ct' = some r) : Held b g par r
  | neg {ct r : Ciphertext} (hct : Held b g par ct) (h : ct.neg = some r) : Held b g par r
  | mulPlain {ct r : Ciphertext} {pt : Plaintext} {i : Nat} {m : par.Msg} (hct : Held b g par ct) (hpt : pt.Holds par i m) (h : ct.mulPlain pt = some r) : Held b g par r
  | addPlain {ct r : Ciphertext} {pt : Plaintext} {i : Nat} {m : par.Msg} (hct : Held b g par ct) (hpt : pt.Holds par i m) (h : ct.addPlain pt = some r) : Held b g par r
  | subPlain {ct r : Ciphertext} {pt : Plaintext} {i : Nat} {m : par.Msg} (hct : Held b g par ct) (hpt : pt.Holds par i m) (h : ct.subPlain pt = some r) : Held b g par r
  | mul {ct ct' r : Ciphertext} (hct : Held b g par ct) (hct' : Held b g par ct') (hlen : ct.c.length ≤ 2 ^ 12) (h : ct.mul ct' = some r) : Held b g par r
  | mulRgsw {ct r : Ciphertext} {x : RgswCiphertext} (hct : Held b g par ct) (hx : x.Received g par) (h : ct.mulRgsw x = some r) : Held b g par r

end Fhe
