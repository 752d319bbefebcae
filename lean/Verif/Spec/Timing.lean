import Verif.Model.TimedBfv
/-!
# What it means that a run reveals nothing

Two runs are indistinguishable when the attacker's observations (`Verif/Model/Timed.lean`) are the same, and their results are related
again, so that statements compose.
-/
namespace Fhe.Release

/-- The observations are equal, and either both runs panic or both return related results. -/
def Indist {α β : Type} (R : α → β → Prop) (t : Timed α) (t' : Timed β) : Prop :=
  t.trace = t'.trace ∧ Option.Rel R t.result t'.result

/-- Constant time: one trace serves all admissible secrets.  For each of them for which the operation returns `y` (`value`, the model of
`Verif/Model` with all its checks), the release build (`run`) returns `y` too, and what it shows is this trace. -/
def ConstantTime {ι α : Type} (run : ι → Timed α) (value : ι → Option α) (admissible : ι → Prop) : Prop :=
  ∃ tr : List Event, ∀ x, admissible x → ∀ y, value x = some y → run x = ⟨some y, tr⟩

/-- Reveals at most `f`: the trace is a function of `f x`. -/
def RevealsOnly {ι α κ : Type} (run : ι → Timed α) (value : ι → Option α) (admissible : ι → Prop) (f : ι → κ) : Prop :=
  ∃ tr : κ → List Event, ∀ x, admissible x → ∀ y, value x = some y → run x = ⟨some y, tr (f x)⟩

/-- Two secrets words: any two. -/
def AnyWords {α : Type} (_ _ : α) : Prop := True
/-- Two secret vectors: any two of the same length. -/
def SameLen {α : Type} (a b : List α) : Prop := a.length = b.length
/-- Two secret matrices: any two of the same shape. -/
def SameShape (a b : List (List Nat)) : Prop := List.Forall₂ SameLen a b

/-- Two polynomials that an attacker may not tell apart: the context, the timing flag and the shape are public.  A polynomial that allows
variable time is public entirely: that is what the caller asserted when setting the flag. -/
structure SamePublic {r : Rep} (a b : Poly r) : Prop where
  ctx : a.ctx = b.ctx
  hasLazy : a.hasLazy = b.hasLazy
  vt : a.vt = b.vt
  coeffs : SameShape a.coeffs b.coeffs
  shoup : Option.Rel SameShape a.shoup b.shoup
  isPublic : a.vt = true → a = b

/-- Results of `fhe-math`: the same error, or related values. -/
inductive SameResult {α β ε : Type} (R : α → β → Prop) : Except ε α → Except ε β → Prop where
  | ok {a : α} {b : β} (h : R a b) : SameResult R (.ok a) (.ok b)
  | error (e : ε) : SameResult R (.error e) (.error e)

/-- The computation before the jump on the sign of `w`. -/
def wSum (s : RnsScaler) (rests : List Nat) : Timed (Nat × Nat) := do
  let sum ← sumThetaGarner s.thetaGarnerLo s.thetaGarnerHi rests 0
  let v ← roundV sum s.thetaGarnerShift
  let _ ← branchOn (s.factor.isOne = true)
  let sum ← sumThetaOmega s.thetaOmegaLo s.thetaOmegaHi s.thetaOmegaSign rests 0
  let vg := v * RnsScaler.joinWords s.thetaGammaLo s.thetaGammaHi % 2 ^ 256
  let _ ← branchOn (s.thetaGammaSign = true)
  return (v, if s.thetaGammaSign then RnsScaler.wadd256 sum vg else RnsScaler.wsub256 sum vg)
/-- The sign on which `scale` jumps. -/
def wNegative (s : RnsScaler) (rests : List Nat) : Bool :=
  match (wSum s rests).result with
  | some x => decide (x.2 >>> 191 > 0)
  | none => false

/-- The columns of the matrix of coefficients. -/
def columns {r : Rep} (p : Poly r) : Timed (List (List Nat)) := do
  let rows ← sourceRows p
  mapLoop (column rows) (List.range p.ctx.degree)
/-- The signs on which the scaling of a polynomial jumps, one per coefficient. -/
def signs (s : Scaler) {r : Rep} (p : Poly r) : List Bool :=
  match (columns p).result with
  | some cols => cols.map (wNegative s.scaler)
  | none => []

/-- The signs that a decryption reveals: those of the scaling of the phase `c[0] + c[1] s + ...` of the ciphertext. -/
def decryptionSigns (sk : SecretKey) (ct : Ciphertext) : List Bool :=
  match (phase sk ct).run.result, sk.par.contextLevelAt ct.level with
  | some (.ok c), some (.ok lvl) =>
    match (nttToPowerBasis c).result with
    | some p => signs lvl.cp.scaler p
    | none => []
  | _, _ => []

/-- Two secret keys of the same parameters. -/
structure SameKey (sk sk' : SecretKey) : Prop where
  par : sk.par = sk'.par
  coeffs : SameLen sk.coeffs sk'.coeffs

/-- Two plaintexts of the same parameters, encoding, level and kind (variable time or not). -/
structure SamePlain (pt pt' : Plaintext) : Prop where
  par : pt.par = pt'.par
  encoding : pt.encoding = pt'.encoding
  poly : SamePublic pt.polyNtt pt'.polyNtt

/-- Two generators of relinearization keys of the same parameters and common random polynomials. -/
structure SameGenerator (g g' : RelinKeyGenerator) : Prop where
  sk : SameKey g.sk g'.sk
  crp : g.crp = g'.crp
  u : SamePublic g.u g'.u

/-- Indistinguishable runs that return a `Result`: the same observations, and the same error or related values. -/
def TIndist {α β : Type} (R : α → β → Prop) (t : TRes α) (t' : TRes β) : Prop := Indist (SameResult R) t.run t'.run

/-- The plaintext modulus fits a word, and is smaller than the first ciphertext modulus of the context: then plaintexts are handled word by
word, without big numbers. -/
def WordSized (par : Par) (ctx : Context) : Prop := ∃ m, par.plaintext.small = some m ∧ Plaintext.fitsFirst m ctx.moduli = true

end Fhe.Release
