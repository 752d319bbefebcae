import Verif.Lemmas.TimedSpec
import Verif.Props.Zq
/-!
# C76: the constant-time arithmetic is constant time

Every operation of `fhe-math` whose documentation says "constant time" takes the same jumps, reads the same table entries and divides the
same numbers whatever its secret operands are (`Verif/Model/Timed.lean` says what is observed), and a release build returns the value
that the other properties are about.  `ConstantTime` and `SamePublic` are in `Verif/Spec/Timing.lean`.
-/
namespace Fhe.Props
open Release

variable {cfg : Bool} {p : Nat} {m : Modulus}

theorem timed_eq {α : Type} {o : Option α} {t : Timed α} {y : α} {tr : List Event} (ha : Agrees o t) (h : o = some y) (ht : t.trace = tr) :
    t = ⟨some y, tr⟩ := by
  have h1 := ha y h
  rcases t with ⟨r, t⟩
  simp only at h1 ht
  rw [h1, ht]

/-! ## Words -/

/-- Addition, subtraction, multiplication, negation and centering of residues show nothing at all. -/
theorem C76_field_ops (h : Modulus.new cfg p = some (.ok m)) {a b : Nat} (ha : a < p) (hb : b < p) :
    Release.add m a b = ⟨some ((a + b) % p), []⟩ ∧ Release.sub m a b = ⟨some ((a + p - b) % p), []⟩ ∧
      Release.mul m a b = ⟨some (a * b % p), []⟩ ∧ (m.supportsOpt = true → Release.mulOpt m a b = ⟨some (a * b % p), []⟩) ∧
      Release.neg m a = ⟨some ((p - a) % p), []⟩ ∧ Release.center m a = ⟨some (if a < p / 2 then (a : Int) else a - p), []⟩ := by
  obtain ⟨hw, rfl, -⟩ := Modulus.WF_of_new h
  exact ⟨timed_eq (add_agrees m a b) (Modulus.add_eq hw ha hb) rfl, timed_eq (sub_agrees m a b) (Modulus.sub_eq hw ha hb) rfl,
    timed_eq (mul_agrees m a b) (Modulus.mul_eq hw ha hb) rfl, fun ho => timed_eq (mulOpt_agrees m a b) (Modulus.mulOpt_eq hw ho ha hb) rfl,
    timed_eq (neg_agrees m a) (Modulus.neg_eq hw ha) rfl, timed_eq (center_agrees m a) (Modulus.center_eq hw ha) rfl⟩

/-- The reductions of words, double words and signed words show nothing. -/
theorem C76_reductions (h : Modulus.new cfg p = some (.ok m)) :
    (∀ a < 2 ^ 64, Release.reduce m a = ⟨some (a % p), []⟩) ∧ (∀ a < 2 ^ 128, Release.reduceU128 m a = ⟨some (a % p), []⟩) ∧
      ∀ a : Int, -(2 ^ 63) ≤ a → a < 2 ^ 63 → Release.reduceI64 m a = ⟨some (a % p).toNat, []⟩ := by
  obtain ⟨hw, rfl, -⟩ := Modulus.WF_of_new h
  exact ⟨fun a ha => timed_eq (reduce_agrees m a) (Modulus.reduce_eq hw ha) rfl,
    fun a ha => timed_eq (reduceU128_agrees m a) (Modulus.reduceU128_eq hw ha) rfl,
    fun a h1 h2 => timed_eq (reduceI64_agrees m a) (Modulus.reduceI64_eq hw h1 h2) rfl⟩

/-- Multiplication by a precomputed factor shows nothing, neither of the operand nor of the factor. -/
theorem C76_mul_shoup (h : Modulus.new cfg p = some (.ok m)) {a b bs : Nat} (ha : a < 2 ^ 64) (hb : b < p) (hbs : m.shoup b = some bs) :
    Release.mulShoup m a b bs = ⟨some (a * b % p), []⟩ := by
  obtain ⟨hw, rfl, -⟩ := Modulus.WF_of_new h
  exact timed_eq (mulShoup_agrees m a b bs) (Modulus.mulShoup_eq hw ha hb hbs) rfl

/-- The variable-time forms return the same, and show whether the result was reduced. -/
theorem C76_variable_time (h : Modulus.new true p = some (.ok m)) {a b : Nat} (ha : a < p) (hb : b < p) :
    Release.addVt m a b = ⟨some ((a + b) % p), [.branch (decide (p ≤ a + b))]⟩ ∧
      Release.negVt m a = ⟨some ((p - a) % p), [.branch (decide (a = 0))]⟩ := by
  obtain ⟨hw, rfl, hv⟩ := Modulus.WF_of_new h
  have hlt := hw.lt
  refine ⟨timed_eq (addVt_agrees m a b) (Modulus.addVt_eq hw ha hb) ?_, timed_eq (negVt_agrees m a) (Modulus.negVt_eq hw ha) ?_⟩
  · unfold Release.addVt Release.reduce1Vt
    rw [hv, if_pos rfl, branch_bind]
    have hab : wadd64 a b = a + b := Nat.mod_eq_of_lt (by omega)
    rw [hab]
    by_cases hc : m.p ≤ a + b <;> simp [hc]
  · unfold Release.negVt Release.reduce1Vt
    rw [hv, if_pos rfl, branch_bind]
    have hab : wsub 64 m.p a = m.p - a := if_pos ha.le
    rw [hab]
    have hi : m.p ≤ m.p - a ↔ a = 0 := by omega
    by_cases hc : a = 0 <;> simp [hc, hi]

/-! ## Vectors -/

/-- The loops over vectors of the same length show the length only. -/
theorem C76_vectors (m : Modulus) (n : Nat) :
    ConstantTime (fun x : List Nat × List Nat => Release.addVec m x.1 x.2) (fun x => m.addVec x.1 x.2) (fun x => x.1.length = n ∧ x.2.length = n) ∧
    ConstantTime (fun x : List Nat × List Nat => Release.subVec m x.1 x.2) (fun x => m.subVec x.1 x.2) (fun x => x.1.length = n ∧ x.2.length = n) ∧
    ConstantTime (fun x : List Nat × List Nat => Release.mulVec m x.1 x.2) (fun x => m.mulVec x.1 x.2) (fun x => x.1.length = n ∧ x.2.length = n) ∧
    ConstantTime (fun x : List Nat × List Nat × List Nat => Release.mulShoupVec m x.1 x.2.1 x.2.2) (fun x => m.mulShoupVec x.1 x.2.1 x.2.2)
      (fun x => x.1.length = n ∧ x.2.1.length = n ∧ x.2.2.length = n) ∧
    ConstantTime (Release.negVec m) m.negVec (·.length = n) ∧ ConstantTime (Release.reduceVec m) m.reduceVec (·.length = n) ∧
    ConstantTime (Release.reduceVecI64 m) m.reduceVecI64 (·.length = n) ∧ ConstantTime (Release.centerVec m) m.centerVec (·.length = n) ∧
    ConstantTime (Release.lazyReduceVec m) m.lazyReduceVec (·.length = n) :=
  ⟨.of (fun _ => addVec_agrees m _ _) fun _ _ hx hy => addVec_indist m (hx.1.trans hy.1.symm) (hx.2.trans hy.2.symm),
   .of (fun _ => subVec_agrees m _ _) fun _ _ hx hy => subVec_indist m (hx.1.trans hy.1.symm) (hx.2.trans hy.2.symm),
   .of (fun _ => mulVec_agrees m _ _) fun _ _ hx hy => mulVec_indist m (hx.1.trans hy.1.symm) (hx.2.trans hy.2.symm),
   .of (fun _ => mulShoupVec_agrees m _ _ _) fun _ _ hx hy =>
     mulShoupVec_indist m (hx.1.trans hy.1.symm) (hx.2.1.trans hy.2.1.symm) (hx.2.2.trans hy.2.2.symm),
   .of (negVec_agrees m) fun _ _ hx hy => negVec_indist m (hx.trans hy.symm),
   .of (reduceVec_agrees m) fun _ _ hx hy => reduceVec_indist m (hx.trans hy.symm),
   .of (reduceVecI64_agrees m) fun _ _ hx hy => reduceVecI64_indist m (hx.trans hy.symm),
   .of (centerVec_agrees m) fun _ _ hx hy => centerVec_indist m (hx.trans hy.symm),
   .of (lazyReduceVec_agrees m) fun _ _ hx hy => lazyReduceVec_indist m (hx.trans hy.symm)⟩

example : ∃ m : Modulus, ∃ tr, Release.addVec m [3, 4611686018326724608] [5, 2] = ⟨some [8, 1], tr⟩ ∧
    Release.addVec m [0, 0] [0, 0] = ⟨some [0, 0], tr⟩ := by
  obtain ⟨m, h⟩ := witness62
  obtain ⟨tr, ht⟩ := (C76_vectors m 2).1
  have h1 := (C06_vec_binary h (a := [3, 4611686018326724608]) (b := [5, 2]) rfl (by simp) (by simp)).1
  have h2 := (C06_vec_binary h (a := [0, 0]) (b := [0, 0]) rfl (by simp) (by simp)).1
  exact ⟨m, tr, ht ([3, 4611686018326724608], [5, 2]) ⟨rfl, rfl⟩ _ h1, ht ([0, 0], [0, 0]) ⟨rfl, rfl⟩ _ h2⟩

/-- The multiplication of a vector by a scalar shows nothing of the vector. -/
theorem C76_scalar_mul_vec (m : Modulus) (n s : Nat) : ConstantTime (fun a => Release.scalarMulVec m a s) (fun a => m.scalarMulVec a s) (·.length = n) :=
  .of (fun _ => scalarMulVec_agrees m _ _) fun _ _ hx hy => scalarMulVec_indist m (hx.trans hy.symm) s

/-- Finding: it shows the scalar completely, because it divides by the modulus to precompute a factor, although it is documented as constant
time (`/repo/crates/fhe-math/src/zq/mod.rs` lines 346-355). -/
theorem C76_scalar_mul_vec_reveals_scalar (m : Modulus) (a a' : List Nat) {s s' : Nat} (hs : s < 2 ^ 64) (hs' : s' < 2 ^ 64)
    (h : (Release.scalarMulVec m a s).trace = (Release.scalarMulVec m a' s').trace) : s = s' := by
  have key : ∀ (a : List Nat) (s : Nat), ∃ rest, (Release.scalarMulVec m a s).trace = Event.divide (shl128 s 64) m.p :: rest := by
    intro a s
    by_cases hp : m.p = 0
    · exact ⟨[], by simp [Release.scalarMulVec, Release.shoup, Release.divide, bind_def, Timed.bind, hp]⟩
    · exact ⟨_, by simp [Release.scalarMulVec, Release.shoup, Release.divide, bind_def, Timed.bind, hp]; rfl⟩
  obtain ⟨r, h1⟩ := key a s
  obtain ⟨r', h2⟩ := key a' s'
  rw [h1, h2] at h
  have he : shl128 s 64 = shl128 s' 64 := by
    have := (List.cons.inj h).1
    simpa using this
  rw [shl128, shl128, Nat.shiftLeft_eq, Nat.shiftLeft_eq, Nat.mod_eq_of_lt (by omega), Nat.mod_eq_of_lt (by omega)] at he
  exact Nat.eq_of_mul_eq_mul_right (by positivity) he

/-! ## Transforms -/

/-- The number-theoretic transforms show the operator (its size and tables) only. -/
theorem C76_ntt (op : NttOperator) (n : Nat) :
    ConstantTime (Release.forward op) op.forward (·.length = n) ∧ ConstantTime (Release.backward op) op.backward (·.length = n) :=
  ⟨.of (forward_agrees op) fun _ _ hx hy => forward_indist op (hx.trans hy.symm),
   .of (backward_agrees op) fun _ _ hx hy => backward_indist op (hx.trans hy.symm)⟩

/-! ## Sampling -/

/-- The sampler of errors and secrets shows the number of samples and the variance only, for all random words. -/
theorem C76_sampler (size v : Nat) : ConstantTime (Release.sampleVecCbd size v) (Fhe.sampleVecCbd size v) (fun _ => True) :=
  .of (sampleVecCbd_agrees size v) fun x y _ _ => sampleVecCbd_indist size v x y

/-! ## Polynomials -/

/-- Operations on polynomials that do not allow variable time show the context and the representation only.  The admissible operands are those
that agree with a given one (`a₀`, `b₀`) in context, timing flag and shape; if that one allows variable time it is public. -/
theorem C76_poly_ops {r : Rep} (a₀ b₀ : Poly r) :
    ConstantTime (fun x : Poly r × Poly r => Release.addAssign x.1 x.2) (fun x => x.1.addAssign x.2) (fun x => SamePublic a₀ x.1 ∧ SamePublic b₀ x.2) ∧
    ConstantTime (fun x : Poly r × Poly r => Release.subAssign x.1 x.2) (fun x => x.1.subAssign x.2) (fun x => SamePublic a₀ x.1 ∧ SamePublic b₀ x.2) ∧
    ConstantTime (fun x : Poly r => Release.polyNeg x) (fun x => x.neg) (SamePublic a₀) ∧
    (∀ e, ConstantTime (fun x : Poly r => Release.substitute x e) (fun x => x.substitute e) (SamePublic a₀)) ∧
    ∀ s, ConstantTime (fun x : Poly r => Release.mulScalar x s) (fun x => x.mulScalar s) (SamePublic a₀) :=
  ⟨.of (fun _ => addAssign_agrees _ _) fun _ _ hx hy => addAssign_indist (hx.1.common hy.1) (hx.2.common hy.2),
   .of (fun _ => subAssign_agrees _ _) fun _ _ hx hy => subAssign_indist (hx.1.common hy.1) (hx.2.common hy.2),
   .of (fun _ => polyNeg_agrees _) fun _ _ hx hy => polyNeg_indist (hx.common hy),
   fun e => .of (fun _ => substitute_agrees _ _) fun _ _ hx hy => substitute_indist (hx.common hy) e,
   fun s => .of (fun _ => mulScalar_agrees _ _) fun _ _ hx hy => mulScalar_indist (hx.common hy) s⟩

/-- Two different polynomials that are admissible together. -/
example (ctx : Context) : ∃ a b : Poly .powerBasis, SamePublic a b ∧ a ≠ b :=
  ⟨_, _, SamePublic.zero .powerBasis ctx (x := [[1, 0], [2, 3]]) (y := [[0, 5], [7, 0]]) (by simp [SameShape, SameLen]), by simp⟩

/-- The products. -/
theorem C76_poly_mul (a₀ b₀ : Poly .ntt) (f₀ : Poly .nttShoup) :
    ConstantTime (fun x : Poly .ntt × Poly .ntt => Release.mulAssign x.1 x.2) (fun x => x.1.mulAssign x.2) (fun x => SamePublic a₀ x.1 ∧ SamePublic b₀ x.2) ∧
    ConstantTime (fun x : Poly .ntt × Poly .nttShoup => Release.mulAssignShoup x.1 x.2) (fun x => x.1.mulAssignShoup x.2)
      (fun x => SamePublic a₀ x.1 ∧ SamePublic f₀ x.2) :=
  ⟨.of (fun _ => mulAssign_agrees _ _) fun _ _ hx hy => mulAssign_indist (hx.1.common hy.1) (hx.2.common hy.2),
   .of (fun _ => mulAssignShoup_agrees _ _) fun _ _ hx hy => mulAssignShoup_indist (hx.1.common hy.1) (hx.2.common hy.2)⟩

/-- The changes of representation and of modulus. -/
theorem C76_poly_convert (a₀ : Poly .powerBasis) (b₀ : Poly .ntt) :
    ConstantTime Release.intoNtt (fun x => x.intoNtt) (SamePublic a₀) ∧ ConstantTime Release.nttToPowerBasis (fun x => x.nttToPowerBasis) (SamePublic b₀) ∧
    ConstantTime Release.switchDown (fun x => x.switchDown) (SamePublic a₀) ∧
    ∀ ctx, ConstantTime (fun x => Release.switchDownTo x ctx) (fun x => x.switchDownTo ctx) (SamePublic a₀) :=
  ⟨.of (fun _ => intoNtt_agrees _) fun _ _ hx hy => intoNtt_indist (hx.common hy),
   .of (fun _ => nttToPowerBasis_agrees _) fun _ _ hx hy => nttToPowerBasis_indist (hx.common hy),
   .of (fun _ => switchDown_agrees _) fun _ _ hx hy => switchDown_indist (hx.common hy),
   fun ctx => .of (fun _ => switchDownTo_agrees _ _) fun _ _ hx hy => switchDownTo_indist (hx.common hy) ctx⟩

/-- Polynomials from coefficients, and small random polynomials. -/
theorem C76_poly_create (ctx : Context) (n variance : Nat) :
    ConstantTime (fun v => Release.tryFromI64 v ctx false) (fun v => Poly.tryFromI64 v ctx false) (·.length = n) ∧
    ConstantTime (fun v => Release.tryFromU64 v ctx false) (fun v => Poly.tryFromU64 v ctx false) (·.length = n) ∧
    ConstantTime (Release.smallPowerBasis ctx variance) (Poly.smallPowerBasis ctx variance) (fun _ => True) ∧
    ConstantTime (Release.smallNtt ctx variance) (Poly.smallNtt ctx variance) (fun _ => True) :=
  ⟨.of (fun _ => tryFromI64_agrees _ _ _) fun _ _ hx hy => tryFromI64_indist (hx.trans hy.symm) ctx,
   .of (fun _ => tryFromU64_agrees _ _ _) fun _ _ hx hy => tryFromU64_indist (hx.trans hy.symm) ctx,
   .of (smallPowerBasis_agrees ctx variance) fun x y _ _ => smallPowerBasis_indist ctx variance x y,
   .of (smallNtt_agrees ctx variance) fun x y _ _ => smallNtt_indist ctx variance x y⟩

end Fhe.Props
