import Mathlib.RingTheory.AdjoinRoot
import Mathlib.Tactic.Ring
import Mathlib.Tactic.Abel
import Verif.Spec.Nega
/-! Ring structure on `Nega N R`, evaluation, substitution and coefficient maps. -/
namespace Fhe.Nega
open Finset

variable {N : Nat} {R S : Type*} [CommRing R] [CommRing S]

omit [CommRing R] in
@[ext] theorem ext {f g : Nega N R} (h : ∀ i, f i = g i) : f = g := funext h

theorem coeff_of_lt (f : Nega N R) {i : Nat} (h : i < N) : coeff f i = f ⟨i, h⟩ := dif_pos h
@[simp] theorem coeff_val (f : Nega N R) (i : Fin N) : coeff f i.val = f i := dif_pos i.isLt

@[simp] theorem zero_apply (i : Fin N) : (0 : Nega N R) i = 0 := rfl
@[simp] theorem add_apply (f g : Nega N R) (i : Fin N) : (f + g) i = f i + g i := rfl
@[simp] theorem neg_apply (f : Nega N R) (i : Fin N) : (-f) i = - f i := rfl
@[simp] theorem sub_apply (f g : Nega N R) (i : Fin N) : (f - g) i = f i - g i := rfl
theorem one_apply (i : Fin N) : (1 : Nega N R) i = if i.val = 0 then 1 else 0 := rfl

theorem mul_apply (f g : Nega N R) (k : Fin N) : (f * g) k =
    ∑ i : Fin N, ∑ j : Fin N, if i.val + j.val = k.val then f i * g j else if i.val + j.val = k.val + N then -(f i * g j) else 0 := by
  change Spec.negaCoeff N (coeff f) (coeff g) k = _
  unfold Spec.negaCoeff
  rw [← Fin.sum_univ_eq_sum_range (fun i => ∑ j ∈ range N, if i + j = k.val then coeff f i * coeff g j else
    if i + j = k.val + N then -(coeff f i * coeff g j) else 0) N]
  refine sum_congr rfl fun i _ => ?_
  rw [← Fin.sum_univ_eq_sum_range (fun j => if i.val + j = k.val then coeff f i.val * coeff g j else
    if i.val + j = k.val + N then -(coeff f i.val * coeff g j) else 0) N]
  simp

/-- `Σ_i ρ(f_i) s^i`. -/
def evalFn (ρ : R →+* S) (s : S) (f : Nega N R) : S := ∑ i : Fin N, ρ (f i) * s ^ i.val

theorem sum_wrap {s : S} (hs : s ^ N = -1) (i j : Fin N) (c : S) :
    ∑ k : Fin N, (if i.val + j.val = k.val then c else if i.val + j.val = k.val + N then -c else 0) * s ^ k.val = c * s ^ (i.val + j.val) := by
  by_cases h : i.val + j.val < N
  · rw [sum_eq_single ⟨i.val + j.val, h⟩]
    · simp
    · intro k _ hk
      rw [if_neg (fun e => hk (Fin.ext e.symm)), if_neg (by omega), zero_mul]
    · intro h'; exact absurd (mem_univ _) h'
  · have hi := i.isLt
    have hj := j.isLt
    rw [sum_eq_single ⟨i.val + j.val - N, by omega⟩]
    · simp only
      rw [if_neg (by omega), if_pos (by omega)]
      have : i.val + j.val = (i.val + j.val - N) + N := by omega
      conv_rhs => rw [this, pow_add, hs]
      ring
    · intro k _ hk
      have : k.val ≠ i.val + j.val - N := fun e => hk (Fin.ext e)
      rw [if_neg (by omega), if_neg (by omega), zero_mul]
    · intro h'; exact absurd (mem_univ _) h'

theorem evalFn_mul (ρ : R →+* S) {s : S} (hs : s ^ N = -1) (f g : Nega N R) : evalFn ρ s (f * g) = evalFn ρ s f * evalFn ρ s g := by
  unfold evalFn
  have h1 : ∀ k : Fin N, ρ ((f * g) k) * s ^ k.val = ∑ i : Fin N, ∑ j : Fin N,
      (if i.val + j.val = k.val then ρ (f i * g j) else if i.val + j.val = k.val + N then -ρ (f i * g j) else 0) * s ^ k.val := by
    intro k
    rw [mul_apply, map_sum, sum_mul]
    refine sum_congr rfl fun i _ => ?_
    rw [map_sum, sum_mul]
    refine sum_congr rfl fun j _ => ?_
    split
    · rfl
    · split <;> simp
  rw [sum_congr rfl fun k _ => h1 k, sum_comm]
  have h2 : ∀ i : Fin N, (∑ k : Fin N, ∑ j : Fin N,
      (if i.val + j.val = k.val then ρ (f i * g j) else if i.val + j.val = k.val + N then -ρ (f i * g j) else 0) * s ^ k.val) =
      ∑ j : Fin N, ρ (f i * g j) * s ^ (i.val + j.val) := by
    intro i
    rw [sum_comm]
    exact sum_congr rfl fun j _ => sum_wrap hs i j _
  rw [sum_congr rfl fun i _ => h2 i, sum_mul_sum]
  refine sum_congr rfl fun i _ => sum_congr rfl fun j _ => ?_
  rw [map_mul, pow_add]; ring

theorem evalFn_add (ρ : R →+* S) (s : S) (f g : Nega N R) : evalFn ρ s (f + g) = evalFn ρ s f + evalFn ρ s g := by
  unfold evalFn; rw [← sum_add_distrib]; exact sum_congr rfl fun i _ => by rw [add_apply, map_add, add_mul]
theorem evalFn_neg (ρ : R →+* S) (s : S) (f : Nega N R) : evalFn ρ s (-f) = -evalFn ρ s f := by
  unfold evalFn; rw [← sum_neg_distrib]; exact sum_congr rfl fun i _ => by rw [neg_apply, map_neg, neg_mul]
theorem evalFn_zero (ρ : R →+* S) (s : S) : evalFn ρ s (0 : Nega N R) = 0 := by
  unfold evalFn; simp
theorem evalFn_one (ρ : R →+* S) (s : S) (hN : 0 < N) : evalFn ρ s (1 : Nega N R) = 1 := by
  unfold evalFn
  rw [sum_eq_single ⟨0, hN⟩]
  · simp [one_apply]
  · intro i _ hi
    rw [one_apply, if_neg (fun e => hi (Fin.ext e)), map_zero, zero_mul]
  · intro h; exact absurd (mem_univ _) h

section inj
open Polynomial
/-- The class of `Σ f_i X^i` in `R[X]/(X^N+1)`. -/
noncomputable def toAdjoin (f : Nega N R) : AdjoinRoot (X ^ N + 1 : R[X]) := evalFn (AdjoinRoot.of _) (AdjoinRoot.root _) f

theorem root_pow : (AdjoinRoot.root (X ^ N + 1 : R[X])) ^ N = -1 := by
  have h := AdjoinRoot.eval₂_root (X ^ N + 1 : R[X])
  rw [eval₂_add, eval₂_pow, eval₂_X, eval₂_one] at h
  exact eq_neg_of_add_eq_zero_left h

theorem toAdjoin_injective (hN : 0 < N) : Function.Injective (toAdjoin : Nega N R → _) := by
  intro f g h
  by_contra hne
  have : Nontrivial R := by
    by_contra hs
    rw [not_nontrivial_iff_subsingleton] at hs
    exact hne (ext fun i => Subsingleton.elim _ _)
  have hmk : ∀ f : Nega N R, toAdjoin f = AdjoinRoot.mk (X ^ N + 1 : R[X]) (∑ i : Fin N, Polynomial.C (f i) * Polynomial.X ^ i.val) := by
    intro f
    unfold toAdjoin evalFn
    rw [map_sum]
    exact sum_congr rfl fun i _ => by rw [map_mul, map_pow, AdjoinRoot.mk_C, AdjoinRoot.mk_X]
  rw [hmk, hmk, AdjoinRoot.mk_eq_mk] at h
  have hmonic : (X ^ N + 1 : R[X]).Monic := by
    have := Polynomial.monic_X_pow_add_C (1 : R) (n := N) (by omega)
    simpa using this
  have hdeg : (X ^ N + 1 : R[X]).degree = N := by
    have := Polynomial.degree_X_pow_add_C hN (1 : R)
    simpa using this
  have hsub : (∑ i : Fin N, Polynomial.C (f i) * Polynomial.X ^ i.val) - (∑ i : Fin N, Polynomial.C (g i) * Polynomial.X ^ i.val) =
      ∑ i : Fin N, Polynomial.C (f i - g i) * Polynomial.X ^ i.val := by
    rw [← sum_sub_distrib]; exact sum_congr rfl fun i _ => by rw [Polynomial.C_sub, sub_mul]
  rw [hsub] at h
  have hd : (∑ i : Fin N, Polynomial.C (f i - g i) * Polynomial.X ^ i.val).degree < (N : WithBot Nat) := by
    refine lt_of_le_of_lt (Polynomial.degree_sum_le _ _) ?_
    rw [Finset.sup_lt_iff (by exact WithBot.bot_lt_coe N)]
    intro i _
    exact lt_of_le_of_lt (Polynomial.degree_C_mul_X_pow_le _ _) (by exact_mod_cast i.isLt)
  have h0 : (∑ i : Fin N, Polynomial.C (f i - g i) * Polynomial.X ^ i.val) = 0 := by
    by_contra hn
    exact hmonic.not_dvd_of_degree_lt hn (by rw [hdeg]; exact hd) h
  refine hne (ext fun k => ?_)
  have hc := congrArg (fun p => Polynomial.coeff p k.val) h0
  simp only [Polynomial.finsetSum_coeff, Polynomial.coeff_C_mul, Polynomial.coeff_X_pow, Polynomial.coeff_zero] at hc
  rw [sum_eq_single k] at hc
  · simpa [sub_eq_zero] using hc
  · intro i _ hi
    rw [if_neg (fun e => hi (Fin.ext e.symm)), mul_zero]
  · intro h; exact absurd (mem_univ _) h
end inj

theorem eq_of_adjoin {f g : Nega N R} (h : 0 < N → toAdjoin f = toAdjoin g) : f = g := by
  rcases Nat.eq_zero_or_pos N with rfl | hN
  · exact ext fun i => i.elim0
  · exact toAdjoin_injective hN (h hN)

theorem toAdjoin_mul (f g : Nega N R) : toAdjoin (f * g) = toAdjoin f * toAdjoin g := evalFn_mul _ root_pow f g
theorem toAdjoin_add (f g : Nega N R) : toAdjoin (f + g) = toAdjoin f + toAdjoin g := evalFn_add _ _ f g

instance : AddCommGroup (Nega N R) where
  add_assoc a b c := ext fun i => add_assoc _ _ _
  zero_add a := ext fun i => zero_add _
  add_zero a := ext fun i => add_zero _
  add_comm a b := ext fun i => add_comm _ _
  neg_add_cancel a := ext fun i => neg_add_cancel _
  sub_eq_add_neg a b := ext fun i => sub_eq_add_neg _ _
  nsmul := nsmulRec
  zsmul := zsmulRec

instance : CommRing (Nega N R) where
  mul_assoc a b c := eq_of_adjoin fun _ => by simp only [toAdjoin_mul, mul_assoc]
  mul_comm a b := eq_of_adjoin fun _ => by simp only [toAdjoin_mul, mul_comm]
  one_mul a := eq_of_adjoin fun h => by rw [toAdjoin_mul, show toAdjoin (1 : Nega N R) = 1 from evalFn_one _ _ h, one_mul]
  mul_one a := eq_of_adjoin fun h => by rw [toAdjoin_mul, show toAdjoin (1 : Nega N R) = 1 from evalFn_one _ _ h, mul_one]
  left_distrib a b c := eq_of_adjoin fun _ => by simp only [toAdjoin_mul, toAdjoin_add, mul_add]
  right_distrib a b c := eq_of_adjoin fun _ => by simp only [toAdjoin_mul, toAdjoin_add, add_mul]
  zero_mul a := eq_of_adjoin fun _ => by rw [toAdjoin_mul, show toAdjoin (0 : Nega N R) = 0 from evalFn_zero _ _, zero_mul]
  mul_zero a := eq_of_adjoin fun _ => by rw [toAdjoin_mul, show toAdjoin (0 : Nega N R) = 0 from evalFn_zero _ _, mul_zero]
  zsmul := zsmulRec
  neg_add_cancel a := neg_add_cancel a
  sub_eq_add_neg a b := sub_eq_add_neg a b

/-- Evaluation at a root of `X^N + 1`. -/
def eval (ρ : R →+* S) (s : S) (hs : s ^ N = -1) (hN : 0 < N) : Nega N R →+* S where
  toFun := evalFn ρ s
  map_one' := evalFn_one ρ s hN
  map_mul' := evalFn_mul ρ hs
  map_zero' := evalFn_zero ρ s
  map_add' := evalFn_add ρ s

/-- Coefficientwise application of a ring homomorphism. -/
def map (φ : R →+* S) : Nega N R →+* Nega N S where
  toFun f := mapFn φ f
  map_one' := ext fun i => by change φ (if _ then _ else _) = if _ then _ else _; split <;> simp
  map_zero' := ext fun i => by change φ 0 = 0; simp
  map_add' f g := ext fun i => by change φ (f i + g i) = φ (f i) + φ (g i); simp
  map_mul' f g := ext fun k => by
    change φ ((f * g) k) = _
    rw [mul_apply, mul_apply, map_sum]
    refine sum_congr rfl fun i _ => ?_
    rw [map_sum]
    refine sum_congr rfl fun j _ => ?_
    change φ (if _ then _ else if _ then _ else _) = if _ then φ (f i) * φ (g j) else if _ then -(φ (f i) * φ (g j)) else 0
    split
    · rw [map_mul]
    · split
      · rw [map_neg, map_mul]
      · rw [map_zero]

@[simp] theorem map_apply (φ : R →+* S) (f : Nega N R) (i : Fin N) : map φ f i = φ (f i) := rfl

@[simp] theorem sum_apply {ι : Type*} (s : Finset ι) (f : ι → Nega N R) (i : Fin N) : (∑ x ∈ s, f x) i = ∑ x ∈ s, f x i := by
  classical
  induction s using Finset.induction_on with
  | empty => simp
  | insert a s ha ih => rw [sum_insert ha, sum_insert ha, add_apply, ih]

/-- Constants. -/
def C : R →+* Nega N R where
  toFun a := const a
  map_one' := rfl
  map_zero' := ext fun i => by simp [const]
  map_add' a b := ext fun i => by simp only [const, add_apply]; split <;> simp
  map_mul' a b := by
    refine eq_of_adjoin fun hN => ?_
    have h : ∀ a : R, toAdjoin (const a : Nega N R) = AdjoinRoot.of _ a := by
      intro a
      unfold toAdjoin evalFn
      rw [sum_eq_single ⟨0, hN⟩]
      · simp [const]
      · intro i _ hi
        rw [const, if_neg (fun e => hi (Fin.ext e)), map_zero, zero_mul]
      · intro h; exact absurd (mem_univ _) h
    rw [toAdjoin_mul, h, h, h, map_mul]

theorem C_apply (a : R) (i : Fin N) : (C a : Nega N R) i = if i.val = 0 then a else 0 := rfl

theorem C_mul_apply (a : R) (f : Nega N R) (k : Fin N) : ((C a : Nega N R) * f) k = a * f k := by
  have hN : 0 < N := lt_of_le_of_lt (Nat.zero_le _) k.isLt
  rw [mul_apply, sum_eq_single ⟨0, hN⟩]
  · rw [sum_eq_single k]
    · simp [C_apply]
    · intro j _ hj
      have : j.val ≠ k.val := fun e => hj (Fin.ext e)
      have := j.isLt
      simp only
      rw [if_neg (by omega), if_neg (by omega)]
    · intro h; exact absurd (mem_univ _) h
  · intro i _ hi
    refine sum_eq_zero fun j _ => ?_
    rw [C_apply, if_neg (fun e => hi (Fin.ext e))]; simp
  · intro h; exact absurd (mem_univ _) h

theorem evalFn_mono (ρ : R →+* S) {s : S} (hs : s ^ N = -1) (hN : 0 < N) (k : Nat) : evalFn ρ s (mono k : Nega N R) = s ^ k := by
  unfold evalFn
  rw [sum_eq_single ⟨k % N, Nat.mod_lt _ hN⟩]
  · simp only [mono, if_true]
    conv_rhs => rw [← Nat.div_add_mod k N, pow_add, pow_mul, hs]
    rcases Nat.mod_two_eq_zero_or_one (k / N) with h | h
    · rw [if_pos h, map_one, Even.neg_one_pow (Nat.even_iff.2 h)]
    · rw [if_neg (by omega), map_neg, map_one, Odd.neg_one_pow (Nat.odd_iff.2 h)]
  · intro i _ hi
    rw [mono, if_neg (fun e => hi (Fin.ext e)), map_zero, zero_mul]
  · intro h; exact absurd (mem_univ _) h

theorem mono_add (a b : Nat) : (mono (a + b) : Nega N R) = mono a * mono b :=
  eq_of_adjoin fun hN => by
    rw [toAdjoin_mul]; unfold toAdjoin
    rw [evalFn_mono _ root_pow hN, evalFn_mono _ root_pow hN, evalFn_mono _ root_pow hN, pow_add]

theorem mono_zero : (mono 0 : Nega N R) = 1 := ext fun i => by
  simp [mono, one_apply, Nat.zero_div]

theorem mono_pow (a k : Nat) : (mono a : Nega N R) ^ k = mono (a * k) := by
  induction k with
  | zero => rw [pow_zero, Nat.mul_zero, mono_zero]
  | succ k ih => rw [pow_succ, ih, ← mono_add, Nat.mul_succ]

theorem mono_N : (mono N : Nega N R) = -1 := ext fun i => by
  have hN : 0 < N := lt_of_le_of_lt (Nat.zero_le _) i.isLt
  rw [mono, neg_apply, one_apply, Nat.mod_self, Nat.div_self hN]
  by_cases h : i.val = 0 <;> simp [h]

theorem mono_two_mul : (mono (2 * N) : Nega N R) = 1 := by
  rw [two_mul, mono_add, mono_N]; ring

theorem mono_mod (k : Nat) : (mono (k % (2 * N)) : Nega N R) = mono k := by
  conv_rhs => rw [← Nat.div_add_mod k (2 * N), mono_add, ← mono_pow, mono_two_mul, one_pow, one_mul]

theorem mono_odd_pow {e : Nat} (he : e % 2 = 1) : (mono e : Nega N R) ^ N = -1 := by
  rw [mono_pow, mul_comm, ← mono_pow, mono_N, Odd.neg_one_pow (Nat.odd_iff.2 he)]

theorem eq_sum_mono (f : Nega N R) : f = ∑ i : Fin N, (C (f i) : Nega N R) * mono i.val := ext fun k => by
  rw [sum_apply, sum_eq_single k]
  · rw [C_mul_apply, mono, if_pos (Nat.mod_eq_of_lt k.isLt).symm, Nat.div_eq_of_lt k.isLt]; simp
  · intro i _ hi
    rw [C_mul_apply, mono, Nat.mod_eq_of_lt i.isLt, if_neg (fun e => hi (Fin.ext e.symm)), mul_zero]
  · intro h; exact absurd (mem_univ _) h

theorem subst_eq (e : Nat) (f : Nega N R) : subst e f = evalFn C (mono e) f := ext fun i => by
  unfold subst evalFn
  rw [sum_apply]
  exact sum_congr rfl fun j _ => by rw [mono_pow, C_mul_apply]

/-- `X ↦ X^e` for odd `e`, as a ring homomorphism. -/
def substHom (e : Nat) (he : e % 2 = 1) : Nega N R →+* Nega N R where
  toFun := subst e
  map_one' := by
    rw [subst_eq]
    rcases Nat.eq_zero_or_pos N with rfl | hN
    · exact ext fun i => i.elim0
    · exact evalFn_one _ _ hN
  map_mul' f g := by simp only [subst_eq]; exact evalFn_mul _ (mono_odd_pow he) f g
  map_zero' := by rw [subst_eq]; exact evalFn_zero _ _
  map_add' f g := by simp only [subst_eq]; exact evalFn_add _ _ f g

theorem substHom_apply (e : Nat) (he : e % 2 = 1) (f : Nega N R) : substHom e he f = subst e f := rfl

theorem subst_mono {e : Nat} (he : e % 2 = 1) (k : Nat) : subst e (mono k : Nega N R) = mono (e * k) := by
  rw [subst_eq]
  rcases Nat.eq_zero_or_pos N with rfl | hN
  · exact ext fun i => i.elim0
  · rw [evalFn_mono _ (mono_odd_pow he) hN, mono_pow]

theorem subst_C (e : Nat) (a : R) : subst e (C a : Nega N R) = C a := ext fun i => by
  have hN : 0 < N := lt_of_le_of_lt (Nat.zero_le _) i.isLt
  unfold subst
  rw [sum_eq_single ⟨0, hN⟩]
  · simp only [C_apply, if_true, Nat.mul_zero]
    rw [show (mono 0 : Nega N R) = 1 from mono_zero, one_apply]; simp
  · intro j _ hj
    rw [C_apply, if_neg (fun e => hj (Fin.ext e)), zero_mul]
  · intro h; exact absurd (mem_univ _) h

theorem subst_subst {e e' : Nat} (he : e % 2 = 1) (he' : e' % 2 = 1) (f : Nega N R) : subst e (subst e' f) = subst (e * e') f := by
  conv_lhs => rw [eq_sum_mono f]
  conv_rhs => rw [eq_sum_mono f]
  have heo : (e * e') % 2 = 1 := by rw [Nat.mul_mod, he, he']
  rw [← substHom_apply e he, ← substHom_apply e' he', ← substHom_apply (e * e') heo, map_sum, map_sum, map_sum]
  refine sum_congr rfl fun i _ => ?_
  rw [map_mul, map_mul, map_mul, substHom_apply, substHom_apply, substHom_apply, substHom_apply, substHom_apply, substHom_apply,
    subst_C e', subst_C e, subst_C (e * e'), subst_mono he', subst_mono he, subst_mono heo, mul_assoc]

theorem subst_mod (e : Nat) (f : Nega N R) : subst (e % (2 * N)) f = subst e f := by
  rw [subst_eq, subst_eq, mono_mod]

theorem subst_one (f : Nega N R) : subst 1 f = f := by
  rw [subst_eq]
  conv_rhs => rw [eq_sum_mono f]
  unfold evalFn
  exact sum_congr rfl fun i _ => by rw [mono_pow, one_mul]

theorem map_mono (φ : R →+* S) (k : Nat) : map φ (mono k : Nega N R) = mono k := ext fun i => by
  rw [map_apply]; unfold mono; split
  · split <;> simp
  · simp

theorem map_C (φ : R →+* S) (a : R) : map φ (C a : Nega N R) = C (φ a) := ext fun i => by
  rw [map_apply, C_apply, C_apply]; split <;> simp

theorem map_subst (φ : R →+* S) (e : Nat) (f : Nega N R) : map φ (subst e f) = subst e (map φ f) := ext fun i => by
  rw [map_apply]
  unfold subst
  rw [map_sum]
  refine sum_congr rfl fun j _ => ?_
  rw [map_mul, map_apply]
  congr 1
  exact congrFun (map_mono φ (e * j.val)) i

theorem map_comp {T : Type*} [CommRing T] (φ : R →+* S) (ψ : S →+* T) (f : Nega N R) : map ψ (map φ f) = map (ψ.comp φ) f := rfl

/-- Evaluation after substitution is evaluation at the power. -/
theorem evalFn_subst (ρ : R →+* S) {s : S} (hs : s ^ N = -1) (hN : 0 < N) (e : Nat) (f : Nega N R) :
    evalFn ρ s (subst e f) = evalFn ρ (s ^ e) f := by
  rw [subst_eq]
  unfold evalFn
  conv_lhs => change eval ρ s hs hN (∑ i : Fin N, C (f i) * mono e ^ i.val)
  rw [map_sum]
  refine sum_congr rfl fun i _ => ?_
  rw [map_mul, map_pow]
  have h1 : eval ρ s hs hN (mono e : Nega N R) = s ^ e := evalFn_mono ρ hs hN e
  have h2 : eval ρ s hs hN (C (f i) : Nega N R) = ρ (f i) := by
    change evalFn ρ s _ = _
    unfold evalFn
    rw [sum_eq_single ⟨0, hN⟩]
    · simp [C_apply]
    · intro j _ hj
      rw [C_apply, if_neg (fun e => hj (Fin.ext e)), map_zero, zero_mul]
    · intro h; exact absurd (mem_univ _) h
  rw [h1, h2]

end Fhe.Nega
