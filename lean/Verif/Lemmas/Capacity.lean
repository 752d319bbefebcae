import Verif.Spec.Capacity
import Verif.Props.Examples
import Verif.Props.Circuit
/-!
# How noise grows with the depth
-/
namespace Fhe.Props
open Nega Poly ParamsBuilder

/-- A bound on the noise of a product, with the numbers as arguments: degree, modulus, what a key switch adds, plaintext modulus. -/
def stepNoise (N Q K t V : Nat) : Nat :=
  max V (max (N * V * t)
    (N * (2 * ((t * (Q * (2 ^ 55 + 1) / 2 ^ 56 * (1 + N * 20)) + V) / Q * V)) + (N * V * V + t * ((2 ^ 61 + 1) * Q / 2 ^ 62 * (1 + N * 20 + (N * 20) ^ 2))) / Q + t * K))

/-- A bound on the noise of one term at each depth. -/
def levelNoise (N Q K t w : Nat) : Nat → Nat
  | 0 => t * (800 * N + 21)
  | d + 1 => stepNoise N Q K t (w * levelNoise N Q K t w d)

/-- The sizes are such that decryption is certain. -/
def capacityCheck (e : Nat × Nat × Nat × Nat) : Bool :=
  (defaultTable.filter fun l => l.1 == e.1).all fun l =>
    decide (2 ^ 62 * (e.2.2.1 * levelNoise e.1 l.2.prod (e.1 * l.2.sum * 20) (2 ^ e.2.1) e.2.2.1 e.2.2.2) ≤ (2 ^ 61 - 1) * l.2.prod) && decide (2 * 2 ^ e.2.1 ≤ l.2.headD 0) && decide (1 ≤ e.2.2.1)
      && (decide (2 ≤ l.2.length) || e.2.2.2 == 0)

theorem capacities_ok : ∀ e ∈ capacities, capacityCheck e = true := by decide +kernel

theorem stepNoise_mono {N Q K t t' V V' : Nat} (ht : t ≤ t') (hV : V ≤ V') : stepNoise N Q K t V ≤ stepNoise N Q K t' V' := by
  unfold stepNoise
  gcongr

theorem levelNoise_mono {N Q K t t' w : Nat} (ht : t ≤ t') (d : Nat) : levelNoise N Q K t w d ≤ levelNoise N Q K t' w d := by
  induction d with
  | zero => exact Nat.mul_le_mul_right _ ht
  | succ d ih => exact stepNoise_mono ht (Nat.mul_le_mul_left _ ih)

theorem levelNoise_le {N Q K t w : Nat} (hw : 1 ≤ w) {d d' : Nat} (h : d ≤ d') : levelNoise N Q K t w d ≤ levelNoise N Q K t w d' := by
  induction h with
  | refl => exact le_refl _
  | @step m hm ih =>
    refine ih.trans (le_trans ?_ (le_max_left _ _))
    exact Nat.le_mul_of_pos_left _ hw

variable {par : Par}

theorem productNoise_le {rk : RelinearizationKey} {K V V' W : Nat} (hrk : rk.ksk.errorBound par 20 20 ≤ K) (h1 : V ≤ W) (h2 : V' ≤ W) :
    Circuit.productNoise par rk 0 20 20 V V' ≤ stepNoise par.degree (par.modulusAt 0) K par.plaintext.value W := by
  refine le_trans ?_ (le_trans (le_max_right _ _) (le_max_right _ _))
  have g2 : geom (par.degree * 20) 2 = 1 + par.degree * 20 := by simp [geom, Finset.sum_range_succ]
  have g3 : geom (par.degree * 20) 3 = 1 + par.degree * 20 + (par.degree * 20) ^ 2 := by simp [geom, Finset.sum_range_succ]
  unfold Circuit.productNoise
  simp only []
  rw [g2, g3, two_mul]
  gcongr

/-- The noise of an arithmetic computation, by the number of its terms and its depth. -/
theorem noise_le {E : Circuit.Env} {D : Circuit.Data par} {K w : Nat} (hw : 1 ≤ w) (hS : D.secret = 20) (he : D.keyError = 20)
    (hin : ∀ k, D.noise 0 k ≤ par.plaintext.value * (800 * par.degree + 21)) (hrk : (E.rk 0).ksk.errorBound par 20 20 ≤ K) {i : Nat} (c : Circuit i) (hi : i = 0)
    (hc : Circuit.Arithmetic.go w c) : c.noise E D ≤ c.terms * levelNoise par.degree (par.modulusAt 0) K par.plaintext.value w c.depth := by
  have hmax : ∀ {d d' x : Nat} (n : Nat), x ≤ n * levelNoise par.degree (par.modulusAt 0) K par.plaintext.value w d → d ≤ d' →
      x ≤ n * levelNoise par.degree (par.modulusAt 0) K par.plaintext.value w d' := fun n h1 h2 => h1.trans (Nat.mul_le_mul_left _ (levelNoise_le hw h2))
  have hplain : ∀ d, par.plaintext.value ≤ levelNoise par.degree (par.modulusAt 0) K par.plaintext.value w d := fun d => by
    refine le_trans ?_ (levelNoise_le hw (Nat.zero_le d))
    exact Nat.le_mul_of_pos_right _ (by omega)
  induction c with
  | input i k => subst hi; simpa [Circuit.noise, Circuit.terms, Circuit.depth, levelNoise] using hin k
  | add a b iha ihb =>
    have h1 := hmax _ (iha hi hc.1) (le_max_left a.depth b.depth)
    have h2 := hmax _ (ihb hi hc.2) (le_max_right a.depth b.depth)
    simp only [Circuit.noise, Circuit.terms, Circuit.depth, Nat.add_mul]
    exact Nat.add_le_add h1 h2
  | sub a b iha ihb =>
    have h1 := hmax _ (iha hi hc.1) (le_max_left a.depth b.depth)
    have h2 := hmax _ (ihb hi hc.2) (le_max_right a.depth b.depth)
    simp only [Circuit.noise, Circuit.terms, Circuit.depth, Nat.add_mul]
    exact Nat.add_le_add h1 h2
  | neg a iha => exact iha hi hc
  | addPlain a k iha =>
    have h1 := iha hi hc
    simp only [Circuit.noise, Circuit.terms, Circuit.depth, Nat.add_mul, Nat.one_mul]
    exact Nat.add_le_add h1 (hplain _)
  | subPlain a k iha =>
    have h1 := iha hi hc
    simp only [Circuit.noise, Circuit.terms, Circuit.depth, Nat.add_mul, Nat.one_mul]
    exact Nat.add_le_add h1 (hplain _)
  | plainSub k a iha =>
    have h1 := iha hi hc
    simp only [Circuit.noise, Circuit.terms, Circuit.depth, Nat.add_mul, Nat.one_mul]
    exact Nat.add_le_add h1 (hplain _)
  | mulPlain a k iha =>
    have h1 := (iha hi hc.2).trans (Nat.mul_le_mul_right _ hc.1)
    simp only [Circuit.noise, Circuit.terms, Circuit.depth, Nat.one_mul]
    refine le_trans ?_ (le_trans (le_max_left _ _) (le_max_right _ _))
    gcongr
  | mul a b iha ihb =>
    subst hi
    have h1 := hmax _ ((iha rfl hc.2.2.1).trans (Nat.mul_le_mul_right _ hc.1)) (le_max_left a.depth b.depth)
    have h2 := hmax _ ((ihb rfl hc.2.2.2).trans (Nat.mul_le_mul_right _ hc.2.1)) (le_max_right a.depth b.depth)
    simp only [Circuit.noise, Circuit.terms, Circuit.depth, Nat.one_mul, hS, he]
    exact productNoise_le hrk h1 h2
  | _ => exact hc.elim

end Fhe.Props
