import Verif.Spec.Packing
import Verif.Lemmas.Capacity
/-!
# How noise grows with products and rotations
-/
namespace Fhe.Props
open Nega Poly ParamsBuilder

/-- A bound on the noise of one part after each number of products. -/
def packNoise (N Q K t w r : Nat) : Nat → Nat
  | 0 => t * (800 * N + 21)
  | d + 1 => stepNoise N Q K t (w * packNoise N Q K t w r d + r * (t * K))

/-- The sizes are such that decryption is certain. -/
def packingCheck (e : Packing) : Bool :=
  (defaultTable.filter fun l => l.1 == e.degree).all fun l =>
    decide (2 ^ 62 * (e.parts * packNoise e.degree l.2.prod (e.degree * l.2.sum * 20) (2 ^ e.bits) e.factorParts e.factorRotations e.products + e.rotations * (2 ^ e.bits * (e.degree * l.2.sum * 20)))
        ≤ (2 ^ 61 - 1) * l.2.prod) &&
      decide (2 * 2 ^ e.bits ≤ l.2.headD 0) && decide (1 ≤ e.factorParts) && decide (2 ≤ l.2.length)

theorem packings_ok : ∀ e ∈ packings, packingCheck e = true := by decide +kernel

theorem packNoise_mono {N Q K t t' w r : Nat} (ht : t ≤ t') (d : Nat) : packNoise N Q K t w r d ≤ packNoise N Q K t' w r d := by
  induction d with
  | zero => exact Nat.mul_le_mul_right _ ht
  | succ d ih => exact stepNoise_mono ht (Nat.add_le_add (Nat.mul_le_mul_left _ ih) (Nat.mul_le_mul_left _ (Nat.mul_le_mul_right _ ht)))

theorem packNoise_le {N Q K t w r : Nat} (hw : 1 ≤ w) {d d' : Nat} (h : d ≤ d') : packNoise N Q K t w r d ≤ packNoise N Q K t w r d' := by
  induction h with
  | refl => exact le_refl _
  | @step m hm ih =>
    refine ih.trans (le_trans ?_ (le_max_left _ _))
    exact (Nat.le_mul_of_pos_left _ hw).trans (Nat.le_add_right _ _)

variable {par : Par}

/-- The noise of a computation with rotations, by the numbers of its parts, rotations and products. -/
theorem pack_le {E : Circuit.Env} {D : Circuit.Data par} {rs : List EvaluationRequest} {K w r : Nat} (hw : 1 ≤ w) (hS : D.secret = 20) (he : D.keyError = 20) (hg : D.galoisError 0 = K)
    (hin : ∀ k, D.noise 0 k ≤ par.plaintext.value * (800 * par.degree + 21)) (hrk : (E.rk 0).ksk.errorBound par 20 20 ≤ K) {i : Nat} (c : Circuit i) (hi : i = 0)
    (hc : c.Packed par.degree w r rs) :
    c.noise E D ≤ c.parts par.degree * packNoise par.degree (par.modulusAt 0) K par.plaintext.value w r c.products + c.rotations par.degree * (par.plaintext.value * K) := by
  have hmax : ∀ {d d' x : Nat} (n m : Nat), x ≤ n * packNoise par.degree (par.modulusAt 0) K par.plaintext.value w r d + m → d ≤ d' →
      x ≤ n * packNoise par.degree (par.modulusAt 0) K par.plaintext.value w r d' + m := fun n m h1 h2 => h1.trans (Nat.add_le_add_right (Nat.mul_le_mul_left _ (packNoise_le hw h2)) _)
  have hplain : ∀ d, par.plaintext.value ≤ packNoise par.degree (par.modulusAt 0) K par.plaintext.value w r d := fun d => by
    refine le_trans ?_ (packNoise_le hw (Nat.zero_le d))
    exact Nat.le_mul_of_pos_right _ (by omega)
  have hfac : ∀ {x n m : Nat} (d : Nat), x ≤ n * packNoise par.degree (par.modulusAt 0) K par.plaintext.value w r d + m * (par.plaintext.value * K) → n ≤ w → m ≤ r →
      x ≤ w * packNoise par.degree (par.modulusAt 0) K par.plaintext.value w r d + r * (par.plaintext.value * K) :=
    fun d h1 h2 h3 => h1.trans (Nat.add_le_add (Nat.mul_le_mul_right _ h2) (Nat.mul_le_mul_right _ h3))
  induction c with
  | input i k => subst hi; simpa [Circuit.noise, Circuit.parts, Circuit.rotations, Circuit.products, packNoise] using hin k
  | add a b iha ihb =>
    have h1 := hmax _ _ (iha hi hc.1) (le_max_left a.products b.products)
    have h2 := hmax _ _ (ihb hi hc.2) (le_max_right a.products b.products)
    simp only [Circuit.noise, Circuit.parts, Circuit.rotations, Circuit.products, Nat.add_mul]
    omega
  | sub a b iha ihb =>
    have h1 := hmax _ _ (iha hi hc.1) (le_max_left a.products b.products)
    have h2 := hmax _ _ (ihb hi hc.2) (le_max_right a.products b.products)
    simp only [Circuit.noise, Circuit.parts, Circuit.rotations, Circuit.products, Nat.add_mul]
    omega
  | neg a iha => exact iha hi hc
  | addPlain a k iha =>
    have h1 := iha hi hc
    have h2 := hplain a.products
    simp only [Circuit.noise, Circuit.parts, Circuit.rotations, Circuit.products, Nat.add_mul, Nat.one_mul]
    omega
  | subPlain a k iha =>
    have h1 := iha hi hc
    have h2 := hplain a.products
    simp only [Circuit.noise, Circuit.parts, Circuit.rotations, Circuit.products, Nat.add_mul, Nat.one_mul]
    omega
  | plainSub k a iha =>
    have h1 := iha hi hc
    have h2 := hplain a.products
    simp only [Circuit.noise, Circuit.parts, Circuit.rotations, Circuit.products, Nat.add_mul, Nat.one_mul]
    omega
  | mulPlain a k iha =>
    have h1 := hfac _ (iha hi hc.2.2) hc.1 hc.2.1
    simp only [Circuit.noise, Circuit.parts, Circuit.rotations, Circuit.products, Nat.one_mul, Nat.zero_mul, Nat.add_zero]
    refine le_trans ?_ (le_trans (le_max_left _ _) (le_max_right _ _))
    gcongr
  | mul a b iha ihb =>
    subst hi
    obtain ⟨p1, p2, p3, p4, p5, p6⟩ := hc
    have h1 := hfac _ (hmax _ _ (iha rfl p5) (le_max_left a.products b.products)) p1 p2
    have h2 := hfac _ (hmax _ _ (ihb rfl p6) (le_max_right a.products b.products)) p3 p4
    simp only [Circuit.noise, Circuit.parts, Circuit.rotations, Circuit.products, Nat.one_mul, Nat.zero_mul, Nat.add_zero, hS, he]
    exact productNoise_le hrk h1 h2
  | multiply a b iha ihb =>
    subst hi
    obtain ⟨p1, p2, p3, p4, p5, p6⟩ := hc
    have h1 := hfac _ (hmax _ _ (iha rfl p5) (le_max_left a.products b.products)) p1 p2
    have h2 := hfac _ (hmax _ _ (ihb rfl p6) (le_max_right a.products b.products)) p3 p4
    simp only [Circuit.noise, Circuit.parts, Circuit.rotations, Circuit.products, Nat.one_mul, Nat.zero_mul, Nat.add_zero, hS, he]
    exact productNoise_le hrk h1 h2
  | rotateRows a iha =>
    subst hi
    have h1 := iha rfl hc.2
    simp only [Circuit.noise, Circuit.parts, Circuit.rotations, Circuit.products, Nat.add_mul, Nat.one_mul, hg]
    omega
  | rotateColumns a steps iha =>
    subst hi
    have h1 := iha rfl hc.2.2.2
    simp only [Circuit.noise, Circuit.parts, Circuit.rotations, Circuit.products, Nat.add_mul, Nat.one_mul, hg]
    omega
  | innerSum a iha =>
    subst hi
    have h1 := Nat.mul_le_mul_left par.degree (iha rfl hc.2)
    simp only [Circuit.noise, Circuit.parts, Circuit.rotations, Circuit.products, Nat.add_mul, hg]
    rw [Nat.mul_add, ← Nat.mul_assoc, ← Nat.mul_assoc] at h1
    omega
  | _ => exact hc.elim

end Fhe.Props
