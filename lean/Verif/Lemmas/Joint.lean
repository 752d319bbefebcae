import Verif.Spec.Joint
import Verif.Lemmas.Secrecy
import Verif.Lemmas.Mbfv
/-!
# The shares of a joint public key as samples
-/
namespace Fhe.Secrecy
open Nega Poly Ciphertext Finset

variable {b : Build} {n : Nat} {par : Par} {l : ContextLevel} {K : Nat}

theorem crpOf_eq (ha : AtLevel b n par 0 l) (x : Coeffs par 0) : crpOf x = Res.ok ⟨encI l.ctx .ntt false (intOf x)⟩ := by
  unfold crpOf
  rw [ha.contextAt, Res.ok_bind, polyOf_eq ha, Res.ok_bind]
  rfl

theorem shareFrom_eq (ha : AtLevel b n par 0 l) (y : Coeffs par 0) (crp : CommonRandomPoly) : shareFrom y crp = Res.ok { par, crp, p0Share := encI l.ctx .ntt true (intOf y) } := by
  unfold shareFrom
  rw [ha.contextAt, Res.ok_bind, polyOf_eq ha, Res.ok_bind]
  rfl

theorem honestShare_eq (hw : ParWF b n par.toBfvParameters) (ha : AtLevel b n par 0 l) {W : Nat} (ω : Words W × Words W) (A : IntPoly par.degree) (vt : Bool) :
    honestShare par ω ⟨encI l.ctx .ntt vt A⟩ = Res.ok { par, crp := ⟨encI l.ctx .ntt vt A⟩, p0Share := encI l.ctx .ntt true (A * -sample par ω.1 + sample par ω.2) } := by
  obtain ⟨sk, e1, hk⟩ := SecretKey.random_drawn hw (isStream_words ω.1)
  have he := (drawn_encI hw.variance.1 hw.variance.2 (isStream_words ω.2) par.degree).2 ha.wf ha.deg
  rw [drawn_sample] at hk he
  unfold honestShare PublicKeyShare.new
  rw [e1, Res.lift_some, Res.ok_bind, hk.par_eq, ha.contextAt, Res.ok_bind, SecretKey.polyAt_encI hk ha.wf ha.deg, Res.ok_bind, he, Res.math_ok, Res.ok_bind]
  simp only []
  rw [neg_encI ha.wf ha.deg (by simp), Res.lift_some, Res.ok_bind, disallowVt_encI, mulAssign_encI ha.wf ha.deg, Res.lift_some, Res.ok_bind, addAssign_encI ha.wf ha.deg (by simp), Res.lift_some, Res.ok_bind,
    show A * -sample par ω.1 + sample par ω.2 = -A * sample par ω.1 + sample par ω.2 by ring]
  rfl

/-- The other shares of a strategy, as polynomials. -/
theorem Strategy.Usable.exists_reps (ha : AtLevel b n par 0 l) {S : Strategy K} (hS : S.Usable par l.ctx) :
    ∃ F : CommonRandomPoly → Fin K → IntPoly par.degree, ∀ crp k, S crp k = { par, crp, p0Share := encI l.ctx .ntt true (F crp k) } := by
  choose F hF using fun crp k => (exists_encI (N := par.degree) ha.wf ha.deg (hS crp k).2.2.2.1 (hS crp k).2.2.1)
  refine ⟨F, fun crp k => ?_⟩
  obtain ⟨h1, h2, -, -, h3⟩ := hS crp k
  have h4 := (hF crp k).1
  rw [h3] at h4
  rcases hs : S crp k with ⟨p, cr, sh⟩
  rw [hs] at h1 h2 h4
  simp only at h1 h2 h4
  rw [h1, h2, h4]

theorem aggregate_all (ha : AtLevel b n par 0 l) {S : Strategy K} {F : CommonRandomPoly → Fin K → IntPoly par.degree}
    (hF : ∀ crp k, S crp k = { par, crp, p0Share := encI l.ctx .ntt true (F crp k) }) (h : Fin K) {crp : CommonRandomPoly} (hc : crp.poly.ctx = l.ctx) (G : IntPoly par.degree) :
    PublicKeyShare.aggregate (List.ofFn (allShares S h { par, crp, p0Share := encI l.ctx .ntt true G })) =
      Res.ok { par, c := { par, seed := none, c := [encI l.ctx .ntt true (G + ∑ k ∈ univ.erase h, F crp k), crp.poly], level := 0 } } := by
  have hK : 0 < K := h.pos
  rw [List.ofFn_eq_map, PublicKeyShare.aggregate_eq (F := fun k => if k = h then G else F crp k) ha hc (fun k => ?_) (by
    intro h0; have := congrArg List.length h0; simp at this; omega)]
  · congr 5
    rw [← List.ofFn_eq_map, List.sum_ofFn, ← Finset.add_sum_erase _ _ (mem_univ h), if_pos rfl]
    congr 1
    exact Finset.sum_congr rfl fun k hk => if_neg (Finset.ne_of_mem_erase hk)
  · unfold allShares
    split_ifs
    · rfl
    · exact hF crp k

end Fhe.Secrecy
