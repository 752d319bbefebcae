import Verif.Lemmas.BfvDot
import Verif.Props.BfvRgsw
/-!
# Property C49 (and C48 for it): dot products of ciphertexts and plaintexts
-/
namespace Fhe.Props
open Nega Poly ParamsBuilder Ciphertext

variable {b : Build} {par : Par} {st : ParamsBuilder} {s : IntPoly par.degree} {i L K : Nat}

/-- C49: for any positive number of terms — below or above the threshold at which the accumulators of 128 bits could overflow — the dot
product succeeds, and encrypts the sum of the products of the messages.  Its noise is the sum of the noises, each times the representatives
in `0..t` of the other message. -/
theorem C49_sum (hb : b.OK) (h : build b st = Res.ok par.toBfvParameters) {ct : Fin K → Ciphertext} {pt : Fin K → Plaintext} {m m' : Fin K → par.Msg} {v : Fin K → IntPoly par.degree} (hK : 0 < K)
    (hct : ∀ k, (ct k).Encrypts par s i (m k) (v k)) (hpt : ∀ k, (pt k).Holds par i (m' k)) (hlen : ∀ k, (ct k).c.length = L) :
    ∃ r, dotProductScalar (List.ofFn ct) (List.ofFn pt) = Res.ok r ∧ r.Encrypts par s i (∑ k, m k * m' k) (∑ k, v k * IntPoly.ofMsg (m' k)) ∧ r.c.length = L ∧ r.seed = none := by
  obtain ⟨n, hw, -⟩ := build_inv hb h
  obtain ⟨r, h1, h2, h3, h4⟩ := dotProductScalar_encrypts hw (ks := List.finRange K) (ct := ct) (pt := pt) (m := m) (m' := m') (v := v) (L := L) (i := i) (s := s)
    (by intro h0; have := congrArg List.length h0; simp at this; omega) fun k _ => ⟨hct k, hpt k, hlen k⟩
  rw [← List.ofFn_eq_map, ← List.ofFn_eq_map] at h1
  refine ⟨r, h1, ?_, h3, h4⟩
  rw [← List.ofFn_eq_map, ← List.ofFn_eq_map, List.sum_ofFn, List.sum_ofFn] at h2
  exact h2

/-- C49: the noise of the dot product grows linearly with the number of terms. -/
theorem C49_noise {m' : Fin K → par.Msg} {v : Fin K → IntPoly par.degree} {V : Nat} (ht : 0 < par.plaintext.value) (hv : ∀ k, (v k).Bounded V) :
    (∑ k, v k * IntPoly.ofMsg (m' k)).Bounded (K * (par.degree * V * par.plaintext.value)) := by
  have hne : NeZero par.plaintext.value := ⟨by omega⟩
  have key : ∀ F : Finset (Fin K), (∑ k ∈ F, v k * IntPoly.ofMsg (m' k)).Bounded (F.card * (par.degree * V * par.plaintext.value)) := by
    intro F
    induction F using Finset.induction_on with
    | empty => simpa using IntPoly.Bounded.zero
    | insert k F hk ih =>
      rw [Finset.sum_insert hk, Finset.card_insert_of_notMem hk]
      have hm : (IntPoly.ofMsg (m' k)).Bounded par.plaintext.value := fun j => by
        show |((m' k j).val : Int)| ≤ _
        have := ZMod.val_lt (m' k j)
        rw [abs_of_nonneg (by omega)]
        omega
      refine (((hv k).mul hm).add ih).mono (le_of_eq (by ring))
  simpa using key Finset.univ

/-- C49: on ciphertexts of one level and number of parts, and plaintexts of the same level, the dot product is equal to the sum of the
products computed with the operators, for any positive number of terms. -/
theorem C49_naive (hb : b.OK) (h : build b st = Res.ok par.toBfvParameters) {cts : List Ciphertext} {pts : List Plaintext} (hne : cts ≠ []) (hlen : cts.length = pts.length) (hL : 2 ≤ L)
    (hct : ∀ ct ∈ cts, ct.par = par ∧ ct.level = i ∧ ct.c.length = L ∧ ∀ p ∈ ct.c, par.contextAtLevel i = Res.ok p.ctx ∧ p.Valid)
    (hpt : ∀ pt ∈ pts, pt.par = par ∧ par.contextAtLevel i = Res.ok pt.polyNtt.ctx ∧ pt.polyNtt.Valid) :
    ∃ r r', dotProductScalar cts pts = Res.ok r ∧ Ciphertext.sumProducts par (cts.zip pts) = some r' ∧ r.beq r' = true ∧ r.par = par := by
  obtain ⟨n, hw, -⟩ := build_inv hb h
  have := dotProductScalar_naive hw hL (xs := cts.zip pts) (by
    intro h0; have := congrArg List.length h0; rw [List.length_zip] at this
    have := List.length_pos_of_ne_nil hne; simp only [List.length_nil] at *; omega) fun x hx => by
      obtain ⟨g1, g2, g3, g4⟩ := hct x.1 (List.of_mem_zip hx).1
      obtain ⟨g5, g6, g7⟩ := hpt x.2 (List.of_mem_zip hx).2
      exact (⟨g1, g2, g3, g4, g5, g6, g7⟩ : DotOperand par i L x)
  rwa [List.map_fst_zip (by omega), List.map_snd_zip (by omega)] at this

/-- C49, C48: on operands of valid polynomials the dot product never panics.  It fails with its own errors for no operands or different
numbers of operands, and otherwise succeeds exactly when the first ciphertext is valid for its parameters, and all other operands have the same
parameters (by address), level and, for ciphertexts, number of parts. -/
theorem C49_rejects (hb : b.OK) (h : build b st = Res.ok par.toBfvParameters) (cts : List Ciphertext) (pts : List Plaintext)
    (hct : ∀ ct ∈ cts, (ct.par.ptrEq par = true → ct.par = par) ∧ ∀ p ∈ ct.c, p.Valid)
    (hpt : ∀ pt ∈ pts, (pt.par.ptrEq par = true → pt.par = par) ∧ pt.polyNtt.Valid ∧ pt.polyNtt.ctx.moduli.length ≤ pt.par.moduli.length) :
    (cts = [] ∨ pts = [] → dotProductScalar cts pts = Res.err .dotProductEmptyInput) ∧
    (cts ≠ [] → pts ≠ [] → cts.length ≠ pts.length → dotProductScalar cts pts = Res.err (.dotProductOperandCount cts.length pts.length)) ∧
    (∀ first rest, cts = first :: rest → first.par = par → cts.length = pts.length → dotProductScalar cts pts ≠ Res.panic ∧
      ((∃ r, dotProductScalar cts pts = Res.ok r) ↔ ∃ ctx, par.contextAtLevel first.level = Res.ok ctx ∧
        (∀ ct ∈ cts, ct.par.ptrEq par = true ∧ ct.level = first.level ∧ ct.c.length = first.c.length ∧ 2 ≤ ct.c.length ∧ ∀ p ∈ ct.c, p.ctx = ctx) ∧
        ∀ pt ∈ pts, pt.par.ptrEq par = true ∧ pt.polyNtt.ctx = ctx)) := by
  obtain ⟨n, hw, -⟩ := build_inv hb h
  refine ⟨fun h0 => ?_, fun h1 h2 h3 => ?_, ?_⟩
  · unfold dotProductScalar
    rw [if_pos (by simpa using h0)]
  · unfold dotProductScalar
    rw [if_neg (by simp [h1, h2]), if_pos h3]
  · rintro first rest hcts hp hlen
    by_cases hgood : ∃ ctx, par.contextAtLevel first.level = Res.ok ctx ∧
        (∀ ct ∈ cts, ct.par.ptrEq par = true ∧ ct.level = first.level ∧ ct.c.length = first.c.length ∧ 2 ≤ ct.c.length ∧ ∀ p ∈ ct.c, p.ctx = ctx) ∧
        ∀ pt ∈ pts, pt.par.ptrEq par = true ∧ pt.polyNtt.ctx = ctx
    · have hgood' := hgood
      obtain ⟨ctx, g1, g2, g3⟩ := hgood
      have hf : first ∈ cts := by rw [hcts]; simp
      obtain ⟨r, r', e1, -⟩ := C49_naive hb h (cts := cts) (pts := pts) (i := first.level) (L := first.c.length) (by rw [hcts]; simp) hlen (g2 first hf).2.2.2.1
        (fun ct hm => by
          obtain ⟨a1, a2, a3, a4, a5⟩ := g2 ct hm
          exact ⟨(hct ct hm).1 a1, a2, a3, fun p hp => ⟨by rw [g1, a5 p hp], (hct ct hm).2 p hp⟩⟩)
        fun pt hm => by
          obtain ⟨a1, a2⟩ := g3 pt hm
          exact ⟨(hpt pt hm).1 a1, by rw [g1, a2], (hpt pt hm).2.1⟩
      rw [e1]
      exact ⟨Res.noPanic_ok _, fun _ => hgood', fun _ => ⟨r, rfl⟩⟩
    · suffices hs : ∃ e, dotProductScalar cts pts = Res.err e by
        obtain ⟨e, hs⟩ := hs
        rw [hs]
        exact ⟨Res.noPanic_err _, fun ⟨r, hr⟩ => absurd hr Res.err_ne_ok, fun hg => absurd hg hgood⟩
      subst hcts
      have hps : pts ≠ [] := by rintro rfl; simp at hlen
      unfold dotProductScalar
      rw [if_neg (by simp [hps]), if_neg (by omega)]
      simp only []
      rw [hp]
      obtain ⟨hv1, hv2⟩ := C48_validate hb h first
      rcases Res.noPanic_iff.1 hv1 with ⟨⟨⟩, hv⟩ | ⟨e, hv⟩
      · rw [hv, Res.ok_bind]
        obtain ⟨-, b2, b3, b4⟩ := hv2.1 hv
        obtain ⟨l, ha⟩ := AtLevel.ofLt (par := par) hw b2
        rw [ha.contextAt, Res.ok_bind]
        obtain ⟨c1, c2⟩ := dotValidate_spec (first := first) (ctx := l.ctx) (xs := (first :: rest).zip pts) fun x hx => (hpt x.2 (List.of_mem_zip hx).2).2.2
        rcases Res.noPanic_iff.1 c1 with ⟨⟨⟩, hv'⟩ | ⟨e, hv'⟩
        · refine absurd ⟨l.ctx, ha.contextAt, fun ct hm => ?_, fun pt hm => ?_⟩ hgood
          · rw [← List.map_fst_zip (l₁ := first :: rest) (l₂ := pts) (by omega)] at hm
            obtain ⟨x, hx, rfl⟩ := List.mem_map.1 hm
            obtain ⟨d1, d2, d3, d4, d5, d6, d7⟩ := c2 hv' x hx
            rw [hp] at d1
            exact ⟨d1, d2, d3, d4, d5⟩
          · rw [← List.map_snd_zip (l₁ := first :: rest) (l₂ := pts) (by omega)] at hm
            obtain ⟨x, hx, rfl⟩ := List.mem_map.1 hm
            obtain ⟨d1, d2, d3, d4, d5, d6, d7⟩ := c2 hv' x hx
            rw [hp] at d6
            exact ⟨d6, d7⟩
        · exact ⟨e, by rw [hv', Res.err_bind]⟩
      · exact ⟨e, by rw [hv, Res.err_bind]⟩

/-- At the parameters of `exCipher`: the dot product of two ciphertexts with the two plaintexts decrypts to the sum of the products. -/
example : ∃ (par : Par) (sk : SecretKey) (m m' : par.Msg) (pt pt' : Plaintext) (ct ct' : Ciphertext), msgCoeffs m = [1, 2, 16, 0, 0, 0, 0, 0] ∧ msgCoeffs m' = [5, 4, 3, 0, 0, 0, 0, 0] ∧
    pt.Holds par 0 m ∧ pt'.Holds par 0 m' ∧ ∃ r q, dotProductScalar [ct, ct'] [pt', pt] = Res.ok r ∧ sk.tryDecrypt luckyBuild r = Res.ok q ∧ q.Holds par 0 (m * m' + m' * m) := by
  obtain ⟨par, sk, s, pt, pt', m, m', ct, ct', v, v', h, hd, ht, hm, hrel, hk, hs, e2, e2', em, em', f1, f1', f2, f2', f3, f3', f4, f4', f5, f6, h0, hvar⟩ := exCipher
  have hb := luckyBuild_ok
  refine ⟨par, sk, m, m', pt, pt', ct, ct', em, em', e2, e2', ?_⟩
  obtain ⟨r, g1, g2, g3, g4⟩ := C49_sum hb h (K := 2) (ct := ![ct, ct']) (pt := ![pt', pt]) (m := ![m, m']) (m' := ![m', m]) (v := ![v, v']) (L := 2) (i := 0) (s := s) (by omega)
    (by intro k; match k with | 0 => exact f2 | 1 => exact f2') (by intro k; match k with | 0 => exact e2' | 1 => exact e2) (by intro k; match k with | 0 => exact f4 | 1 => exact f4')
  have hbd := C49_noise (par := par) (m' := ![m', m]) (v := ![v, v']) (V := 51) (by rw [ht]; omega) (by intro k; match k with | 0 => exact f3 | 1 => exact f3')
  obtain ⟨q, k1, k2, -⟩ := C37_decrypt hb h hrel hk g2 (small_of_bounded hbd (by rw [h0, ht, hd]; decide))
  refine ⟨r, q, by simpa using g1, k1, ?_⟩
  simpa [Fin.sum_univ_two] using k2

end Fhe.Props
