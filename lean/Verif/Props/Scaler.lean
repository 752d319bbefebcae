import Verif.Lemmas.ScalerMain
import Verif.Props.Rns
import Verif.Spec.Scaler
/-!
# C21: scaling in the residue number system
-/
namespace Fhe.Props
open Fhe RnsContext RnsScaler

variable {cfg cfg' : Bool} {l l' : List Nat} {src dst : RnsContext}

theorem headroom_eq (h : src.WF) (n d : Nat) : headroom src n d = Spec.scalerRoom src.moduliU64 src.garner n d := by
  unfold headroom Spec.scalerRoom
  have : ∀ a b : List Nat, ws (nd n d) a b = ((((a.zip b).map fun qg => if d ∣ n * qg.2 then 0 else qg.1).sum : Nat) : Int) := by
    intro a
    induction a with
    | nil => simp
    | cons x a ih =>
      intro b
      cases b with
      | nil => simp
      | cons y b =>
        rw [ws_cons, ih, List.zip_cons_cons, List.map_cons, List.sum_cons, Nat.cast_add]
        congr 1
        by_cases hd : d ∣ n * y <;> simp [nd, hd]
  rw [this, Nat.cast_add, h.product]
  congr 1
  by_cases hd : d ∣ n * src.moduliU64.prod <;> simp [nd, hd]

/-- C21: for at most 64 source moduli and enough room in the accumulator, a scaler by `n/d` can be built, and applied to the
residues of any `x` it returns, without any overflow, the residues modulo (a window of) the target moduli of an integer `z` that
rounds `c n / d`, where `c` is `x` or `x - Q`, centered up to a relative error of `2^-55`:
`c n / d - 1/2 < z < c n / d + 1/2 + 2^-62`. -/
theorem C21_scale (hs : RnsContext.new cfg l = some (.ok src)) (ht : RnsContext.new cfg' l' = some (.ok dst)) (hk : l.length ≤ 64)
    {n d : Nat} (hd : d ≠ 0) (hroom : Spec.scalerRoom l src.garner n d ≤ 2 ^ 65) :
    ∃ f sc, ScalingFactor.new n d = some f ∧ RnsScaler.new src dst f = some sc ∧
      ∀ rests : List Nat, rests.length = l.length → (∀ i (hi : i < l.length) (hi' : i < rests.length), rests[i] < l[i]) →
      ∀ size start, size ≠ 0 → start + size ≤ l'.length →
      ∃ (x : Nat) (c z : Int) (out : List Nat), src.lift rests = some x ∧ sc.scale rests size start = some out ∧
        (c = x ∨ c = (x : Int) - src.modulus) ∧ 2 * |c| * 2 ^ 55 ≤ src.modulus * (2 ^ 55 + 1) ∧
        2 * n * c - d < 2 * d * z ∧ (2 * d * z) * 2 ^ 61 < (2 * n * c + d) * 2 ^ 61 + d ∧
        (n = d → z = c) ∧
        out.length = size ∧ ∀ i (_hi : i < size) (hi' : start + i < l'.length), (out[i]? : Option Nat) = some (z % (l'[start + i] : Int)).toNat := by
  obtain ⟨h1, rfl, -⟩ := WF_of_new hs
  obtain ⟨h2, rfl, -⟩ := WF_of_new ht
  have hd' : 0 < d := Nat.pos_of_ne_zero hd
  refine ⟨{ numerator := n, denominator := d, isOne := decide (n = d) }, ?_⟩
  obtain ⟨sc, s, hsc, hSC⟩ := RnsScaler.new_eq h1 h2 (f := { numerator := n, denominator := d, isOne := decide (n = d) }) hd' hk
  refine ⟨sc, by unfold ScalingFactor.new; rw [check_eq hd]; rfl, hsc, ?_⟩
  intro rests hlen hlt size start h0 hsz
  obtain ⟨v, c, z, e1, e2, e3, e4, e5, e6⟩ := scale_eq hSC (by simp) hd' h1 h2 hk (by rw [headroom_eq h1]; exact_mod_cast hroom) hlen
    (fun i hi => by have := hlt i hi (by omega); simpa [List.getD_eq_getElem?_getD, show i < rests.length by omega] using this) h0 hsz
  obtain ⟨x, x1, x2, x3, -⟩ := lift_eq h1 hlen
  have hQ := h1.product_pos
  have hcx : ∃ k : Int, c = x + k * src.product := by
    have hw : ws (fun g => (g : Int)) rests src.garner =
        ((∑ i ∈ Finset.range src.moduliU64.length, src.garner.getD i 0 * rests.getD i 0 : Nat) : Int) := by
      rw [← h1.len_garner, ← zipWith_sum (f := fun r g => g * r) (by rw [h1.len_garner]; exact hlen)]
      unfold ws
      clear * -
      generalize src.garner = gs
      induction rests generalizing gs with
      | nil => simp
      | cons r rs ih =>
        cases gs with
        | nil => simp
        | cons g gs =>
          simp only [List.zipWith_cons_cons, List.sum_cons, Nat.cast_add, Nat.cast_mul]
          rw [ih, mul_comm]
    have hdm := Nat.div_add_mod (∑ i ∈ Finset.range src.moduliU64.length, src.garner.getD i 0 * rests.getD i 0) src.product
    rw [← x3] at hdm
    rw [e2, hw, ← hdm]
    exact ⟨((∑ i ∈ Finset.range src.moduliU64.length, src.garner.getD i 0 * rests.getD i 0) / src.product : Nat) - v, by push_cast; ring⟩
  have hc : c = x ∨ c = (x : Int) - src.product := by
    obtain ⟨k, hk'⟩ := hcx
    have hx2 : (x : Int) < src.product := by exact_mod_cast x2
    have hQ' : (0 : Int) < src.product := by exact_mod_cast hQ
    have hk0 : k < 1 := by
      by_contra hk1
      have : 1 * (src.product : Int) ≤ k * src.product := mul_le_mul_of_nonneg_right (by omega) hQ'.le
      have := le_abs_self c
      omega
    have hk2 : -2 < k := by
      by_contra hk1
      have : k * (src.product : Int) ≤ -2 * src.product := mul_le_mul_of_nonneg_right (by omega) hQ'.le
      have := neg_abs_le c
      omega
    have : k = 0 ∨ k = -1 := by omega
    rcases this with rfl | rfl
    · left; rw [hk']; ring
    · right; rw [hk']; ring
  refine ⟨x, c, z, _, x1, e1, hc, ?_, ?_, ?_, ?_, by simp, ?_⟩
  · rw [RnsContext.modulus]; linarith
  · linarith
  · linarith
  · intro h; exact e6 (by simpa using h)
  · intro i hi hi'
    simp [hi, List.getD_eq_getElem?_getD, hi']

/-- C21: when the denominator is at most `2^61` the rounding is exact (halves up): `z = ⌊(2 n c + d) / (2 d)⌋`. -/
theorem C21_exact {n d : Nat} {c z : Int} (_hd0 : d ≠ 0) (hd : d ≤ 2 ^ 61) (h1 : 2 * n * c - d < 2 * d * z)
    (h2 : (2 * d * z) * 2 ^ 61 < (2 * n * c + d) * 2 ^ 61 + d) : z = (2 * n * c + d) / (2 * d) := by
  have hd' : (d : Int) ≤ 2 ^ 61 := by exact_mod_cast hd
  have h3 : 2 * d * z ≤ 2 * n * c + d := by
    by_contra h
    have h4 : 2 * (n : Int) * c + d + 1 ≤ 2 * d * z := by omega
    have := mul_le_mul_of_nonneg_right h4 (show (0 : Int) ≤ 2 ^ 61 by norm_num)
    linarith
  symm
  have hpos : (0 : Int) < 2 * d := by omega
  apply le_antisymm
  · rw [← Int.lt_add_one_iff, Int.ediv_lt_iff_lt_mul hpos]
    linarith
  · rw [Int.le_ediv_iff_mul_le hpos]
    linarith

/-- C21: away from the two ends of the interval the representative is the centered one. -/
theorem C21_centered {Q x : Nat} {c : Int} (hx : x < Q) (hc : c = x ∨ c = (x : Int) - Q)
    (hb : 2 * |c| * 2 ^ 55 ≤ Q * (2 ^ 55 + 1)) :
    (2 * x * 2 ^ 55 + Q < Q * 2 ^ 55 → c = x) ∧ (Q * (2 ^ 55 + 1) < 2 * x * 2 ^ 55 → c = (x : Int) - Q) := by
  rcases hc with rfl | rfl
  · refine ⟨fun _ => rfl, fun h => ?_⟩
    rw [abs_of_nonneg (by omega)] at hb
    omega
  · refine ⟨fun h => ?_, fun _ => rfl⟩
    rw [abs_of_nonpos (by omega)] at hb
    omega

/-- The room is enough for one source modulus, whatever the factor... -/
example (q g n d : Nat) (h : q < 2 ^ 62) : Spec.scalerRoom [q] [g] n d ≤ 2 ^ 65 := by
  simp only [Spec.scalerRoom, List.zip_cons_cons, List.zip_nil_left, List.map_cons, List.map_nil, List.sum_cons, List.sum_nil]
  split <;> split <;> omega

/-- ... and for up to four moduli below `2^62`, or eight when `d` divides `n Q` (as in decryption, where `d = Q`). -/
theorem C21_room {garner : List Nat} {n d : Nat} (hl : ∀ q ∈ l, q < 2 ^ 62)
    (h : l.length ≤ 4 ∨ (l.length ≤ 8 ∧ d ∣ n * l.prod)) : Spec.scalerRoom l garner n d ≤ 2 ^ 65 := by
  have h1 : ∀ (l garner : List Nat), ((l.zip garner).map fun qg => if d ∣ n * qg.2 then 0 else qg.1).sum ≤ l.sum := by
    intro l
    induction l with
    | nil => simp
    | cons q l ih =>
      intro g
      cases g with
      | nil => simp
      | cons g gs =>
        rw [List.zip_cons_cons, List.map_cons, List.sum_cons, List.sum_cons]
        have := ih gs
        simp only []
        split <;> omega
  have h2 := h1 l garner
  have h3 := sum_bound hl
  unfold Spec.scalerRoom
  rcases h with h | ⟨h, hd⟩
  · have : l.length * 2 ^ 62 ≤ 4 * 2 ^ 62 := Nat.mul_le_mul_right _ h
    split <;> omega
  · have : l.length * 2 ^ 62 ≤ 8 * 2 ^ 62 := Nat.mul_le_mul_right _ h
    rw [if_pos hd]; omega

/-- A concrete instance: the contexts of the library's tests, factor 3/7. -/
example : ∃ src dst f sc, RnsContext.new true [4, 15, 1153] = some (.ok src) ∧ RnsContext.new true [7, 13, 907] = some (.ok dst) ∧
    ScalingFactor.new 3 7 = some f ∧ RnsScaler.new src dst f = some sc ∧
    ∃ (x : Nat) (c z : Int) (out : List Nat), src.lift [3, 14, 1152] = some x ∧ sc.scale [3, 14, 1152] 3 0 = some out ∧
      z = (2 * (3 : Nat) * c + (7 : Nat)) / (2 * (7 : Nat)) := by
  obtain ⟨src, hs⟩ := witnessRns
  obtain ⟨dst, ht, -⟩ := C19_new_ok (cfg := true) (l := [7, 13, 907]) (by decide) (by decide) (by decide)
  obtain ⟨f, sc, h1, h2, h3⟩ := C21_scale hs ht (by decide) (n := 3) (d := 7) (by decide) (C21_room (by decide) (by decide))
  obtain ⟨x, c, z, out, x1, x2, -, -, x5, x6, -⟩ := h3 [3, 14, 1152] rfl (by
    intro i hi _
    match i with
    | 0 => exact (by decide : 3 < 4)
    | 1 => exact (by decide : 14 < 15)
    | 2 => exact (by decide : 1152 < 1153)
    | n + 3 => simp at hi) 3 0 (by decide) (by decide)
  exact ⟨src, dst, f, sc, hs, ht, h1, h2, x, c, z, out, x1, x2, C21_exact (by decide) (by decide) x5 x6⟩

/-! ### Without enough room the result is wrong -/

/-- Seven 62-bit primes. -/
def badModuli : List Nat := [4611686018427387091, 4611686018427387323, 4611686018427386389, 4611686018427386981,
  4611686018427387617, 4611686018427387409, 4611686018427387113]
/-- Their CRT coefficients. -/
def badGarner : List Nat := [
  28322273646525950590415811800370163732968650682451995750768820910666367236035573548651588747852882480502743392298851440633892937992,
  15958525539577229538645458285053731049193523065634221879077536203355257265438611270855285658045413800502102398388975120551904725891,
  36961482840977808275819957169308548538926534999849679694282568813729298780186235573130134358077881981763636593204134564221612948546,
  40505311456689876809959739149225043052262740322299654868228846752970246352014328876283471612481386687801825503312654284779049021037,
  15148813500417201740231202488696888691043998232723268667078492650769267385120046365473828824702762600673032176678278401196902195857,
  41534979811788358096979692439552106776542571951110290128177760817440153289246554162626630401224283797644540379808633300024584030012,
  43382188733688503743709198799561109725573415648379399975513709811448394505430875965187233307159420557458141655293011944197544533631]

set_option maxRecDepth 20000 in
/-- C21 fails without room: seven 62-bit prime moduli, factor 1/5, input `-1` (residues `qᵢ - 1`).  The exact result is
`round(-1/5) = 0`; the accumulator exceeds `2^191`, is misread as negative, and `scale` returns 31 modulo 97. -/
theorem C21_overflow_counterexample : ∃ src dst f sc, RnsContext.new true badModuli = some (.ok src) ∧
    RnsContext.new true [97] = some (.ok dst) ∧ ScalingFactor.new 1 5 = some f ∧ RnsScaler.new src dst f = some sc ∧
    src.lift (badModuli.map (· - 1)) = some (src.modulus - 1) ∧ sc.scale (badModuli.map (· - 1)) 1 0 = some [31] := by
  obtain ⟨src, hs, hm, -⟩ := C19_new_ok (cfg := true) (l := badModuli) (by decide) (by decide +kernel) (by decide)
  obtain ⟨dst, ht, -⟩ := C19_new_ok (cfg := true) (l := [97]) (by decide) (by decide) (by decide)
  obtain ⟨h1, hl, -⟩ := WF_of_new hs
  obtain ⟨h2, hl', -⟩ := WF_of_new ht
  have hprod : src.product = badModuli.prod := by rw [h1.product, hl]
  have hg : src.garner = badGarner := by
    refine List.ext_getElem (by rw [h1.len_garner, hl]; rfl) fun i hi hi' => ?_
    have hi7 : i < 7 := hi'
    have hil : i < src.moduliU64.length := by rw [← h1.len_garner]; exact hi
    refine h1.ext (h1.garner_lt _ (List.getElem_mem hi)) ?_ ?_
    · rw [hprod]
      have : ∀ g ∈ badGarner, g < badModuli.prod := by decide +kernel
      exact this _ (List.getElem_mem hi')
    · intro q hq
      obtain ⟨j, hj, rfl⟩ := List.getElem_of_mem hq
      have hgi : src.garner.getD i 0 = src.garner[i] := by simp [List.getD_eq_getElem?_getD, hi]
      have hj7 : j < 7 := by rw [hl] at hj; exact hj
      have key : ∀ i < 7, ∀ j < 7, badGarner.getD i 0 % badModuli.getD j 0 = if i = j then 1 else 0 := by decide +kernel
      have hk := key i hi7 j hj7
      have e1 : badModuli.getD j 0 = src.moduliU64[j] := by
        simp only [hl]; simp [List.getD_eq_getElem?_getD, show j < badModuli.length from hj7]
      have e2 : badGarner.getD i 0 = badGarner[i]'hi' := by rw [List.getD_eq_getElem?_getD, List.getElem?_eq_getElem hi']; rfl
      rw [e1, e2] at hk
      refine Eq.trans ?_ hk.symm
      by_cases hij : i = j
      · subst hij
        rw [if_pos rfl, ← hgi]; exact h1.garner_self i hil
      · rw [if_neg hij, ← hgi]; exact Nat.mod_eq_zero_of_dvd (h1.garner_other i j hj hij)
  obtain ⟨sc, s, hsc, hSC⟩ := RnsScaler.new_eq h1 h2 (f := { numerator := 1, denominator := 5, isOne := false }) (by decide) (by rw [hl]; decide)
  have hs126 : s = 126 := by
    have h3 := hSC.shift_eq
    rw [hl] at h3
    have : garnerShift badModuli = some 126 := by decide +kernel
    rw [this] at h3
    exact (Option.some.inj h3).symm
  subst hs126
  refine ⟨src, dst, _, sc, hs, ht, rfl, hsc, ?_, ?_⟩
  · unfold RnsContext.lift
    rw [check_eq (by rw [hprod]; decide +kernel), RnsContext.modulus, hg, hprod]
    simp only [Option.bind_eq_bind, Option.bind_some]
    decide +kernel
  · have hr : ∀ r ∈ badModuli.map (· - 1), r < 2 ^ 62 := by decide
    have hlen : (badModuli.map (· - 1)).length = src.moduliU64.length := by rw [hl]; rfl
    unfold scale
    rw [hSC.src_eq, hSC.dst_eq, check_eq hlen]
    simp only [Option.bind_eq_bind, Option.bind_some]
    rw [check_eq (by decide), Option.bind_some, check_eq (by rw [hl']; decide), Option.bind_some, hSC.thetaGarnerLo, hSC.thetaGarnerHi,
      hSC.shift, hg, hprod]
    have hv : (sumThetaGarner (badGarner.map fun g => gtheta 126 badModuli.prod g % 2 ^ 64) (badGarner.map fun g => gtheta 126 badModuli.prod g / 2 ^ 64)
      (badModuli.map (· - 1)) 0).bind (fun sum => roundV sum 126) = some 23058430092136935347 := by decide +kernel
    obtain ⟨sum, hsum, hv⟩ := Option.bind_eq_some_iff.1 hv
    rw [hsum, Option.bind_some, hv, Option.bind_some]
    have hw : sc.computeW (badModuli.map (· - 1)) 23058430092136935347 = some (true, 170141183460469231712318222438489079787) := by
      unfold computeW
      rw [hSC.isOne, hSC.thetaOmegaLo, hSC.thetaOmegaHi, hSC.thetaOmegaSign, hSC.thetaGamma, hSC.thetaGammaSign, hg, hprod]
      decide +kernel
    rw [hw, Option.bind_some]
    have hrow := one_row hSC h1 h2 hlen (by decide) hr (v := 23058430092136935347) (by norm_num)
      (p := (true, 170141183460469231712318222438489079787)) (by norm_num) (by simp) (j := 0) (by rw [hl']; decide)
    rw [hg, hprod] at hrow
    have h97 : dst.moduliU64[0]'(by rw [hl']; decide) = 97 := by simp [hl']
    rw [h97] at hrow
    have hfin : ((ws (fun g => ((roundDiv 1 5 g : Nat) : Int)) (badModuli.map (· - 1)) badGarner -
      (23058430092136935347 : Nat) * (roundDiv 1 5 badModuli.prod : Nat) + sW (true, 170141183460469231712318222438489079787)) % ((97 : Nat) : Int)).toNat = 31 := by
      decide +kernel
    rw [show List.range 1 = [0] from rfl, List.mapM_cons, List.mapM_nil]
    simp only [Nat.add_zero, hrow, Option.bind_eq_bind, Option.bind_some]
    rw [hfin]; rfl

end Fhe.Props
