import Verif.Spec.BfvCipher
import Verif.Lemmas.BfvPlain
import Verif.Lemmas.RqSwitch
import Verif.Lemmas.RqSubst
/-!
# Polynomials over the integers and their reductions

`ofInt c F` is the reduction of an integer polynomial to the ring of the context `c`, and `encI c r vt F` the object that represents it.
-/
namespace Fhe
open Nega Poly Finset

def ofInt (c : Context) {N : Nat} (F : IntPoly N) : c.Elem := Nega.ofFn fun j => ((coeff F j : Int) : ZMod c.modulus)

/-- The object that represents the reduction of `F`. -/
def encI (c : Context) (r : Rep) (vt : Bool) {N : Nat} (F : IntPoly N) : Poly r := enc c r vt (ofInt c F)

variable {b : Build} {n N : Nat} {c : Context} {r : Rep} {vt vt' : Bool}

theorem ofInt_self (F : IntPoly c.degree) : ofInt c F = Nega.map (Int.castRingHom _) F := by
  apply Nega.ext; intro j
  rw [map_apply]
  show ((coeff F j.val : Int) : ZMod c.modulus) = _
  rw [coeff_val]; rfl

theorem coeff_ofInt (hN : c.degree = N) (F : IntPoly N) (j : Nat) : coeff (ofInt c F) j = ((coeff F j : Int) : ZMod c.modulus) := by
  subst hN
  by_cases h : j < c.degree
  · rw [coeff_of_lt _ h]; rfl
  · rw [coeff, dif_neg h, coeff, dif_neg h, Int.cast_zero]

theorem coeff_intCast {F : IntPoly N} (j : Fin N) : coeff F j.val = F j := coeff_val _ _

theorem ofInt_zero (hN : c.degree = N) : ofInt c (0 : IntPoly N) = 0 := by subst hN; rw [ofInt_self, map_zero]
theorem ofInt_one (hN : c.degree = N) : ofInt c (1 : IntPoly N) = 1 := by subst hN; rw [ofInt_self, map_one]
theorem ofInt_add (hN : c.degree = N) (F G : IntPoly N) : ofInt c (F + G) = ofInt c F + ofInt c G := by subst hN; simp only [ofInt_self, map_add]
theorem ofInt_sub (hN : c.degree = N) (F G : IntPoly N) : ofInt c (F - G) = ofInt c F - ofInt c G := by subst hN; simp only [ofInt_self, map_sub]
theorem ofInt_neg (hN : c.degree = N) (F : IntPoly N) : ofInt c (-F) = -ofInt c F := by subst hN; simp only [ofInt_self, map_neg]
theorem ofInt_mul (hN : c.degree = N) (F G : IntPoly N) : ofInt c (F * G) = ofInt c F * ofInt c G := by subst hN; simp only [ofInt_self, map_mul]
theorem ofInt_pow (hN : c.degree = N) (F : IntPoly N) (k : Nat) : ofInt c (F ^ k) = ofInt c F ^ k := by subst hN; simp only [ofInt_self, map_pow]
theorem ofInt_C (hN : c.degree = N) (a : Int) : ofInt c (C a : IntPoly N) = C (a : ZMod c.modulus) := by
  subst hN
  rw [ofInt_self]
  apply Nega.ext; intro j
  rw [map_apply, C_apply, C_apply]
  split <;> simp
theorem ofInt_C_nat (hN : c.degree = N) (a : Nat) : ofInt c (C (a : Int) : IntPoly N) = C (a : ZMod c.modulus) := by
  rw [ofInt_C hN]; congr 1; push_cast; rfl
theorem ofInt_subst (hN : c.degree = N) (e : Nat) (F : IntPoly N) : ofInt c (Nega.subst e F) = Nega.subst e (ofInt c F) := by
  subst hN
  simp only [ofInt_self]
  apply Nega.ext; intro j
  rw [map_apply]
  unfold Nega.subst
  rw [map_sum]
  refine sum_congr rfl fun i _ => ?_
  rw [map_mul, map_apply]
  congr 1
  unfold mono
  split <;> [split <;> simp; simp]
theorem ofInt_mono (hN : c.degree = N) (k : Nat) : ofInt c (mono k : IntPoly N) = mono k := by
  subst hN
  rw [ofInt_self]
  apply Nega.ext; intro j
  rw [map_apply]
  unfold mono
  split <;> [split <;> simp; simp]

/-- Equal reductions. -/
theorem ofInt_eq_iff (hN : c.degree = N) (F G : IntPoly N) : ofInt c F = ofInt c G ↔ ∀ j, (c.modulus : Int) ∣ F j - G j := by
  subst hN
  rw [ofInt_self, ofInt_self]
  constructor
  · intro h j
    have := congrFun h j
    change ((F j : Int) : ZMod c.modulus) = ((G j : Int) : ZMod c.modulus) at this
    rw [← ZMod.intCast_zmod_eq_zero_iff_dvd, Int.cast_sub, this, sub_self]
  · intro h
    apply Nega.ext; intro j
    have := (ZMod.intCast_zmod_eq_zero_iff_dvd _ _).2 (h j)
    rw [Int.cast_sub, sub_eq_zero] at this
    exact this

theorem ofInt_eq_iff_exists (hN : c.degree = N) (F G : IntPoly N) : ofInt c F = ofInt c G ↔ ∃ H : IntPoly N, F = G + C (c.modulus : Int) * H := by
  rw [ofInt_eq_iff hN]
  constructor
  · intro h
    choose H hH using h
    refine ⟨(H : IntPoly N), ?_⟩
    apply Nega.ext; intro j
    have := C_mul_apply (c.modulus : Int) (H : IntPoly N) j
    rw [Nega.add_apply]
    refine Eq.trans ?_ (congrArg (G j + ·) this.symm)
    show F j = G j + (c.modulus : Int) * H j
    rw [← hH]; ring
  · rintro ⟨H, rfl⟩ j
    rw [Nega.add_apply, C_mul_apply, add_sub_cancel_left]
    exact dvd_mul_right _ _

/-- Every element is a reduction, of a polynomial with coefficients in `0..Q`. -/
theorem exists_ofInt [NeZero c.modulus] (hN : c.degree = N) (f : c.Elem) : ∃ F : IntPoly N, ofInt c F = f ∧ ∀ j, 0 ≤ F j ∧ F j < c.modulus := by
  subst hN
  refine ⟨Nega.mapFn (fun x : ZMod c.modulus => (x.val : Int)) f, ?_, fun j => ⟨Int.natCast_nonneg _, Int.ofNat_lt.2 (ZMod.val_lt (f j))⟩⟩
  rw [ofInt_self]
  apply Nega.ext; intro j
  rw [map_apply]
  show (((f j).val : Int) : ZMod c.modulus) = f j
  simp

theorem ofNats_eq_ofInt (hN : c.degree = N) (v : List Nat) : ofNats c v = ofInt c (IntPoly.ofList N (v.map fun x : Nat => (x : Int))) := by
  subst hN
  rw [ofInt_self]
  apply Nega.ext; intro j
  rw [map_apply]
  show ((v.getD j 0 : Nat) : ZMod c.modulus) = (((v.map fun x : Nat => (x : Int)).getD j 0 : Int) : ZMod c.modulus)
  rw [show (0 : Int) = ((0 : Nat) : Int) from rfl, List.getD_map, Int.cast_natCast]
theorem ofInts_eq_ofInt (hN : c.degree = N) (v : List Int) : ofInts c v = ofInt c (IntPoly.ofList N v) := by
  subst hN
  rw [ofInt_self]; rfl

theorem isMod_iff (h : c.WF b n) (hN : c.degree = N) {p : Poly r} {F : IntPoly N} : p.IsMod c F ↔ p = encI c r p.vt F := by
  have := h.neZero
  have key : (List.ofFn fun j : Fin c.degree => (ofInt c F j).val) = List.ofFn fun j => (F j % (c.modulus : Int)).toNat := by
    subst hN
    congr 1; funext j
    rw [ofInt_self, map_apply]
    have := ZMod.val_intCast (n := c.modulus) (F j)
    show ((F j : Int) : ZMod c.modulus).val = _
    omega
  unfold encI
  rw [← represents_iff h]
  constructor
  · rintro ⟨h1, -, h3, h4⟩
    exact ⟨h1, h3, by rw [h4, key]⟩
  · rintro ⟨h1, h3, h4⟩
    exact ⟨h1, hN, h3, by rw [h4, key]⟩

theorem isMod_encI (h : c.WF b n) (hN : c.degree = N) (F : IntPoly N) : (encI c r vt F).IsMod c F := (isMod_iff h hN).2 rfl

theorem exists_encI (h : c.WF b n) (hN : c.degree = N) {p : Poly r} (hc : p.ctx = c) (hv : p.Valid) :
    ∃ F : IntPoly N, p = encI c r p.vt F ∧ ∀ j, 0 ≤ F j ∧ F j < c.modulus := by
  have := h.neZero
  obtain ⟨f, hf⟩ := exists_enc h hc hv
  obtain ⟨F, rfl, hF⟩ := exists_ofInt hN f
  exact ⟨F, hf, hF⟩

namespace Poly
theorem addAssign_encI (h : c.WF b n) (hN : c.degree = N) (hr : r ≠ .nttShoup) (F G : IntPoly N) :
    (encI c r vt F).addAssign (encI c r vt' G) = some (encI c r (vt && vt') (F + G)) := by
  unfold encI; rw [addAssign_enc h hr, ofInt_add hN]
theorem subAssign_encI (h : c.WF b n) (hN : c.degree = N) (hr : r ≠ .nttShoup) (F G : IntPoly N) :
    (encI c r vt F).subAssign (encI c r vt' G) = some (encI c r (vt && vt') (F - G)) := by
  unfold encI; rw [subAssign_enc h hr, ofInt_sub hN]
theorem neg_encI (h : c.WF b n) (hN : c.degree = N) (hr : r ≠ .nttShoup) (F : IntPoly N) :
    (encI c r vt F).neg = some (encI c r vt (-F)) := by
  unfold encI; rw [neg_enc h hr, ofInt_neg hN]
theorem mulAssign_encI (h : c.WF b n) (hN : c.degree = N) (F G : IntPoly N) :
    (encI c .ntt vt F).mulAssign (encI c .ntt vt' G) = some (encI c .ntt (vt && vt') (F * G)) := by
  unfold encI; rw [mulAssign_enc h, ofInt_mul hN]
theorem mulAssignShoup_encI (h : c.WF b n) (hN : c.degree = N) (F G : IntPoly N) :
    (encI c .ntt vt F).mulAssignShoup (encI c .nttShoup vt' G) = some (encI c .ntt (vt && vt') (F * G)) := by
  unfold encI; rw [mulAssignShoup_enc h, ofInt_mul hN]
theorem mulScalar_encI (h : c.WF b n) (hN : c.degree = N) (hr : r ≠ .nttShoup) (a : Nat) (F : IntPoly N) :
    (encI c r vt F).mulScalar a = some (encI c r vt (C (a : Int) * F)) := by
  unfold encI; rw [mulScalar_enc h hr, ofInt_mul hN, ofInt_C_nat hN]
theorem intoNtt_encI (h : c.WF b n) (F : IntPoly N) : (encI c .powerBasis vt F).intoNtt = some (encI c .ntt vt F) := intoNtt_enc h _
theorem intoNttShoup_encI (h : c.WF b n) (F : IntPoly N) : (encI c .powerBasis vt F).intoNttShoup = some (encI c .nttShoup vt F) := intoNttShoup_enc h _
theorem nttToPowerBasis_encI (h : c.WF b n) (F : IntPoly N) : (encI c .ntt vt F).nttToPowerBasis = some (encI c .powerBasis vt F) := nttToPowerBasis_enc h _
theorem nttToShoup_encI (h : c.WF b n) (F : IntPoly N) : (encI c .ntt vt F).nttToShoup = some (encI c .nttShoup vt F) := nttToShoup_enc h _
theorem zero_encI (h : c.WF b n) (hN : c.degree = N) (r : Rep) : Poly.zero r c = encI c r false (0 : IntPoly N) := by
  unfold encI; rw [zero_enc h, ofInt_zero hN]
theorem tryFromI64_encI (h : c.WF b n) (hN : c.degree = N) {v : List Int} (hv : v.length ≤ N) (h64 : ∀ x ∈ v, -(2 ^ 63) ≤ x ∧ x < 2 ^ 63) :
    tryFromI64 v c vt = some (.ok (encI c .powerBasis vt (IntPoly.ofList N v))) := by
  unfold encI; rw [tryFromI64_eq h (by omega) h64, ofInts_eq_ofInt hN]
theorem allowVt_encI (F : IntPoly N) : (encI c r vt F).allowVt = encI c r true F := rfl
theorem disallowVt_encI (F : IntPoly N) : (encI c r vt F).disallowVt = encI c r false F := rfl
theorem ctx_encI (F : IntPoly N) : (encI c r vt F).ctx = c := rfl
theorem vt_encI (F : IntPoly N) : (encI c r vt F).vt = vt := rfl

/-- Objects of the same context are equal when the polynomials are congruent. -/
theorem encI_congr (hN : c.degree = N) {F G H : IntPoly N} (h : F = G + C (c.modulus : Int) * H) : encI c r vt F = encI c r vt G := by
  unfold encI; rw [(ofInt_eq_iff_exists hN F G).2 ⟨H, h⟩]
end Poly

/-! ## Sizes -/

theorem IntPoly.Bounded.add {F G : IntPoly N} {A B : Nat} (hF : F.Bounded A) (hG : G.Bounded B) : (F + G).Bounded (A + B) := fun j => by
  have h1 := hF j
  have h2 := hG j
  rw [Nega.add_apply]; push_cast
  exact (abs_add_le _ _).trans (add_le_add h1 h2)
theorem IntPoly.Bounded.neg {F : IntPoly N} {A : Nat} (hF : F.Bounded A) : (-F).Bounded A := fun j => by rw [Nega.neg_apply, abs_neg]; exact hF j
theorem IntPoly.Bounded.sub {F G : IntPoly N} {A B : Nat} (hF : F.Bounded A) (hG : G.Bounded B) : (F - G).Bounded (A + B) := by
  rw [sub_eq_add_neg]; exact hF.add hG.neg
theorem IntPoly.Bounded.mono {F : IntPoly N} {A B : Nat} (hF : F.Bounded A) (h : A ≤ B) : F.Bounded B := fun j => (hF j).trans (by exact_mod_cast h)
theorem IntPoly.Bounded.C_mul {F : IntPoly N} {A : Nat} (hF : F.Bounded A) (a : Int) : (C a * F : IntPoly N).Bounded (a.natAbs * A) := fun j => by
  rw [C_mul_apply, abs_mul]; push_cast
  exact mul_le_mul_of_nonneg_left (hF j) (abs_nonneg a)
theorem IntPoly.Bounded.zero {A : Nat} : (0 : IntPoly N).Bounded A := fun j => by rw [Nega.zero_apply, abs_zero]; positivity

theorem IntPoly.Bounded.mul {F G : IntPoly N} {A B : Nat} (hF : F.Bounded A) (hG : G.Bounded B) : (F * G).Bounded (N * A * B) := fun k => by
  rw [mul_apply]
  refine (abs_sum_le_sum_abs _ _).trans ?_
  have : ∀ i : Fin N, |∑ j : Fin N, (if i.val + j.val = k.val then F i * G j else if i.val + j.val = k.val + N then -(F i * G j) else 0)| ≤ (A : Int) * B := by
    intro i
    have hone : ∃ j0 : Fin N, ∀ j : Fin N, j ≠ j0 →
        (if i.val + j.val = k.val then F i * G j else if i.val + j.val = k.val + N then -(F i * G j) else 0) = 0 := by
      have h1 := i.isLt
      have h2 := k.isLt
      by_cases hik : i.val ≤ k.val
      · refine ⟨⟨k.val - i.val, by omega⟩, fun j hj => ?_⟩
        have : j.val ≠ k.val - i.val := fun e => hj (Fin.ext e)
        have := j.isLt
        rw [if_neg (by omega), if_neg (by omega)]
      · refine ⟨⟨k.val + N - i.val, by omega⟩, fun j hj => ?_⟩
        have : j.val ≠ k.val + N - i.val := fun e => hj (Fin.ext e)
        have := j.isLt
        rw [if_neg (by omega), if_neg (by omega)]
    obtain ⟨j0, hj0⟩ := hone
    rw [sum_eq_single j0 (fun j _ hj => hj0 j hj) (fun h => absurd (mem_univ _) h)]
    have hp : |F i * G j0| ≤ (A : Int) * B := by
      rw [abs_mul]; exact mul_le_mul (hF i) (hG j0) (abs_nonneg _) (by positivity)
    split
    · exact hp
    · split
      · rw [abs_neg]; exact hp
      · rw [abs_zero]; positivity
  refine (sum_le_sum fun i _ => this i).trans ?_
  rw [sum_const, card_univ, Fintype.card_fin]
  push_cast
  rw [nsmul_eq_mul]; ring_nf; rfl

theorem IntPoly.Bounded.subst {F : IntPoly N} {A : Nat} (hF : F.Bounded A) {e : Nat} (he : e % 2 = 1) (hN : ∃ k, N = 2 ^ k) : IntPoly.Bounded (Nega.subst e F : IntPoly N) A := by
  obtain ⟨k, hk⟩ := hN
  intro i
  unfold Nega.subst
  have hcop : Nat.Coprime e N := by
    rw [hk]; exact Nat.Coprime.pow_right _ (Nat.coprime_two_right.2 (Nat.odd_iff.2 he))
  have huniq : ∀ j j' : Fin N, (e * j.val) % N = (e * j'.val) % N → j = j' := by
    intro j j' h
    have := Nat.ModEq.cancel_left_of_coprime (m := N) (c := e) (by rw [Nat.gcd_comm]; exact hcop) h
    unfold Nat.ModEq at this
    rw [Nat.mod_eq_of_lt j.isLt, Nat.mod_eq_of_lt j'.isLt] at this
    exact Fin.ext this
  by_cases hex : ∃ j : Fin N, (e * j.val) % N = i.val
  · obtain ⟨j0, hj0⟩ := hex
    rw [sum_eq_single j0]
    · rw [Nega.mono, if_pos hj0.symm]
      split
      · rw [mul_one]; exact hF j0
      · rw [mul_neg, mul_one, abs_neg]; exact hF j0
    · intro j _ hj
      rw [Nega.mono, if_neg, mul_zero]
      intro h
      exact hj (huniq _ _ (by rw [← h, hj0]))
    · intro h; exact absurd (mem_univ _) h
  · rw [sum_eq_zero]
    · rw [abs_zero]; positivity
    · intro j _
      rw [Nega.mono, if_neg, mul_zero]
      intro h
      exact hex ⟨j, h.symm⟩

end Fhe
