import Verif.Spec.Tfhe
import Verif.Props.Ntt
import Mathlib.RingTheory.IntegralDomain
/-!
# The `tfhe-ntt` operator refines a native one
-/
namespace Fhe
open NttOperator Spec

variable {p N n : Nat} {op' : NttOperator} {ω ωi : Nat}

/-- Every primitive `2N`-th root of unity is the root found from some drawn value. -/
theorem exists_draw (hp : p.Prime) (hmod : p % (2 * N) = 1) {ψ : ZMod p} (hψ : IsPrimitiveRoot ψ (2 * N)) : ∃ v < p, (v : ZMod p) ^ ((p - 1) / (2 * N)) = ψ := by
  have : Fact p.Prime := ⟨hp⟩
  have hN : 2 * N ≠ 0 := by rintro h; rw [h, Nat.mod_zero] at hmod; exact hp.one_lt.ne' hmod
  have hne : ψ ≠ 0 := hψ.ne_zero hN
  obtain ⟨g, hg⟩ := IsCyclic.exists_monoid_generator (α := (ZMod p)ˣ)
  obtain ⟨k, hk⟩ := hg (Units.mk0 ψ hne)
  have hord : orderOf g = p - 1 := by
    rw [orderOf_eq_card_of_forall_mem_powers hg, Nat.card_eq_fintype_card, ZMod.card_units]
  have hd : 2 * N ∣ p - 1 := (Nat.modEq_iff_dvd' hp.one_lt.le).1 (by show 1 % _ = _; rw [hmod, Nat.mod_eq_of_lt]; rcases Nat.lt_or_ge 1 (2 * N) with h | h; exact h; omega)
  obtain ⟨lam, hlam⟩ := hd
  have hdiv : (p - 1) / (2 * N) = lam := by rw [hlam, Nat.mul_div_cancel_left _ (Nat.pos_of_ne_zero hN)]
  have h1 : g ^ (k * (2 * N)) = 1 := by
    rw [pow_mul, show g ^ k = _ from hk]
    ext
    rw [Units.val_pow_eq_pow_val, Units.val_mk0, hψ.pow_eq_one, Units.val_one]
  have h2 : lam ∣ k := by
    have := orderOf_dvd_of_pow_eq_one h1
    rw [hord, hlam, Nat.mul_comm k] at this
    exact Nat.dvd_of_mul_dvd_mul_left (Nat.pos_of_ne_zero hN) this
  obtain ⟨j, rfl⟩ := h2
  refine ⟨((g ^ j : (ZMod p)ˣ) : ZMod p).val, ZMod.val_lt _, ?_⟩
  rw [ZMod.natCast_zmod_val, hdiv, Units.val_pow_eq_pow_val, ← pow_mul, Nat.mul_comm j, ← Units.val_pow_eq_pow_val, show g ^ (lam * j) = _ from hk, Units.val_mk0]

/-- A native operator with the wanted root exists. -/
theorem exists_native {dbg : Bool} {m : Modulus} (hm : m.WF) (h3 : 3 ≤ n) (hn : n ≤ 62) (hmod : m.p % (2 * 2 ^ n) = 1) (hp : m.p.Prime) {ψ : ZMod m.p} (hψ : IsPrimitiveRoot ψ (2 * 2 ^ n)) :
    ∃ v < m.p, ∃ op ω ωi, new dbg (fun _ => v) m (2 ^ n) = some (some op) ∧ op.WF n ω ωi ∧ op.p = m ∧ (ω : ZMod m.p) = ψ := by
  have : Fact m.p.Prime := ⟨hp⟩
  obtain ⟨v, hv, he⟩ := exists_draw hp hmod hψ
  have hcast : ((v ^ ((m.p - 1) / (2 * 2 ^ n)) % m.p : Nat) : ZMod m.p) = ψ := by rw [ZMod.natCast_mod, Nat.cast_pow, he]
  have hroot : IsRoot m.p (2 ^ n) (v ^ ((m.p - 1) / (2 * 2 ^ n)) % m.p) := by
    refine ⟨Nat.mod_lt _ hm.pos, ?_⟩
    rw [hcast]
    have h1 : (ψ ^ 2 ^ n) * (ψ ^ 2 ^ n) = 1 := by rw [← pow_add, ← two_mul, hψ.pow_eq_one]
    rcases mul_self_eq_one_iff.1 h1 with h | h
    · exact absurd (Nat.le_of_dvd (by positivity) (hψ.dvd_of_pow_eq_one _ h)) (by have : 0 < 2 ^ n := by positivity
                                                                                  omega)
    · exact h
  have hns := (isRoot_iff_nonsquare hp hmod).1 hroot
  rcases new_supported_root (dbg := dbg) (rng := fun _ => v) hm h3 hn hmod hp (fun _ => hv) with ⟨-, op, ω, ωi, h1, h2, h4, j, h5⟩ | ⟨h, -⟩
  · exact ⟨v, hv, op, ω, ωi, h1, h2, h4, by rw [h5, hcast]⟩
  · exact absurd (h 0 (by norm_num)) hns

theorem forward_spec (h : op'.WF n ω ωi) {a : List Nat} (hl : a.length = 2 ^ n) (ha : ∀ x ∈ a, x < 4 * op'.p.p) :
    ∃ r, op'.forward a = some r ∧ r.length = 2 ^ n ∧ ∀ i (hi : i < r.length), r[i] < op'.p.p ∧ (r[i] : ZMod op'.p.p) = polyEval a ((ω : ZMod op'.p.p) ^ (2 * bitRev (2 ^ n).log2 i + 1)) := by
  have : NeZero op'.p.p := ⟨h.prime.ne_zero⟩
  refine ⟨_, forward_eq h (by rw [hl, h.size]) ha, length_fwdVal _ _ _ _, fun i hi => ?_⟩
  have hi' := hi
  rw [length_fwdVal] at hi'
  have hg : (fwdVal op'.p.p n ω a)[i] = (evalState n (ω : ZMod op'.p.p) (fun t => (a.getD t 0 : ZMod op'.p.p)) n i).val := by
    have := tab_get? (fun x => (evalState n (ω : ZMod op'.p.p) (fun t => (a.getD t 0 : ZMod op'.p.p)) n x).val) hi'
    rw [List.getElem_eq_iff]; exact this
  rw [hg, ZMod.natCast_zmod_val, log2_two_pow, ← revBits_eq_bitRev, evalState_polyEval hl]
  exact ⟨ZMod.val_lt _, rfl⟩

theorem list_eq_of_cast {r r' : List Nat} {f : Nat → ZMod p} (hl : r.length = r'.length) (h : ∀ i (hi : i < r.length), r[i] < p ∧ (r[i] : ZMod p) = f i)
    (h' : ∀ i (hi : i < r'.length), r'[i] < p ∧ (r'[i] : ZMod p) = f i) : r = r' := by
  refine List.ext_getElem hl fun i hi hi' => ?_
  have h1 := (h i hi).2
  rw [← (h' i hi').2, ZMod.natCast_eq_natCast_iff', Nat.mod_eq_of_lt (h i hi).1, Nat.mod_eq_of_lt (h' i hi').1] at h1
  exact h1

/-- A plan and a native operator with the same root have the same forward transform. -/
theorem plan_forward (h : op'.WF n ω ωi) {plan : TfhePlan} (hP : PlanFor op'.p.p (2 ^ n) (ω : ZMod op'.p.p) plan) {a : List Nat} (hl : a.length = 2 ^ n) (ha : ∀ x ∈ a, x < 2 * op'.p.p) :
    ∃ r, plan.fwd a = some r ∧ op'.forward a = some r ∧ r.length = 2 ^ n ∧ ∀ x ∈ r, x < op'.p.p := by
  obtain ⟨r, h1, h2, h3⟩ := hP.fwd a hl ha
  obtain ⟨r', h1', h2', h3'⟩ := forward_spec h hl (fun x hx => by have := ha x hx; omega)
  have : r = r' := list_eq_of_cast (by rw [h2, h2']) h3 h3'
  subst this
  refine ⟨r, h1, h1', h2, fun x hx => ?_⟩
  obtain ⟨i, hi, rfl⟩ := List.mem_iff_getElem.1 hx
  exact (h3 i hi).1

theorem native_backward (h : op'.WF n ω ωi) {a : List Nat} (hl : a.length = 2 ^ n) (ha : ∀ x ∈ a, x < op'.p.p) :
    ∃ r, op'.backward a = some r ∧ r.length = 2 ^ n ∧ (∀ x ∈ r, x < op'.p.p) ∧ op'.forward r = some a := by
  have : NeZero op'.p.p := ⟨h.prime.ne_zero⟩
  rw [← h.size] at hl
  refine ⟨_, backward_eq h hl (fun x hx => by have := ha x hx; omega), length_bwdVal _ _ _ _ _, fun x hx => reduced_of_tab_val _ x hx, ?_⟩
  rw [forward_eq h (by rw [length_bwdVal, h.size]) (fun x hx => by have := reduced_of_tab_val _ x hx; omega), fwdVal_bwdVal h hl ha]

theorem plan_backward (h : op'.WF n ω ωi) {plan : TfhePlan} (hP : PlanFor op'.p.p (2 ^ n) (ω : ZMod op'.p.p) plan) {a : List Nat} (hl : a.length = 2 ^ n) (ha : ∀ x ∈ a, x < op'.p.p) :
    ∃ r, (plan.inv a).bind plan.normalize = some r ∧ op'.backward a = some r ∧ r.length = 2 ^ n := by
  obtain ⟨r, h1, h2, h3, h4⟩ := native_backward h hl ha
  obtain ⟨s, e1, e2, -⟩ := plan_forward h hP h2 (fun x hx => by have := h3 x hx; omega)
  rw [h4] at e2
  obtain rfl : a = s := by simpa using e2
  exact ⟨r, hP.inv r a h2 h3 e1, h1, h2⟩

theorem native_lazy (h : op'.WF n ω ωi) {a : List Nat} (hl : a.length = 2 ^ n) (ha : ∀ x ∈ a, x < 4 * op'.p.p) :
    ∃ r, op'.forwardVtLazy a = some r ∧ (∀ x ∈ r, x < 4 * op'.p.p) ∧ op'.forward a = some (r.map (· % op'.p.p)) := by
  rw [← h.size] at hl
  obtain ⟨f', e1, e2⟩ := forwardVtLazy_eq h hl ha
  refine ⟨_, e1, ?_, ?_⟩
  · intro x hx
    obtain ⟨i, hi, rfl⟩ := mem_tab.1 hx
    exact (e2 i hi).1
  · rw [forward_eq h hl ha, tab_map, fwdVal]
    congr 1
    refine tab_congr fun x hx => (val_of_lt (Nat.mod_lt _ h.modulus.pos) ?_).symm
    rw [ZMod.natCast_mod, (e2 x hx).2]

theorem onSlice_all {f : List Nat → Panics (List Nat)} {a : List Nat} (hl : a.length = N) : TfheOperator.onSlice N f a = f a := by
  subst hl
  unfold TfheOperator.onSlice
  rw [check_eq (le_refl _), List.take_length, List.drop_length]
  simp

theorem map_mod_reduced {r : List Nat} (h : ∀ x ∈ r, x < p) : r.map (· % p) = r := by
  conv_rhs => rw [← List.map_id r]
  exact List.map_congr_left fun x hx => Nat.mod_eq_of_lt (h x hx)

theorem sameTransforms_plan (h : op'.WF n ω ωi) {plan : TfhePlan} (hP : PlanFor op'.p.p (2 ^ n) (ω : ZMod op'.p.p) plan) (native : NttOperator) :
    SameTransforms op'.p.p (2 ^ n) ⟨some plan, native⟩ op' := by
  have hvt : ∀ a : List Nat, a.length = 2 ^ n → (∀ x ∈ a, x < 2 * op'.p.p) → op'.forwardVt a = op'.forward a := fun a hl ha => by
    rw [forwardVt_eq h (by rw [hl, h.size]) (fun x hx => by have := ha x hx; omega), forward_eq h (by rw [hl, h.size]) (fun x hx => by have := ha x hx; omega)]
  refine ⟨fun a hl ha => ?_, fun a hl ha => ?_, fun a hl ha => ?_, fun a hl ha => ?_, fun a hl ha => ?_⟩
  · obtain ⟨r, h1, h2, -⟩ := plan_forward h hP hl ha
    exact ⟨r, h1, h2⟩
  · obtain ⟨r, h1, h2, -⟩ := plan_forward h hP hl ha
    refine ⟨r, ?_, by rw [hvt a hl ha, h2]⟩
    show TfheOperator.onSlice plan.size plan.fwd a = _
    rw [hP.size, onSlice_all hl, h1]
  · obtain ⟨r, h1, h2, h3, h4⟩ := plan_forward h hP hl ha
    obtain ⟨r', e1, e2, e3⟩ := native_lazy h hl (fun x hx => by have := ha x hx; omega)
    refine ⟨r, r', ?_, e1, ?_, fun x hx => by have := h4 x hx; omega, e2⟩
    · show TfheOperator.onSlice plan.size plan.fwd a = _
      rw [hP.size, onSlice_all hl, h1]
    · rw [h2] at e3
      rw [map_mod_reduced h4]
      exact Option.some.inj e3
  · obtain ⟨r, h1, h2, -⟩ := plan_backward h hP hl ha
    exact ⟨r, h1, h2⟩
  · obtain ⟨r, h1, h2, -⟩ := plan_backward h hP hl ha
    refine ⟨r, ?_, ?_⟩
    · show TfheOperator.onSlice plan.size (fun a => do
        let a ← plan.inv a
        plan.normalize a) a = _
      rw [hP.size, onSlice_all hl]; exact h1
    · rw [backwardVt_eq h (by rw [hl, h.size]) (fun x hx => by have := ha x hx; omega), ← h2, backward_eq h (by rw [hl, h.size]) (fun x hx => by have := ha x hx; omega)]

theorem sameTransforms_native (h : op'.WF n ω ωi) : SameTransforms op'.p.p (2 ^ n) ⟨none, op'⟩ op' := by
  have hf : ∀ a : List Nat, a.length = 2 ^ n → (∀ x ∈ a, x < 2 * op'.p.p) → ∃ r, op'.forward a = some r := fun a hl ha =>
    ⟨_, forward_eq h (by rw [hl, h.size]) (fun x hx => by have := ha x hx; omega)⟩
  have hv : ∀ a : List Nat, a.length = 2 ^ n → (∀ x ∈ a, x < 2 * op'.p.p) → ∃ r, op'.forwardVt a = some r := fun a hl ha =>
    ⟨_, forwardVt_eq h (by rw [hl, h.size]) (fun x hx => by have := ha x hx; omega)⟩
  refine ⟨fun a hl ha => ?_, fun a hl ha => ?_, fun a hl ha => ?_, fun a hl ha => ?_, fun a hl ha => ?_⟩
  · obtain ⟨r, h1⟩ := hf a hl ha; exact ⟨r, h1, h1⟩
  · obtain ⟨r, h1⟩ := hv a hl ha; exact ⟨r, h1, h1⟩
  · obtain ⟨r, h1, h2, -⟩ := native_lazy h hl (fun x hx => by have := ha x hx; omega)
    exact ⟨r, r, h1, h1, rfl, h2, h2⟩
  · obtain ⟨r, h1, -⟩ := native_backward h hl ha; exact ⟨r, h1, h1⟩
  · have := backwardVt_eq h (by rw [hl, h.size]) (fun x hx => by have := ha x hx; omega : ∀ x ∈ a, x < 2 * op'.p.p)
    exact ⟨_, this, this⟩

end Fhe
