import Mathlib.RingTheory.RootsOfUnity.PrimitiveRoots
import Mathlib.GroupTheory.OrderOfElement
import Verif.Spec.Ntt
import Verif.Lemmas.NttNew
/-! The transforms as total functions of their input, inversion and products. -/
namespace Fhe
open Finset
namespace NttOperator
variable {op : NttOperator} {n ω ωi : Nat}

theorem tab_getD {k i : Nat} (f : Nat → Nat) (h : i < k) : (tab k f).getD i 0 = f i := by
  rw [List.getD_eq_getElem?_getD, tab_get? f h]; rfl

theorem tab_of_length {a : List Nat} {k : Nat} (h : a.length = k) : a = tab k fun i => a.getD i 0 := by
  subst h; exact eq_tab a

theorem getD_lt {a : List Nat} {k B : Nat} (ha : ∀ x ∈ a, x < B) (hk : k < a.length) : a.getD k 0 < B := by
  rw [List.getD_eq_getElem?_getD, List.getElem?_eq_getElem hk]
  exact ha _ (List.getElem_mem hk)

/-- The bit-reversed list of values at the odd powers of `ω`. -/
def fwdVal (p n ω : Nat) (a : List Nat) : List Nat :=
  tab (2 ^ n) fun x => (evalState n (ω : ZMod p) (fun t => (a.getD t 0 : ZMod p)) n x).val

/-- The scaled inverse butterflies. -/
def bwdVal (p n ωi si : Nat) (b : List Nat) : List Nat :=
  tab (2 ^ n) fun x => ((si : ZMod p) * bwdState n (fun k => (ωi : ZMod p) ^ (revBits n k + 1)) (fun i => (b.getD i 0 : ZMod p)) n x).val

theorem val_of_lt {p v : Nat} {z : ZMod p} (hv : v < p) (h : (v : ZMod p) = z) : v = z.val := by
  rw [← h, ZMod.val_natCast, Nat.mod_eq_of_lt hv]

theorem forward_eq (h : op.WF n ω ωi) {a : List Nat} (hl : a.length = op.size) (ha : ∀ x ∈ a, x < 4 * op.p.p) :
    op.forward a = some (fwdVal op.p.p n ω a) := by
  have hl' := hl; rw [h.size] at hl'
  unfold forward
  rw [check_eq hl]
  simp only [Option.bind_eq_bind, Option.bind_some]
  rw [h.size]
  have h3 := h.three_le
  obtain ⟨f', e1, e2⟩ := forwardLoop_spec h (fun t => (a.getD t 0 : ZMod op.p.p)) n 0 (by omega) (fun i => a.getD i 0) (fun x hx => by
    rw [if_neg (by omega), evalState_zero _ _ _ hx]
    exact ⟨getD_lt ha (by omega), rfl⟩)
  rw [← tab_of_length hl', pow_zero] at e1
  rw [e1, fwdVal]
  congr 1
  exact tab_congr fun x hx => val_of_lt (e2 x hx).1 (e2 x hx).2

theorem forwardVtLazy_eq (h : op.WF n ω ωi) {a : List Nat} (hl : a.length = op.size) (ha : ∀ x ∈ a, x < 4 * op.p.p) :
    ∃ f' : Nat → Nat, op.forwardVtLazy a = some (tab (2 ^ n) f') ∧ ∀ x < 2 ^ n, f' x < 4 * op.p.p ∧
      (f' x : ZMod op.p.p) = evalState n (ω : ZMod op.p.p) (fun t => (a.getD t 0 : ZMod op.p.p)) n x := by
  have hl' := hl; rw [h.size] at hl'
  unfold forwardVtLazy
  rw [check_eq hl]
  simp only [Option.bind_eq_bind, Option.bind_some]
  rw [h.size]
  obtain ⟨f', e1, e2⟩ := forwardVtLoop_spec h (fun t => (a.getD t 0 : ZMod op.p.p)) n 0 (by omega) (fun i => a.getD i 0) (fun x hx => by
    rw [evalState_zero _ _ _ hx]
    exact ⟨getD_lt ha (by omega), rfl⟩)
  rw [← tab_of_length hl', pow_zero] at e1
  exact ⟨f', e1, e2⟩

theorem forwardVt_eq (h : op.WF n ω ωi) {a : List Nat} (hl : a.length = op.size) (ha : ∀ x ∈ a, x < 4 * op.p.p) :
    op.forwardVt a = some (fwdVal op.p.p n ω a) := by
  obtain ⟨f', e1, e2⟩ := forwardVtLazy_eq h hl ha
  unfold forwardVt
  rw [e1]
  simp only [Option.bind_eq_bind, Option.bind_some]
  rw [tab_mapM (fun x hx => reduce3Vt_eq h (e2 x hx).1), fwdVal]
  congr 1
  refine tab_congr fun x hx => val_of_lt (Nat.mod_lt _ h.modulus.pos) ?_
  rw [ZMod.natCast_mod, (e2 x hx).2]

theorem scale_eq (h : op.WF n ω ωi) {z : Nat → ZMod op.p.p} {f' : Nat → Nat} (e2 : ∀ x < 2 ^ n, f' x < 2 * op.p.p ∧ (f' x : ZMod op.p.p) = z x) :
    ((tab (2 ^ n) f').mapM fun ai => op.p.mulShoup ai op.sizeInv op.sizeInvShoup) =
      some (tab (2 ^ n) fun x => ((op.sizeInv : ZMod op.p.p) * z x).val) := by
  have hlt := h.modulus.lt
  rw [tab_mapM (f := f') (F := fun ai => op.p.mulShoup ai op.sizeInv op.sizeInvShoup) (fun x hx => Modulus.mulShoup_eq h.modulus (by have := (e2 x hx).1; omega) h.sizeInv_lt h.sizeInvShoup)]
  congr 1
  refine tab_congr fun x hx => val_of_lt (Nat.mod_lt _ h.modulus.pos) ?_
  rw [ZMod.natCast_mod, Nat.cast_mul, (e2 x hx).2, mul_comm]

theorem backward_eq (h : op.WF n ω ωi) {b : List Nat} (hl : b.length = op.size) (hb : ∀ x ∈ b, x < 2 * op.p.p) :
    op.backward b = some (bwdVal op.p.p n ωi op.sizeInv b) := by
  have hl' := hl; rw [h.size] at hl'
  unfold backward
  rw [check_eq hl]
  simp only [Option.bind_eq_bind, Option.bind_some]
  obtain ⟨f', e1, e2⟩ := backwardLoop_spec h (fun t => (b.getD t 0 : ZMod op.p.p)) n 0 (by omega) (fun i => b.getD i 0) (fun x hx =>
    ⟨getD_lt hb (by omega), rfl⟩)
  rw [← tab_of_length hl', pow_zero, Nat.sub_self] at e1
  rw [e1, Option.bind_some, scale_eq h e2]
  rfl

theorem backwardVt_eq (h : op.WF n ω ωi) {b : List Nat} (hl : b.length = op.size) (hb : ∀ x ∈ b, x < 2 * op.p.p) :
    op.backwardVt b = some (bwdVal op.p.p n ωi op.sizeInv b) := by
  have hl' := hl; rw [h.size] at hl'
  unfold backwardVt
  rw [check_eq hl]
  simp only [Option.bind_eq_bind, Option.bind_some]
  obtain ⟨f', e1, e2⟩ := backwardVtLoop_spec h (fun t => (b.getD t 0 : ZMod op.p.p)) n 0 (by omega) (fun i => b.getD i 0) (fun x hx =>
    ⟨getD_lt hb (by omega), rfl⟩)
  rw [← tab_of_length hl', pow_zero, Nat.sub_self] at e1
  rw [h.size, e1, Option.bind_some, scale_eq h e2]
  rfl

theorem evalState_congr {R : Type} [CommRing R] {n s : Nat} (hs : s ≤ n) {ω : R} {a a' : Nat → R} (h : ∀ x < 2 ^ n, a x = a' x) (x : Nat) :
    evalState n ω a s x = evalState n ω a' s x := by
  unfold evalState
  refine sum_congr rfl fun t ht => ?_
  rw [h]
  have h1 : x % 2 ^ (n - s) < 2 ^ (n - s) := Nat.mod_lt _ (by positivity)
  have h2 := mem_range.1 ht
  calc x % 2 ^ (n - s) + t * 2 ^ (n - s) < 2 ^ (n - s) + t * 2 ^ (n - s) := by omega
    _ = (t + 1) * 2 ^ (n - s) := by ring
    _ ≤ 2 ^ s * 2 ^ (n - s) := Nat.mul_le_mul_right _ h2
    _ = 2 ^ n := by rw [← pow_add]; congr 1; omega

theorem bwdState_congr {R : Type} [CommRing R] {n : Nat} {z : Nat → R} {b b' : Nat → R} (h : ∀ x < 2 ^ n, b x = b' x) {d : Nat} (hd : d ≤ n) :
    ∀ x < 2 ^ n, bwdState n z b d x = bwdState n z b' d x := by
  induction d with
  | zero => exact h
  | succ d ih =>
    have hN : 2 ^ n = 2 * 2 ^ d * 2 ^ (n - d - 1) := by
      rw [← pow_succ', ← pow_add]; congr 1; omega
    intro x hx
    rw [hN] at hx
    exact levelFn_congr (M := 2 ^ (n - d - 1)) (fun y hy => ih (by omega) y (by rw [hN]; exact hy)) x hx

theorem reduced_of_tab_val {p : Nat} [NeZero p] {k : Nat} (g : Nat → ZMod p) : ∀ x ∈ tab k (fun i => (g i).val), x < p := by
  intro x hx
  obtain ⟨i, -, rfl⟩ := mem_tab.1 hx
  exact ZMod.val_lt _

theorem bwdVal_fwdVal (h : op.WF n ω ωi) {a : List Nat} (hl : a.length = op.size) (ha : ∀ x ∈ a, x < op.p.p) :
    bwdVal op.p.p n ωi op.sizeInv (fwdVal op.p.p n ω a) = a := by
  have : NeZero op.p.p := ⟨h.prime.ne_zero⟩
  rw [h.size] at hl
  conv_rhs => rw [tab_of_length hl]
  unfold bwdVal
  refine tab_congr fun x hx => ?_
  rw [bwdState_congr (b' := evalState n (ω : ZMod op.p.p) (fun t => (a.getD t 0 : ZMod op.p.p)) n) ?_ (le_refl n) x hx,
    bwdState_evalState h.root h.inv _ n (le_refl n) x hx, Nat.sub_self, evalState_zero _ _ _ hx, ← mul_assoc, h.sizeInv, one_mul,
    ZMod.val_natCast, Nat.mod_eq_of_lt (getD_lt ha (by omega))]
  intro y hy
  rw [fwdVal, tab_getD _ hy, ZMod.natCast_zmod_val]

theorem fwdVal_bwdVal (h : op.WF n ω ωi) {b : List Nat} (hl : b.length = op.size) (hb : ∀ x ∈ b, x < op.p.p) :
    fwdVal op.p.p n ω (bwdVal op.p.p n ωi op.sizeInv b) = b := by
  have : NeZero op.p.p := ⟨h.prime.ne_zero⟩
  rw [h.size] at hl
  conv_rhs => rw [tab_of_length hl]
  unfold fwdVal
  refine tab_congr fun x hx => ?_
  rw [evalState_congr (le_refl n) (a' := fun t => (op.sizeInv : ZMod op.p.p) *
    bwdState n (fun k => (ωi : ZMod op.p.p) ^ (revBits n k + 1)) (fun i => (b.getD i 0 : ZMod op.p.p)) n t)]
  · have hlin : ∀ (c : ZMod op.p.p) (g : Nat → ZMod op.p.p),
        evalState n (ω : ZMod op.p.p) (fun t => c * g t) n x = c * evalState n (ω : ZMod op.p.p) g n x := by
      intro c g; unfold evalState; rw [mul_sum]; refine sum_congr rfl fun t _ => by ring
    rw [hlin, evalState_bwdState h.root h.inv _ n (le_refl n) x hx, Nat.sub_self, ← mul_assoc, h.sizeInv, one_mul]
    show ((b.getD x 0 : Nat) : ZMod op.p.p).val = _
    rw [ZMod.val_natCast, Nat.mod_eq_of_lt (getD_lt hb (by omega))]
  · intro y hy
    rw [bwdVal, tab_getD _ hy, ZMod.natCast_zmod_val]

theorem evalState_polyEval {a : List Nat} (hl : a.length = 2 ^ n) {p : Nat} (w : ZMod p) (x : Nat) :
    evalState n w (fun t => (a.getD t 0 : ZMod p)) n x = Spec.polyEval a (w ^ (2 * revBits n x + 1)) := by
  rw [evalState_end, Spec.polyEval, hl]
  refine sum_congr rfl fun t _ => by rw [pow_mul]

theorem revBits_eq_bitRev (n i : Nat) : revBits n i = Spec.bitRev n i := by
  induction n generalizing i with
  | zero => rfl
  | succ n ih =>
    rw [revBits, ih, Spec.bitRev, Spec.bitRev, sum_range_succ, Nat.add_comm]
    congr 1
    · refine sum_congr rfl fun b hb => ?_
      have := mem_range.1 hb
      rw [show n + 1 - 1 - b = (n - 1 - b) + 1 by omega, Nat.testBit_succ]
    · rw [show n + 1 - 1 - n = 0 by omega, Nat.testBit_zero]
      rcases Nat.mod_two_eq_zero_or_one i with h | h <;> simp [h]

end NttOperator

/-- Evaluation at a root of `X^N + 1` is multiplicative for the negacyclic product. -/
theorem negaCoeff_eval {R : Type} [CommRing R] (N : Nat) (a b : Nat → R) (x : R) (hx : x ^ N = -1) :
    ∑ k ∈ range N, Spec.negaCoeff N a b k * x ^ k = (∑ i ∈ range N, a i * x ^ i) * ∑ j ∈ range N, b j * x ^ j := by
  unfold Spec.negaCoeff
  rw [sum_mul_sum]
  simp only [sum_mul]
  rw [sum_comm]
  refine sum_congr rfl fun i hi => ?_
  rw [sum_comm]
  refine sum_congr rfl fun j hj => ?_
  have hi := mem_range.1 hi
  have hj := mem_range.1 hj
  rcases Nat.lt_or_ge (i + j) N with h | h
  · rw [sum_eq_single (i + j)]
    · rw [if_pos rfl, pow_add]; ring
    · intro k hk hne
      rw [if_neg (fun e => hne e.symm), if_neg (by omega), zero_mul]
    · intro hn; exact absurd (mem_range.2 h) hn
  · rw [sum_eq_single (i + j - N)]
    · rw [if_neg (by omega), if_pos (by omega)]
      have : x ^ i * x ^ j = -x ^ (i + j - N) := by
        rw [← pow_add, show i + j = N + (i + j - N) by omega, pow_add, hx, show N + (i + j - N) - N = i + j - N by omega]; ring
      linear_combination (-(a i * b j)) * this
    · intro k hk hne
      have := mem_range.1 hk
      rw [if_neg (by omega), if_neg (by omega), zero_mul]
    · intro hn; exact absurd (mem_range.2 (by omega)) hn

namespace NttOperator
variable {op : NttOperator} {n ω ωi : Nat}

/-- The representative list of the negacyclic product. -/
def negaList (p N : Nat) (a b : List Nat) : List Nat :=
  tab N fun k => (Spec.negaCoeff N (fun i => (a.getD i 0 : ZMod p)) (fun i => (b.getD i 0 : ZMod p)) k).val

theorem fwdVal_negaList (h : op.WF n ω ωi) {a b : List Nat} :
    fwdVal op.p.p n ω (negaList op.p.p (2 ^ n) a b) =
      List.zipWith (fun x y => x * y % op.p.p) (fwdVal op.p.p n ω a) (fwdVal op.p.p n ω b) := by
  have : NeZero op.p.p := ⟨h.prime.ne_zero⟩
  have hz : ∀ (k : Nat) (f g : Nat → Nat) (F : Nat → Nat → Nat), List.zipWith F (tab k f) (tab k g) = tab k fun i => F (f i) (g i) := by
    intro k f g F
    apply List.ext_getElem? 
    intro i
    rw [List.getElem?_zipWith]
    rcases Nat.lt_or_ge i k with hi | hi
    · rw [tab_get? _ hi, tab_get? _ hi, tab_get? _ hi]
    · rw [List.getElem?_eq_none (by rw [length_tab]; exact hi), List.getElem?_eq_none (l := tab k fun i => F (f i) (g i)) (by rw [length_tab]; exact hi)]
  rw [fwdVal, fwdVal, fwdVal, hz]
  refine tab_congr fun x hx => ?_
  rw [evalState_congr (le_refl n) (a' := Spec.negaCoeff (2 ^ n) (fun i => (a.getD i 0 : ZMod op.p.p)) (fun i => (b.getD i 0 : ZMod op.p.p)))
    (fun y hy => by rw [negaList, tab_getD _ hy, ZMod.natCast_zmod_val])]
  rw [← ZMod.val_mul]
  congr 1
  simp only [evalState_end, pow_mul]
  refine negaCoeff_eval _ _ _ _ ?_
  rw [← pow_mul, Nat.mul_comm, pow_mul, h.root, Odd.neg_one_pow ⟨_, rfl⟩]

theorem length_fwdVal (p n ω : Nat) (a : List Nat) : (fwdVal p n ω a).length = 2 ^ n := length_tab _ _
theorem length_bwdVal (p n ω s : Nat) (a : List Nat) : (bwdVal p n ω s a).length = 2 ^ n := length_tab _ _

theorem WF.isPrimitiveRoot (h : op.WF n ω ωi) : _root_.IsPrimitiveRoot (ω : ZMod op.p.p) (2 * 2 ^ n) := by
  have : Fact op.p.p.Prime := ⟨h.prime⟩
  have hn := h.three_le
  have hp3 : 2 < op.p.p := by
    rcases Nat.lt_or_ge 2 op.p.p with hlt | hge
    · exact hlt
    · exfalso
      have h2 : op.p.p = 2 := by have := h.prime.two_le; omega
      have := h.sizeInv
      rw [show ((2 : ZMod op.p.p)) = ((2 : Nat) : ZMod op.p.p) by norm_num, show ((2 : Nat) : ZMod op.p.p) = 0 by
        rw [ZMod.natCast_eq_zero_iff, h2], zero_pow (by omega), mul_zero] at this
      exact zero_ne_one this
  have hne : (-1 : ZMod op.p.p) ≠ 1 := by
    have : Fact (2 < op.p.p) := ⟨hp3⟩
    exact ZMod.neg_one_ne_one
  rw [← pow_succ']
  refine IsPrimitiveRoot.iff_orderOf.2 (orderOf_eq_prime_pow (by rw [h.root]; exact hne) (by rw [pow_succ, pow_mul, h.root]; ring))

end NttOperator
end Fhe
