import Verif.Lemmas.Unreduced
import Verif.Lemmas.TimedBfv
/-!
# Release builds on values that are not reduced

The backward transform of a release build on arbitrary words.
-/
namespace Fhe.Release
open Fhe

variable {op : NttOperator} {n ω ωi : Nat}

/-- A conditional subtraction. -/
def Subtracts (red : Nat → Nat → Timed Nat) : Prop :=
  ∀ x q, x < 2 ^ 64 → q < 2 ^ 63 → (red x q).result = some (if x < q then x else x - q)

theorem reduce1_subtracts : Subtracts reduce1 := by
  intro x q hx hq
  show some (condSelect x (wsub64 x q) (decide (x < q))) = _
  rw [condSelect_eq hx (show wsub64 x q < 2 ^ 64 from Nat.mod_lt _ (by positivity))]
  by_cases h : x < q
  · simp [h]
  · simp only [h, decide_false, Bool.false_eq_true, if_false]
    congr 1
    unfold wsub64; omega

theorem reduce1Vt_subtracts (cfg : Bool) : Subtracts (reduce1Vt cfg) := by
  intro x q hx hq
  cases cfg
  · exact reduce1_subtracts x q hx hq
  · unfold reduce1Vt
    rw [if_pos rfl]
    by_cases h : x < q
    · simp only [h, if_true]
      rw [branch_bind]
      simp [Nat.not_le.2 h, pure]
    · rw [branch_bind]
      simp [Nat.not_lt.1 h, h, pure, wsub]

/-- The backward butterfly of a release build on arbitrary words. -/
theorem invButterfly_words (h : op.WF n ω ωi) {red : Nat → Nat → Timed Nat} (hred : Subtracts red) {x y w ws : Nat} (hy : y < 2 ^ 64)
    (hw : w < op.p.p) (hs : op.p.shoup w = some ws) :
    ∃ x' y', (invButterflyWith op red x y w ws).result = some (x', y') ∧ x' < 2 ^ 64 ∧ y' < 2 * op.p.p ∧
      x' = (if wadd64 y x < 2 * op.p.p then wadd64 y x else wadd64 y x - 2 * op.p.p) ∧ (y' : ZMod op.p.p) = (wsub 64 (wadd64 op.pTwice x) y : Nat) * w := by
  have hlt := h.modulus.lt
  have htw := h.twice
  have h1 : wadd64 y x < 2 ^ 64 := Nat.mod_lt _ (by positivity)
  have h2 : wadd64 op.pTwice x < 2 ^ 64 := Nat.mod_lt _ (by positivity)
  have h3 : wsub 64 (wadd64 op.pTwice x) y < 2 ^ 64 := by unfold wsub; split <;> omega
  obtain ⟨t, ht, ht2, htm⟩ := Modulus.lazyMulShoup_eq h.modulus h3 hw hs
  have hr := hred (wadd64 y x) op.pTwice h1 (by omega)
  rw [htw] at hr
  refine ⟨_, t, ?_, ?_, ht2, rfl, ?_⟩
  · unfold invButterflyWith
    simp only []
    rw [bind_some (by rw [htw]; exact hr), bind_some (lazyMulShoup_agrees _ _ _ _ _ ht)]
    rfl
  · split <;> omega
  · rw [NttOperator.natCast_of_mod htm, Nat.cast_mul]

/-- What a backward butterfly of a release build makes of arbitrary words. -/
def WordSpec (op : NttOperator) (n ωi : Nat) (F : Nat → Nat → Nat → Timed (Nat × Nat)) : Prop :=
  ∀ k x y, k < 2 ^ n → y < 2 ^ 64 → ∃ x' y', (F k x y).result = some (x', y') ∧ x' < 2 ^ 64 ∧ y' < 2 * op.p.p ∧
    x' = (if wadd64 y x < 2 * op.p.p then wadd64 y x else wadd64 y x - 2 * op.p.p) ∧
    (y' : ZMod op.p.p) = (wsub 64 (wadd64 op.pTwice x) y : Nat) * (ωi : ZMod op.p.p) ^ (revBits n k + 1)

theorem bwdOp_words (h : op.WF n ω ωi) : WordSpec op n ωi (bwdOp op) := by
  intro k x y hk hy
  obtain ⟨s, e1, e2, e3⟩ := h.zeta_get hk
  obtain ⟨x', y', b1, b2, b3, b4, b5⟩ := invButterfly_words h reduce1_subtracts (x := x) hy (Nat.mod_lt _ h.modulus.pos) e3
  refine ⟨x', y', ?_, b2, b3, b4, ?_⟩
  · unfold bwdOp; rw [bind_some e1, bind_some e2]; exact b1
  · rw [b5, ZMod.natCast_mod]; push_cast; rfl

theorem bwdVtOp_words (h : op.WF n ω ωi) : WordSpec op n ωi (bwdVtOp op) := by
  intro k x y hk hy
  obtain ⟨s, e1, e2, e3⟩ := h.zeta_get hk
  obtain ⟨x', y', b1, b2, b3, b4, b5⟩ := invButterfly_words h (reduce1Vt_subtracts op.p.vtCfg) (x := x) hy (Nat.mod_lt _ h.modulus.pos) e3
  refine ⟨x', y', ?_, b2, b3, b4, ?_⟩
  · unfold bwdVtOp; rw [bind_some e1, bind_some e2]; exact b1
  · rw [b5, ZMod.natCast_mod]; push_cast; rfl

/-- A pass over words gives words. -/
theorem pass_words {F : Nat → Nat → Nat → Timed (Nat × Nat)} (h : op.WF n ω ωi) (hF : WordSpec op n ωi F) {l M k : Nat} (hl : 0 < l) (hk : k + M ≤ 2 ^ n) (f : Nat → Nat)
    (hf : ∀ x < 2 * l * M, f x < 2 ^ 64) :
    ∃ f' : Nat → Nat, (chunkPass F l k (tab (2 * l * M) f)).result = some (tab (2 * l * M) f', k + M) ∧
      (idxPass F l M 0 k (tab (2 * l * M) f)).result = some (tab (2 * l * M) f', k + M) ∧ ∀ x < 2 * l * M, f' x < 2 ^ 64 := by
  have hlt := h.modulus.lt
  have hs : NttOperator.OpSpec 1 (2 ^ n) (2 ^ 64) (2 ^ 64) (fun k x y => (F k x y).result) (fun _ _ _ => (0, 0)) := by
    intro k x y hk hx hy
    obtain ⟨x', y', e, e1, e2, -⟩ := hF k x y hk hy
    exact ⟨x', y', e, e1, by omega, Subsingleton.elim _ _⟩
  obtain ⟨f', e1, e2, e3⟩ := NttOperator.pass_spec hs hl hk f hf
  exact ⟨f', chunkPass_agrees (fun _ _ _ _ h => h) _ _ _ _ e1, idxPass_agrees (fun _ _ _ _ h => h) _ _ _ _ _ _ e2, fun x hx => (e3 x hx).1⟩

theorem backwardLoop_words (h : op.WF n ω ωi) (c d : Nat) (hd : d + c = n) (f : Nat → Nat) (hf : ∀ x < 2 ^ n, f x < 2 ^ 64) :
    ∃ f' : Nat → Nat, (backwardLoop op (2 ^ d) (2 ^ n - 2 ^ c) (tab (2 ^ n) f)).result = some (tab (2 ^ n) f') ∧ ∀ x < 2 ^ n, f' x < 2 ^ 64 := by
  induction c generalizing d f with
  | zero =>
    refine ⟨f, ?_, hf⟩
    rw [backwardLoop, dif_neg (by rw [h.size, show d = n by omega]; simp), branch_bind]; rfl
  | succ c ih =>
    have hN : 2 ^ n = 2 * 2 ^ d * 2 ^ c := by rw [← hd]; ring
    have hl : 0 < 2 ^ d := by positivity
    have hc : 2 ^ (c + 1) = 2 ^ c + 2 ^ c := by ring
    have hle : 2 ^ (c + 1) ≤ 2 ^ n := Nat.pow_le_pow_right (by norm_num) (by omega)
    have hlt : 2 ^ d < op.size := by rw [h.size]; exact Nat.pow_lt_pow_right (by norm_num) (by omega)
    have hshift : 2 ^ d <<< 1 = 2 ^ (d + 1) := by rw [Nat.shiftLeft_eq]; ring
    have hkk : 2 ^ n - 2 ^ (c + 1) + 2 ^ c = 2 ^ n - 2 ^ c := by rw [hc] at hle ⊢; omega
    obtain ⟨f', e1, -, e3⟩ := pass_words h (bwdOp_words h) hl (by rw [hkk]; exact Nat.sub_le _ _) f (fun x hx => hf x (by rw [hN]; exact hx))
    rw [← hN] at e1
    rw [backwardLoop, dif_pos ⟨hl, hlt⟩, branch_bind, bind_some e1]
    simp only []
    rw [hshift, hkk]
    exact ih (d + 1) (by omega) f' (fun x hx => e3 x (by rw [← hN]; exact hx))

theorem backwardVtLoop_words (h : op.WF n ω ωi) (c d : Nat) (hd : d + c = n) (f : Nat → Nat) (hf : ∀ x < 2 ^ n, f x < 2 ^ 64) :
    ∃ f' : Nat → Nat, (backwardVtLoop op (2 ^ d) (2 ^ c >>> 1) (2 ^ n - 2 ^ c) (tab (2 ^ n) f)).result = some (tab (2 ^ n) f') ∧ ∀ x < 2 ^ n, f' x < 2 ^ 64 := by
  induction c generalizing d f with
  | zero =>
    refine ⟨f, ?_, hf⟩
    rw [backwardVtLoop, dif_neg (by simp), branch_bind]; rfl
  | succ c ih =>
    have hN : 2 ^ n = 2 * 2 ^ d * 2 ^ c := by rw [← hd]; ring
    have hl : 0 < 2 ^ d := by positivity
    have hc : 2 ^ (c + 1) = 2 ^ c + 2 ^ c := by ring
    have hle : 2 ^ (c + 1) ≤ 2 ^ n := Nat.pow_le_pow_right (by norm_num) (by omega)
    have hshift : 2 ^ d <<< 1 = 2 ^ (d + 1) := by rw [Nat.shiftLeft_eq]; ring
    have hkk : 2 ^ n - 2 ^ (c + 1) + 2 ^ c = 2 ^ n - 2 ^ c := by rw [hc] at hle ⊢; omega
    have hc0 : 0 < 2 ^ c := by positivity
    obtain ⟨f', -, e1, e3⟩ := pass_words h (bwdVtOp_words h) hl (by rw [hkk]; exact Nat.sub_le _ _) f (fun x hx => hf x (by rw [hN]; exact hx))
    rw [← hN] at e1
    rw [NttOperator.half_pow, backwardVtLoop, dif_pos hc0, branch_bind, bind_some e1]
    simp only []
    rw [hshift, hkk]
    exact ih (d + 1) (by omega) f' (fun x hx => e3 x (by rw [← hN]; exact hx))

/-- The transform that the encoder calls. -/
def backwardBy (op : NttOperator) (vt : Bool) (a : List Nat) : Timed (List Nat) := if vt = true then backwardVt op a else backward op a

theorem scale_words (h : op.WF n ω ωi) {f : Nat → Nat} (hf : ∀ x < 2 ^ n, f x < 2 ^ 64) :
    (mapLoop (fun ai => mulShoup op.p ai op.sizeInv op.sizeInvShoup) (tab (2 ^ n) f)).result = some (tab (2 ^ n) fun x => f x * op.sizeInv % op.p.p) :=
  Agrees.mapM (fun _ => mulShoup_agrees _ _ _ _) _ _
    (tab_mapM (f := f) (F := fun ai => op.p.mulShoup ai op.sizeInv op.sizeInvShoup) fun x hx => Modulus.mulShoup_eq h.modulus (hf x hx) h.sizeInv_lt h.sizeInvShoup)

/-- A release build transforms any words, and the results are reduced. -/
theorem backward_words (h : op.WF n ω ωi) (vt : Bool) {a : List Nat} (hl : a.length = 2 ^ n) (ha : ∀ x ∈ a, x < 2 ^ 64) :
    ∃ r, (backwardBy op vt a).result = some r ∧ r.length = 2 ^ n ∧ ∀ x ∈ r, x < op.p.p := by
  have hf : ∀ x < 2 ^ n, a.getD x 0 < 2 ^ 64 := fun x hx => NttOperator.getD_lt ha (by omega)
  have hm : ∀ g : Nat → Nat, ∀ x ∈ tab (2 ^ n) (fun x => g x * op.sizeInv % op.p.p), x < op.p.p := by
    intro g x hx
    obtain ⟨i, -, rfl⟩ := mem_tab.1 hx
    exact Nat.mod_lt _ h.modulus.pos
  cases vt
  · obtain ⟨f', e1, e2⟩ := backwardLoop_words h n 0 (by omega) _ hf
    rw [← NttOperator.tab_of_length hl, pow_zero, Nat.sub_self] at e1
    refine ⟨_, ?_, length_tab _ _, hm f'⟩
    show (backward op a).result = _
    unfold backward
    rw [bind_some e1]
    exact scale_words h e2
  · obtain ⟨f', e1, e2⟩ := backwardVtLoop_words h n 0 (by omega) _ hf
    rw [← NttOperator.tab_of_length hl, pow_zero, Nat.sub_self, ← h.size] at e1
    refine ⟨_, ?_, length_tab _ _, hm f'⟩
    show (backwardVt op a).result = _
    unfold backwardVt
    rw [bind_some e1, ← h.size]
    rw [h.size]
    exact scale_words h e2

/-- Pairs of words with small sums: after the first pass all values are in range, and they are those of the pairs `b`. -/
theorem backward_pairs (h : op.WF n ω ωi) (vt : Bool) {a b : List Nat} (hl : a.length = 2 ^ n) (hlb : b.length = 2 ^ n) (ha : ∀ x ∈ a, x < 2 ^ 64)
    (h4 : ∀ i < 2 ^ (n - 1), a.getD (2 * i) 0 + a.getD (2 * i + 1) 0 < 4 * op.p.p)
    (hsum : ∀ i < 2 ^ (n - 1), (b.getD (2 * i) 0 : ZMod op.p.p) + b.getD (2 * i + 1) 0 = a.getD (2 * i) 0 + a.getD (2 * i + 1) 0)
    (hdiff : ∀ i < 2 ^ (n - 1), (b.getD (2 * i) 0 : ZMod op.p.p) - b.getD (2 * i + 1) 0 = (wsub 64 (wadd64 op.pTwice (a.getD (2 * i) 0)) (a.getD (2 * i + 1) 0) : Nat)) :
    (backwardBy op vt a).result = some (NttOperator.bwdVal op.p.p n ωi op.sizeInv b) := by
  have h3 := h.three_le
  have hlt := h.modulus.lt
  have htw := h.twice
  have hN : 2 ^ n = 2 * 1 * 2 ^ (n - 1) := by rw [Nat.mul_one, ← pow_succ']; congr 1; omega
  have hN2 : 2 ^ n - 2 ^ (n - 1) = 2 ^ (n - 1) := by omega
  let f : Nat → Nat := fun x => a.getD x 0
  have hf : ∀ x < 2 ^ n, f x < 2 ^ 64 := fun x hx => NttOperator.getD_lt ha (by omega)
  -- the first pass
  have first : ∀ F, WordSpec op n ωi F → ∃ f' : Nat → Nat, (chunkPass F 1 0 a).result = some (tab (2 ^ n) f', 2 ^ (n - 1)) ∧
      (idxPass F 1 (2 ^ (n - 1)) 0 0 a).result = some (tab (2 ^ n) f', 2 ^ (n - 1)) ∧
      ∀ x < 2 ^ n, f' x < 2 * op.p.p ∧ (f' x : ZMod op.p.p) = bwdState n (fun k => (ωi : ZMod op.p.p) ^ (revBits n k + 1)) (fun t => (b.getD t 0 : ZMod op.p.p)) 1 x := by
    intro F hF
    let g : Nat → Nat → Nat → Nat × Nat := fun k x y => (F k x y).result.getD (0, 0)
    have key : ∀ i < 2 ^ (n - 1), ∀ j < 1, (F (0 + i) (f (2 * 1 * i + j)) (f (2 * 1 * i + j + 1))).result = some (g (0 + i) (f (2 * 1 * i + j)) (f (2 * 1 * i + j + 1))) ∧
        (g (0 + i) (f (2 * 1 * i + j)) (f (2 * 1 * i + j + 1))).1 < 2 * op.p.p ∧ (g (0 + i) (f (2 * 1 * i + j)) (f (2 * 1 * i + j + 1))).2 < 2 * op.p.p ∧
        (((g (0 + i) (f (2 * 1 * i + j)) (f (2 * 1 * i + j + 1))).1 : ZMod op.p.p), ((g (0 + i) (f (2 * 1 * i + j)) (f (2 * 1 * i + j + 1))).2 : ZMod op.p.p)) =
          bwdG (fun k => (ωi : ZMod op.p.p) ^ (revBits n k + 1)) (0 + i) (b.getD (2 * 1 * i + j) 0 : ZMod op.p.p) (b.getD (2 * 1 * i + j + 1) 0 : ZMod op.p.p) := by
      intro i hi j hj
      obtain rfl : j = 0 := by omega
      rw [Nat.mul_one, Nat.add_zero, Nat.zero_add]
      obtain ⟨x', y', e, -, e2, e3, e4⟩ := hF i (f (2 * i)) (f (2 * i + 1)) (by omega) (hf _ (by omega))
      have hgv : g i (f (2 * i)) (f (2 * i + 1)) = (x', y') := by simp only [g, e, Option.getD_some]
      have h4' : f (2 * i) + f (2 * i + 1) < 4 * op.p.p := h4 i hi
      have w1 : wadd64 (f (2 * i + 1)) (f (2 * i)) = f (2 * i) + f (2 * i + 1) := by unfold wadd64; rw [Nat.mod_eq_of_lt (by omega)]; omega
      rw [hgv]
      refine ⟨e, ?_, e2, ?_⟩
      · rw [e3, w1]; split <;> omega
      · simp only [bwdG]
        rw [e4, ← hdiff i hi, hsum i hi]
        congr 1
        rw [e3, w1]
        split
        · push_cast; rfl
        · rw [Nat.cast_sub (by omega)]; push_cast; rw [ZMod.natCast_self]; ring_nf; rfl
    refine ⟨levelFn g 1 0 f, ?_, ?_, fun x hx => ?_⟩
    · refine chunkPass_agrees (f := fun k x y => (F k x y).result) (fun _ _ _ _ h => h) _ _ _ _ ?_
      have := NttOperator.chunkPass_tab (F := fun k x y => (F k x y).result) (g := g) Nat.one_pos (2 ^ (n - 1)) 0 f fun i hi j hj => (key i hi j hj).1
      rw [← hN, Nat.zero_add, ← NttOperator.tab_of_length hl] at this
      exact this
    · refine idxPass_agrees (f := fun k x y => (F k x y).result) (fun _ _ _ _ h => h) _ _ _ _ _ _ ?_
      have := NttOperator.idxPass_tab (F := fun k x y => (F k x y).result) (g := g) Nat.one_pos (2 ^ (n - 1)) 0 f fun i hi j hj => (key i hi j hj).1
      rw [← hN, Nat.zero_add, ← NttOperator.tab_of_length hl] at this
      exact this
    · simp only [bwdState, pow_zero, Nat.sub_zero, Nat.sub_self]
      rw [hN] at hx
      rcases index_split hx with ⟨i, j, hi, hj, rfl⟩ | ⟨i, j, hi, hj, rfl⟩
      · obtain ⟨-, g1, g2, g3⟩ := key i hi j hj
        rw [levelFn_left _ _ hj, levelFn_left _ _ hj]
        exact ⟨g1, congrArg Prod.fst g3⟩
      · obtain ⟨-, g1, g2, g3⟩ := key i hi j hj
        rw [levelFn_right _ _ hj, levelFn_right _ _ hj]
        exact ⟨g2, congrArg Prod.snd g3⟩
  have hpos : 0 < 2 ^ (n - 1) := by positivity
  have hfin : ∀ f' : Nat → Nat, (∀ x < 2 ^ n, f' x < 2 * op.p.p ∧ (f' x : ZMod op.p.p) = bwdState n (fun k => (ωi : ZMod op.p.p) ^ (revBits n k + 1)) (fun t => (b.getD t 0 : ZMod op.p.p)) n x) →
      (mapLoop (fun ai => mulShoup op.p ai op.sizeInv op.sizeInvShoup) (tab (2 ^ n) f')).result = some (NttOperator.bwdVal op.p.p n ωi op.sizeInv b) := fun f' e =>
    Agrees.mapM (fun _ => mulShoup_agrees _ _ _ _) _ _ (NttOperator.scale_eq h e)
  cases vt
  · obtain ⟨f1, a1, -, a3⟩ := first _ (bwdOp_words h)
    obtain ⟨f2, b1, b2⟩ := NttOperator.backwardLoop_spec h (fun t => (b.getD t 0 : ZMod op.p.p)) (n - 1) 1 (by omega) f1 a3
    rw [hN2, pow_one] at b1
    show (backward op a).result = _
    unfold backward
    have : (backwardLoop op 1 0 a).result = some (tab (2 ^ n) f2) := by
      rw [backwardLoop, dif_pos ⟨Nat.one_pos, by rw [h.size]; omega⟩, branch_bind, bind_some a1]
      exact backwardLoop_agrees _ _ _ _ _ b1
    rw [bind_some this]
    exact hfin f2 b2
  · obtain ⟨f1, -, a1, a3⟩ := first _ (bwdVtOp_words h)
    obtain ⟨f2, b1, b2⟩ := NttOperator.backwardVtLoop_spec h (fun t => (b.getD t 0 : ZMod op.p.p)) (n - 1) 1 (by omega) f1 a3
    rw [hN2, pow_one] at b1
    have hsh : op.size >>> 1 = 2 ^ (n - 1) := by rw [h.size, Nat.shiftRight_eq_div_pow]; omega
    show (backwardVt op a).result = _
    unfold backwardVt
    have : (backwardVtLoop op 1 (op.size >>> 1) 0 a).result = some (tab (2 ^ n) f2) := by
      rw [hsh, backwardVtLoop, dif_pos hpos, branch_bind, bind_some a1]
      exact backwardVtLoop_agrees _ _ _ _ _ _ b1
    rw [bind_some this]
    exact hfin f2 b2

end Fhe.Release

namespace Fhe.ParamsBuilder
open Fhe

theorem pow3_half (k : Nat) : 3 ^ 2 ^ (k + 1) % 2 ^ (k + 4) = 2 ^ (k + 3) + 1 := by
  induction k with
  | zero => decide
  | succ k ih =>
    have hd := Nat.div_add_mod (3 ^ 2 ^ (k + 1)) (2 ^ (k + 4))
    rw [ih] at hd
    generalize 3 ^ 2 ^ (k + 1) / 2 ^ (k + 4) = q at hd
    have e : 3 ^ 2 ^ (k + 1 + 1) = (2 ^ (k + 3) + 1) + 2 ^ (k + 4) * q + (2 ^ (k + 3) + 1 + 2 ^ (k + 4) * q) * (2 ^ (k + 3) + 2 ^ (k + 4) * q) := by
      rw [pow_succ 2 (k + 1), pow_mul, ← hd]; ring
    have e2 : 3 ^ 2 ^ (k + 1 + 1) = (2 ^ (k + 1 + 3) + 1) + 2 ^ (k + 1 + 4) * (q + 2 ^ (k + 1) + 2 ^ (k + 3) * q + 2 ^ (k + 3) * q * q) := by
      rw [e]; ring
    rw [e2, Nat.add_mul_mod_self_left, Nat.mod_eq_of_lt]
    have : 1 < 2 ^ (k + 1 + 3) := Nat.one_lt_pow (by omega) (by norm_num)
    rw [show k + 1 + 4 = k + 1 + 3 + 1 by ring, pow_succ 2 (k + 1 + 3)]; omega

/-- Slots `0` and `N / 4` are the first two points of the transform. -/
theorem slotIndex_pair {n : Nat} (h3 : 3 ≤ n) : slotIndex n 0 = 0 ∧ slotIndex n (2 ^ (n - 2)) = 1 := by
  obtain ⟨k, rfl⟩ : ∃ k, n = k + 3 := ⟨n - 3, by omega⟩
  constructor
  · unfold slotIndex
    rw [if_pos (by positivity), pow_zero, Nat.mod_eq_of_lt (Nat.one_lt_pow (by omega) (by norm_num))]
    exact revBits_zero _
  · have := slotIndex_fst (n := k + 3) (i := 2 ^ (k + 3 - 2)) (Nat.pow_lt_pow_right (by norm_num) (by omega))
    rw [show k + 3 - 2 = k + 1 by omega, show k + 3 + 1 = k + 4 by ring, pow3_half] at this
    have e : revBits (k + 3) (slotIndex (k + 3) (2 ^ (k + 1))) = 2 ^ (k + 2) := by
      rw [show k + 3 = k + 2 + 1 by ring, pow_succ 2 (k + 2)] at this
      rw [show k + 3 = k + 2 + 1 by ring]
      omega
    rw [show k + 3 - 2 = k + 1 by omega, ← revBits_revBits (slotIndex_lt (k + 3) (2 ^ (k + 1))), e]
    have h1 := revBits_high (n := k + 2) (b := 1) (z := 0) (by norm_num) (by positivity)
    rw [one_mul, Nat.add_zero, revBits_zero] at h1
    exact h1

end Fhe.ParamsBuilder

namespace Fhe.Release
open Fhe PlaintextVec

variable {b : Build} {n : Nat} {par : Par} {l : ContextLevel}

/-- The coefficients of a chunk, in a release build. -/
def relCoefficients (kind : EncodingKind) (par : Par) (vt : Bool) (v : List Nat) : Res (List Nat) := (chunkCoefficients v kind par vt).run.result

/-- If a release build computes for `v` the coefficients that the checked build computes for `w`, it returns the plaintext of `w`. -/
theorem tryEncodeU64_of_coefficients (hN : par.degree ≠ 0) {v w : List Nat} (hv : v.length ≤ par.degree) (hwl : w.length ≤ par.degree) {e : Encoding}
    (hl : par.levels[e.level]? = some l) (hop : e.kind = .simd → par.nttOperator ≠ none) {vt : Bool}
    (h : relCoefficients e.kind par vt v = PlaintextVec.chunkCoefficients w e.kind par vt) {pt : Plaintext} (hpt : Plaintext.tryEncodeU64 w e par vt = Res.ok pt) :
    (tryEncodeU64 v e par vt).run.result = some (.ok pt) := by
  let F : List Nat → Context → Res (Poly .ntt) := fun c ctx => do
    let coefficients ← relCoefficients e.kind par vt c
    let poly ← math (Poly.tryFromU64 coefficients ctx vt)
    Fhe.lift poly.intoNtt
  have hF : ∀ c ctx, TAgrees (F c ctx) (encodeU64Chunk e.kind par vt c ctx) := fun c ctx => by
    have h0 : TAgrees (relCoefficients e.kind par vt c) (chunkCoefficients c e.kind par vt) := fun _ h => h
    exact h0.bind fun _ => (TAgrees.math (tryFromU64_agrees _ _ _)).bind fun _ => TAgrees.lift (intoNtt_agrees _)
  have hA : TAgrees (do let x ← PlaintextVec.tryEncodeWith v e par F; Fhe.lift x[0]?) (tryEncodeU64 v e par vt) := by
    unfold tryEncodeU64
    refine TAgrees.branch ?_
    simp only [Nat.not_lt.2 hv, gt_iff_lt, decide_false, Bool.false_eq_true, if_false]
    refine TAgrees.bind ?_ fun _ => TAgrees.lift Agrees.fetch
    unfold PlaintextVec.tryEncodeWith tryEncodeVec
    refine TAgrees.ite (fun _ => TAgrees.err _) fun _ => (TAgrees.public _).bind fun ctx => (TAgrees.lift Agrees.assert).bind fun _ => TAgrees.mapM (fun i => ?_) _
    exact (TAgrees.lift (chunk_agrees _ _ _)).bind fun _ => (hF _ _).bind fun _ => TAgrees.pure _
  refine hA _ ?_
  rw [PlaintextVec.single hN hv hl hop F]
  rw [Plaintext.tryEncodeU64_single hN hwl hl hop] at hpt
  show (do let p ← F v l.ctx; return ({ par, encoding := some e, polyNtt := p } : Plaintext) : Res Plaintext) = _
  rw [show F v l.ctx = PlaintextVec.encodeU64Chunk e.kind par vt w l.ctx by
    show (relCoefficients e.kind par vt v >>= _) = _
    rw [h]; rfl]
  exact hpt

theorem relCoefficients_simd {op : NttOperator} (hop : par.nttOperator = some op) {v u : List Nat} (hu : PlaintextVec.scatter v par.indexMap (List.replicate par.degree 0) = some u)
    {vt : Bool} {r : List Nat} (hr : (backwardBy op vt u).result = some r) : relCoefficients .simd par vt v = Res.ok r := by
  have hA : TAgrees (do let c ← Fhe.lift (PlaintextVec.scatter v par.indexMap (List.replicate par.degree 0)); Fhe.lift ((backwardBy op vt c).result)) (chunkCoefficients v .simd par vt) := by
    unfold chunkCoefficients
    refine (TAgrees.lift (scatter_agrees _ _ _)).bind fun c => ?_
    rw [hop]
    refine TAgrees.branch ?_
    cases vt
    · exact TAgrees.lift (fun _ h => h)
    · exact TAgrees.lift (fun _ h => h)
  refine hA _ ?_
  rw [hu, Res.lift_some, Res.ok_bind, hr]; rfl

/-- Whatever the words, a release build encodes some slots. -/
theorem encodes_some (hw : ParWF b n par.toBfvParameters) (hop : par.nttOperator ≠ none) {level : Nat} (hl : par.levels[level]? = some l) (hQ : par.plaintext.value ≤ l.ctx.modulus)
    {v : List Nat} (hv : v.length ≤ par.degree) (h64 : ∀ x ∈ v, x < 2 ^ 64) (vt : Bool) :
    ∃ (w : List Nat) (pt : Plaintext), w.length = par.degree ∧ (∀ x ∈ w, x < par.plaintext.value) ∧ Plaintext.tryEncodeU64 w ⟨.simd, level⟩ par vt = Res.ok pt ∧
      (tryEncodeU64 v ⟨.simd, level⟩ par vt).run.result = some (.ok pt) := by
  have hN : par.degree ≠ 0 := by rw [hw.degree]; positivity
  have ht := hw.t_pos
  have : NeZero par.plaintext.value := ⟨by omega⟩
  have hsm := Plaintext.small_of_op hw hop
  obtain ⟨ζ, hζ, hinj⟩ := Plaintext.slots_inj hw hop
  obtain ⟨op, hop'⟩ := Option.ne_none_iff_exists'.1 hop
  obtain ⟨ω, ωi, mm, h1, h2, -⟩ := hw.op_wf hop'
  obtain ⟨u, u1, u2, -, u4⟩ := scatter_slots hw hv
  obtain ⟨r, r1, r2, r3⟩ := backward_words h1 vt (a := u) (by rw [u2, hw.degree]) (fun x hx => by
    rcases u4 x hx with hx | rfl
    · exact h64 x hx
    · norm_num)
  rw [h2] at r3
  obtain ⟨m, hm⟩ : ∃ m : par.Msg, msgCoeffs m = r :=
    ⟨msgOf _ _ r, by rw [msgCoeffs_msgOf (N := par.degree) (by omega) r3, padTo_eq_tab, NttOperator.tab_of_length (a := r) (k := par.degree) (by rw [r2, hw.degree])]
                     refine tab_congr fun i hi => ?_
                     rw [← NttOperator.tab_of_length (a := r) (k := par.degree) (by rw [r2, hw.degree])]⟩
  let w : List Nat := tab par.degree fun i => (slotValue ζ m i).val
  have hwl : w.length = par.degree := length_tab _ _
  have hwlt : ∀ x ∈ w, x < par.plaintext.value := by
    intro x hx
    obtain ⟨i, -, rfl⟩ := mem_tab.1 hx
    exact ZMod.val_lt _
  obtain ⟨m', e1, e2⟩ := PlaintextVec.chunkCoefficients_eq hw hζ (kind := .simd) (fun _ => hop) vt hwl.le hwlt
  obtain rfl : m' = m := hinj _ _ fun i hi => by
    rw [e1 i hi, NttOperator.tab_getD _ hi, ZMod.natCast_val, ZMod.cast_id]
  obtain ⟨m'', e3, -⟩ := Plaintext.encodeU64_eq hw hζ (encoding := ⟨.simd, level⟩) hl hQ (fun _ => hop) vt hwl.le hwlt (fun x hx => by have := hwlt x hx; omega)
  refine ⟨w, _, hwl, hwlt, e3, ?_⟩
  refine tryEncodeU64_of_coefficients hN hv hwl.le (e := ⟨.simd, level⟩) hl (fun _ => hop) ?_ e3
  rw [e2, hm]
  exact relCoefficients_simd hop' u1 r1

/-- The slots that become of the single value `x` in slot `N / 4`; `H` is half the size of a word. -/
def wrongSlots (H t N x : Nat) : List Nat := (H % t) :: (List.replicate (N / 4 - 1) 0 ++ [(x + (t - 1) * H) % t])

theorem scatter_single (hw : ParWF b n par.toBfvParameters) {v : List Nat} (hv : v.length ≤ par.degree) (hz : ∀ i, i ≠ 0 → i ≠ par.degree / 4 → v.getD i 0 = 0) :
    ∃ u, PlaintextVec.scatter v par.indexMap (List.replicate par.degree 0) = some u ∧ u.length = par.degree ∧ u.getD 0 0 = v.getD 0 0 ∧ u.getD 1 0 = v.getD (par.degree / 4) 0 ∧
      ∀ k, 2 ≤ k → u.getD k 0 = 0 := by
  have h3 := hw.three_le
  have hmap := hw.map_eq
  have hN := hw.degree
  have hq : par.degree / 4 = 2 ^ (n - 2) := by
    have : 2 ^ n = 2 ^ (n - 2) * 4 := by rw [show (4 : Nat) = 2 ^ 2 from rfl, ← pow_add]; congr 1; omega
    omega
  obtain ⟨i0, i1⟩ := ParamsBuilder.slotIndex_pair h3
  have hnd : par.indexMap.Nodup := by
    rw [hmap]
    unfold tab
    refine List.Nodup.map_on ?_ List.nodup_range
    intro i hi j hj hij
    exact ParamsBuilder.slotIndex_inj (by omega) (by rw [← hN]; exact List.mem_range.1 hi) (by rw [← hN]; exact List.mem_range.1 hj) hij
  have hml : par.indexMap.length = par.degree := by rw [hmap, length_tab]
  have hmg : ∀ i < par.degree, par.indexMap.getD i 0 = ParamsBuilder.slotIndex n i := fun i hi => by rw [hmap, NttOperator.tab_getD _ hi]
  obtain ⟨u, u1, u2, u3, u4⟩ := scatter_eq (v := v) (map := par.indexMap) (init := List.replicate par.degree 0) (by omega) hnd (by
    intro i hi
    rw [hmap] at hi
    obtain ⟨j, -, rfl⟩ := mem_tab.1 hi
    rw [List.length_replicate, hN]; exact ParamsBuilder.slotIndex_lt n j)
  rw [List.length_replicate] at u2
  have hzero : ∀ k, (List.replicate par.degree 0).getD k 0 = 0 := fun k => by
    rw [List.getD_eq_getElem?_getD, List.getElem?_replicate]; split <;> rfl
  have hinj := @ParamsBuilder.slotIndex_inj n (by omega)
  have hval : ∀ i < par.degree, u.getD (ParamsBuilder.slotIndex n i) 0 = v.getD i 0 := by
    intro i hi
    by_cases hiv : i < v.length
    · rw [← hmg i hi]; exact u3 i hiv
    · rw [u4, List.getD_eq_default v _ (by omega)]
      · exact hzero _
      · intro j hj heq
        rw [hmg j (by omega)] at heq
        have := hinj (by omega) (by omega) heq
        omega
  have hp1 : 0 < 2 ^ (n - 2) := by positivity
  have hp2 : 2 ^ (n - 2) < 2 ^ n := Nat.pow_lt_pow_right (by norm_num) (by omega)
  refine ⟨u, u1, u2, ?_, ?_, fun k hk => ?_⟩
  · have := hval 0 (by omega)
    rwa [i0] at this
  · have := hval (2 ^ (n - 2)) (by omega)
    rwa [i1, ← hq] at this
  · by_cases he : ∃ i < v.length, par.indexMap.getD i 0 = k
    · obtain ⟨i, hi, he⟩ := he
      have h := u3 i hi
      rw [he] at h
      rw [h]
      rw [hmg i (by omega)] at he
      refine hz i ?_ ?_
      · rintro rfl; omega
      · rintro rfl; rw [hq] at he; omega
    · push Not at he
      rw [u4 k he, hzero]

theorem encodes_wrong (hw : ParWF b n par.toBfvParameters) (hop : par.nttOperator ≠ none) {level : Nat} (hl : par.levels[level]? = some l) (hQ : par.plaintext.value ≤ l.ctx.modulus)
    {H x : Nat} (hH : 2 * H = 2 ^ 64) (h2 : 2 * par.plaintext.value < x) (h4 : x < 4 * par.plaintext.value) (vt : Bool) :
    ∃ pt : Plaintext, Plaintext.tryEncodeU64 (wrongSlots H par.plaintext.value par.degree x) ⟨.simd, level⟩ par vt = Res.ok pt ∧
      (tryEncodeU64 (List.replicate (par.degree / 4) 0 ++ [x]) ⟨.simd, level⟩ par vt).run.result = some (.ok pt) := by
  have h3 := hw.three_le
  have hN := hw.degree
  have hN0 : par.degree ≠ 0 := by rw [hN]; positivity
  have ht := hw.t_pos
  have : NeZero par.plaintext.value := ⟨by omega⟩
  have hsm := Plaintext.small_of_op hw hop
  have hq : par.degree / 4 = 2 ^ (n - 2) := by
    have : 2 ^ n = 2 ^ (n - 2) * 4 := by rw [show (4 : Nat) = 2 ^ 2 from rfl, ← pow_add]; congr 1; omega
    omega
  have hq2 : 2 ≤ par.degree / 4 := by rw [hq]; exact Nat.le_self_pow (by omega) 2
  have hqN : par.degree / 4 < par.degree := by omega
  obtain ⟨ζ, hζ, -⟩ := Plaintext.slots_inj hw hop
  obtain ⟨op, hop'⟩ := Option.ne_none_iff_exists'.1 hop
  obtain ⟨ω, ωi, mm, h1, hp, -⟩ := hw.op_wf hop'
  have hlt := h1.modulus.lt
  have htw := h1.twice
  rw [hp] at hlt htw
  -- the values given
  have hvl : (List.replicate (par.degree / 4) 0 ++ [x]).length = par.degree / 4 + 1 := by simp
  have hv0 : (List.replicate (par.degree / 4) 0 ++ [x]).getD 0 0 = 0 := by
    rw [List.getD_append _ _ _ _ (by simp; omega), List.getD_replicate _ (by omega)]
  have hv1 : (List.replicate (par.degree / 4) 0 ++ [x]).getD (par.degree / 4) 0 = x := by
    rw [List.getD_append_right _ _ _ _ (by simp)]; simp
  have hvz : ∀ i, i ≠ 0 → i ≠ par.degree / 4 → (List.replicate (par.degree / 4) 0 ++ [x]).getD i 0 = 0 := by
    intro i _ hi
    by_cases hi' : i < par.degree / 4
    · rw [List.getD_append _ _ _ _ (by simpa using hi'), List.getD_replicate _ hi']
    · rw [List.getD_eq_default _ _ (by rw [hvl]; omega)]
  -- the values that come out
  have hwl : (wrongSlots H par.plaintext.value par.degree x).length = par.degree / 4 + 1 := by simp [wrongSlots]; omega
  have hw0 : (wrongSlots H par.plaintext.value par.degree x).getD 0 0 = H % par.plaintext.value := by unfold wrongSlots; rw [List.getD_cons_zero]
  have hw1 : (wrongSlots H par.plaintext.value par.degree x).getD (par.degree / 4) 0 = (x + (par.plaintext.value - 1) * H) % par.plaintext.value := by
    unfold wrongSlots
    rw [show par.degree / 4 = par.degree / 4 - 1 + 1 by omega, List.getD_cons_succ, Nat.add_sub_cancel, List.getD_append_right _ _ _ _ (by simp)]; simp
  have hwz : ∀ i, i ≠ 0 → i ≠ par.degree / 4 → (wrongSlots H par.plaintext.value par.degree x).getD i 0 = 0 := by
    intro i hi0 hi
    obtain ⟨j, rfl⟩ := Nat.exists_eq_succ_of_ne_zero hi0
    by_cases hi' : j < par.degree / 4 - 1
    · unfold wrongSlots
      rw [Nat.succ_eq_add_one, List.getD_cons_succ, List.getD_append _ _ _ _ (by simpa using hi'), List.getD_replicate _ hi']
    · rw [List.getD_eq_default _ _ (by rw [hwl]; omega)]
  have hwlt : ∀ y ∈ wrongSlots H par.plaintext.value par.degree x, y < par.plaintext.value := by
    intro y hy
    simp only [wrongSlots, List.mem_cons, List.mem_append, List.mem_replicate, List.not_mem_nil, or_false] at hy
    rcases hy with rfl | ⟨-, rfl⟩ | rfl
    · exact Nat.mod_lt _ (by omega)
    · omega
    · exact Nat.mod_lt _ (by omega)
  obtain ⟨a, a1, a2, a3, a4, a5⟩ := scatter_single hw (by omega) hvz
  obtain ⟨c, c1, c2, c3, c4, c5⟩ := scatter_single hw (v := wrongSlots H par.plaintext.value par.degree x) (by omega) hwz
  rw [hv0] at a3; rw [hv1] at a4; rw [hw0] at c3; rw [hw1] at c4
  have hpair : ∀ i, i = 0 ∨ (a.getD (2 * i) 0 = 0 ∧ a.getD (2 * i + 1) 0 = 0 ∧ c.getD (2 * i) 0 = 0 ∧ c.getD (2 * i + 1) 0 = 0) := by
    intro i
    rcases Nat.eq_zero_or_pos i with h | h
    · exact Or.inl h
    · exact Or.inr ⟨a5 _ (by omega), a5 _ (by omega), c5 _ (by omega), c5 _ (by omega)⟩
  have hc1 : (((x + (par.plaintext.value - 1) * H) % par.plaintext.value : Nat) : ZMod par.plaintext.value) = x - H := by
    rw [ZMod.natCast_mod, Nat.cast_add, Nat.cast_mul, Nat.cast_sub (by omega)]; push_cast; rw [ZMod.natCast_self]; ring
  have hc0 : ((H % par.plaintext.value : Nat) : ZMod par.plaintext.value) = H := by rw [ZMod.natCast_mod]
  have hrel : (backwardBy op vt a).result = some (NttOperator.bwdVal op.p.p n ωi op.sizeInv c) := by
    refine backward_pairs h1 vt (by rw [a2, hN]) (by rw [c2, hN]) ?_ ?_ ?_ ?_
    · intro y hy
      obtain ⟨k, hk, rfl⟩ := List.mem_iff_getElem.1 hy
      rw [← List.getD_eq_getElem _ 0 hk]
      rcases Nat.lt_or_ge k 2 with h | h
      · interval_cases k
        · rw [a3]; norm_num
        · rw [a4]; omega
      · rw [a5 k h]; norm_num
    · intro i _
      rw [hp]
      rcases hpair i with rfl | ⟨e1, e2, -⟩
      · rw [Nat.mul_zero, Nat.zero_add, a3, a4]; omega
      · rw [e1, e2]; omega
    · rw [hp]
      intro i _
      rcases hpair i with rfl | ⟨e1, e2, e3, e4⟩
      · rw [Nat.mul_zero, Nat.zero_add, a3, a4, c3, c4, hc0, hc1]; push_cast; ring
      · rw [e1, e2, e3, e4]
    · rw [hp]
      intro i _
      rcases hpair i with rfl | ⟨e1, e2, e3, e4⟩
      · rw [Nat.mul_zero, Nat.zero_add, a3, a4, c3, c4, hc0, hc1, htw]
        unfold wsub wadd64
        rw [Nat.add_zero, Nat.mod_eq_of_lt (by omega), if_neg (by omega), Nat.cast_sub (by omega)]
        rw [← hH]; push_cast; rw [ZMod.natCast_self]; ring
      · rw [e1, e2, e3, e4, htw]
        unfold wsub wadd64
        rw [Nat.add_zero, Nat.mod_eq_of_lt (by omega), if_pos (by omega), Nat.sub_zero]
        push_cast; rw [ZMod.natCast_self]; ring
  obtain ⟨m, e3, -⟩ := Plaintext.encodeU64_eq hw hζ (encoding := ⟨.simd, level⟩) hl hQ (fun _ => hop) vt (v := wrongSlots H par.plaintext.value par.degree x) (by omega) hwlt
    (fun y hy => by have := hwlt y hy; omega)
  refine ⟨_, e3, tryEncodeU64_of_coefficients hN0 (by omega) (by omega) (e := ⟨.simd, level⟩) hl (fun _ => hop) ?_ e3⟩
  rw [relCoefficients_simd hop' a1 hrel]
  have hcl : c.length = op.size := by rw [c2, hN, h1.size]
  have hclt : ∀ y ∈ c, y < 2 * op.p.p := by
    intro y hy
    obtain ⟨k, hk, rfl⟩ := List.mem_iff_getElem.1 hy
    rw [← List.getD_eq_getElem _ 0 hk, hp]
    rcases Nat.lt_or_ge k 2 with h | h
    · interval_cases k
      · rw [c3]; have := Nat.mod_lt (H) (show 0 < par.plaintext.value by omega); omega
      · rw [c4]; have := Nat.mod_lt (x + (par.plaintext.value - 1) * H) (show 0 < par.plaintext.value by omega); omega
    · rw [c5 k h]; omega
  unfold PlaintextVec.chunkCoefficients
  simp only []
  rw [c1, Res.lift_some, Res.ok_bind, hop']
  simp only []
  rw [NttOperator.backward_eq h1 hcl hclt, NttOperator.backwardVt_eq h1 hcl hclt]
  cases vt <;> rfl

end Fhe.Release
