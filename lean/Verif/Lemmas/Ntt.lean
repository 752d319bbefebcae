import Mathlib.Data.ZMod.Basic
import Mathlib.Algebra.Field.ZMod
import Mathlib.Tactic.LinearCombination
import Verif.Lemmas.ZqVec
import Verif.Lemmas.NttAlg
/-! The checked transforms compute the algebraic ones. -/
namespace Fhe
open Finset

namespace NttOperator

/-- Well-formed operators, `2^n` being the size, `ω` the root and `ωi` its inverse. -/
structure WF (op : NttOperator) (n ω ωi : Nat) : Prop where
  modulus : op.p.WF
  prime : op.p.p.Prime
  size : op.size = 2 ^ n
  three_le : 3 ≤ n
  n_lt : n < 62
  twice : op.pTwice = 2 * op.p.p
  ω_lt : ω < op.p.p
  ωi_lt : ωi < op.p.p
  root : (ω : ZMod op.p.p) ^ 2 ^ n = -1
  inv : (ωi : ZMod op.p.p) * ω = 1
  omegas : op.omegas = tab (2 ^ n) fun i => ω ^ revBits n i % op.p.p
  omegasShoup : op.p.shoupVec op.omegas = some op.omegasShoup
  zetas : op.zetasInv = tab (2 ^ n) fun i => ωi ^ (revBits n i + 1) % op.p.p
  zetasShoup : op.p.shoupVec op.zetasInv = some op.zetasInvShoup
  sizeInv_lt : op.sizeInv < op.p.p
  sizeInv : (op.sizeInv : ZMod op.p.p) * 2 ^ n = 1
  sizeInvShoup : op.p.shoup op.sizeInv = some op.sizeInvShoup

variable {op : NttOperator} {n ω ωi : Nat}

theorem shoup_get {l ls : List Nat} {m : Modulus} (h : m.shoupVec l = some ls) {k v : Nat} (hk : l[k]? = some v) :
    ∃ s, ls[k]? = some s ∧ m.shoup v = some s := by
  unfold Modulus.shoupVec at h
  induction l generalizing ls k with
  | nil => simp at hk
  | cons a l ih =>
    rw [List.mapM_cons] at h
    cases ha : m.shoup a with
    | none => simp [ha] at h
    | some sa =>
      cases hl : l.mapM m.shoup with
      | none => simp [ha, hl] at h
      | some ls' =>
        simp only [ha, hl, Option.bind_eq_bind, Option.bind_some] at h
        obtain rfl : sa :: ls' = ls := Option.some.inj h
        cases k with
        | zero =>
          simp only [List.getElem?_cons_zero, Option.some.injEq] at hk
          exact ⟨sa, rfl, hk ▸ ha⟩
        | succ k => exact ih hl (by simpa using hk)

theorem WF.omega_get (h : op.WF n ω ωi) {k : Nat} (hk : k < 2 ^ n) :
    ∃ s, op.omegas[k]? = some (ω ^ revBits n k % op.p.p) ∧ op.omegasShoup[k]? = some s ∧
      op.p.shoup (ω ^ revBits n k % op.p.p) = some s := by
  have h1 : op.omegas[k]? = some (ω ^ revBits n k % op.p.p) := by rw [h.omegas, tab_get? _ hk]
  obtain ⟨s, h2, h3⟩ := shoup_get h.omegasShoup h1
  exact ⟨s, h1, h2, h3⟩
theorem WF.zeta_get (h : op.WF n ω ωi) {k : Nat} (hk : k < 2 ^ n) :
    ∃ s, op.zetasInv[k]? = some (ωi ^ (revBits n k + 1) % op.p.p) ∧ op.zetasInvShoup[k]? = some s ∧
      op.p.shoup (ωi ^ (revBits n k + 1) % op.p.p) = some s := by
  have h1 : op.zetasInv[k]? = some (ωi ^ (revBits n k + 1) % op.p.p) := by rw [h.zetas, tab_get? _ hk]
  obtain ⟨s, h2, h3⟩ := shoup_get h.zetasShoup h1
  exact ⟨s, h1, h2, h3⟩

theorem natCast_of_mod {p a b : Nat} (h : a % p = b % p) : (a : ZMod p) = (b : ZMod p) :=
  (ZMod.natCast_eq_natCast_iff' _ _ _).2 h

/-- A butterfly is exact as soon as its reduction step is. -/
theorem butterflyWith_spec (h : op.WF n ω ωi) {red : Nat → Nat → Panics Nat}
    (hred : ∀ x q, q < 2 ^ 63 → x < 2 * q → red x q = some (x % q)) {x y w ws : Nat} (hx : x < 4 * op.p.p) (hy : y < 4 * op.p.p)
    (hw : w < op.p.p) (hs : op.p.shoup w = some ws) :
    ∃ x' y', op.butterflyWith red x y w ws = some (x', y') ∧ x' < 4 * op.p.p ∧ y' < 4 * op.p.p ∧
      (x' : ZMod op.p.p) = x + w * y ∧ (y' : ZMod op.p.p) = x - w * y := by
  have hlt := h.modulus.lt
  have htw := h.twice
  obtain ⟨t, ht, ht2, htm⟩ := Modulus.lazyMulShoup_eq h.modulus (show y < 2 ^ 64 by omega) hw hs
  have hr := hred x op.pTwice (by omega) (by omega)
  have hx2 : x % op.pTwice < 2 * op.p.p := by rw [htw]; exact Nat.mod_lt _ (by omega)
  have hxc : ((x % op.pTwice : Nat) : ZMod op.p.p) = x := by
    apply natCast_of_mod; rw [htw, Nat.mod_mul_left_mod]
  have htc : (t : ZMod op.p.p) = y * w := by rw [natCast_of_mod htm]; push_cast; ring
  generalize x % op.pTwice = x1 at *
  refine ⟨x1 + t, x1 + op.pTwice - t, ?_, by omega, by omega, ?_, ?_⟩
  · unfold butterflyWith
    simp only [check_eq hx, check_eq hy, check_eq hw, check_eq hs, hr, ht, add64_eq (show x1 + op.pTwice < 2 ^ 64 by omega),
      subU_eq (show t ≤ x1 + op.pTwice by omega), add64_eq (show x1 + t < 2 ^ 64 by omega),
      check_eq (show x1 + t < 4 * op.p.p by omega), check_eq (show x1 + op.pTwice - t < 4 * op.p.p by omega),
      Option.bind_eq_bind, Option.bind_some]
    rfl
  · push_cast; rw [hxc, htc]; ring
  · rw [Nat.cast_sub (by omega), htw]; push_cast; rw [hxc, htc, ZMod.natCast_self]; ring

theorem invButterflyWith_spec (h : op.WF n ω ωi) {red : Nat → Nat → Panics Nat}
    (hred : ∀ x q, q < 2 ^ 63 → x < 2 * q → red x q = some (x % q)) {x y w ws : Nat} (hx : x < 2 * op.p.p) (hy : y < 2 * op.p.p)
    (hw : w < op.p.p) (hs : op.p.shoup w = some ws) :
    ∃ x' y', op.invButterflyWith red x y w ws = some (x', y') ∧ x' < 2 * op.p.p ∧ y' < 2 * op.p.p ∧
      (x' : ZMod op.p.p) = x + y ∧ (y' : ZMod op.p.p) = (x - y) * w := by
  have hlt := h.modulus.lt
  have htw := h.twice
  obtain ⟨t, ht, ht2, htm⟩ := Modulus.lazyMulShoup_eq h.modulus (show op.pTwice + x - y < 2 ^ 64 by omega) hw hs
  have hr := hred (y + x) op.pTwice (by omega) (by omega)
  have hx2 : (y + x) % op.pTwice < 2 * op.p.p := by rw [htw]; exact Nat.mod_lt _ (by omega)
  have hxc : (((y + x) % op.pTwice : Nat) : ZMod op.p.p) = x + y := by
    rw [natCast_of_mod (b := y + x)]
    · push_cast; ring
    · rw [htw, Nat.mod_mul_left_mod]
  have htc : (t : ZMod op.p.p) = (x - y) * w := by
    rw [natCast_of_mod htm, Nat.cast_mul, Nat.cast_sub (by omega), htw]; push_cast; rw [ZMod.natCast_self]; ring
  generalize hx1 : (y + x) % op.pTwice = x1 at *
  refine ⟨x1, t, ?_, hx2, ht2, hxc, htc⟩
  unfold invButterflyWith
  simp only [check_eq (show x < op.pTwice by omega), check_eq (show y < op.pTwice by omega), check_eq hw, check_eq hs, hr, ht,
    add64_eq (show y + x < 2 ^ 64 by omega), add64_eq (show op.pTwice + x < 2 ^ 64 by omega),
    subU_eq (show y ≤ op.pTwice + x by omega), check_eq (show x1 < op.pTwice by omega), check_eq (show t < op.pTwice by omega),
    Option.bind_eq_bind, Option.bind_some]
  rfl

theorem reduce3_eq (h : op.WF n ω ωi) {a : Nat} (ha : a < 4 * op.p.p) : op.reduce3 a = some (a % op.p.p) := by
  have hlt := h.modulus.lt
  have htw := h.twice
  have h2 : a % op.pTwice < 2 * op.p.p := by rw [htw]; exact Nat.mod_lt _ (by omega)
  unfold reduce3
  simp only [check_eq ha, Modulus.reduce1_eq (show op.pTwice < 2 ^ 63 by omega) (show a < 2 * op.pTwice by omega),
    Option.bind_eq_bind, Option.bind_some, Modulus.reduce1_eq h.modulus.lt63 h2]
  rw [htw, Nat.mod_mul_left_mod]

theorem reduce3Vt_eq (h : op.WF n ω ωi) {a : Nat} (ha : a < 4 * op.p.p) : op.reduce3Vt a = some (a % op.p.p) := by
  have hlt := h.modulus.lt
  have htw := h.twice
  have h2 : a % op.pTwice < 2 * op.p.p := by rw [htw]; exact Nat.mod_lt _ (by omega)
  unfold reduce3Vt
  simp only [check_eq ha, Modulus.reduce1Vt_eq (show op.pTwice < 2 ^ 63 by omega) (show a < 2 * op.pTwice by omega),
    Option.bind_eq_bind, Option.bind_some, Modulus.reduce1Vt_eq h.modulus.lt63 h2]
  rw [htw, Nat.mod_mul_left_mod]

/-- A checked butterfly `F` that on operands below `B` implements the ring butterfly `G` with results below `B'`. -/
def OpSpec (p N B B' : Nat) (F : Nat → Nat → Nat → Panics (Nat × Nat)) (G : Nat → ZMod p → ZMod p → ZMod p × ZMod p) : Prop :=
  ∀ k x y, k < N → x < B → y < B → ∃ x' y', F k x y = some (x', y') ∧ x' < B' ∧ y' < B' ∧ ((x' : ZMod p), (y' : ZMod p)) = G k x y

theorem fwdOp_spec (h : op.WF n ω ωi) :
    OpSpec op.p.p (2 ^ n) (4 * op.p.p) (4 * op.p.p) (op.fwdOp false) (fwdG fun k => (ω : ZMod op.p.p) ^ revBits n k) := by
  intro k x y hk hx hy
  obtain ⟨s, e1, e2, e3⟩ := h.omega_get hk
  obtain ⟨x', y', b1, b2, b3, b4, b5⟩ := butterflyWith_spec h (fun x q => Modulus.reduce1_eq) hx hy (Nat.mod_lt _ h.modulus.pos) e3
  refine ⟨x', y', ?_, b2, b3, ?_⟩
  · simp only [fwdOp, e1, e2, b1, Option.bind_eq_bind, Option.bind_some]; rfl
  · rw [b4, b5]; simp [fwdG]

theorem fwdOp_last_spec (h : op.WF n ω ωi) :
    OpSpec op.p.p (2 ^ n) (4 * op.p.p) op.p.p (op.fwdOp true) (fwdG fun k => (ω : ZMod op.p.p) ^ revBits n k) := by
  intro k x y hk hx hy
  obtain ⟨s, e1, e2, e3⟩ := h.omega_get hk
  obtain ⟨x', y', b1, b2, b3, b4, b5⟩ := butterflyWith_spec h (fun x q => Modulus.reduce1_eq) hx hy (Nat.mod_lt _ h.modulus.pos) e3
  refine ⟨x' % op.p.p, y' % op.p.p, ?_, Nat.mod_lt _ h.modulus.pos, Nat.mod_lt _ h.modulus.pos, ?_⟩
  · simp only [fwdOp, e1, e2, b1, Option.bind_eq_bind, Option.bind_some, reduce3_eq h b2, reduce3_eq h b3]; rfl
  · rw [ZMod.natCast_mod, ZMod.natCast_mod, b4, b5]; simp [fwdG]

theorem fwdVtOp_spec (h : op.WF n ω ωi) :
    OpSpec op.p.p (2 ^ n) (4 * op.p.p) (4 * op.p.p) op.fwdVtOp (fwdG fun k => (ω : ZMod op.p.p) ^ revBits n k) := by
  intro k x y hk hx hy
  obtain ⟨s, e1, e2, e3⟩ := h.omega_get hk
  obtain ⟨x', y', b1, b2, b3, b4, b5⟩ := butterflyWith_spec h (fun x q => Modulus.reduce1Vt_eq) hx hy (Nat.mod_lt _ h.modulus.pos) e3
  refine ⟨x', y', ?_, b2, b3, ?_⟩
  · simp only [fwdVtOp, e1, e2, Option.bind_eq_bind, Option.bind_some]; exact b1
  · rw [b4, b5]; simp [fwdG]

theorem bwdOp_spec (h : op.WF n ω ωi) :
    OpSpec op.p.p (2 ^ n) (2 * op.p.p) (2 * op.p.p) op.bwdOp (bwdG fun k => (ωi : ZMod op.p.p) ^ (revBits n k + 1)) := by
  intro k x y hk hx hy
  obtain ⟨s, e1, e2, e3⟩ := h.zeta_get hk
  obtain ⟨x', y', b1, b2, b3, b4, b5⟩ := invButterflyWith_spec h (fun x q => Modulus.reduce1_eq) hx hy (Nat.mod_lt _ h.modulus.pos) e3
  refine ⟨x', y', ?_, b2, b3, ?_⟩
  · simp only [bwdOp, e1, e2, Option.bind_eq_bind, Option.bind_some]; exact b1
  · rw [b4, b5]; simp [bwdG]

theorem bwdVtOp_spec (h : op.WF n ω ωi) :
    OpSpec op.p.p (2 ^ n) (2 * op.p.p) (2 * op.p.p) op.bwdVtOp (bwdG fun k => (ωi : ZMod op.p.p) ^ (revBits n k + 1)) := by
  intro k x y hk hx hy
  obtain ⟨s, e1, e2, e3⟩ := h.zeta_get hk
  obtain ⟨x', y', b1, b2, b3, b4, b5⟩ := invButterflyWith_spec h (fun x q => Modulus.reduce1Vt_eq) hx hy (Nat.mod_lt _ h.modulus.pos) e3
  refine ⟨x', y', ?_, b2, b3, ?_⟩
  · simp only [bwdVtOp, e1, e2, Option.bind_eq_bind, Option.bind_some]; exact b1
  · rw [b4, b5]; simp [bwdG]

/-- One level, in either traversal style. -/
theorem pass_spec {p N B B' : Nat} {F : Nat → Nat → Nat → Panics (Nat × Nat)} {G : Nat → ZMod p → ZMod p → ZMod p × ZMod p}
    (hF : OpSpec p N B B' F G) {l M k : Nat} (hl : 0 < l) (hk : k + M ≤ N) (f : Nat → Nat) (hf : ∀ x < 2 * l * M, f x < B) :
    ∃ f' : Nat → Nat, chunkPass F l k (tab (2 * l * M) f) = some (tab (2 * l * M) f', k + M) ∧
      idxPass F l M 0 k (tab (2 * l * M) f) = some (tab (2 * l * M) f', k + M) ∧
      ∀ x < 2 * l * M, f' x < B' ∧ (f' x : ZMod p) = levelFn G l k (fun x => (f x : ZMod p)) x := by
  let g : Nat → Nat → Nat → Nat × Nat := fun k x y => (F k x y).getD (0, 0)
  have hb : ∀ i j, i < M → j < l → 2 * l * i + j + l < 2 * l * M := fun i j hi hj =>
    calc 2 * l * i + j + l < 2 * l * i + 2 * l := by omega
      _ = 2 * l * (i + 1) := by ring
      _ ≤ _ := Nat.mul_le_mul_left _ hi
  have hg : ∀ i < M, ∀ j < l, F (k + i) (f (2 * l * i + j)) (f (2 * l * i + j + l)) =
      some (g (k + i) (f (2 * l * i + j)) (f (2 * l * i + j + l))) ∧
      (g (k + i) (f (2 * l * i + j)) (f (2 * l * i + j + l))).1 < B' ∧ (g (k + i) (f (2 * l * i + j)) (f (2 * l * i + j + l))).2 < B' ∧
      (((g (k + i) (f (2 * l * i + j)) (f (2 * l * i + j + l))).1 : ZMod p), ((g (k + i) (f (2 * l * i + j)) (f (2 * l * i + j + l))).2 : ZMod p)) =
        G (k + i) (f (2 * l * i + j)) (f (2 * l * i + j + l)) := by
    intro i hi j hj
    have := hb i j hi hj
    obtain ⟨x', y', e, e1, e2, e3⟩ := hF (k + i) _ _ (by omega) (hf (2 * l * i + j) (by omega)) (hf (2 * l * i + j + l) (by omega))
    have hgv : g (k + i) (f (2 * l * i + j)) (f (2 * l * i + j + l)) = (x', y') := by simp [g, e]
    rw [hgv]
    exact ⟨e, e1, e2, e3⟩
  refine ⟨levelFn g l k f, chunkPass_tab hl M k f fun i hi j hj => (hg i hi j hj).1,
    idxPass_tab hl M k f fun i hi j hj => (hg i hi j hj).1, fun x hx => ?_⟩
  rcases index_split hx with ⟨i, j, hi, hj, rfl⟩ | ⟨i, j, hi, hj, rfl⟩
  · obtain ⟨-, g1, g2, g3⟩ := hg i hi j hj
    rw [levelFn_left _ _ hj, levelFn_left _ _ hj]
    exact ⟨g1, congrArg Prod.fst g3⟩
  · obtain ⟨-, g1, g2, g3⟩ := hg i hi j hj
    rw [levelFn_right _ _ hj, levelFn_right _ _ hj]
    exact ⟨g2, congrArg Prod.snd g3⟩

theorem half_pow (c : Nat) : 2 ^ (c + 1) >>> 1 = 2 ^ c := by
  rw [Nat.shiftRight_eq_div_pow, pow_succ]; omega

theorem forwardLoop_spec (h : op.WF n ω ωi) (a : Nat → ZMod op.p.p) (c s : Nat) (hs : s + c = n) (f : Nat → Nat)
    (hf : ∀ x < 2 ^ n, f x < (if c = 0 then op.p.p else 4 * op.p.p) ∧ (f x : ZMod op.p.p) = evalState n (ω : ZMod op.p.p) a s x) :
    ∃ f' : Nat → Nat, op.forwardLoop (2 ^ c >>> 1) (2 ^ s) (tab (2 ^ n) f) = some (tab (2 ^ n) f') ∧
      ∀ x < 2 ^ n, f' x < op.p.p ∧ (f' x : ZMod op.p.p) = evalState n (ω : ZMod op.p.p) a n x := by
  induction c generalizing s f with
  | zero =>
    refine ⟨f, ?_, fun x hx => ?_⟩
    · rw [forwardLoop, dif_neg (by simp)]
    · have := hf x hx
      rw [if_pos rfl, show s = n by omega] at this
      exact this
  | succ c ih =>
    have hN : 2 ^ n = 2 * 2 ^ c * 2 ^ s := by rw [← hs]; ring
    have hl : 0 < 2 ^ c := by positivity
    have hspec : OpSpec op.p.p (2 ^ n) (4 * op.p.p) (if c = 0 then op.p.p else 4 * op.p.p) (op.fwdOp (decide (2 ^ c = 1)))
        (fwdG fun k => (ω : ZMod op.p.p) ^ revBits n k) := by
      by_cases hc : c = 0
      · subst hc; simpa using fwdOp_last_spec h
      · have : ¬ (2 ^ c = 1) := by
          have := Nat.one_lt_two_pow hc; omega
        simp only [hc, this, decide_false, if_false]
        exact fwdOp_spec h
    have hk : 2 ^ s + 2 ^ s ≤ 2 ^ n := by
      calc 2 ^ s + 2 ^ s = 2 ^ (s + 1) := by ring
        _ ≤ 2 ^ n := Nat.pow_le_pow_right (by norm_num) (by omega)
    have hf' : ∀ x < 2 * 2 ^ c * 2 ^ s, f x < 4 * op.p.p := fun x hx => by
      have := (hf x (by rw [hN]; exact hx)).1
      simpa using this
    obtain ⟨f', e1, -, e3⟩ := pass_spec hspec hl hk f hf'
    rw [half_pow, forwardLoop, dif_pos hl, hN, e1]
    simp only [Option.bind_eq_bind, Option.bind_some]
    rw [← hN, show 2 ^ s + 2 ^ s = 2 ^ (s + 1) by ring]
    apply ih (s + 1) (by omega)
    intro x hx
    have hx' := hx
    rw [hN] at hx'
    refine ⟨(e3 x hx').1, ?_⟩
    rw [(e3 x hx').2, ← evalState_step (by omega) h.root a hx, show n - s - 1 = c by omega]
    exact levelFn_congr (M := 2 ^ s) (fun y hy => (hf y (by rw [hN]; exact hy)).2) x hx'

theorem forwardVtLoop_spec (h : op.WF n ω ωi) (a : Nat → ZMod op.p.p) (c s : Nat) (hs : s + c = n) (f : Nat → Nat)
    (hf : ∀ x < 2 ^ n, f x < 4 * op.p.p ∧ (f x : ZMod op.p.p) = evalState n (ω : ZMod op.p.p) a s x) :
    ∃ f' : Nat → Nat, op.forwardVtLoop (2 ^ c >>> 1) (2 ^ s) (2 ^ s) (tab (2 ^ n) f) = some (tab (2 ^ n) f') ∧
      ∀ x < 2 ^ n, f' x < 4 * op.p.p ∧ (f' x : ZMod op.p.p) = evalState n (ω : ZMod op.p.p) a n x := by
  induction c generalizing s f with
  | zero =>
    refine ⟨f, ?_, fun x hx => ?_⟩
    · rw [forwardVtLoop, dif_neg (by simp)]
    · have := hf x hx
      rw [show s = n by omega] at this
      exact this
  | succ c ih =>
    have hN : 2 ^ n = 2 * 2 ^ c * 2 ^ s := by rw [← hs]; ring
    have hl : 0 < 2 ^ c := by positivity
    have hk : 2 ^ s + 2 ^ s ≤ 2 ^ n := by
      calc 2 ^ s + 2 ^ s = 2 ^ (s + 1) := by ring
        _ ≤ 2 ^ n := Nat.pow_le_pow_right (by norm_num) (by omega)
    obtain ⟨f', -, e1, e3⟩ := pass_spec (fwdVtOp_spec h) hl hk f (fun x hx => (hf x (by rw [hN]; exact hx)).1)
    rw [half_pow, forwardVtLoop, dif_pos hl, hN, e1]
    simp only [Option.bind_eq_bind, Option.bind_some]
    rw [← hN, show 2 ^ s + 2 ^ s = 2 ^ (s + 1) by ring, show 2 ^ s <<< 1 = 2 ^ (s + 1) by rw [Nat.shiftLeft_eq]; ring]
    apply ih (s + 1) (by omega)
    intro x hx
    have hx' := hx
    rw [hN] at hx'
    refine ⟨(e3 x hx').1, ?_⟩
    rw [(e3 x hx').2, ← evalState_step (by omega) h.root a hx, show n - s - 1 = c by omega]
    exact levelFn_congr (M := 2 ^ s) (fun y hy => (hf y (by rw [hN]; exact hy)).2) x hx'

theorem backwardLoop_spec (h : op.WF n ω ωi) (b : Nat → ZMod op.p.p) (c d : Nat) (hd : d + c = n) (f : Nat → Nat)
    (hf : ∀ x < 2 ^ n, f x < 2 * op.p.p ∧
      (f x : ZMod op.p.p) = bwdState n (fun k => (ωi : ZMod op.p.p) ^ (revBits n k + 1)) b d x) :
    ∃ f' : Nat → Nat, op.backwardLoop (2 ^ d) (2 ^ n - 2 ^ c) (tab (2 ^ n) f) = some (tab (2 ^ n) f') ∧
      ∀ x < 2 ^ n, f' x < 2 * op.p.p ∧
        (f' x : ZMod op.p.p) = bwdState n (fun k => (ωi : ZMod op.p.p) ^ (revBits n k + 1)) b n x := by
  induction c generalizing d f with
  | zero =>
    refine ⟨f, ?_, fun x hx => ?_⟩
    · rw [backwardLoop, dif_neg]; rw [h.size, show d = n by omega]; simp
    · have := hf x hx
      rw [show d = n by omega] at this
      exact this
  | succ c ih =>
    have hN : 2 ^ n = 2 * 2 ^ d * 2 ^ c := by rw [← hd]; ring
    have hl : 0 < 2 ^ d := by positivity
    have hc : 2 ^ (c + 1) = 2 ^ c + 2 ^ c := by ring
    have hle : 2 ^ (c + 1) ≤ 2 ^ n := Nat.pow_le_pow_right (by norm_num) (by omega)
    have hlt : 2 ^ d < op.size := by rw [h.size]; exact Nat.pow_lt_pow_right (by norm_num) (by omega)
    have hshift : 2 ^ d <<< 1 = 2 ^ (d + 1) := by rw [Nat.shiftLeft_eq]; ring
    have hkk : 2 ^ n - 2 ^ (c + 1) + 2 ^ c = 2 ^ n - 2 ^ c := by rw [hc] at hle ⊢; omega
    have hk : 2 ^ n - 2 ^ (c + 1) + 2 ^ c ≤ 2 ^ n := by rw [hkk]; exact Nat.sub_le _ _
    have hc0 : 0 < 2 ^ c := by positivity
    obtain ⟨f', e1, -, e3⟩ := pass_spec (bwdOp_spec h) hl hk f (fun x hx => (hf x (by rw [hN]; exact hx)).1)
    rw [backwardLoop, dif_pos ⟨hl, hlt⟩]
    rw [← hN] at e1
    rw [e1]
    simp only [Option.bind_eq_bind, Option.bind_some]
    rw [hshift, hkk]
    apply ih (d + 1) (by omega)
    intro x hx
    rw [hN] at hx
    refine ⟨(e3 x hx).1, ?_⟩
    rw [(e3 x hx).2, bwdState, show n - d = c + 1 by omega]
    exact levelFn_congr (M := 2 ^ c) (fun y hy => (hf y (by rw [hN]; exact hy)).2) x hx

theorem backwardVtLoop_spec (h : op.WF n ω ωi) (b : Nat → ZMod op.p.p) (c d : Nat) (hd : d + c = n) (f : Nat → Nat)
    (hf : ∀ x < 2 ^ n, f x < 2 * op.p.p ∧
      (f x : ZMod op.p.p) = bwdState n (fun k => (ωi : ZMod op.p.p) ^ (revBits n k + 1)) b d x) :
    ∃ f' : Nat → Nat, op.backwardVtLoop (2 ^ d) (2 ^ c >>> 1) (2 ^ n - 2 ^ c) (tab (2 ^ n) f) = some (tab (2 ^ n) f') ∧
      ∀ x < 2 ^ n, f' x < 2 * op.p.p ∧
        (f' x : ZMod op.p.p) = bwdState n (fun k => (ωi : ZMod op.p.p) ^ (revBits n k + 1)) b n x := by
  induction c generalizing d f with
  | zero =>
    refine ⟨f, ?_, fun x hx => ?_⟩
    · rw [backwardVtLoop, dif_neg (by simp)]
    · have := hf x hx
      rw [show d = n by omega] at this
      exact this
  | succ c ih =>
    have hN : 2 ^ n = 2 * 2 ^ d * 2 ^ c := by rw [← hd]; ring
    have hl : 0 < 2 ^ d := by positivity
    have hc : 2 ^ (c + 1) = 2 ^ c + 2 ^ c := by ring
    have hle : 2 ^ (c + 1) ≤ 2 ^ n := Nat.pow_le_pow_right (by norm_num) (by omega)
    have hlt : 2 ^ d < op.size := by rw [h.size]; exact Nat.pow_lt_pow_right (by norm_num) (by omega)
    have hshift : 2 ^ d <<< 1 = 2 ^ (d + 1) := by rw [Nat.shiftLeft_eq]; ring
    have hkk : 2 ^ n - 2 ^ (c + 1) + 2 ^ c = 2 ^ n - 2 ^ c := by rw [hc] at hle ⊢; omega
    have hk : 2 ^ n - 2 ^ (c + 1) + 2 ^ c ≤ 2 ^ n := by rw [hkk]; exact Nat.sub_le _ _
    have hc0 : 0 < 2 ^ c := by positivity
    obtain ⟨f', -, e1, e3⟩ := pass_spec (bwdVtOp_spec h) hl hk f (fun x hx => (hf x (by rw [hN]; exact hx)).1)
    rw [half_pow, backwardVtLoop, dif_pos hc0]
    rw [← hN] at e1
    rw [e1]
    simp only [Option.bind_eq_bind, Option.bind_some]
    rw [hshift, hkk]
    apply ih (d + 1) (by omega)
    intro x hx
    rw [hN] at hx
    refine ⟨(e3 x hx).1, ?_⟩
    rw [(e3 x hx).2, bwdState, show n - d = c + 1 by omega]
    exact levelFn_congr (M := 2 ^ c) (fun y hy => (hf y (by rw [hN]; exact hy)).2) x hx

end NttOperator
end Fhe
