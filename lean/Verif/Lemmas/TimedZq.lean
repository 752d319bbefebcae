import Verif.Lemmas.Timed
/-!
# Release runs of `zq`, `ntt` and the sampler
-/
namespace Fhe.Release

/-- One straight-line step of the checked model. -/
local macro "step" : tactic => `(tactic| first
  | (refine Agrees.check fun _ => ?_) | refine Agrees.add64 ?_ | refine Agrees.mul64 ?_ | refine Agrees.add128 ?_ | refine Agrees.mul128 ?_)

/-! ## Agreement: scalars -/

theorem reduce1_agrees (x p : Nat) : Agrees (Modulus.reduce1 x p) (reduce1 x p) := by
  unfold Modulus.reduce1 reduce1
  repeat step
  exact Agrees.pure _

theorem reduce1Vt_agrees (cfg : Bool) (x p : Nat) : Agrees (Modulus.reduce1Vt cfg x p) (reduce1Vt cfg x p) := by
  cases cfg with
  | false => exact reduce1_agrees x p
  | true =>
    simp only [Modulus.reduce1Vt, reduce1Vt, if_true]
    repeat step
    refine Agrees.ite (fun h => ?_) fun _ => Agrees.pure _
    have h' : p ≤ x := h
    rw [subU_eq h', wsub, if_pos h']
    exact Agrees.pure _

theorem lazyReduceU128_agrees (m : Modulus) (a : Nat) : Agrees (m.lazyReduceU128 a) (lazyReduceU128 m a) := by
  unfold Modulus.lazyReduceU128 lazyReduceU128
  repeat step
  refine Agrees.subU 128 ?_
  repeat step
  exact Agrees.pure _

theorem lazyReduce_agrees (m : Modulus) (a : Nat) : Agrees (m.lazyReduce a) (lazyReduce m a) := by
  unfold Modulus.lazyReduce lazyReduce
  repeat step
  refine Agrees.subU 128 ?_
  repeat step
  exact Agrees.pure _

theorem lazyReduceOptU128_agrees (m : Modulus) (a : Nat) : Agrees (m.lazyReduceOptU128 a) (lazyReduceOptU128 m a) := by
  unfold Modulus.lazyReduceOptU128 lazyReduceOptU128
  repeat step
  refine Agrees.subU 128 ?_
  repeat step
  exact Agrees.pure _

theorem lazyReduceOpt_agrees (m : Modulus) (a : Nat) : Agrees (m.lazyReduceOpt a) (lazyReduceOpt m a) := by
  unfold Modulus.lazyReduceOpt lazyReduceOpt
  refine Agrees.subU 32 ?_
  refine Agrees.check fun h => ?_
  rw [Nat.mod_eq_of_lt h]
  repeat step
  refine Agrees.subU 128 ?_
  repeat step
  exact Agrees.pure _

theorem reduceU128_agrees (m : Modulus) (a : Nat) : Agrees (m.reduceU128 a) (reduceU128 m a) :=
  (lazyReduceU128_agrees m a).bind fun _ _ => reduce1_agrees _ _
theorem reduceU128Vt_agrees (m : Modulus) (a : Nat) : Agrees (m.reduceU128Vt a) (reduceU128Vt m a) :=
  (lazyReduceU128_agrees m a).bind fun _ _ => reduce1Vt_agrees _ _ _
theorem reduce_agrees (m : Modulus) (a : Nat) : Agrees (m.reduce a) (reduce m a) :=
  (lazyReduce_agrees m a).bind fun _ _ => reduce1_agrees _ _
theorem reduceVt_agrees (m : Modulus) (a : Nat) : Agrees (m.reduceVt a) (reduceVt m a) :=
  (lazyReduce_agrees m a).bind fun _ _ => reduce1Vt_agrees _ _ _
theorem reduceOptU128_agrees (m : Modulus) (a : Nat) : Agrees (m.reduceOptU128 a) (reduceOptU128 m a) :=
  Agrees.check fun _ => (lazyReduceOptU128_agrees m a).bind fun _ _ => reduce1_agrees _ _
theorem reduceOptU128Vt_agrees (m : Modulus) (a : Nat) : Agrees (m.reduceOptU128Vt a) (reduceOptU128Vt m a) :=
  Agrees.check fun _ => (lazyReduceOptU128_agrees m a).bind fun _ _ => reduce1Vt_agrees _ _ _
theorem reduceOpt_agrees (m : Modulus) (a : Nat) : Agrees (m.reduceOpt a) (reduceOpt m a) :=
  (lazyReduceOpt_agrees m a).bind fun _ _ => reduce1_agrees _ _
theorem reduceOptVt_agrees (m : Modulus) (a : Nat) : Agrees (m.reduceOptVt a) (reduceOptVt m a) :=
  (lazyReduceOpt_agrees m a).bind fun _ _ => reduce1Vt_agrees _ _ _

theorem add_agrees (m : Modulus) (a b : Nat) : Agrees (m.add a b) (add m a b) :=
  Agrees.check fun _ => Agrees.add64 (reduce1_agrees _ _)
theorem addVt_agrees (m : Modulus) (a b : Nat) : Agrees (m.addVt a b) (addVt m a b) :=
  Agrees.check fun _ => Agrees.add64 (reduce1Vt_agrees _ _ _)
theorem sub_agrees (m : Modulus) (a b : Nat) : Agrees (m.sub a b) (sub m a b) :=
  Agrees.check fun _ => Agrees.add64 (Agrees.subU 64 (reduce1_agrees _ _))
theorem mul_agrees (m : Modulus) (a b : Nat) : Agrees (m.mul a b) (mul m a b) :=
  Agrees.check fun _ => Agrees.mul128 (reduceU128_agrees _ _)
theorem mulVt_agrees (m : Modulus) (a b : Nat) : Agrees (m.mulVt a b) (mulVt m a b) :=
  Agrees.check fun _ => Agrees.mul128 ((lazyReduceU128_agrees _ _).bind fun _ _ => reduce1Vt_agrees _ _ _)
theorem mulOpt_agrees (m : Modulus) (a b : Nat) : Agrees (m.mulOpt a b) (mulOpt m a b) :=
  Agrees.check fun _ => Agrees.check fun _ => Agrees.mul128 (reduceOptU128_agrees _ _)
theorem mulOptVt_agrees (m : Modulus) (a b : Nat) : Agrees (m.mulOptVt a b) (mulOptVt m a b) :=
  Agrees.check fun _ => Agrees.check fun _ => Agrees.mul128 (reduceOptU128Vt_agrees _ _)
theorem neg_agrees (m : Modulus) (a : Nat) : Agrees (m.neg a) (neg m a) :=
  Agrees.check fun _ => Agrees.subU 64 (reduce1_agrees _ _)
theorem negVt_agrees (m : Modulus) (a : Nat) : Agrees (m.negVt a) (negVt m a) :=
  Agrees.check fun _ => Agrees.subU 64 (reduce1Vt_agrees _ _ _)
theorem shoup_agrees (m : Modulus) (a : Nat) : Agrees (m.shoup a) (shoup m a) := by
  unfold Modulus.shoup shoup
  refine Agrees.check fun h => ?_
  have h0 : m.p ≠ 0 := by omega
  intro y hy
  rw [bind_some (a := shl128 a 64 / m.p) (by simp [divide, h0])]
  exact hy
theorem lazyMulShoup_agrees (m : Modulus) (a b bs : Nat) : Agrees (m.lazyMulShoup a b bs) (lazyMulShoup m a b bs) := by
  unfold Modulus.lazyMulShoup lazyMulShoup
  repeat step
  refine Agrees.subU 128 ?_
  repeat step
  exact Agrees.pure _
theorem mulShoup_agrees (m : Modulus) (a b bs : Nat) : Agrees (m.mulShoup a b bs) (mulShoup m a b bs) :=
  (lazyMulShoup_agrees _ _ _ _).bind fun _ _ => reduce1_agrees _ _
theorem mulShoupVt_agrees (m : Modulus) (a b bs : Nat) : Agrees (m.mulShoupVt a b bs) (mulShoupVt m a b bs) :=
  (lazyMulShoup_agrees _ _ _ _).bind fun _ _ => reduce1Vt_agrees _ _ _
theorem center_agrees (m : Modulus) (a : Nat) : Agrees (m.center a) (center m a) := Agrees.check fun _ => Agrees.pure _
theorem reduceI64_agrees (m : Modulus) (a : Int) : Agrees (m.reduceI64 a) (reduceI64 m a) := by
  unfold Modulus.reduceI64 Modulus.i64Operand reduceI64 i64Operand
  intro y hy
  obtain ⟨o, ho, hy⟩ := Option.bind_eq_some_iff.1 hy
  obtain ⟨_, _, ho⟩ := Option.bind_eq_some_iff.1 ho
  cases ho
  exact reduceU128_agrees _ _ y hy
theorem reduceI64Vt_agrees (m : Modulus) (a : Int) : Agrees (m.reduceI64Vt a) (reduceI64Vt m a) := by
  unfold Modulus.reduceI64Vt Modulus.i64Operand reduceI64Vt i64Operand
  intro y hy
  obtain ⟨o, ho, hy⟩ := Option.bind_eq_some_iff.1 hy
  obtain ⟨_, _, ho⟩ := Option.bind_eq_some_iff.1 ho
  cases ho
  exact reduceU128Vt_agrees _ _ y hy

/-! ## Agreement: vectors -/

theorem addVec_agrees (m : Modulus) (a b : List Nat) : Agrees (m.addVec a b) (addVec m a b) :=
  Agrees.check fun _ => Agrees.zipAssign (add_agrees m) a b
theorem addVecVt_agrees (m : Modulus) (a b : List Nat) : Agrees (m.addVecVt a b) (addVecVt m a b) :=
  Agrees.check fun _ => Agrees.chunk (fun x y => by refine Agrees.add64 ?_; exact reduce1Vt_agrees _ _ _) a b
theorem subVec_agrees (m : Modulus) (a b : List Nat) : Agrees (m.subVec a b) (subVec m a b) :=
  Agrees.check fun _ => Agrees.zipAssign (sub_agrees m) a b
theorem subVecVt_agrees (m : Modulus) (a b : List Nat) : Agrees (m.subVecVt a b) (subVecVt m a b) :=
  Agrees.check fun _ => Agrees.chunk (fun x y => by
    refine Agrees.add64 ?_; refine Agrees.subU 64 ?_; exact reduce1Vt_agrees _ _ _) a b
theorem mulVec_agrees (m : Modulus) (a b : List Nat) : Agrees (m.mulVec a b) (mulVec m a b) :=
  Agrees.check fun _ => Agrees.ite (fun _ => Agrees.zipAssign (mulOpt_agrees m) a b) fun _ => Agrees.zipAssign (mul_agrees m) a b
theorem mulVecVt_agrees (m : Modulus) (a b : List Nat) : Agrees (m.mulVecVt a b) (mulVecVt m a b) :=
  Agrees.check fun _ => Agrees.ite (fun _ => Agrees.zipAssign (mulOptVt_agrees m) a b) fun _ => Agrees.zipAssign (mulVt_agrees m) a b
theorem scalarMulVec_agrees (m : Modulus) (a : List Nat) (b : Nat) : Agrees (m.scalarMulVec a b) (scalarMulVec m a b) :=
  (shoup_agrees m b).bind fun _ _ => Agrees.mapM (fun _ => mulShoup_agrees _ _ _ _) a
theorem scalarMulVecVt_agrees (m : Modulus) (a : List Nat) (b : Nat) : Agrees (m.scalarMulVecVt a b) (scalarMulVecVt m a b) :=
  (shoup_agrees m b).bind fun _ _ => Agrees.mapM (fun _ => mulShoupVt_agrees _ _ _ _) a
theorem shoupVec_agrees (m : Modulus) (a : List Nat) : Agrees (m.shoupVec a) (shoupVec m a) := Agrees.mapM (shoup_agrees m) a
theorem Agrees.zipAssign3 {f : Nat → Nat → Nat → Option Nat} {g : Nat → Nat × Nat → Timed Nat}
    (h : ∀ a b c, Agrees (f a b c) (g a (b, c))) : (a b c : List Nat) → Agrees (Modulus.zipAssign3 f a b c) (zipLoop g a (b.zip c))
  | [], _, _ => by
    rw [show zipLoop g [] _ = _ from rfl]; exact Agrees.branch (Agrees.pure _)
  | _ :: _, [], _ => Agrees.branch (Agrees.pure _)
  | _ :: _, _ :: _, [] => Agrees.branch (Agrees.pure _)
  | a :: as, b :: bs, c :: cs => by
    rw [Modulus.zipAssign3, List.zip_cons_cons, zipLoop]
    apply Agrees.branch
    exact (h a b c).bind fun y _ => (Agrees.zipAssign3 h as bs cs).bind fun _ _ => Agrees.pure _
theorem mulShoupVec_agrees (m : Modulus) (a b bs : List Nat) : Agrees (m.mulShoupVec a b bs) (mulShoupVec m a b bs) :=
  Agrees.check fun _ => Agrees.check fun _ => Agrees.check fun _ => Agrees.zipAssign3 (fun _ _ _ => mulShoup_agrees _ _ _ _) a b bs
theorem mulShoupVecVt_agrees (m : Modulus) (a b bs : List Nat) : Agrees (m.mulShoupVecVt a b bs) (mulShoupVecVt m a b bs) :=
  Agrees.check fun _ => Agrees.check fun _ => Agrees.check fun _ => Agrees.zipAssign3 (fun _ _ _ => mulShoupVt_agrees _ _ _ _) a b bs
theorem reduceVec_agrees (m : Modulus) (a : List Nat) : Agrees (m.reduceVec a) (reduceVec m a) := Agrees.mapM (reduce_agrees m) a
theorem reduceVecVt_agrees (m : Modulus) (a : List Nat) : Agrees (m.reduceVecVt a) (reduceVecVt m a) := Agrees.mapM (reduceVt_agrees m) a
theorem centerVec_agrees (m : Modulus) (a : List Nat) : Agrees (m.centerVec a) (centerVec m a) := Agrees.mapM (center_agrees m) a
theorem reduceVecI64_agrees (m : Modulus) (a : List Int) : Agrees (m.reduceVecI64 a) (reduceVecI64 m a) := Agrees.mapM (reduceI64_agrees m) a
theorem reduceVecI64Vt_agrees (m : Modulus) (a : List Int) : Agrees (m.reduceVecI64Vt a) (reduceVecI64Vt m a) :=
  Agrees.mapM (reduceI64Vt_agrees m) a
theorem negVec_agrees (m : Modulus) (a : List Nat) : Agrees (m.negVec a) (negVec m a) := Agrees.mapM (neg_agrees m) a
theorem negVecVt_agrees (m : Modulus) (a : List Nat) : Agrees (m.negVecVt a) (negVecVt m a) := Agrees.mapM (negVt_agrees m) a
theorem lazyReduceVec_agrees (m : Modulus) (a : List Nat) : Agrees (m.lazyReduceVec a) (lazyReduceVec m a) :=
  Agrees.ite (fun _ => Agrees.mapM (lazyReduceOpt_agrees m) a) fun _ => Agrees.mapM (lazyReduce_agrees m) a

theorem powLoop_agrees (m : Modulus) (a n : Nat) : (i r : Nat) → Agrees (m.powLoop a n i r) (powLoop m a n i r)
  | 0, r => Agrees.branch (Agrees.pure _)
  | i + 1, r => by
    rw [Modulus.powLoop, powLoop]
    apply Agrees.branch
    refine (mul_agrees m r r).bind fun r' _ => ?_
    apply Agrees.branch
    by_cases h : (n >>> i) &&& 1 = 1
    · simp only [h, if_true, decide_true]
      exact (mul_agrees m r' a).bind fun r'' _ => powLoop_agrees m a n i r''
    · simp only [h, if_false, decide_false, Bool.false_eq_true]
      exact (Agrees.pure r').bind fun r'' _ => powLoop_agrees m a n i r''

theorem pow_agrees (m : Modulus) (a n : Nat) : Agrees (m.pow a n) (pow m a n) := by
  refine Agrees.check fun _ => Agrees.ite (fun _ => Agrees.pure _) fun _ => Agrees.ite (fun _ => Agrees.pure _) fun _ => ?_
  refine Agrees.subU 32 ?_
  exact powLoop_agrees m a n _ a

/-! ## Agreement: transforms -/

theorem reduce3_agrees (op : NttOperator) (a : Nat) : Agrees (op.reduce3 a) (reduce3 op a) :=
  Agrees.check fun _ => (reduce1_agrees _ _).bind fun _ _ => reduce1_agrees _ _
theorem reduce3Vt_agrees (op : NttOperator) (a : Nat) : Agrees (op.reduce3Vt a) (reduce3Vt op a) :=
  Agrees.check fun _ => (reduce1Vt_agrees _ _ _).bind fun _ _ => reduce1Vt_agrees _ _ _
theorem butterflyWith_agrees (op : NttOperator) {red : Nat → Nat → Option Nat} {red' : Nat → Nat → Timed Nat}
    (h : ∀ a b, Agrees (red a b) (red' a b)) (x y w ws : Nat) : Agrees (op.butterflyWith red x y w ws) (butterflyWith op red' x y w ws) := by
  unfold NttOperator.butterflyWith butterflyWith
  repeat step
  refine (h _ _).bind fun x' _ => (lazyMulShoup_agrees _ _ _ _).bind fun t _ => ?_
  step
  refine Agrees.subU 64 ?_
  repeat step
  exact Agrees.pure _
theorem invButterflyWith_agrees (op : NttOperator) {red : Nat → Nat → Option Nat} {red' : Nat → Nat → Timed Nat}
    (h : ∀ a b, Agrees (red a b) (red' a b)) (x y w ws : Nat) : Agrees (op.invButterflyWith red x y w ws) (invButterflyWith op red' x y w ws) := by
  unfold NttOperator.invButterflyWith invButterflyWith
  repeat step
  refine (h _ _).bind fun x' _ => ?_
  step
  refine Agrees.subU 64 ?_
  refine (lazyMulShoup_agrees _ _ _ _).bind fun t _ => ?_
  repeat step
  exact Agrees.pure _
theorem fwdOp_agrees (op : NttOperator) (last : Bool) (k x y : Nat) : Agrees (op.fwdOp last k x y) (fwdOp op last k x y) := by
  unfold NttOperator.fwdOp fwdOp
  refine Agrees.fetch.bind fun o _ => Agrees.fetch.bind fun os _ => (butterflyWith_agrees op reduce1_agrees _ _ _ _).bind fun xy _ => ?_
  exact Agrees.ite (fun _ => (reduce3_agrees op _).bind fun _ _ => (reduce3_agrees op _).bind fun _ _ => Agrees.pure _) fun _ => Agrees.pure _
theorem fwdVtOp_agrees (op : NttOperator) (k x y : Nat) : Agrees (op.fwdVtOp k x y) (fwdVtOp op k x y) :=
  Agrees.fetch.bind fun _ _ => Agrees.fetch.bind fun _ _ => butterflyWith_agrees op (reduce1Vt_agrees _) _ _ _ _
theorem bwdOp_agrees (op : NttOperator) (k x y : Nat) : Agrees (op.bwdOp k x y) (bwdOp op k x y) :=
  Agrees.fetch.bind fun _ _ => Agrees.fetch.bind fun _ _ => invButterflyWith_agrees op reduce1_agrees _ _ _ _
theorem bwdVtOp_agrees (op : NttOperator) (k x y : Nat) : Agrees (op.bwdVtOp k x y) (bwdVtOp op k x y) :=
  Agrees.fetch.bind fun _ _ => Agrees.fetch.bind fun _ _ => invButterflyWith_agrees op (reduce1Vt_agrees _) _ _ _ _

theorem chunkPass_agrees {f : Nat → Nat → Nat → Option (Nat × Nat)} {g : Nat → Nat → Nat → Timed (Nat × Nat)}
    (h : ∀ k x y, Agrees (f k x y) (g k x y)) (l k : Nat) (a : List Nat) : Agrees (NttOperator.chunkPass f l k a) (chunkPass g l k a) := by
  rw [NttOperator.chunkPass, chunkPass]
  split
  · next hl =>
    apply Agrees.branch
    exact (Agrees.mapM (fun xy : Nat × Nat => h k xy.1 xy.2) _).bind fun _ _ =>
      (chunkPass_agrees h l (k + 1) (a.drop (2 * l))).bind fun _ _ => Agrees.pure _
  · exact Agrees.branch (Agrees.pure _)
termination_by a.length
decreasing_by simp only [List.length_drop]; omega
theorem forwardLoop_agrees (op : NttOperator) (l k : Nat) (a : List Nat) : Agrees (op.forwardLoop l k a) (forwardLoop op l k a) := by
  rw [NttOperator.forwardLoop, forwardLoop]
  split
  · next hl =>
    apply Agrees.branch
    exact (chunkPass_agrees (fwdOp_agrees op _) l k a).bind fun ak _ => forwardLoop_agrees op (l >>> 1) ak.2 ak.1
  · exact Agrees.branch (Agrees.pure _)
termination_by l
decreasing_by rw [Nat.shiftRight_eq_div_pow]; omega
theorem forward_agrees (op : NttOperator) (a : List Nat) : Agrees (op.forward a) (forward op a) :=
  Agrees.check fun _ => forwardLoop_agrees op _ _ _
theorem backwardLoop_agrees (op : NttOperator) (l k : Nat) (a : List Nat) : Agrees (op.backwardLoop l k a) (backwardLoop op l k a) := by
  rw [NttOperator.backwardLoop, backwardLoop]
  split
  · next hl =>
    apply Agrees.branch
    exact (chunkPass_agrees (bwdOp_agrees op) l k a).bind fun ak _ => backwardLoop_agrees op (l <<< 1) ak.2 ak.1
  · exact Agrees.branch (Agrees.pure _)
termination_by op.size - l
decreasing_by rw [Nat.shiftLeft_eq]; omega
theorem backward_agrees (op : NttOperator) (a : List Nat) : Agrees (op.backward a) (backward op a) :=
  Agrees.check fun _ => (backwardLoop_agrees op _ _ _).bind fun _ _ => Agrees.mapM (fun _ => mulShoup_agrees _ _ _ _) _

theorem pairUpdate_agrees {f : Nat → Nat → Nat → Option (Nat × Nat)} {g : Nat → Nat → Nat → Timed (Nat × Nat)}
    (h : ∀ k x y, Agrees (f k x y) (g k x y)) (l k j : Nat) (a : List Nat) : Agrees (NttOperator.pairUpdate f l k j a) (pairUpdate g l k j a) :=
  Agrees.fetch.bind fun _ _ => Agrees.fetch.bind fun _ _ => (h k _ _).bind fun _ _ => Agrees.pure _
theorem idxInner_agrees {f : Nat → Nat → Nat → Option (Nat × Nat)} {g : Nat → Nat → Nat → Timed (Nat × Nat)}
    (h : ∀ k x y, Agrees (f k x y) (g k x y)) (l k : Nat) :
    (left j : Nat) → (a : List Nat) → Agrees (NttOperator.idxInner f l k left j a) (idxInner g l k left j a)
  | 0, _, _ => Agrees.branch (Agrees.pure _)
  | left + 1, j, a => Agrees.branch ((pairUpdate_agrees h l k j a).bind fun a' _ => idxInner_agrees h l k left (j + 1) a')
theorem idxPass_agrees {f : Nat → Nat → Nat → Option (Nat × Nat)} {g : Nat → Nat → Nat → Timed (Nat × Nat)}
    (h : ∀ k x y, Agrees (f k x y) (g k x y)) (l : Nat) :
    (left i k : Nat) → (a : List Nat) → Agrees (NttOperator.idxPass f l left i k a) (idxPass g l left i k a)
  | 0, _, _, _ => Agrees.branch (Agrees.pure _)
  | left + 1, i, k, a => Agrees.branch ((idxInner_agrees h l k l (2 * i * l) a).bind fun a' _ => idxPass_agrees h l left (i + 1) (k + 1) a')
theorem forwardVtLoop_agrees (op : NttOperator) (l m k : Nat) (a : List Nat) : Agrees (op.forwardVtLoop l m k a) (forwardVtLoop op l m k a) := by
  rw [NttOperator.forwardVtLoop, forwardVtLoop]
  split
  · next hl =>
    apply Agrees.branch
    exact (idxPass_agrees (fwdVtOp_agrees op) l m 0 k a).bind fun ak _ => forwardVtLoop_agrees op (l >>> 1) (m <<< 1) ak.2 ak.1
  · exact Agrees.branch (Agrees.pure _)
termination_by l
decreasing_by rw [Nat.shiftRight_eq_div_pow]; omega
theorem forwardVtLazy_agrees (op : NttOperator) (a : List Nat) : Agrees (op.forwardVtLazy a) (forwardVtLazy op a) :=
  Agrees.check fun _ => forwardVtLoop_agrees op _ _ _ _
theorem forwardVt_agrees (op : NttOperator) (a : List Nat) : Agrees (op.forwardVt a) (forwardVt op a) :=
  (forwardVtLazy_agrees op a).bind fun _ _ => Agrees.mapM (reduce3Vt_agrees op) _
theorem backwardVtLoop_agrees (op : NttOperator) (l m k : Nat) (a : List Nat) : Agrees (op.backwardVtLoop l m k a) (backwardVtLoop op l m k a) := by
  rw [NttOperator.backwardVtLoop, backwardVtLoop]
  split
  · next hl =>
    apply Agrees.branch
    exact (idxPass_agrees (bwdVtOp_agrees op) l m 0 k a).bind fun ak _ => backwardVtLoop_agrees op (l <<< 1) (m >>> 1) ak.2 ak.1
  · exact Agrees.branch (Agrees.pure _)
termination_by m
decreasing_by rw [Nat.shiftRight_eq_div_pow]; omega
theorem backwardVt_agrees (op : NttOperator) (a : List Nat) : Agrees (op.backwardVt a) (backwardVt op a) :=
  Agrees.check fun _ => (backwardVtLoop_agrees op _ _ _ _).bind fun _ _ => Agrees.mapM (fun _ => mulShoup_agrees _ _ _ _) _

/-! ## Agreement: the sampler -/

theorem cbdPoolLoop_agrees (v : Nat) (rng : Nat → Nat) :
    (n pool nb pos : Nat) → Agrees (Fhe.cbdPoolLoop v rng n pool nb pos) (cbdPoolLoop v rng n pool nb pos)
  | 0, _, _, _ => Agrees.branch (Agrees.pure _)
  | n + 1, pool, nb, pos => by
    rw [Fhe.cbdPoolLoop, cbdPoolLoop]
    apply Agrees.branch
    step
    apply Agrees.branch
    by_cases h : nb < 4 * v
    · simp only [h, if_true, decide_true, pure_bind']
      step
      refine Agrees.subU 64 ?_
      exact (cbdPoolLoop_agrees v rng n _ _ _).bind fun _ _ => Agrees.pure _
    · simp only [h, if_false, decide_false, Bool.false_eq_true, pure_bind']
      step
      refine Agrees.subU 64 ?_
      exact (cbdPoolLoop_agrees v rng n _ _ _).bind fun _ _ => Agrees.pure _
theorem cbdPairLoop_agrees (v : Nat) (rng : Nat → Nat) :
    (n pos : Nat) → Agrees (some (Fhe.cbdPairLoop v rng n pos)) (cbdPairLoop v rng n pos)
  | 0, _ => Agrees.branch (Agrees.pure _)
  | n + 1, pos => by
    rw [cbdPairLoop]
    apply Agrees.branch
    intro y hy
    rw [bind_some (cbdPairLoop_agrees v rng n (pos + 2) _ rfl)]
    exact hy
theorem sampleVecCbd_agrees (size v : Nat) (rng : Nat → Nat) : Agrees (Fhe.sampleVecCbd size v rng) (sampleVecCbd size v rng) := by
  unfold Fhe.sampleVecCbd sampleVecCbd
  refine Agrees.ite (fun _ => Agrees.pure _) fun _ => Agrees.ite (fun _ => ?_) fun _ => ?_
  · exact (cbdPoolLoop_agrees v rng size 0 0 0).bind fun _ _ => Agrees.pure _
  · intro y hy
    rw [bind_some (cbdPairLoop_agrees v rng size 0 _ rfl)]
    exact hy

/-! ## Two runs: scalars -/

theorem reduce1_indist (x x' p : Nat) : Indist AnyWords (reduce1 x p) (reduce1 x' p) := by unfold reduce1; exact Indist.pure trivial
theorem lazyReduceU128_indist (m : Modulus) (a a' : Nat) : Indist AnyWords (lazyReduceU128 m a) (lazyReduceU128 m a') := by unfold lazyReduceU128; exact Indist.pure trivial
theorem lazyReduce_indist (m : Modulus) (a a' : Nat) : Indist AnyWords (lazyReduce m a) (lazyReduce m a') := by unfold lazyReduce; exact Indist.pure trivial
theorem lazyReduceOptU128_indist (m : Modulus) (a a' : Nat) : Indist AnyWords (lazyReduceOptU128 m a) (lazyReduceOptU128 m a') := by unfold lazyReduceOptU128; exact Indist.pure trivial
theorem lazyReduceOpt_indist (m : Modulus) (a a' : Nat) : Indist AnyWords (lazyReduceOpt m a) (lazyReduceOpt m a') := by unfold lazyReduceOpt; exact Indist.pure trivial
theorem lazyMulShoup_indist (m : Modulus) (a b bs a' b' bs' : Nat) : Indist AnyWords (lazyMulShoup m a b bs) (lazyMulShoup m a' b' bs') := by unfold lazyMulShoup; exact Indist.pure trivial
theorem reduceU128_indist (m : Modulus) (a a' : Nat) : Indist AnyWords (reduceU128 m a) (reduceU128 m a') :=
  (lazyReduceU128_indist m a a').bind fun _ _ _ => reduce1_indist _ _ _
theorem reduce_indist (m : Modulus) (a a' : Nat) : Indist AnyWords (reduce m a) (reduce m a') :=
  (lazyReduce_indist m a a').bind fun _ _ _ => reduce1_indist _ _ _
theorem reduceOptU128_indist (m : Modulus) (a a' : Nat) : Indist AnyWords (reduceOptU128 m a) (reduceOptU128 m a') :=
  (lazyReduceOptU128_indist m a a').bind fun _ _ _ => reduce1_indist _ _ _
theorem reduceOpt_indist (m : Modulus) (a a' : Nat) : Indist AnyWords (reduceOpt m a) (reduceOpt m a') :=
  (lazyReduceOpt_indist m a a').bind fun _ _ _ => reduce1_indist _ _ _
theorem add_indist (m : Modulus) (a b a' b' : Nat) : Indist AnyWords (add m a b) (add m a' b') := reduce1_indist _ _ _
theorem sub_indist (m : Modulus) (a b a' b' : Nat) : Indist AnyWords (sub m a b) (sub m a' b') := reduce1_indist _ _ _
theorem mul_indist (m : Modulus) (a b a' b' : Nat) : Indist AnyWords (mul m a b) (mul m a' b') := reduceU128_indist _ _ _
theorem mulOpt_indist (m : Modulus) (a b a' b' : Nat) : Indist AnyWords (mulOpt m a b) (mulOpt m a' b') := reduceOptU128_indist _ _ _
theorem neg_indist (m : Modulus) (a a' : Nat) : Indist AnyWords (neg m a) (neg m a') := reduce1_indist _ _ _
theorem mulShoup_indist (m : Modulus) (a b bs a' b' bs' : Nat) : Indist AnyWords (mulShoup m a b bs) (mulShoup m a' b' bs') :=
  (lazyMulShoup_indist _ _ _ _ _ _ _).bind fun _ _ _ => reduce1_indist _ _ _
theorem center_indist (m : Modulus) (a a' : Nat) : Indist AnyWords (center m a) (center m a') := by unfold center; exact Indist.pure trivial
theorem reduceI64_indist (m : Modulus) (a a' : Int) : Indist AnyWords (reduceI64 m a) (reduceI64 m a') := reduceU128_indist _ _ _

/-! ## Two runs: vectors -/

theorem Indist.len {β : Type} {t t' : Timed (List β)} {R : β → β → Prop} (h : Indist (List.Forall₂ R) t t') : Indist SameLen t t' :=
  h.mono fun _ _ => SameLen.of_forall₂
theorem Indist.map {α β : Type} {f g : α → Timed β} {a b : List α} (h : SameLen a b) (hf : ∀ x y, Indist AnyWords (f x) (g y)) :
    Indist SameLen (Release.mapLoop f a) (Release.mapLoop g b) :=
  (Indist.mapLoop h.forall₂ fun x y _ => hf x y).mono fun _ _ => SameLen.of_forall₂
theorem Indist.zip {α β : Type} {f g : α → β → Timed α} {a a' : List α} {b b' : List β} (h : SameLen a a') (h' : SameLen b b')
    (hf : ∀ x x' y y', Indist AnyWords (f x y) (g x' y')) : Indist SameLen (Release.zipLoop f a b) (Release.zipLoop g a' b') :=
  (Indist.zipLoop h.forall₂ h'.forall₂ fun x x' y y' _ _ => hf x x' y y').mono fun _ _ => SameLen.of_forall₂

variable {a a' b b' c c' : List Nat}

theorem addVec_indist (m : Modulus) (h : SameLen a a') (h' : SameLen b b') : Indist SameLen (addVec m a b) (addVec m a' b') :=
  Indist.zip h h' fun _ _ _ _ => add_indist _ _ _ _ _
theorem subVec_indist (m : Modulus) (h : SameLen a a') (h' : SameLen b b') : Indist SameLen (subVec m a b) (subVec m a' b') :=
  Indist.zip h h' fun _ _ _ _ => sub_indist _ _ _ _ _
theorem mulVec_indist (m : Modulus) (h : SameLen a a') (h' : SameLen b b') : Indist SameLen (mulVec m a b) (mulVec m a' b') :=
  Indist.ite Iff.rfl (fun _ => Indist.zip h h' fun _ _ _ _ => mulOpt_indist _ _ _ _ _) fun _ =>
    Indist.zip h h' fun _ _ _ _ => mul_indist _ _ _ _ _
theorem mulShoupVec_indist (m : Modulus) (h : SameLen a a') (h' : SameLen b b') (h'' : SameLen c c') :
    Indist SameLen (mulShoupVec m a b c) (mulShoupVec m a' b' c') :=
  Indist.zip h (by simp only [SameLen, List.length_zip] at h' h'' ⊢; rw [h', h'']) fun _ _ _ _ => mulShoup_indist _ _ _ _ _ _ _
/-- The scalar is revealed by the division in `shoup`. -/
theorem scalarMulVec_indist (m : Modulus) (h : SameLen a a') (s : Nat) : Indist SameLen (scalarMulVec m a s) (scalarMulVec m a' s) :=
  (Indist.refl (R := Eq) (fun _ => rfl) (shoup m s)).bind fun _ _ _ => Indist.map h fun _ _ => mulShoup_indist _ _ _ _ _ _ _
theorem reduceVec_indist (m : Modulus) (h : SameLen a a') : Indist SameLen (reduceVec m a) (reduceVec m a') :=
  Indist.map h fun _ _ => reduce_indist _ _ _
theorem centerVec_indist (m : Modulus) (h : SameLen a a') : Indist SameLen (centerVec m a) (centerVec m a') :=
  Indist.map h fun _ _ => center_indist _ _ _
theorem reduceVecI64_indist (m : Modulus) {a a' : List Int} (h : SameLen a a') : Indist SameLen (reduceVecI64 m a) (reduceVecI64 m a') :=
  Indist.map h fun _ _ => reduceI64_indist _ _ _
theorem negVec_indist (m : Modulus) (h : SameLen a a') : Indist SameLen (negVec m a) (negVec m a') :=
  Indist.map h fun _ _ => neg_indist _ _ _
theorem lazyReduceVec_indist (m : Modulus) (h : SameLen a a') : Indist SameLen (lazyReduceVec m a) (lazyReduceVec m a') :=
  Indist.ite Iff.rfl (fun _ => Indist.map h fun _ _ => lazyReduceOpt_indist _ _ _) fun _ => Indist.map h fun _ _ => lazyReduce_indist _ _ _

/-! ## Two runs: transforms -/

theorem reduce3_indist (op : NttOperator) (a a' : Nat) : Indist AnyWords (reduce3 op a) (reduce3 op a') :=
  (reduce1_indist _ _ _).bind fun _ _ _ => reduce1_indist _ _ _
theorem fwdOp_indist (op : NttOperator) (last : Bool) (k x y x' y' : Nat) : Indist AnyWords (fwdOp op last k x y) (fwdOp op last k x' y') := by
  unfold fwdOp
  refine (Indist.fetch (forall₂_eq op.omegas) k).bind fun o _ h => ?_
  subst h
  refine (Indist.fetch (forall₂_eq op.omegasShoup) k).bind fun os _ h => ?_
  subst h
  refine Indist.bind (R := AnyWords) ?_ fun xy xy' _ => ?_
  · exact (reduce1_indist _ _ _).bind fun _ _ _ => (lazyMulShoup_indist _ _ _ _ _ _ _).bind fun _ _ _ => Indist.pure trivial
  · exact Indist.ite Iff.rfl (fun _ => (reduce3_indist op _ _).bind fun _ _ _ => (reduce3_indist op _ _).bind fun _ _ _ => Indist.pure trivial)
      fun _ => Indist.pure trivial
theorem bwdOp_indist (op : NttOperator) (k x y x' y' : Nat) : Indist AnyWords (bwdOp op k x y) (bwdOp op k x' y') := by
  unfold bwdOp
  refine (Indist.fetch (forall₂_eq op.zetasInv) k).bind fun o _ h => ?_
  subst h
  refine (Indist.fetch (forall₂_eq op.zetasInvShoup) k).bind fun os _ h => ?_
  subst h
  exact (reduce1_indist _ _ _).bind fun _ _ _ => (lazyMulShoup_indist _ _ _ _ _ _ _).bind fun _ _ _ => Indist.pure trivial

theorem chunkPass_indist {f : Nat → Nat → Nat → Timed (Nat × Nat)} (h : ∀ k x y x' y', Indist AnyWords (f k x y) (f k x' y')) (l k : Nat)
    (a a' : List Nat) (ha : SameLen a a') :
    Indist (fun x y : List Nat × Nat => SameLen x.1 y.1 ∧ x.2 = y.2) (chunkPass f l k a) (chunkPass f l k a') := by
  unfold SameLen at ha
  rw [chunkPass.eq_1 f l k a, chunkPass.eq_1 f l k a']
  by_cases hl : 0 < l ∧ 2 * l ≤ a.length
  · rw [dif_pos hl, dif_pos (by omega)]
    refine Indist.branch Iff.rfl ?_
    refine (Indist.map ?_ fun _ _ => h _ _ _ _ _).bind fun p p' hp => ?_
    · simp [SameLen, ha]
    refine (chunkPass_indist h l (k + 1) (a.drop (2 * l)) (a'.drop (2 * l)) (by simp [SameLen, ha])).bind fun q q' hq => Indist.pure ?_
    have h1 : q.1.length = q'.1.length := hq.1
    have h2 : p.length = p'.length := hp
    exact ⟨by simp [SameLen, h1, h2], hq.2⟩
  · rw [dif_neg hl, dif_neg (by omega)]
    exact Indist.branch Iff.rfl (Indist.pure ⟨ha, rfl⟩)
termination_by a.length
decreasing_by simp only [List.length_drop]; omega
theorem forwardLoop_indist (op : NttOperator) (l k : Nat) (a a' : List Nat) (ha : SameLen a a') :
    Indist SameLen (forwardLoop op l k a) (forwardLoop op l k a') := by
  rw [forwardLoop.eq_1 op l k a, forwardLoop.eq_1 op l k a']
  split
  · next hl =>
    refine Indist.branch Iff.rfl ?_
    refine (chunkPass_indist (fwdOp_indist op _) l k a a' ha).bind fun x y hxy => ?_
    obtain ⟨x1, x2⟩ := x
    obtain ⟨y1, y2⟩ := y
    obtain ⟨h1, h2⟩ := hxy
    simp only at h1 h2
    subst h2
    exact forwardLoop_indist op (l >>> 1) x2 x1 y1 h1
  · exact Indist.branch Iff.rfl (Indist.pure ha)
termination_by l
decreasing_by rw [Nat.shiftRight_eq_div_pow]; omega
theorem forward_indist (op : NttOperator) (ha : SameLen a a') : Indist SameLen (forward op a) (forward op a') :=
  forwardLoop_indist op _ _ _ _ ha
theorem backwardLoop_indist (op : NttOperator) (l k : Nat) (a a' : List Nat) (ha : SameLen a a') :
    Indist SameLen (backwardLoop op l k a) (backwardLoop op l k a') := by
  rw [backwardLoop.eq_1 op l k a, backwardLoop.eq_1 op l k a']
  split
  · next hl =>
    refine Indist.branch Iff.rfl ?_
    refine (chunkPass_indist (bwdOp_indist op) l k a a' ha).bind fun x y hxy => ?_
    obtain ⟨x1, x2⟩ := x
    obtain ⟨y1, y2⟩ := y
    obtain ⟨h1, h2⟩ := hxy
    simp only at h1 h2
    subst h2
    exact backwardLoop_indist op (l <<< 1) x2 x1 y1 h1
  · exact Indist.branch Iff.rfl (Indist.pure ha)
termination_by op.size - l
decreasing_by rw [Nat.shiftLeft_eq]; omega
theorem backward_indist (op : NttOperator) (ha : SameLen a a') : Indist SameLen (backward op a) (backward op a') :=
  (backwardLoop_indist op _ _ _ _ ha).bind fun _ _ h => Indist.map h fun _ _ => mulShoup_indist _ _ _ _ _ _ _

/-! ## Two runs: the sampler -/

/-- The number of bits in the pool and of words drawn do not depend on the words. -/
theorem cbdPoolLoop_indist (v : Nat) (rng rng' : Nat → Nat) : (n pool pool' nb pos : Nat) →
    Indist (fun x y : List Int × Nat => SameLen x.1 y.1 ∧ x.2 = y.2) (cbdPoolLoop v rng n pool nb pos) (cbdPoolLoop v rng' n pool' nb pos)
  | 0, _, _, _, _ => Indist.branch Iff.rfl (Indist.pure ⟨rfl, rfl⟩)
  | n + 1, pool, pool', nb, pos => by
    rw [cbdPoolLoop, cbdPoolLoop]
    refine Indist.branch Iff.rfl (Indist.branch Iff.rfl ?_)
    by_cases h : nb < 4 * v
    · simp only [h, if_true, decide_true, pure_bind']
      refine (cbdPoolLoop_indist v rng rng' n _ _ _ _).bind fun x y hxy => Indist.pure ⟨?_, hxy.2⟩
      have : x.1.length = y.1.length := hxy.1
      simp [SameLen, this]
    · simp only [h, if_false, decide_false, Bool.false_eq_true, pure_bind']
      refine (cbdPoolLoop_indist v rng rng' n _ _ _ _).bind fun x y hxy => Indist.pure ⟨?_, hxy.2⟩
      have : x.1.length = y.1.length := hxy.1
      simp [SameLen, this]
theorem cbdPairLoop_indist (v : Nat) (rng rng' : Nat → Nat) : (n pos : Nat) →
    Indist (fun x y : List Int × Nat => SameLen x.1 y.1 ∧ x.2 = y.2) (cbdPairLoop v rng n pos) (cbdPairLoop v rng' n pos)
  | 0, _ => Indist.branch Iff.rfl (Indist.pure ⟨rfl, rfl⟩)
  | n + 1, pos => by
    rw [cbdPairLoop, cbdPairLoop]
    refine Indist.branch Iff.rfl ?_
    refine (cbdPairLoop_indist v rng rng' n (pos + 2)).bind fun x y hxy => Indist.pure ⟨?_, hxy.2⟩
    have : x.1.length = y.1.length := hxy.1
    simp [SameLen, this]
theorem sampleVecCbd_indist (size v : Nat) (rng rng' : Nat → Nat) :
    Indist (SameResult fun x y : List Int × Nat => SameLen x.1 y.1 ∧ x.2 = y.2) (sampleVecCbd size v rng) (sampleVecCbd size v rng') := by
  unfold sampleVecCbd
  refine Indist.ite Iff.rfl (fun _ => Indist.pure (.error ())) fun _ => Indist.ite Iff.rfl (fun _ => ?_) fun _ => ?_
  · exact (cbdPoolLoop_indist v rng rng' size 0 0 0 0).bind fun _ _ h => Indist.pure (.ok h)
  · exact (cbdPairLoop_indist v rng rng' size 0).bind fun _ _ h => Indist.pure (.ok h)

end Fhe.Release
