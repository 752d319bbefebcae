import Verif.Lemmas.TimedZq
/-!
# Release runs of `rns` and `rq`
-/
namespace Fhe.Release
variable {r : Rep}

theorem bind_assoc' {α β γ : Type} (t : Timed α) (f : α → Timed β) (g : β → Timed γ) : ((t >>= f) >>= g) = (t >>= fun a => f a >>= g) := by
  cases h : t.result with
  | none => rw [bind_none h, bind_none h, bind_none rfl]
  | some a =>
    rw [bind_some h, bind_some h]
    cases h' : (f a).result with
    | none => rw [bind_none rfl, bind_none h']
    | some b => rw [bind_some rfl, bind_some h']; simp only [List.append_assoc]

local macro "step" : tactic => `(tactic| first
  | (refine Agrees.check fun _ => ?_) | refine Agrees.add64 ?_ | refine Agrees.mul64 ?_ | refine Agrees.add128 ?_ | refine Agrees.mul128 ?_)

/-! ## Agreement: scaling -/

theorem Agrees.mul256 {β : Type} {a b : Nat} {f : Nat → Option β} {t : Timed β} (h : Agrees (f (a * b % 2 ^ 256)) t) :
    Agrees (RnsScaler.mul256 a b >>= f) t := by
  intro y hy
  obtain ⟨x, hx, hy⟩ := Option.bind_eq_some_iff.1 hy
  obtain ⟨_, hc, hx⟩ := Option.bind_eq_some_iff.1 hx
  have hlt : a * b < 2 ^ 256 := by
    by_contra hn
    rw [show Fhe.check (a * b < 2 ^ 256) = Option.none from if_neg hn] at hc; simp at hc
  cases hx
  refine h y ?_
  rw [Nat.mod_eq_of_lt hlt]; exact hy

theorem sumThetaGarner_agrees : (los his rests : List Nat) → (acc : Nat) →
    Agrees (RnsScaler.sumThetaGarner los his rests acc) (sumThetaGarner los his rests acc)
  | lo :: los, hi :: his, r :: rests, acc => by
    rw [RnsScaler.sumThetaGarner, sumThetaGarner]
    exact Agrees.branch (Agrees.mul256 (sumThetaGarner_agrees los his rests _))
  | [], _, _, acc => by unfold RnsScaler.sumThetaGarner sumThetaGarner; exact Agrees.branch (Agrees.pure _)
  | _ :: _, [], _, acc => by unfold RnsScaler.sumThetaGarner sumThetaGarner; exact Agrees.branch (Agrees.pure _)
  | _ :: _, _ :: _, [], acc => by unfold RnsScaler.sumThetaGarner sumThetaGarner; exact Agrees.branch (Agrees.pure _)
theorem roundV_agrees (sum shift : Nat) : Agrees (RnsScaler.roundV sum shift) (roundV sum shift) := by
  unfold RnsScaler.roundV roundV
  refine Agrees.subU 64 ?_
  exact Agrees.pure _
theorem sumThetaOmega_agrees : (los his : List Nat) → (signs : List Bool) → (rests : List Nat) → (acc : Nat) →
    Agrees (RnsScaler.sumThetaOmega los his signs rests acc) (sumThetaOmega los his signs rests acc)
  | lo :: los, hi :: his, sg :: signs, r :: rests, acc => by
    rw [RnsScaler.sumThetaOmega, sumThetaOmega]
    refine Agrees.branch (Agrees.mul256 (Agrees.branch ?_))
    cases sg
    · simp only [Bool.false_eq_true, decide_false, if_false]; exact sumThetaOmega_agrees los his signs rests _
    · simp only [decide_true, if_true]; exact sumThetaOmega_agrees los his signs rests _
  | [], _, _, _, acc => by unfold RnsScaler.sumThetaOmega sumThetaOmega; exact Agrees.branch (Agrees.pure _)
  | _ :: _, [], _, _, acc => by unfold RnsScaler.sumThetaOmega sumThetaOmega; exact Agrees.branch (Agrees.pure _)
  | _ :: _, _ :: _, [], _, acc => by unfold RnsScaler.sumThetaOmega sumThetaOmega; exact Agrees.branch (Agrees.pure _)
  | _ :: _, _ :: _, _ :: _, [], acc => by unfold RnsScaler.sumThetaOmega sumThetaOmega; exact Agrees.branch (Agrees.pure _)
theorem roundW_agrees (sum : Nat) : Agrees (RnsScaler.roundW sum) (roundW sum) := by
  unfold RnsScaler.roundW roundW
  refine Agrees.ite (fun _ => ?_) fun _ => Agrees.pure _
  step
  exact Agrees.pure _
theorem computeW_agrees (s : RnsScaler) (rests : List Nat) (v : Nat) : Agrees (s.computeW rests v) (computeW s rests v) := by
  unfold RnsScaler.computeW computeW
  refine Agrees.ite (fun _ => Agrees.pure _) fun _ => (sumThetaOmega_agrees _ _ _ _ _).bind fun sum _ => Agrees.mul256 (Agrees.branch ?_)
  cases s.thetaGammaSign
  · simp only [Bool.false_eq_true, decide_false, if_false]; exact roundW_agrees _
  · simp only [decide_true, if_true]; exact roundW_agrees _
theorem accumulate_agrees (q : Modulus) : (rests omega omegaShoup : List Nat) → (y : Nat) →
    Agrees (RnsScaler.accumulate q rests omega omegaShoup y) (accumulate q rests omega omegaShoup y)
  | [], _, _, y => by unfold RnsScaler.accumulate accumulate; exact Agrees.branch (Agrees.pure _)
  | r :: rests, o :: omega, os :: omegaShoup, y => by
    rw [RnsScaler.accumulate, accumulate]
    refine Agrees.branch ((lazyMulShoup_agrees _ _ _ _).bind fun x _ => ?_)
    step
    exact accumulate_agrees q rests omega omegaShoup _
  | _ :: _, [], _, _ => by unfold RnsScaler.accumulate; exact Agrees.none _
  | _ :: _, _ :: _, [], _ => by unfold RnsScaler.accumulate; exact Agrees.none _
theorem addW_agrees (q : Modulus) (isOne wSign : Bool) (w q2 y : Nat) : Agrees (RnsScaler.addW q isOne wSign w q2 y) (addW q isOne wSign w q2 y) := by
  unfold RnsScaler.addW addW
  refine Agrees.ite (fun _ => Agrees.pure _) fun _ => (lazyReduceU128_agrees q w).bind fun wi _ => Agrees.branch ?_
  have key : ∀ t, Agrees (Fhe.add128 y t) (pure (wadd128 y t)) := fun t z hz => by
    unfold Fhe.add128 at hz
    split at hz
    · next h => cases hz; rw [pure_result, wadd128, Nat.mod_eq_of_lt h]
    · simp at hz
  cases wSign
  · simp only [Bool.false_eq_true, decide_false, if_false]; exact key wi
  · simp only [decide_true, if_true]
    refine Agrees.subU 64 ?_
    exact key _
theorem scaleOne_agrees (s : RnsScaler) (rests : List Nat) (v : Nat) (wSign : Bool) (w idx : Nat) :
    Agrees (s.scaleOne rests v wSign w idx) (scaleOne s rests v wSign w idx) := by
  unfold RnsScaler.scaleOne scaleOne
  refine Agrees.fetch.bind fun q _ => Agrees.fetch.bind fun _ _ => Agrees.fetch.bind fun _ _ => Agrees.fetch.bind fun _ _ => Agrees.fetch.bind fun _ _ => ?_
  step
  refine (reduceU128_agrees q v).bind fun _ _ => (lazyMulShoup_agrees _ _ _ _).bind fun _ _ => ?_
  refine Agrees.subU 64 ?_
  refine (addW_agrees _ _ _ _ _ _).bind fun _ _ => ?_
  repeat step
  exact (accumulate_agrees _ _ _ _ _).bind fun _ _ => reduceU128_agrees _ _
theorem rnsScale_agrees (s : RnsScaler) (rests : List Nat) (size start : Nat) : Agrees (s.scale rests size start) (rnsScale s rests size start) := by
  unfold RnsScaler.scale rnsScale
  repeat step
  refine (sumThetaGarner_agrees _ _ _ _).bind fun _ _ => (roundV_agrees _ _).bind fun v _ => (computeW_agrees s rests v).bind fun w _ => ?_
  exact Agrees.mapM (fun i => scaleOne_agrees _ _ _ _ _ _) _

/-! ## Agreement: polynomials -/

theorem computeShoup_agrees (p : Poly r) : Agrees p.computeShoup (computeShoup p) :=
  (Agrees.zipRows (fun _ _ => shoupVec_agrees _ _) _ _).bind fun _ _ => Agrees.pure _
theorem fromParts_agrees {s : Rep} (r : Rep) (p : Poly s) : Agrees (Poly.fromParts r p) (fromParts r p) := by
  unfold Poly.fromParts fromParts
  split
  · cases p.shoup with
    | none => exact (computeShoup_agrees p).bind fun _ _ => Agrees.pure _
    | some t => exact Agrees.pure _
  · exact Agrees.pure _
theorem nttForward_agrees (p : Poly r) : Agrees p.nttForward (nttForward p) := by
  unfold Poly.nttForward nttForward
  refine Agrees.branch ?_
  cases h : p.vt
  · simp only [Bool.false_eq_true, decide_false, if_false]
    exact (Agrees.zipRows (fun v op => forward_agrees op v) _ _).bind fun _ _ => Agrees.pure _
  · simp only [decide_true, if_true]
    exact (Agrees.zipRows (fun v op => forwardVt_agrees op v) _ _).bind fun _ _ => Agrees.pure _
theorem nttBackward_agrees (p : Poly r) : Agrees p.nttBackward (nttBackward p) := by
  unfold Poly.nttBackward nttBackward
  refine Agrees.branch ?_
  cases h : p.vt
  · simp only [Bool.false_eq_true, decide_false, if_false]
    exact (Agrees.zipRows (fun v op => backward_agrees op v) _ _).bind fun _ _ => Agrees.pure _
  · simp only [decide_true, if_true]
    exact (Agrees.zipRows (fun v op => backwardVt_agrees op v) _ _).bind fun _ _ => Agrees.pure _
theorem intoNtt_agrees (p : Poly .powerBasis) : Agrees p.intoNtt (intoNtt p) := (nttForward_agrees p).bind fun _ _ => fromParts_agrees _ _
theorem intoNttShoup_agrees (p : Poly .powerBasis) : Agrees p.intoNttShoup (intoNttShoup p) :=
  (nttForward_agrees p).bind fun _ _ => (computeShoup_agrees _).bind fun _ _ => fromParts_agrees _ _
theorem nttToPowerBasis_agrees (p : Poly .ntt) : Agrees p.nttToPowerBasis (nttToPowerBasis p) :=
  (nttBackward_agrees p).bind fun _ _ => fromParts_agrees _ _
theorem shoupToNtt_agrees (p : Poly .nttShoup) : Agrees p.shoupToNtt (shoupToNtt p) := fromParts_agrees _ _

theorem rowLoop_agrees (vt : Bool) {f g : Modulus → List Nat → List Nat → Option (List Nat)} {f' g' : Modulus → List Nat → List Nat → Timed (List Nat)}
    (hf : ∀ m a b, Agrees (f m a b) (f' m a b)) (hg : ∀ m a b, Agrees (g m a b) (g' m a b)) (a p : List (List Nat)) (q : List Modulus) :
    Agrees (zipRows (fun v1 (x : List Nat × Modulus) => if vt then f x.2 v1 x.1 else g x.2 v1 x.1) a (p.zip q)) (rowLoop vt f' g' a p q) := by
  unfold rowLoop
  refine Agrees.branch ?_
  cases vt
  · simp only [Bool.false_eq_true, decide_false, if_false]; exact Agrees.zipRows (fun _ _ => hg _ _ _) _ _
  · simp only [decide_true, if_true]; exact Agrees.zipRows (fun _ _ => hf _ _ _) _ _
theorem addAssign_agrees (a p : Poly r) : Agrees (a.addAssign p) (addAssign a p) :=
  Agrees.assert.bind fun _ _ => Agrees.check fun _ => (rowLoop_agrees _ addVecVt_agrees addVec_agrees _ _ _).bind fun _ _ => Agrees.pure _
theorem subAssign_agrees (a p : Poly r) : Agrees (a.subAssign p) (subAssign a p) :=
  Agrees.assert.bind fun _ _ => Agrees.check fun _ => (rowLoop_agrees _ subVecVt_agrees subVec_agrees _ _ _).bind fun _ _ => Agrees.pure _
theorem mulAssign_agrees (a p : Poly .ntt) : Agrees (a.mulAssign p) (mulAssign a p) :=
  Agrees.assert.bind fun _ _ => Agrees.assert.bind fun _ _ => Agrees.check fun _ =>
    (rowLoop_agrees _ mulVecVt_agrees mulVec_agrees _ _ _).bind fun _ _ => Agrees.pure _
theorem mulAssignShoup_agrees (a : Poly .ntt) (p : Poly .nttShoup) : Agrees (a.mulAssignShoup p) (mulAssignShoup a p) := by
  unfold Poly.mulAssignShoup mulAssignShoup
  refine Agrees.assert.bind fun _ _ => Agrees.check fun _ => (Agrees.publicly _).bind fun ps _ => Agrees.branch ?_
  cases h : (a.vt && p.vt)
  · simp only [Bool.false_eq_true, decide_false, if_false]
    exact (Agrees.zipRows (fun _ _ => mulShoupVec_agrees _ _ _ _) _ _).bind fun _ _ => Agrees.pure _
  · simp only [decide_true, if_true]
    exact (Agrees.zipRows (fun _ _ => mulShoupVecVt_agrees _ _ _ _) _ _).bind fun _ _ => Agrees.pure _
theorem mulScalar_agrees (a : Poly r) (s : Nat) : Agrees (a.mulScalar s) (mulScalar a s) := by
  unfold Poly.mulScalar mulScalar
  refine (Agrees.publicly _).bind fun crt _ => Agrees.branch ?_
  cases h : a.vt
  · simp only [Bool.false_eq_true, decide_false, if_false]
    exact (Agrees.zipRows (fun _ _ => scalarMulVec_agrees _ _ _) _ _).bind fun _ _ => Agrees.pure _
  · simp only [decide_true, if_true]
    exact (Agrees.zipRows (fun _ _ => scalarMulVecVt_agrees _ _ _) _ _).bind fun _ _ => Agrees.pure _
theorem polyNeg_agrees (a : Poly r) : Agrees a.neg (polyNeg a) := by
  unfold Poly.neg polyNeg
  refine Agrees.assert.bind fun _ _ => Agrees.branch ?_
  cases h : a.vt
  · simp only [Bool.false_eq_true, decide_false, if_false]
    exact (Agrees.zipRows (fun _ _ => negVec_agrees _ _) _ _).bind fun _ _ => Agrees.pure _
  · simp only [decide_true, if_true]
    exact (Agrees.zipRows (fun _ _ => negVecVt_agrees _ _) _ _).bind fun _ _ => Agrees.pure _
theorem copyPrefix_agrees (w v : List Nat) : Agrees (Poly.copyPrefix w v) (copyPrefix w v) := Agrees.assert.bind fun _ _ => Agrees.pure _
theorem tryFromU64_agrees (v : List Nat) (ctx : Context) (vt : Bool) : Agrees (Poly.tryFromU64 v ctx vt) (tryFromU64 v ctx vt) := by
  unfold Poly.tryFromU64 tryFromU64
  refine Agrees.ite (fun _ => (Agrees.publicly _).bind fun _ _ => Agrees.pure _) fun _ => Agrees.ite (fun _ => ?_) fun _ => Agrees.pure _
  refine Agrees.branch ?_
  cases vt
  · simp only [Bool.false_eq_true, decide_false, if_false]
    exact (Agrees.zipRows (fun _ _ => (copyPrefix_agrees _ _).bind fun _ _ => reduceVec_agrees _ _) _ _).bind fun _ _ => Agrees.pure _
  · simp only [decide_true, if_true]
    exact (Agrees.zipRows (fun _ _ => (copyPrefix_agrees _ _).bind fun _ _ => reduceVecVt_agrees _ _) _ _).bind fun _ _ => Agrees.pure _
theorem tryFromI64_agrees (v : List Int) (ctx : Context) (vt : Bool) : Agrees (Poly.tryFromI64 v ctx vt) (tryFromI64 v ctx vt) := by
  unfold Poly.tryFromI64 tryFromI64
  refine Agrees.ite (fun _ => ?_) fun _ => Agrees.pure _
  refine (Agrees.zipRows (fun w qi => Agrees.branch ?_) _ _).bind fun _ _ => Agrees.pure _
  cases vt
  · simp only [Bool.false_eq_true, decide_false, if_false]
    exact (reduceVecI64_agrees _ _).bind fun _ _ => copyPrefix_agrees _ _
  · simp only [decide_true, if_true]
    exact (reduceVecI64Vt_agrees _ _).bind fun _ _ => copyPrefix_agrees _ _
theorem smallPowerBasis_agrees (ctx : Context) (variance : Nat) (rng : Nat → Nat) :
    Agrees (Poly.smallPowerBasis ctx variance rng) (smallPowerBasis ctx variance rng) := by
  unfold Poly.smallPowerBasis smallPowerBasis
  refine Agrees.ite (fun _ => Agrees.pure _) fun _ => (sampleVecCbd_agrees _ _ _).bind fun x _ => ?_
  rcases x with _ | ⟨c, _⟩
  · exact Agrees.pure _
  · exact tryFromI64_agrees _ _ _
theorem smallNtt_agrees (ctx : Context) (variance : Nat) (rng : Nat → Nat) : Agrees (Poly.smallNtt ctx variance rng) (smallNtt ctx variance rng) := by
  unfold Poly.smallNtt smallNtt
  refine (smallPowerBasis_agrees _ _ _).bind fun x _ => ?_
  rcases x with _ | p
  · exact Agrees.pure _
  · exact (intoNtt_agrees p).bind fun _ _ => Agrees.pure _

theorem permRow_agrees (row : List Nat) : (js ks out : List Nat) → Agrees (Poly.permRow row js ks out) (permRow row js ks out)
  | j :: js, k :: ks, out => by
    rw [Poly.permRow, permRow]
    refine Agrees.branch (Agrees.fetch.bind fun v _ => Agrees.check fun h => ?_)
    intro y hy
    rw [bind_some (a := out[j]) (by simp [fetch, h])]
    exact permRow_agrees row js ks _ y hy
  | [], _, out => by unfold Poly.permRow permRow; exact Agrees.branch (Agrees.pure _)
  | _ :: _, [], out => by unfold Poly.permRow permRow; exact Agrees.branch (Agrees.pure _)
theorem substNtt_agrees (ctx : Context) (e : SubstExponent) (rows : List (List Nat)) : Agrees (Poly.substNtt ctx e rows) (substNtt ctx e rows) :=
  Agrees.zipRows (fun _ _ => permRow_agrees _ _ _ _) _ _
theorem substCell_agrees (degree power j : Nat) (out : List Nat) (qp : Modulus × List Nat) :
    Agrees (Poly.substCell degree power j out qp) (substCell degree power j out qp) := by
  unfold Poly.substCell substCell Poly.substSign
  refine Agrees.fetch.bind fun x _ => Agrees.fetch.bind fun y _ => Agrees.branch ?_
  by_cases h : power &&& degree ≠ 0
  · simp only [h, if_true, ne_eq, not_false_eq_true, decide_true]
    exact (sub_agrees _ _ _).bind fun _ _ => Agrees.pure _
  · simp only [h, if_false, decide_false, Bool.false_eq_true]
    exact (add_agrees _ _ _).bind fun _ _ => Agrees.pure _
theorem substLoop_agrees (degree exponent : Nat) (q : List Modulus) (rows : List (List Nat)) : (left j power : Nat) → (out : List (List Nat)) →
    Agrees (Poly.substLoop degree exponent q rows left j power out) (substLoop degree exponent q rows left j power out)
  | 0, _, _, _ => Agrees.branch (Agrees.pure _)
  | left + 1, j, power, out => by
    rw [Poly.substLoop, substLoop]
    refine Agrees.branch ((Agrees.zipRows (substCell_agrees _ _ _) _ _).bind fun out' _ => ?_)
    step
    exact substLoop_agrees degree exponent q rows left (j + 1) _ out'
theorem substitute_agrees (p : Poly r) (e : SubstExponent) : Agrees (p.substitute e) (substitute p e) := by
  unfold Poly.substitute substitute
  cases r with
  | powerBasis => exact (substLoop_agrees _ _ _ _ _ _ _ _).bind fun _ _ => Agrees.pure _
  | ntt => exact (substNtt_agrees _ _ _).bind fun _ _ => Agrees.pure _
  | nttShoup =>
    exact (substNtt_agrees _ _ _).bind fun _ _ => (Agrees.publicly _).bind fun _ _ => (substNtt_agrees _ _ _).bind fun _ _ => Agrees.pure _

theorem switchDownCoeff_agrees (qi : Modulus) (inv invShoup half c l : Nat) :
    Agrees (Poly.switchDownCoeff qi inv invShoup half c l) (switchDownCoeff qi inv invShoup half c l) := by
  unfold Poly.switchDownCoeff switchDownCoeff
  refine (lazyReduce_agrees _ _).bind fun _ _ => ?_
  repeat step
  refine Agrees.subU 64 ?_
  step
  exact mulShoup_agrees _ _ _ _
theorem switchDownRow_agrees (vt : Bool) (half : Nat) (last row : List Nat) (x : Modulus × Nat × Nat) :
    Agrees (Poly.switchDownRow vt half last row x) (switchDownRow vt half last row x) := by
  unfold Poly.switchDownRow switchDownRow Poly.reduceSel
  refine Agrees.branch ?_
  cases vt
  · simp only [Bool.false_eq_true, decide_false, if_false]
    refine (reduce_agrees _ _).bind fun h _ => ?_
    refine Agrees.subU 64 ?_
    exact Agrees.zipAssign (switchDownCoeff_agrees _ _ _ _) _ _
  · simp only [decide_true, if_true]
    refine (reduceVt_agrees _ _).bind fun h _ => ?_
    refine Agrees.subU 64 ?_
    exact Agrees.zipAssign (switchDownCoeff_agrees _ _ _ _) _ _
theorem switchDown_agrees (p : Poly .powerBasis) : Agrees p.switchDown (switchDown p) := by
  unfold Poly.switchDown switchDown
  cases p.ctx.next with
  | none => exact Agrees.pure _
  | some next =>
    refine (Agrees.publicly _).bind fun qLast _ => (Agrees.publicly _).bind fun n _ => Agrees.fetch.bind fun lastRow _ => Agrees.branch ?_
    cases h : p.vt
    · simp only [Bool.false_eq_true, decide_false, if_false]
      exact (Agrees.mapM (fun _ => add_agrees _ _ _) _).bind fun _ _ => (Agrees.zipRows (switchDownRow_agrees _ _ _) _ _).bind fun _ _ => Agrees.pure _
    · simp only [decide_true, if_true]
      exact (Agrees.mapM (fun _ => addVt_agrees _ _ _) _).bind fun _ _ => (Agrees.zipRows (switchDownRow_agrees _ _ _) _ _).bind fun _ _ => Agrees.pure _
theorem switchDownLoop_agrees : (n : Nat) → (p : Poly .powerBasis) → Agrees (Poly.switchDownLoop n p) (switchDownLoop n p)
  | 0, _ => Agrees.branch (Agrees.pure _)
  | n + 1, p => by
    rw [Poly.switchDownLoop, switchDownLoop]
    refine Agrees.branch ((switchDown_agrees p).bind fun x _ => ?_)
    rcases x with _ | p'
    · exact Agrees.pure _
    · exact switchDownLoop_agrees n p'
theorem switchDownTo_agrees (p : Poly .powerBasis) (t : Context) : Agrees (p.switchDownTo t) (switchDownTo p t) := by
  unfold Poly.switchDownTo switchDownTo
  cases p.ctx.niterationsTo t with
  | error e => exact Agrees.pure _
  | ok n =>
    refine (switchDownLoop_agrees _ _).bind fun x _ => ?_
    rcases x with _ | p'
    · exact Agrees.pure _
    · simp only
      split
      · exact Agrees.pure _
      · exact Agrees.pure _

theorem column_agrees (rows : List (List Nat)) (j : Nat) : Agrees (Fhe.column rows j) (column rows j) := Agrees.mapM (fun _ => Agrees.fetch) _
theorem scale_agrees (s : Scaler) (p : Poly r) : Agrees (s.scale p) (scale s p) := by
  unfold Scaler.scale scale
  split
  · exact Agrees.pure _
  · refine Agrees.ite (fun _ => ?_) fun _ => Agrees.pure _
    refine Agrees.bind ?_ fun rows _ => (Agrees.mapM (column_agrees rows) _).bind fun cols _ =>
      (Agrees.mapM (fun c => rnsScale_agrees _ _ _ _) _).bind fun nc _ => (Agrees.mapM (column_agrees nc) _).bind fun nr _ =>
      Agrees.bind ?_ fun _ _ => Agrees.pure _
    · unfold Scaler.sourceRows sourceRows Poly.bwdRow
      split
      · exact Agrees.pure _
      · refine Agrees.branch ?_
        cases h : p.vt
        · simp only [Bool.false_eq_true, decide_false, if_false]; exact Agrees.zipRows (fun _ _ => backward_agrees _ _) _ _
        · simp only [decide_true, if_true]; exact Agrees.zipRows (fun _ _ => backwardVt_agrees _ _) _ _
    · unfold Scaler.targetRows targetRows Poly.fwdRow
      split
      · exact Agrees.pure _
      · refine Agrees.branch ?_
        cases h : p.vt
        · simp only [Bool.false_eq_true, decide_false, if_false]; exact Agrees.zipRows (fun _ _ => forward_agrees _ _) _ _
        · simp only [decide_true, if_true]; exact Agrees.zipRows (fun _ _ => forwardVt_agrees _ _) _ _

/-! ## Two runs: matrices -/

theorem Indist.bind' {α β γ δ : Type} {R : α → β → Prop} {S : γ → δ → Prop} {t : Timed α} {t' : Timed β} {f : α → Timed γ} {g : β → Timed δ}
    (h : Indist R t t') (hf : ∀ a b, t.result = some a → t'.result = some b → R a b → Indist S (f a) (g b)) : Indist S (t >>= f) (t' >>= g) :=
  Indist.bind (R := fun a b => t.result = some a ∧ t'.result = some b ∧ R a b)
    ⟨h.1, by
      have h2 := h.2
      generalize t.result = x at h2 ⊢
      generalize t'.result = y at h2 ⊢
      cases h2 with
      | none => exact .none
      | some h => exact .some ⟨rfl, rfl, h⟩⟩
    fun a b h => hf a b h.1 h.2.1 h.2.2

theorem forall₂_zip {α β γ δ : Type} {R : α → β → Prop} {S : γ → δ → Prop} {a : List α} {b : List β} {c : List γ} {d : List δ}
    (h : List.Forall₂ R a b) (h' : List.Forall₂ S c d) : List.Forall₂ (fun x y => R x.1 y.1 ∧ S x.2 y.2) (a.zip c) (b.zip d) := by
  induction h generalizing c d with
  | nil => exact .nil
  | cons h _ ih => cases h' with
    | nil => exact .nil
    | cons h' t => exact .cons ⟨h, h'⟩ (ih t)

/-- A loop over the rows of a matrix and a public list. -/
theorem rows_indist {β : Type} {f g : List Nat → β → Timed (List Nat)} (hf : ∀ x a a', SameLen a a' → Indist SameLen (f a x) (g a' x))
    {a a' : List (List Nat)} (h : SameShape a a') (k : List β) : Indist SameShape (zipLoop f a k) (zipLoop g a' k) :=
  Indist.zipLoop h (forall₂_eq k) fun x y c d hx hc => by subst hc; exact hf _ _ _ hx
/-- A loop over the rows of two matrices and a public list. -/
theorem rows2_indist {β : Type} {f : β → List Nat → List Nat → Timed (List Nat)}
    (hf : ∀ x a a' b b', SameLen a a' → SameLen b b' → Indist SameLen (f x a b) (f x a' b'))
    {a a' p p' : List (List Nat)} (h : SameShape a a') (h' : SameShape p p') (k : List β) :
    Indist SameShape (zipLoop (fun v1 (x : List Nat × β) => f x.2 v1 x.1) a (p.zip k)) (zipLoop (fun v1 (x : List Nat × β) => f x.2 v1 x.1) a' (p'.zip k)) :=
  Indist.zipLoop h (forall₂_zip h' (forall₂_eq k)) fun x y c d hx hc => by
    obtain ⟨hc, he⟩ := hc
    rw [he]; exact hf _ _ _ _ _ hx hc

theorem rowLoop_indist {f g : Modulus → List Nat → List Nat → Timed (List Nat)}
    (hf : ∀ m a a' b b', SameLen a a' → SameLen b b' → Indist SameLen (f m a b) (f m a' b'))
    {a a' p p' : List (List Nat)} (h : SameShape a a') (h' : SameShape p p') (q : List Modulus) :
    Indist SameShape (rowLoop false g f a p q) (rowLoop false g f a' p' q) :=
  Indist.ite Iff.rfl (fun h => absurd h (by simp)) fun _ => rows2_indist hf h h' q

/-! ## Two runs: polynomials -/

theorem SamePublic.refl (p : Poly r) : SamePublic p p :=
  ⟨rfl, rfl, rfl, SameShape.refl _, by cases p.shoup with | none => exact .none | some s => exact .some (SameShape.refl _), fun _ => rfl⟩
theorem SamePublic.split {a b : Poly r} (h : SamePublic a b) : a = b ∨ a.vt = false ∧ b.vt = false := by
  cases hv : a.vt with
  | true => exact .inl (h.isPublic hv)
  | false => exact .inr ⟨rfl, by rw [← h.vt, hv]⟩
theorem SamePublic.disallowVt {a b : Poly r} (h : SamePublic a b) : SamePublic a.disallowVt b.disallowVt :=
  ⟨h.ctx, h.hasLazy, rfl, h.coeffs, h.shoup, fun h => by simp [Poly.disallowVt] at h⟩

/-- The result of an operation on two polynomials of which one is secret. -/
theorem two {s : Rep} {γ : Type} {R : γ → γ → Prop} {op : Poly r → Poly s → Timed γ} (hR : ∀ c, R c c) {a a' : Poly r} {p p' : Poly s}
    (h : SamePublic a a') (h' : SamePublic p p') (hne : (a.vt && p.vt) = false → (a'.vt && p'.vt) = false → Indist R (op a p) (op a' p')) :
    Indist R (op a p) (op a' p') := by
  cases hv : (a.vt && p.vt) with
  | false => exact hne hv (by rw [← h.vt, ← h'.vt, hv])
  | true =>
    simp only [Bool.and_eq_true] at hv
    rw [← h.isPublic hv.1, ← h'.isPublic hv.2]
    exact Indist.refl hR _

theorem SamePublic.withCoeffs {a b : Poly r} (h : SamePublic a b) {x y : List (List Nat)} (hs : SameShape x y) (hv : a.vt = false) :
    SamePublic (r := r) { a with coeffs := x } { b with coeffs := y } :=
  ⟨h.ctx, h.hasLazy, h.vt, hs, h.shoup, fun hc => absurd hc (by simp [hv])⟩

theorem addAssign_indist {a a' p p' : Poly r} (h : SamePublic a a') (h' : SamePublic p p') : Indist SamePublic (addAssign a p) (addAssign a' p') :=
  two (op := addAssign) SamePublic.refl h h' fun hv hv' => by
    unfold addAssign
    refine Indist.assert (by rw [h.hasLazy, h'.hasLazy]) ?_
    rw [hv, hv', h.ctx]
    exact (rowLoop_indist (fun m _ _ _ _ => addVec_indist m) h.coeffs h'.coeffs _).bind fun x y hs =>
      Indist.pure ⟨rfl, h.hasLazy, rfl, hs, h.shoup, fun hc => by simp at hc⟩
theorem subAssign_indist {a a' p p' : Poly r} (h : SamePublic a a') (h' : SamePublic p p') : Indist SamePublic (subAssign a p) (subAssign a' p') :=
  two (op := subAssign) SamePublic.refl h h' fun hv hv' => by
    unfold subAssign
    refine Indist.assert (by rw [h.hasLazy, h'.hasLazy]) ?_
    rw [hv, hv', h.ctx]
    exact (rowLoop_indist (fun m _ _ _ _ => subVec_indist m) h.coeffs h'.coeffs _).bind fun x y hs =>
      Indist.pure ⟨rfl, h.hasLazy, rfl, hs, h.shoup, fun hc => by simp at hc⟩
theorem mulAssign_indist {a a' p p' : Poly .ntt} (h : SamePublic a a') (h' : SamePublic p p') : Indist SamePublic (mulAssign a p) (mulAssign a' p') :=
  two (op := mulAssign) SamePublic.refl h h' fun hv hv' => by
    unfold mulAssign
    refine Indist.assert (by rw [h'.hasLazy]) (Indist.assert (by rw [h.hasLazy]) ?_)
    rw [hv, hv', h.ctx]
    exact (rowLoop_indist (fun m _ _ _ _ => mulVec_indist m) h.coeffs h'.coeffs _).bind fun x y hs =>
      Indist.pure ⟨rfl, h.hasLazy, rfl, hs, h.shoup, fun hc => by simp at hc⟩
theorem mulAssignShoup_indist {a a' : Poly .ntt} {p p' : Poly .nttShoup} (h : SamePublic a a') (h' : SamePublic p p') :
    Indist SamePublic (mulAssignShoup a p) (mulAssignShoup a' p') :=
  two (op := mulAssignShoup) SamePublic.refl h h' fun hv hv' => by
    unfold mulAssignShoup
    refine Indist.assert (by rw [h'.hasLazy]) ((Indist.publicly h'.shoup).bind fun ps ps' hps => ?_)
    rw [hv, hv', h.ctx]
    refine Indist.branch Iff.rfl ?_
    simp only [Bool.false_eq_true, decide_false, if_false]
    refine (Indist.zipLoop h.coeffs (forall₂_zip h'.coeffs (forall₂_zip hps (forall₂_eq _))) fun x y c d hx hc => ?_).bind fun x y hs =>
      Indist.pure ⟨rfl, rfl, rfl, hs, h.shoup, fun hc => by simp at hc⟩
    obtain ⟨hc, hc', he⟩ := hc
    rw [he]; exact mulShoupVec_indist _ hx hc hc'
theorem polyNeg_indist {a a' : Poly r} (h : SamePublic a a') : Indist SamePublic (polyNeg a) (polyNeg a') := by
  rcases h.split with he | ⟨hv, hv'⟩
  · rw [he]; exact Indist.refl SamePublic.refl _
  · unfold polyNeg
    refine Indist.assert (by rw [h.hasLazy]) ?_
    rw [hv, hv', h.ctx]
    refine Indist.branch Iff.rfl ?_
    simp only [Bool.false_eq_true, decide_false, if_false]
    exact (rows_indist (fun m _ _ => negVec_indist m) h.coeffs _).bind fun x y hs => Indist.pure
      ⟨rfl, h.hasLazy, rfl, hs, h.shoup, fun hc => by simp at hc⟩
/-- The scalar is public: `scalar_mul_vec` divides it. -/
theorem mulScalar_indist {a a' : Poly r} (h : SamePublic a a') (s : Nat) : Indist SamePublic (mulScalar a s) (mulScalar a' s) := by
  rcases h.split with he | ⟨hv, hv'⟩
  · rw [he]; exact Indist.refl SamePublic.refl _
  · unfold mulScalar
    rw [hv, hv', h.ctx]
    refine (Indist.refl (R := Eq) (fun _ => rfl) (publicly (a'.ctx.rns.project s))).bind fun crt crt' he => ?_
    subst he
    refine Indist.branch Iff.rfl ?_
    simp only [Bool.false_eq_true, decide_false, if_false]
    exact (rows_indist (f := fun v1 (x : Nat × Modulus) => scalarMulVec x.2 v1 x.1) (g := fun v1 (x : Nat × Modulus) => scalarMulVec x.2 v1 x.1) (fun x _ _ hx => scalarMulVec_indist x.2 hx x.1) h.coeffs _).bind
      fun x y hs => Indist.pure ⟨rfl, h.hasLazy, rfl, hs, h.shoup, fun hc => by simp at hc⟩

theorem nttForward_indist {a a' : Poly r} (h : SamePublic a a') : Indist SamePublic (nttForward a) (nttForward a') := by
  rcases h.split with he | ⟨hv, hv'⟩
  · rw [he]; exact Indist.refl SamePublic.refl _
  · unfold nttForward
    rw [hv, hv', h.ctx]
    refine Indist.branch Iff.rfl ?_
    simp only [Bool.false_eq_true, decide_false, if_false]
    exact (rows_indist (fun op _ _ => forward_indist op) h.coeffs _).bind fun x y hs =>
      Indist.pure ⟨rfl, h.hasLazy, rfl, hs, h.shoup, fun hc => by simp at hc⟩
theorem nttBackward_indist {a a' : Poly r} (h : SamePublic a a') : Indist SamePublic (nttBackward a) (nttBackward a') := by
  rcases h.split with he | ⟨hv, hv'⟩
  · rw [he]; exact Indist.refl SamePublic.refl _
  · unfold nttBackward
    rw [hv, hv', h.ctx]
    refine Indist.branch Iff.rfl ?_
    simp only [Bool.false_eq_true, decide_false, if_false]
    exact (rows_indist (fun op _ _ => backward_indist op) h.coeffs _).bind fun x y hs =>
      Indist.pure ⟨rfl, h.hasLazy, rfl, hs, h.shoup, fun hc => by simp at hc⟩
/-- A change of representation that computes no Shoup coefficients. -/
theorem fromParts_indist {s : Rep} {a a' : Poly s} (h : SamePublic a a') (hr : r ≠ .nttShoup) : Indist SamePublic (fromParts r a) (fromParts r a') := by
  rcases h.split with he | ⟨hv, hv'⟩
  · rw [he]; exact Indist.refl SamePublic.refl _
  · unfold fromParts
    rw [if_neg hr, if_neg hr]
    exact Indist.pure ⟨h.ctx, h.hasLazy, h.vt, h.coeffs, .none, fun hc => absurd hc (by simp [hv])⟩
theorem intoNtt_indist {a a' : Poly .powerBasis} (h : SamePublic a a') : Indist SamePublic (intoNtt a) (intoNtt a') :=
  (nttForward_indist h).bind fun _ _ h => fromParts_indist h (by decide)
theorem nttToPowerBasis_indist {a a' : Poly .ntt} (h : SamePublic a a') : Indist SamePublic (nttToPowerBasis a) (nttToPowerBasis a') :=
  (nttBackward_indist h).bind fun _ _ h => fromParts_indist h (by decide)
theorem shoupToNtt_indist {a a' : Poly .nttShoup} (h : SamePublic a a') : Indist SamePublic (shoupToNtt a) (shoupToNtt a') := by
  rcases h.split with he | ⟨hv, hv'⟩
  · rw [he]; exact Indist.refl SamePublic.refl _
  · exact fromParts_indist ⟨h.ctx, h.hasLazy, h.vt, h.coeffs, .none, fun hc => absurd hc (by simp [hv])⟩ (by decide)

theorem copyPrefix_indist {w w' v v' : List Nat} (h : SameLen w w') (h' : SameLen v v') : Indist SameLen (copyPrefix w v) (copyPrefix w' v') := by
  unfold copyPrefix
  unfold SameLen at h h'
  exact Indist.assert (by rw [h, h']) (Indist.pure (by simp only [SameLen, List.length_append, List.length_drop, h, h']))
theorem SamePublic.zero (r : Rep) (ctx : Context) {x y : List (List Nat)} (hs : SameShape x y) :
    SamePublic (r := r) { Poly.zero r ctx with coeffs := x, vt := false } { Poly.zero r ctx with coeffs := y, vt := false } :=
  ⟨rfl, rfl, rfl, hs, (SamePublic.refl (Poly.zero r ctx)).shoup, fun h => by simp at h⟩
theorem tryFromI64_indist {v v' : List Int} (h : SameLen v v') (ctx : Context) :
    Indist (SameResult SamePublic) (tryFromI64 v ctx false) (tryFromI64 v' ctx false) := by
  unfold tryFromI64
  have hl : v.length = v'.length := h
  refine Indist.ite (by rw [hl]) (fun _ => ?_) fun _ => by rw [hl]; exact Indist.pure (.error _)
  refine Indist.bind (rows_indist (fun m w w' hw => ?_) (SameShape.refl _) _) fun x y hs => Indist.pure (.ok (SamePublic.zero _ _ hs))
  refine Indist.ite Iff.rfl (fun h => absurd h (by simp)) fun _ => ?_
  exact (reduceVecI64_indist m h).bind fun _ _ hs => copyPrefix_indist hw hs
theorem splitRows_rel (d : Nat) : (n : Nat) → {v v' : List Nat} → SameLen v v' → SameShape (Poly.splitRows d n v) (Poly.splitRows d n v')
  | 0, _, _, _ => .nil
  | n + 1, v, v', h => by
    have h : v.length = v'.length := h
    exact .cons (by simp [SameLen, h]) (splitRows_rel d n (by simp [SameLen, h]))
theorem fromShapeVec_rel (n d : Nat) {v v' : List Nat} (h : SameLen v v') :
    Option.Rel SameShape (Poly.fromShapeVec n d v) (Poly.fromShapeVec n d v') := by
  have hl : v.length = v'.length := h
  unfold Poly.fromShapeVec
  rw [hl]
  split
  · exact .some (splitRows_rel d n h)
  · exact .none
theorem tryFromU64_indist {v v' : List Nat} (h : SameLen v v') (ctx : Context) :
    Indist (SameResult SamePublic) (tryFromU64 v ctx false) (tryFromU64 v' ctx false) := by
  unfold tryFromU64
  have hl : v.length = v'.length := h
  refine Indist.ite (by rw [hl]) (fun _ => ?_) fun _ => Indist.ite (by rw [hl]) (fun _ => ?_) fun _ => by rw [hl]; exact Indist.pure (.error _)
  · exact (Indist.publicly (fromShapeVec_rel _ _ h)).bind fun x y hs => Indist.pure (.ok ⟨rfl, rfl, rfl, hs, .none, fun h => by simp at h⟩)
  · refine Indist.branch Iff.rfl ?_
    simp only [Bool.false_eq_true, decide_false, if_false]
    refine Indist.bind (rows_indist (fun m w w' hw => ?_) (SameShape.refl _) _) fun x y hs => Indist.pure (.ok (SamePublic.zero _ _ hs))
    exact (copyPrefix_indist hw h).bind fun _ _ hs => reduceVec_indist m hs
theorem smallPowerBasis_indist (ctx : Context) (variance : Nat) (rng rng' : Nat → Nat) :
    Indist (SameResult SamePublic) (smallPowerBasis ctx variance rng) (smallPowerBasis ctx variance rng') := by
  unfold smallPowerBasis
  refine Indist.ite Iff.rfl (fun _ => Indist.pure (.error _)) fun _ => (sampleVecCbd_indist _ _ rng rng').bind fun x y h => ?_
  cases h with
  | error => exact Indist.pure (.error _)
  | ok h => exact tryFromI64_indist h.1 ctx
theorem smallNtt_indist (ctx : Context) (variance : Nat) (rng rng' : Nat → Nat) :
    Indist (SameResult SamePublic) (smallNtt ctx variance rng) (smallNtt ctx variance rng') := by
  unfold smallNtt
  refine (smallPowerBasis_indist ctx variance rng rng').bind fun x y h => ?_
  cases h with
  | error => exact Indist.pure (.error _)
  | ok h => exact (intoNtt_indist h).bind fun _ _ h => Indist.pure (.ok h)

theorem SameResult.refl {α ε : Type} {R : α → α → Prop} (h : ∀ a, R a a) (x : Except ε α) : SameResult R x x := by
  cases x with
  | error e => exact .error e
  | ok a => exact .ok (h a)

theorem permRow_indist {row row' : List Nat} (h : SameLen row row') : (js ks : List Nat) → (out out' : List Nat) → SameLen out out' →
    Indist SameLen (permRow row js ks out) (permRow row' js ks out')
  | j :: js, k :: ks, out, out', ho => by
    rw [permRow, permRow]
    refine Indist.branch Iff.rfl ((Indist.fetch h.forall₂ k).bind fun v v' _ => (Indist.fetch ho.forall₂ j).bind fun _ _ _ => ?_)
    exact permRow_indist h js ks _ _ (by simpa [SameLen] using ho)
  | [], _, out, out', ho => by unfold permRow; exact Indist.branch Iff.rfl (Indist.pure ho)
  | _ :: _, [], out, out', ho => by unfold permRow; exact Indist.branch Iff.rfl (Indist.pure ho)
theorem substNtt_indist (ctx : Context) (e : SubstExponent) {a a' : List (List Nat)} (h : SameShape a a') :
    Indist SameShape (substNtt ctx e a) (substNtt ctx e a') :=
  Indist.zipLoop (SameShape.refl _) h fun _ _ _ _ ho hr => permRow_indist hr _ _ _ _ ho
theorem substCell_indist (degree power j : Nat) (q : Modulus) {out out' row row' : List Nat} (ho : SameLen out out') (hr : SameLen row row') :
    Indist SameLen (substCell degree power j out (q, row)) (substCell degree power j out' (q, row')) := by
  unfold substCell
  refine (Indist.fetch ho.forall₂ _).bind fun _ _ _ => (Indist.fetch hr.forall₂ _).bind fun _ _ _ => ?_
  refine Indist.ite Iff.rfl (fun _ => ?_) fun _ => ?_
  · exact (sub_indist _ _ _ _ _).bind fun _ _ _ => Indist.pure (by simpa [SameLen] using ho)
  · exact (add_indist _ _ _ _ _).bind fun _ _ _ => Indist.pure (by simpa [SameLen] using ho)
theorem substLoop_indist (degree exponent : Nat) (q : List Modulus) {rows rows' : List (List Nat)} (h : SameShape rows rows') :
    (left j power : Nat) → (out out' : List (List Nat)) → SameShape out out' →
      Indist SameShape (substLoop degree exponent q rows left j power out) (substLoop degree exponent q rows' left j power out')
  | 0, _, _, _, _, ho => Indist.branch Iff.rfl (Indist.pure ho)
  | left + 1, j, power, out, out', ho => by
    rw [substLoop, substLoop]
    refine Indist.branch Iff.rfl ((Indist.zipLoop ho (forall₂_zip (forall₂_eq q) h) fun a b c d hx hc => ?_).bind fun x y hs =>
      substLoop_indist degree exponent q h left _ _ _ _ hs)
    obtain ⟨q1, r1⟩ := c
    obtain ⟨q2, r2⟩ := d
    obtain ⟨he, hc⟩ := hc
    simp only at he hc
    subst he
    exact substCell_indist _ _ _ _ hx hc
theorem substitute_indist {a a' : Poly r} (h : SamePublic a a') (e : SubstExponent) : Indist SamePublic (substitute a e) (substitute a' e) := by
  rcases h.split with he | ⟨hv, hv'⟩
  · rw [he]; exact Indist.refl SamePublic.refl _
  · unfold substitute
    rw [hv, hv', h.ctx]
    cases r with
    | powerBasis =>
      exact (substLoop_indist _ _ _ h.coeffs _ _ _ _ _ (SameShape.refl _)).bind fun x y hs => Indist.pure (SamePublic.zero _ _ hs)
    | ntt => exact (substNtt_indist _ e h.coeffs).bind fun x y hs => Indist.pure (SamePublic.zero _ _ hs)
    | nttShoup =>
      exact (substNtt_indist _ e h.coeffs).bind fun x y hs => (Indist.publicly h.shoup).bind fun _ _ hp => (substNtt_indist _ e hp).bind fun _ _ hp =>
        Indist.pure ⟨rfl, rfl, rfl, hs, .some hp, fun h => by simp at h⟩

theorem switchDownCoeff_indist (q : Modulus) (inv invShoup h c l c' l' : Nat) :
    Indist AnyWords (switchDownCoeff q inv invShoup h c l) (switchDownCoeff q inv invShoup h c' l') :=
  (lazyReduce_indist _ _ _).bind fun _ _ _ => mulShoup_indist _ _ _ _ _ _ _
theorem switchDownRow_indist (half : Nat) {last last' : List Nat} (hl : SameLen last last') (x : Modulus × Nat × Nat) (row row' : List Nat) (h : SameLen row row') :
    Indist SameLen (switchDownRow false half last row x) (switchDownRow false half last' row' x) := by
  unfold switchDownRow
  refine Indist.branch Iff.rfl ?_
  simp only [Bool.false_eq_true, decide_false, if_false]
  refine (Indist.refl (R := Eq) (fun _ => rfl) (reduce x.1 half)).bind fun a b he => ?_
  subst he
  exact Indist.zip h hl fun _ _ _ _ => switchDownCoeff_indist _ _ _ _ _ _ _ _
theorem switchDown_indist {a a' : Poly .powerBasis} (h : SamePublic a a') : Indist (SameResult SamePublic) (switchDown a) (switchDown a') := by
  rcases h.split with he | ⟨hv, hv'⟩
  · rw [he]; exact Indist.refl (SameResult.refl SamePublic.refl) _
  · unfold switchDown
    rw [hv, hv', h.ctx]
    cases a'.ctx.next with
    | none => exact Indist.pure (.error _)
    | some next =>
      refine (Indist.refl (R := Eq) (fun _ => rfl) _).bind fun qLast b he => ?_
      subst he
      refine (Indist.refl (R := Eq) (fun _ => rfl) _).bind fun n b he => ?_
      subst he
      refine (Indist.fetch h.coeffs n).bind fun l l' hl => Indist.branch Iff.rfl ?_
      simp only [Bool.false_eq_true, decide_false, if_false]
      refine (Indist.map hl fun _ _ => add_indist _ _ _ _ _).bind fun l l' hl => ?_
      refine (Indist.zipLoop (List.forall₂_take _ h.coeffs) (forall₂_eq _) fun a b c d hx he => by
        subst he; exact switchDownRow_indist _ hl _ _ _ hx).bind fun x y hs => ?_
      exact Indist.pure (.ok ⟨rfl, h.hasLazy, rfl, hs, h.shoup, fun hc => by simp at hc⟩)
theorem switchDownLoop_indist : (n : Nat) → {a a' : Poly .powerBasis} → SamePublic a a' →
    Indist (SameResult SamePublic) (switchDownLoop n a) (switchDownLoop n a')
  | 0, _, _, h => Indist.branch Iff.rfl (Indist.pure (.ok h))
  | n + 1, a, a', h => by
    rw [switchDownLoop, switchDownLoop]
    refine Indist.branch Iff.rfl ((switchDown_indist h).bind fun x y hx => ?_)
    cases hx with
    | error => exact Indist.pure (.error _)
    | ok hx => exact switchDownLoop_indist n hx
theorem switchDownTo_indist {a a' : Poly .powerBasis} (h : SamePublic a a') (t : Context) :
    Indist (SameResult SamePublic) (switchDownTo a t) (switchDownTo a' t) := by
  unfold switchDownTo
  rw [h.ctx]
  cases a'.ctx.niterationsTo t with
  | error e => exact Indist.pure (.error _)
  | ok n =>
    refine (switchDownLoop_indist n h).bind fun x y hx => ?_
    cases hx with
    | error => exact Indist.pure (.error _)
    | ok hx =>
      simp only [hx.ctx]
      split
      · exact Indist.pure (.error _)
      · exact Indist.pure (.ok hx)

/-! ## Two runs: scaling -/

theorem sumThetaGarner_indist : (los his rests rests' : List Nat) → (acc acc' : Nat) → SameLen rests rests' →
    Indist AnyWords (sumThetaGarner los his rests acc) (sumThetaGarner los his rests' acc')
  | lo :: los, hi :: his, _ :: rests, _ :: rests', _, _, h => by
    rw [sumThetaGarner, sumThetaGarner]
    exact Indist.branch Iff.rfl (sumThetaGarner_indist los his rests rests' _ _ (by simpa [SameLen] using h))
  | [], _, _, _, _, _, _ => by unfold sumThetaGarner; exact Indist.branch Iff.rfl (Indist.pure trivial)
  | _ :: _, [], _, _, _, _, _ => by unfold sumThetaGarner; exact Indist.branch Iff.rfl (Indist.pure trivial)
  | _ :: _, _ :: _, [], [], _, _, _ => by unfold sumThetaGarner; exact Indist.branch Iff.rfl (Indist.pure trivial)
theorem sumThetaOmega_indist : (los his : List Nat) → (signs : List Bool) → (rests rests' : List Nat) → (acc acc' : Nat) → SameLen rests rests' →
    Indist AnyWords (sumThetaOmega los his signs rests acc) (sumThetaOmega los his signs rests' acc')
  | lo :: los, hi :: his, sg :: signs, _ :: rests, _ :: rests', _, _, h => by
    rw [sumThetaOmega, sumThetaOmega]
    exact Indist.branch Iff.rfl (Indist.ite Iff.rfl (fun _ => sumThetaOmega_indist los his signs rests rests' _ _ (by simpa [SameLen] using h))
      fun _ => sumThetaOmega_indist los his signs rests rests' _ _ (by simpa [SameLen] using h))
  | [], _, _, _, _, _, _, _ => by unfold sumThetaOmega; exact Indist.branch Iff.rfl (Indist.pure trivial)
  | _ :: _, [], _, _, _, _, _, _ => by unfold sumThetaOmega; exact Indist.branch Iff.rfl (Indist.pure trivial)
  | _ :: _, _ :: _, [], _, _, _, _, _ => by unfold sumThetaOmega; exact Indist.branch Iff.rfl (Indist.pure trivial)
  | _ :: _, _ :: _, _ :: _, [], [], _, _, _ => by unfold sumThetaOmega; exact Indist.branch Iff.rfl (Indist.pure trivial)
theorem accumulate_indist (q : Modulus) : (rests rests' omega omegaShoup : List Nat) → (y y' : Nat) → SameLen rests rests' →
    Indist AnyWords (accumulate q rests omega omegaShoup y) (accumulate q rests' omega omegaShoup y')
  | [], [], _, _, _, _, _ => by unfold accumulate; exact Indist.branch Iff.rfl (Indist.pure trivial)
  | _ :: rests, _ :: rests', o :: omega, os :: omegaShoup, _, _, h => by
    rw [accumulate, accumulate]
    exact Indist.branch Iff.rfl ((lazyMulShoup_indist _ _ _ _ _ _ _).bind fun _ _ _ =>
      accumulate_indist q rests rests' omega omegaShoup _ _ (by simpa [SameLen] using h))
  | _ :: _, _ :: _, [], _, _, _, _ => by unfold accumulate; exact Indist.panic
  | _ :: _, _ :: _, _ :: _, [], _, _, _ => by unfold accumulate; exact Indist.panic
theorem addW_indist (q : Modulus) (isOne sg : Bool) (w q2 y w' y' : Nat) : Indist AnyWords (addW q isOne sg w q2 y) (addW q isOne sg w' q2 y') := by
  unfold addW
  refine Indist.ite Iff.rfl (fun _ => Indist.pure trivial) fun _ => (lazyReduceU128_indist _ _ _).bind fun _ _ _ => ?_
  exact Indist.ite Iff.rfl (fun _ => Indist.pure trivial) fun _ => Indist.pure trivial
theorem scaleOne_indist (s : RnsScaler) {rests rests' : List Nat} (h : SameLen rests rests') (v v' : Nat) (sg : Bool) (w w' i : Nat) :
    Indist AnyWords (scaleOne s rests v sg w i) (scaleOne s rests' v' sg w' i) := by
  unfold scaleOne
  refine (Indist.fetch (forall₂_eq _) i).bind fun q _ he => ?_
  subst he
  refine (Indist.fetch (forall₂_eq _) i).bind fun omega _ he => ?_
  subst he
  refine (Indist.fetch (forall₂_eq _) i).bind fun omegaShoup _ he => ?_
  subst he
  refine (Indist.fetch (forall₂_eq _) i).bind fun gamma _ he => ?_
  subst he
  refine (Indist.fetch (forall₂_eq _) i).bind fun gammaShoup _ he => ?_
  subst he
  exact (reduceU128_indist _ _ _).bind fun _ _ _ => (lazyMulShoup_indist _ _ _ _ _ _ _).bind fun _ _ _ =>
    (addW_indist _ _ _ _ _ _ _ _).bind fun _ _ _ => (accumulate_indist _ _ _ _ _ _ _ h).bind fun _ _ _ => reduceU128_indist _ _ _

theorem branch_congr {α : Type} {c : Prop} [Decidable c] {f g : Bool → Timed α} (h : f (decide c) = g (decide c)) :
    (branchOn c >>= f) = (branchOn c >>= g) := by rw [branch_bind, branch_bind, h]
theorem rnsScale_wSum (s : RnsScaler) (rests : List Nat) (size start : Nat) (h : s.factor.isOne = false) :
    rnsScale s rests size start = wSum s rests >>= fun x => roundW x.2 >>= fun y =>
      mapLoop (fun i => scaleOne s rests x.1 y.1 y.2 (start + i)) (List.range size) := by
  unfold rnsScale wSum computeW
  simp only [bind_assoc', pure_bind', h, Bool.false_eq_true]
  congr 1; funext sum
  congr 1; funext v
  refine branch_congr ?_
  simp only [decide_false, Bool.false_eq_true, if_false, bind_assoc']
  congr 1; funext sum
  refine branch_congr ?_
  cases s.thetaGammaSign <;> simp only [decide_true, decide_false, Bool.false_eq_true, if_true, if_false]

theorem wSum_indist (s : RnsScaler) {rests rests' : List Nat} (h : SameLen rests rests') : Indist AnyWords (wSum s rests) (wSum s rests') :=
  (sumThetaGarner_indist _ _ _ _ _ _ h).bind fun _ _ _ => (Indist.pure (R := AnyWords) trivial).bind fun _ _ _ => Indist.branch Iff.rfl
    ((sumThetaOmega_indist _ _ _ _ _ _ _ h).bind fun _ _ _ => Indist.branch Iff.rfl (Indist.pure trivial))

/-- `RnsScaler::scale` reveals at most the sign of `w`. -/
theorem rnsScale_indist (s : RnsScaler) {rests rests' : List Nat} (h : SameLen rests rests') (size start : Nat)
    (hs : s.factor.isOne = true ∨ wNegative s rests = wNegative s rests') :
    Indist SameLen (rnsScale s rests size start) (rnsScale s rests' size start) := by
  cases h1 : s.factor.isOne with
  | true =>
    unfold rnsScale computeW
    simp only [h1]
    refine (sumThetaGarner_indist _ _ _ _ _ _ h).bind fun _ _ _ => (Indist.pure (R := AnyWords) trivial).bind fun _ _ _ => ?_
    refine Indist.bind (R := Eq) (Indist.ite Iff.rfl (fun _ => Indist.pure rfl) fun h => absurd trivial h) fun x y he => ?_
    subst he
    exact (Indist.mapLoop (forall₂_eq _) fun i j he => by subst he; exact scaleOne_indist s h _ _ _ _ _ _).len
  | false =>
    have hs : wNegative s rests = wNegative s rests' := hs.resolve_left (by simp [h1])
    rw [rnsScale_wSum s rests size start h1, rnsScale_wSum s rests' size start h1]
    refine (wSum_indist s h).bind' fun x y hx hy _ => ?_
    rw [wNegative, wNegative, hx, hy] at hs
    have hs : (x.2 >>> 191 > 0) ↔ (y.2 >>> 191 > 0) := by simpa using hs
    refine Indist.bind (R := fun a b : Bool × Nat => a.1 = b.1) ?_ fun a b he => ?_
    · unfold roundW
      exact Indist.ite hs (fun _ => Indist.pure rfl) fun _ => Indist.pure rfl
    · rw [he]
      exact (Indist.mapLoop (forall₂_eq _) fun i j he => by subst he; exact scaleOne_indist s h _ _ _ _ _ _).len

theorem column_indist {a a' : List (List Nat)} (h : SameShape a a') (j : Nat) : Indist SameLen (column a j) (column a' j) :=
  (Indist.mapLoop h fun _ _ hx => Indist.fetch hx.forall₂ j).len
theorem sourceRows_indist {a a' : Poly r} (h : SamePublic a a') : Indist SameShape (sourceRows a) (sourceRows a') := by
  rcases h.split with he | ⟨hv, hv'⟩
  · rw [he]; exact Indist.refl SameShape.refl _
  · unfold sourceRows
    split
    · exact Indist.pure h.coeffs
    · rw [hv, hv', h.ctx]
      exact Indist.ite Iff.rfl (fun h => absurd h (by simp)) fun _ => rows_indist (fun op _ _ => backward_indist op) h.coeffs _
theorem targetRows_indist (r : Rep) {a a' : List (List Nat)} (h : SameShape a a') (ops : List NttOperator) :
    Indist SameShape (targetRows r false a ops) (targetRows r false a' ops) := by
  unfold targetRows
  split
  · exact Indist.pure h
  · exact Indist.ite Iff.rfl (fun h => absurd h (by simp)) fun _ => rows_indist (fun op _ _ => forward_indist op) h _

theorem columns_indist {a a' : Poly r} (h : SamePublic a a') : Indist SameShape (columns a) (columns a') := by
  unfold columns
  rw [h.ctx]
  exact (sourceRows_indist h).bind fun _ _ hr => Indist.mapLoop (forall₂_eq _) fun i j he => by subst he; exact column_indist hr _

theorem forall₂_map_eq {α β : Type} {R : α → α → Prop} {f : α → β} {a b : List α} (h : List.Forall₂ R a b) (he : a.map f = b.map f) :
    List.Forall₂ (fun x y => R x y ∧ f x = f y) a b := by
  induction h with
  | nil => exact .nil
  | cons h _ ih =>
    simp only [List.map_cons, List.cons.injEq] at he
    exact .cons ⟨h, he.1⟩ (ih he.2)

theorem scale_columns (s : Scaler) (p : Poly r) (hp : p.vt = false) : scale s p = (if p.ctx ≠ s.src then pure (.error .polynomialContextMismatch)
    else branchOn (s.ncommon < s.dst.q.length) >>= fun b => if b = true then columns p >>= fun cols =>
        mapLoop (fun c => rnsScale s.scaler c (s.dst.q.length - s.ncommon) s.ncommon) cols >>= fun newCols =>
        mapLoop (column newCols) (List.range (s.dst.q.length - s.ncommon)) >>= fun newRows =>
        targetRows r false newRows (s.dst.ops.drop s.ncommon) >>= fun newRows =>
        pure (.ok { ctx := s.dst, vt := false, coeffs := p.coeffs.take s.ncommon ++ newRows, shoup := none, hasLazy := false })
      else pure (.ok { ctx := s.dst, vt := false, coeffs := p.coeffs.take s.ncommon, shoup := none, hasLazy := false })) := by
  unfold scale columns
  simp only [bind_assoc', hp]

/-- `Scaler::scale` reveals at most one bit per coefficient. -/
theorem scale_indist (s : Scaler) {a a' : Poly r} (h : SamePublic a a') (hs : s.scaler.factor.isOne = true ∨ signs s a = signs s a') :
    Indist (SameResult SamePublic) (scale s a) (scale s a') := by
  rcases h.split with he | ⟨hv, hv'⟩
  · rw [he]; exact Indist.refl (SameResult.refl SamePublic.refl) _
  · rw [scale_columns s a hv, scale_columns s a' hv', h.ctx]
    split
    · exact Indist.pure (.error _)
    · refine Indist.ite Iff.rfl (fun _ => ?_) fun _ => Indist.pure (.ok ⟨rfl, rfl, rfl, List.forall₂_take _ h.coeffs, .none, fun h => by simp at h⟩)
      refine (columns_indist h).bind' fun x y hx hy hxy => ?_
      have hc : List.Forall₂ (fun c d => SameLen c d ∧ (s.scaler.factor.isOne = true ∨ wNegative s.scaler c = wNegative s.scaler d)) x y := by
        rcases hs with hs | hs
        · exact hxy.imp fun _ _ h => ⟨h, .inl hs⟩
        · rw [signs, signs, hx, hy] at hs
          exact (forall₂_map_eq hxy hs).imp fun _ _ h => ⟨h.1, .inr h.2⟩
      refine (Indist.mapLoop hc fun c d h => rnsScale_indist s.scaler h.1 _ _ h.2).bind fun nc nc' hn => ?_
      refine (Indist.mapLoop (S := SameLen) (forall₂_eq _) fun i j he => by subst he; exact column_indist hn _).bind fun nr nr' hn => ?_
      refine (targetRows_indist r hn _).bind fun _ _ hn => Indist.pure (.ok ⟨rfl, rfl, rfl, ?_, .none, fun h => by simp at h⟩)
      exact List.rel_append (List.forall₂_take _ h.coeffs) hn

end Fhe.Release
