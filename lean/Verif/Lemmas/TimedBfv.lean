import Verif.Lemmas.TimedRq
import Verif.Model.TimedBfv
/-!
# Release runs of `fhe`
-/
namespace Fhe.Release
variable {α β γ δ : Type}

instance : LawfulMonad Timed := LawfulMonad.mk'
  (id_map := fun t => by
    change (t >>= fun a => pure (id a)) = t
    cases h : t.result with
    | none => rw [bind_none h, ← h]
    | some a => rw [bind_some h]; change (⟨some a, t.trace ++ []⟩ : Timed _) = t; rw [List.append_nil, ← h])
  (pure_bind := fun _ _ => pure_bind' _ _)
  (bind_assoc := fun t f g => bind_assoc' t f g)

/-! ## Agreement -/

/-- The run returns whatever the checked model returns. -/
def TAgrees (o : Res α) (t : TRes α) : Prop := Agrees o.run t.run

theorem TAgrees.bind {o : Res α} {t : TRes α} {f : α → Res β} {g : α → TRes β} (h : TAgrees o t) (hf : ∀ a, TAgrees (f a) (g a)) :
    TAgrees (o >>= f) (t >>= g) := by
  change Agrees (o.run >>= fun x => ExceptT.bindCont f x) (t.run >>= fun x => ExceptT.bindCont g x)
  refine Agrees.bind h fun x _ => ?_
  cases x with
  | error e => exact Agrees.pure _
  | ok a => exact hf a
theorem TAgrees.pure (a : α) : TAgrees (Pure.pure a) (Pure.pure a) := Agrees.pure _
theorem TAgrees.ok (a : α) : TAgrees (Res.ok a) (Pure.pure a) := Agrees.pure _
theorem TAgrees.err (e : FheError) : TAgrees (Res.err e : Res α) (terr e) := Agrees.pure _
theorem TAgrees.panic (t : TRes α) : TAgrees Res.panic t := Agrees.none _
theorem TAgrees.lift {o : Option α} {t : Timed α} (h : Agrees o t) : TAgrees (Fhe.lift o) (tlift t) := by
  cases o with
  | none => exact TAgrees.panic _
  | some a =>
    intro y hy
    have h' := h a rfl
    change (t >>= fun a => Pure.pure (Except.ok a)).result = some y
    rw [bind_some h']; exact hy
theorem TAgrees.math {o : Option (Except MathError α)} {t : Timed (Except MathError α)} (h : Agrees o t) : TAgrees (Fhe.math o) (tmath t) := by
  rcases o with _ | _ | a
  · exact TAgrees.panic _
  · intro y hy
    have h' := h _ rfl
    change (t >>= _).result = some y
    rw [bind_some h']; exact hy
  · intro y hy
    have h' := h _ rfl
    change (t >>= _).result = some y
    rw [bind_some h']; exact hy
theorem TAgrees.public (x : Res α) : TAgrees x (tpublic x) := Agrees.publicly _
theorem TAgrees.big {x : Res α} {v : List Nat} : TAgrees x (ExceptT.mk (bigUint v x.run)) := fun _ h => h
theorem Agrees.big {x : Option α} {v : List Nat} : Agrees x (bigUint v x) := fun _ h => h
theorem TAgrees.branch {c : Prop} [Decidable c] {o : Res β} {f : Bool → TRes β} (h : TAgrees o (f (decide c))) : TAgrees o (tlift (branchOn c) >>= f) := by
  intro y hy
  have := h y hy
  exact this
theorem TAgrees.ite {c : Prop} [Decidable c] {o o' : Res β} {t t' : TRes β} (h : c → TAgrees o t) (h' : ¬ c → TAgrees o' t') :
    TAgrees (if c then o else o') (if c then t else t') := by split <;> [exact h ‹_›; exact h' ‹_›]
theorem Agrees.ifs {c : Prop} [Decidable c] {o o' : Option β} {t t' : Timed β} (h : c → Agrees o t) (h' : ¬ c → Agrees o' t') :
    Agrees (if c then o else o') (if c then t else t') := by split <;> [exact h ‹_›; exact h' ‹_›]
theorem TAgrees.mapM {f : α → Res β} {g : α → TRes β} (h : ∀ a, TAgrees (f a) (g a)) : (l : List α) → TAgrees (l.mapM f) (tmapM g l)
  | [] => TAgrees.branch (TAgrees.pure _)
  | a :: l => by
    rw [List.mapM_cons, tmapM]
    exact TAgrees.branch ((h a).bind fun _ => (TAgrees.mapM h l).bind fun _ => TAgrees.pure _)
theorem Agrees.unwrapT {o : Option (Except MathError α)} {t : Timed (Except MathError α)} (h : Agrees o t) : Agrees (unwrapMath o) (Release.unwrapT t) := by
  rcases o with _ | _ | a
  · exact Agrees.none _
  · exact Agrees.none _
  · intro y hy
    unfold Release.unwrapT
    rw [bind_some (h _ rfl)]; exact hy
theorem Agrees.unwrap {o : Res α} {t : TRes α} (h : TAgrees o t) : Agrees o.unwrap (Release.unwrapT t.run) := by
  rcases Res.cases o with ⟨a, rfl⟩ | ⟨e, rfl⟩ | rfl
  · intro y hy
    unfold Release.unwrapT
    rw [bind_some (h (.ok a) rfl)]; exact hy
  · exact Agrees.none _
  · exact Agrees.none _

theorem prefixOf_agrees (v : List Nat) (n : Nat) : Agrees (Fhe.prefixOf v n) (prefixOf v n) := Agrees.assert.bind fun _ _ => Agrees.pure _
theorem coefficients_agrees (pt : Plaintext) : Agrees pt.coefficients (coefficients pt) := by
  unfold Plaintext.coefficients coefficients
  refine (nttToPowerBasis_agrees _).bind fun poly _ => ?_
  cases pt.par.plaintext.small with
  | none =>
    refine Agrees.trans (o' := (poly.toBigUint >>= fun x => pt.par.plaintext.reduceVec x) >>= fun x => some (.large x)) (fun y hy => ?_) (Agrees.big.bind fun _ _ => Agrees.pure _)
    rw [bind_assoc]; exact hy
  | some m =>
    refine Agrees.ite (fun _ => (prefixOf_agrees _ _).bind fun _ _ => (reduceVec_agrees _ _).bind fun _ _ => Agrees.pure _) fun _ => ?_
    refine Agrees.trans (o' := (poly.toBigUint >>= fun x => pt.par.plaintext.reduceVec x >>= fun v => v.mapM toU64Unwrap) >>= fun x => some (.small x))
      (fun y hy => ?_) (Agrees.big.bind fun _ _ => Agrees.pure _)
    rw [bind_assoc]; simp only [bind_assoc]; exact hy
theorem scaledPoly_agrees (par : Par) (lvl : ContextLevel) (c : PlaintextCoefficients) : Agrees (Plaintext.scaledPoly par lvl c) (scaledPoly par lvl c) := by
  cases c with
  | large v => exact Agrees.big
  | small v =>
    unfold Plaintext.scaledPoly scaledPoly
    cases par.plaintext.small with
    | none => exact Agrees.none _
    | some m =>
      exact (Agrees.publicly _).bind fun _ _ => (scalarMulVec_agrees _ _ _).bind fun _ _ => Agrees.unwrapT (tryFromU64_agrees _ _ _)
theorem toPoly_agrees (pt : Plaintext) : Agrees pt.toPoly (toPoly pt) :=
  (Agrees.publicly _).bind fun _ _ => (Agrees.publicly _).bind fun _ _ => (coefficients_agrees pt).bind fun _ _ =>
    (scaledPoly_agrees _ _ _).bind fun _ _ => (intoNtt_agrees _).bind fun _ _ => mulAssignShoup_agrees _ _
theorem scatter_agrees : (v m c : List Nat) → Agrees (PlaintextVec.scatter v m c) (scatter v m c)
  | [], _, _ => by unfold PlaintextVec.scatter scatter; exact Agrees.branch (Agrees.pure _)
  | _ :: _, [], _ => Agrees.none _
  | v :: vs, i :: is, c => by
    rw [PlaintextVec.scatter, scatter]
    refine Agrees.branch (Agrees.check fun h => ?_)
    intro y hy
    rw [bind_some (a := c[i]) (by simp [fetch, h])]
    exact scatter_agrees vs is _ y hy
theorem chunkCoefficients_agrees (v : List Nat) (k : EncodingKind) (par : Par) (vt : Bool) :
    TAgrees (PlaintextVec.chunkCoefficients v k par vt) (chunkCoefficients v k par vt) := by
  cases k with
  | poly => exact TAgrees.lift (copyPrefix_agrees _ _)
  | simd =>
    unfold PlaintextVec.chunkCoefficients chunkCoefficients
    refine (TAgrees.lift (scatter_agrees _ _ _)).bind fun c => ?_
    cases par.nttOperator with
    | none => exact TAgrees.err _
    | some op =>
      refine TAgrees.branch ?_
      cases vt
      · exact TAgrees.lift (backward_agrees _ _)
      · exact TAgrees.lift (backwardVt_agrees _ _)
theorem encodeU64Chunk_agrees (k : EncodingKind) (par : Par) (vt : Bool) (v : List Nat) (ctx : Context) :
    TAgrees (PlaintextVec.encodeU64Chunk k par vt v ctx) (encodeU64Chunk k par vt v ctx) :=
  (chunkCoefficients_agrees _ _ _ _).bind fun _ => (TAgrees.math (tryFromU64_agrees _ _ _)).bind fun _ => TAgrees.lift (intoNtt_agrees _)
theorem chunk_agrees (v : List Nat) (d i : Nat) : Agrees (PlaintextVec.chunk v d i) (chunk v d i) := Agrees.assert.bind fun _ _ => Agrees.pure _
theorem tryEncodeVec_agrees (v : List Nat) (e : Encoding) (par : Par) (vt : Bool) : TAgrees (PlaintextVec.tryEncodeU64 v e par vt) (tryEncodeVec v e par vt) := by
  unfold PlaintextVec.tryEncodeU64 PlaintextVec.tryEncodeWith tryEncodeVec
  refine TAgrees.ite (fun _ => TAgrees.err _) fun _ => (TAgrees.public _).bind fun ctx => (TAgrees.lift Agrees.assert).bind fun _ => TAgrees.mapM (fun i => ?_) _
  exact (TAgrees.lift (chunk_agrees _ _ _)).bind fun _ => (encodeU64Chunk_agrees _ _ _ _ _).bind fun _ => TAgrees.pure _
theorem tryEncodeU64_agrees (v : List Nat) (e : Encoding) (par : Par) (vt : Bool) : TAgrees (Plaintext.tryEncodeU64 v e par vt) (tryEncodeU64 v e par vt) := by
  unfold Plaintext.tryEncodeU64 tryEncodeU64
  refine TAgrees.branch ?_
  by_cases h : v.length > par.degree
  · simp only [h, if_true, decide_true]; exact TAgrees.err _
  · simp only [h, if_false, decide_false, Bool.false_eq_true]
    exact (tryEncodeVec_agrees _ _ _ _).bind fun _ => TAgrees.lift Agrees.fetch
theorem tryEncodeI64_agrees (v : List Int) (e : Encoding) (par : Par) : TAgrees (Plaintext.tryEncodeI64 v e par) (tryEncodeI64 v e par) := by
  unfold tryEncodeI64
  cases h : par.plaintext.small with
  | none => exact TAgrees.big
  | some m =>
    unfold Plaintext.tryEncodeI64
    rw [h]
    exact (TAgrees.lift (reduceVecI64_agrees _ _)).bind fun _ => tryEncodeU64_agrees _ _ _ _
theorem decodeSimdU64_agrees (pt : Plaintext) (v : List Nat) : TAgrees (pt.decodeSimdU64 v) (decodeSimdU64 pt.par v) := by
  unfold Plaintext.decodeSimdU64 decodeSimdU64
  cases pt.par.nttOperator with
  | none => exact TAgrees.err _
  | some op => exact (TAgrees.lift (forward_agrees _ _)).bind fun _ => TAgrees.lift (Agrees.mapM (fun _ => Agrees.fetch) _)
theorem decodeU64_agrees (pt : Plaintext) (e : Option Encoding) : TAgrees (pt.decodeU64 e) (decodeU64 pt e) := by
  unfold Plaintext.decodeU64 decodeU64
  refine (TAgrees.public _).bind fun e => (TAgrees.lift (coefficients_agrees pt)).bind fun c => ?_
  have hk (v : List Nat) : TAgrees (match e.kind with | .poly => Pure.pure v | .simd => pt.decodeSimdU64 v)
      (match e.kind with | .poly => Pure.pure v | .simd => decodeSimdU64 pt.par v) := by
    cases e.kind with
    | poly => exact TAgrees.pure _
    | simd => exact decodeSimdU64_agrees _ _
  cases c with
  | small v => exact (TAgrees.ok v).bind hk
  | large v => exact TAgrees.big.bind hk
theorem decodeI64_agrees (pt : Plaintext) (e : Option Encoding) : TAgrees (pt.decodeI64 e) (decodeI64 pt e) := by
  unfold decodeI64
  cases h : pt.par.plaintext.small with
  | none => exact TAgrees.big
  | some m =>
    unfold Plaintext.decodeI64
    rw [h]
    exact (decodeU64_agrees pt e).bind fun _ => TAgrees.lift (centerVec_agrees _ _)

theorem randomKey_agrees (par : Par) (rng : Nat → Nat) : Agrees (SecretKey.random par rng) (randomKey par rng) := by
  unfold SecretKey.random randomKey
  refine (sampleVecCbd_agrees _ _ _).bind fun x _ => ?_
  rcases x with _ | ⟨c, _⟩
  · exact Agrees.none _
  · exact Agrees.pure _
theorem polyAt_agrees (sk : SecretKey) (ctx : Context) : TAgrees (sk.polyAt ctx) (polyAt sk ctx) :=
  (TAgrees.math (tryFromI64_agrees _ _ _)).bind fun _ => TAgrees.lift (intoNtt_agrees _)
theorem encryptPoly_agrees (g : Prg) (sk : SecretKey) (p : Poly .ntt) (seed : Seed) (rng : Nat → Nat) :
    TAgrees (sk.encryptPoly g p seed rng) (encryptPoly g sk p seed rng) :=
  (TAgrees.public _).bind fun _ => (polyAt_agrees _ _).bind fun _ => (TAgrees.public _).bind fun _ => (TAgrees.lift (mulAssign_agrees _ _)).bind fun _ =>
    (TAgrees.math (smallNtt_agrees _ _ _)).bind fun _ => (TAgrees.lift (subAssign_agrees _ _)).bind fun _ => (TAgrees.lift (addAssign_agrees _ _)).bind fun _ =>
    TAgrees.pure _
theorem tryEncrypt_agrees (g : Prg) (sk : SecretKey) (pt : Plaintext) (seed : Seed) (rng : Nat → Nat) :
    TAgrees (sk.tryEncrypt g pt seed rng) (tryEncrypt g sk pt seed rng) :=
  (TAgrees.public _).bind fun _ => (TAgrees.lift (toPoly_agrees pt)).bind fun _ => encryptPoly_agrees _ _ _ _ _
theorem phaseLoop_agrees (s : Poly .ntt) : (l : List (Poly .ntt)) → (c si : Poly .ntt) → Agrees (SecretKey.phaseLoop s l c si) (phaseLoop s l c si)
  | [], _, _ => Agrees.branch (Agrees.pure _)
  | ci :: rest, c, si => by
    rw [SecretKey.phaseLoop, phaseLoop]
    refine Agrees.branch ((mulAssign_agrees _ _).bind fun _ _ => (addAssign_agrees _ _).bind fun c _ => Agrees.branch ?_)
    by_cases h : rest = []
    · simp only [h, if_true, decide_true, Option.bind_eq_bind, Option.bind_some]; exact phaseLoop_agrees s [] c si
    · simp only [h, if_false, decide_false, Bool.false_eq_true]
      exact (mulAssign_agrees _ _).bind fun _ _ => phaseLoop_agrees s rest _ _
theorem phase_agrees (sk : SecretKey) (ct : Ciphertext) : TAgrees (sk.phase ct) (phase sk ct) := by
  unfold SecretKey.phase phase
  cases ct.c with
  | nil => exact TAgrees.panic _
  | cons c0 rest => exact (polyAt_agrees _ _).bind fun _ => TAgrees.lift (phaseLoop_agrees _ _ _ _)
theorem wadd_agrees (t x : Nat) : Agrees (Fhe.add64 x t) (pure (wadd64 x t)) := by
  have := Agrees.add64 (a := x) (b := t) (f := fun y => some y) (t := pure (wadd64 x t)) (Agrees.pure _)
  rwa [show (Fhe.add64 x t >>= fun y => some y) = Fhe.add64 x t by cases Fhe.add64 x t <;> rfl] at this
theorem finish_agrees (b : Build) (par : Par) (d : Poly .powerBasis) (ctx : Context) : TAgrees (SecretKey.finish b par d ctx) (finish b par d ctx) := by
  unfold finish
  cases h : par.plaintext.small with
  | none => exact TAgrees.big
  | some t =>
    unfold SecretKey.finish
    rw [h]
    refine (TAgrees.lift (Agrees.mapM (fun x => wadd_agrees _ _) _)).bind fun v => (TAgrees.lift (prefixOf_agrees _ _)).bind fun w =>
      (TAgrees.public _).bind fun q0 => (TAgrees.public _).bind fun x => ?_
    rcases x with _ | q
    · exact TAgrees.err _
    · exact (TAgrees.lift (reduceVec_agrees _ _)).bind fun _ => (TAgrees.lift (reduceVec_agrees _ _)).bind fun _ =>
        (TAgrees.math (tryFromU64_agrees _ _ _)).bind fun _ => TAgrees.lift (intoNtt_agrees _)
theorem tryDecrypt_agrees (b : Build) (sk : SecretKey) (ct : Ciphertext) : TAgrees (sk.tryDecrypt b ct) (tryDecrypt b sk ct) :=
  (TAgrees.public _).bind fun _ => (phase_agrees _ _).bind fun _ => (TAgrees.public _).bind fun _ => (TAgrees.lift (nttToPowerBasis_agrees _)).bind fun _ =>
    (TAgrees.math (scale_agrees _ _)).bind fun _ => (TAgrees.public _).bind fun _ => (finish_agrees _ _ _ _).bind fun _ => TAgrees.pure _

theorem newPublicKey_agrees (g : Prg) (sk : SecretKey) (seed : Seed) (rng : Nat → Nat) : Agrees (PublicKey.new g sk seed rng) (newPublicKey g sk seed rng) :=
  (Agrees.publicly _).bind fun _ _ => (Agrees.unwrap (tryEncrypt_agrees _ _ _ _ _)).bind fun _ _ => Agrees.pure _
theorem pkEncrypt_agrees (pk : PublicKey) (pt : Plaintext) (rngU rng1 rng2 : Nat → Nat) :
    TAgrees (pk.tryEncrypt pt rngU rng1 rng2) (pkEncrypt pk pt rngU rng1 rng2) := by
  unfold PublicKey.tryEncrypt pkEncrypt
  refine (TAgrees.public _).bind fun _ => (TAgrees.public _).bind fun _ => (TAgrees.public _).bind fun _ => TAgrees.ite (fun _ => ?_) fun _ => ?_
  · exact (TAgrees.public _).bind fun _ => TAgrees.err _
  · exact (TAgrees.public _).bind fun _ => (TAgrees.public _).bind fun _ => (TAgrees.math (smallNtt_agrees _ _ _)).bind fun _ =>
      (TAgrees.math (smallNtt_agrees _ _ _)).bind fun _ => (TAgrees.math (smallNtt_agrees _ _ _)).bind fun _ => (TAgrees.lift (toPoly_agrees _)).bind fun _ =>
      (TAgrees.public _).bind fun _ => (TAgrees.lift (mulAssign_agrees _ _)).bind fun _ => (TAgrees.lift (addAssign_agrees _ _)).bind fun _ =>
      (TAgrees.lift (addAssign_agrees _ _)).bind fun _ => (TAgrees.public _).bind fun _ => (TAgrees.lift (mulAssign_agrees _ _)).bind fun _ =>
      (TAgrees.lift (addAssign_agrees _ _)).bind fun _ => TAgrees.pure _

/-- The polynomial `b` in the checked model. -/
def masked (sk : SecretKey) (s : Poly .ntt) (source : Poly .powerBasis) (c1i : Poly .nttShoup) (gi : Nat) (rng : Nat → Nat) : Res (Poly .powerBasis) := do
  let as ← lift c1i.shoupToNtt
  let as ← lift (as.disallowVt.mulAssign s)
  let as ← lift as.nttToPowerBasis
  let b ← math (Poly.smallPowerBasis as.ctx sk.par.variance rng)
  let b ← lift (b.subAssign as)
  lift (b.addAssign (← lift (source.mulScalar gi)))
theorem component_masked (sk : SecretKey) (s : Poly .ntt) (source : Poly .powerBasis) (c1i : Poly .nttShoup) (gi : Nat) (rng : Nat → Nat) :
    KeySwitchingKey.component sk s source c1i gi rng = masked sk s source c1i gi rng >>= fun b => lift b.allowVt.intoNttShoup := by
  unfold KeySwitchingKey.component masked
  simp only [bind_assoc]
theorem maskedPart_agrees (sk : SecretKey) (s : Poly .ntt) (source : Poly .powerBasis) (c1i : Poly .nttShoup) (gi : Nat) (rng : Nat → Nat) :
    TAgrees (masked sk s source c1i gi rng) (maskedPart sk s source c1i gi rng) :=
  (TAgrees.lift (shoupToNtt_agrees _)).bind fun _ => (TAgrees.lift (mulAssign_agrees _ _)).bind fun _ => (TAgrees.lift (nttToPowerBasis_agrees _)).bind fun _ =>
    (TAgrees.math (smallPowerBasis_agrees _ _ _)).bind fun _ => (TAgrees.lift (subAssign_agrees _ _)).bind fun _ => (TAgrees.lift (mulScalar_agrees _ _)).bind fun _ =>
    TAgrees.lift (addAssign_agrees _ _)
theorem component_agrees (sk : SecretKey) (s : Poly .ntt) (source : Poly .powerBasis) (c1i : Poly .nttShoup) (gi : Nat) (rng : Nat → Nat) :
    TAgrees (KeySwitchingKey.component sk s source c1i gi rng) (component sk s source c1i gi rng) := by
  rw [component_masked]
  exact (maskedPart_agrees _ _ _ _ _ _).bind fun _ => TAgrees.lift (intoNttShoup_agrees _)
theorem generateC0_agrees (b : Build) (sk : SecretKey) (source : Poly .powerBasis) (c1 : List (Poly .nttShoup)) (rngs : Nat → Nat → Nat) :
    TAgrees (KeySwitchingKey.generateC0 b sk source c1 rngs) (generateC0 b sk source c1 rngs) := by
  cases c1 with
  | nil => exact TAgrees.err _
  | cons first rest =>
    exact (polyAt_agrees _ _).bind fun _ => (TAgrees.public _).bind fun _ => (TAgrees.public _).bind fun _ => TAgrees.mapM (fun _ =>
      (TAgrees.public _).bind fun _ => component_agrees _ _ _ _ _ _) _
theorem generateC0Decomposition_agrees (sk : SecretKey) (source : Poly .powerBasis) (c1 : List (Poly .nttShoup)) (rngs : Nat → Nat → Nat) (lb : Nat) :
    TAgrees (KeySwitchingKey.generateC0Decomposition sk source c1 rngs lb) (generateC0Decomposition sk source c1 rngs lb) := by
  cases c1 with
  | nil => exact TAgrees.err _
  | cons first rest =>
    exact (polyAt_agrees _ _).bind fun _ => TAgrees.mapM (fun _ => (TAgrees.public _).bind fun _ => component_agrees _ _ _ _ _ _) _
theorem newKsk_agrees (b : Build) (g : Prg) (sk : SecretKey) (source : Poly .powerBasis) (i j : Nat) (seed : Seed) (rngs : Nat → Nat → Nat) :
    TAgrees (KeySwitchingKey.new b g sk source i j seed rngs) (newKsk b g sk source i j seed rngs) := by
  unfold KeySwitchingKey.new newKsk
  refine (TAgrees.public _).bind fun _ => (TAgrees.public _).bind fun _ => TAgrees.ite (fun _ => TAgrees.err _) fun _ => TAgrees.ite (fun _ => ?_) fun _ => ?_
  · exact (TAgrees.public _).bind fun _ => (TAgrees.public _).bind fun _ => (TAgrees.public _).bind fun _ => (TAgrees.public _).bind fun _ =>
      (generateC0Decomposition_agrees _ _ _ _ _).bind fun _ => TAgrees.pure _
  · exact (TAgrees.public _).bind fun _ => (generateC0_agrees _ _ _ _ _).bind fun _ => TAgrees.pure _
theorem newRelin_agrees (b : Build) (g : Prg) (sk : SecretKey) (i j : Nat) (seed : Seed) (rngs : Nat → Nat → Nat) :
    TAgrees (RelinearizationKey.newLeveled b g sk i j seed rngs) (newRelin b g sk i j seed rngs) := by
  unfold RelinearizationKey.newLeveled newRelin
  refine (TAgrees.public _).bind fun _ => (TAgrees.public _).bind fun _ => TAgrees.ite (fun _ => TAgrees.err _) fun _ => ?_
  exact (polyAt_agrees _ _).bind fun _ => (TAgrees.lift (mulAssign_agrees _ _)).bind fun _ => (TAgrees.lift (nttToPowerBasis_agrees _)).bind fun _ =>
    (TAgrees.public _).bind fun _ => (TAgrees.math (scale_agrees _ _)).bind fun _ => (newKsk_agrees _ _ _ _ _ _ _ _).bind fun _ => TAgrees.pure _
theorem newGalois_agrees (b : Build) (g : Prg) (sk : SecretKey) (e i j : Nat) (seed : Seed) (rngs : Nat → Nat → Nat) :
    TAgrees (GaloisKey.new b g sk e i j seed rngs) (newGalois b g sk e i j seed rngs) :=
  (TAgrees.public _).bind fun _ => (TAgrees.public _).bind fun _ => (TAgrees.public _).bind fun _ => (TAgrees.public _).bind fun _ =>
    (TAgrees.math (tryFromI64_agrees _ _ _)).bind fun _ => (TAgrees.lift (substitute_agrees _ _)).bind fun _ => (TAgrees.math (scale_agrees _ _)).bind fun _ =>
    (newKsk_agrees _ _ _ _ _ _ _ _).bind fun _ => TAgrees.pure _

theorem publicKeyShare_agrees (sk : SecretKey) (crp : CommonRandomPoly) (rng : Nat → Nat) : TAgrees (PublicKeyShare.new sk crp rng) (publicKeyShare sk crp rng) :=
  (TAgrees.public _).bind fun _ => (polyAt_agrees _ _).bind fun _ => (TAgrees.math (smallNtt_agrees _ _ _)).bind fun _ => (TAgrees.lift (polyNeg_agrees _)).bind fun _ =>
    (TAgrees.lift (mulAssign_agrees _ _)).bind fun _ => (TAgrees.lift (addAssign_agrees _ _)).bind fun _ => TAgrees.pure _
theorem publicKeySwitchShare_agrees (sk : SecretKey) (pk : PublicKey) (ct : Ciphertext) (rngU rng0 rng1 : Nat → Nat) :
    TAgrees (PublicKeySwitchShare.new sk pk ct rngU rng0 rng1) (publicKeySwitchShare sk pk ct rngU rng0 rng1) := by
  unfold PublicKeySwitchShare.new publicKeySwitchShare
  refine TAgrees.ite (fun _ => TAgrees.err _) fun _ => TAgrees.ite (fun _ => TAgrees.err _) fun _ => ?_
  exact (TAgrees.public _).bind fun _ => (TAgrees.public _).bind fun _ => (polyAt_agrees _ _).bind fun _ => (TAgrees.math (smallNtt_agrees _ _ _)).bind fun _ =>
    (TAgrees.math (smallNtt_agrees _ _ _)).bind fun _ => (TAgrees.math (smallNtt_agrees _ _ _)).bind fun _ => (TAgrees.public _).bind fun _ =>
    (TAgrees.lift (mulAssign_agrees _ _)).bind fun _ => (TAgrees.public _).bind fun _ => (TAgrees.lift (mulAssign_agrees _ _)).bind fun _ =>
    (TAgrees.lift (addAssign_agrees _ _)).bind fun _ => (TAgrees.lift (addAssign_agrees _ _)).bind fun _ => (TAgrees.public _).bind fun _ =>
    (TAgrees.lift (mulAssign_agrees _ _)).bind fun _ => (TAgrees.lift (addAssign_agrees _ _)).bind fun _ => (TAgrees.public _).bind fun _ => TAgrees.pure _
theorem secretKeySwitchShare_agrees (sk sk' : SecretKey) (ct : Ciphertext) (rng : Nat → Nat) :
    TAgrees (SecretKeySwitchShare.new sk sk' ct rng) (secretKeySwitchShare sk sk' ct rng) := by
  unfold SecretKeySwitchShare.new secretKeySwitchShare
  refine TAgrees.ite (fun _ => TAgrees.err _) fun _ => TAgrees.ite (fun _ => TAgrees.err _) fun _ => TAgrees.ite (fun _ => TAgrees.err _) fun _ => ?_
  exact (TAgrees.public _).bind fun _ => (TAgrees.public _).bind fun _ => (polyAt_agrees _ _).bind fun _ => (polyAt_agrees _ _).bind fun _ =>
    (TAgrees.math (smallNtt_agrees _ _ _)).bind fun _ => (TAgrees.lift (subAssign_agrees _ _)).bind fun _ => (TAgrees.lift (mulAssign_agrees _ _)).bind fun _ =>
    (TAgrees.lift (addAssign_agrees _ _)).bind fun _ => TAgrees.pure _
theorem decryptionShare_agrees (sk : SecretKey) (ct : Ciphertext) (rng : Nat → Nat) : TAgrees (DecryptionShare.new sk ct rng) (decryptionShare sk ct rng) :=
  (secretKeySwitchShare_agrees _ _ _ _).bind fun _ => TAgrees.pure _
theorem relinKeyGenerator_agrees (sk : SecretKey) (crp : List CommonRandomPoly) (rng : Nat → Nat) :
    TAgrees (RelinKeyGenerator.new sk crp rng) (relinKeyGenerator sk crp rng) := by
  unfold RelinKeyGenerator.new relinKeyGenerator
  exact (TAgrees.public _).bind fun _ => TAgrees.ite (fun _ => TAgrees.err _) fun _ => TAgrees.ite (fun _ => TAgrees.err _) fun _ =>
    (TAgrees.math (smallNtt_agrees _ _ _)).bind fun _ => TAgrees.pure _
theorem generateH0_agrees (b : Build) (sk : SecretKey) (crp : List CommonRandomPoly) (u : Poly .ntt) (rngs : Nat → Nat → Nat) :
    TAgrees (RelinKeyShare.generateH0 b sk crp u rngs) (generateH0 b sk crp u rngs) :=
  (TAgrees.public _).bind fun _ => (polyAt_agrees _ _).bind fun _ => (TAgrees.public _).bind fun _ => (TAgrees.public _).bind fun _ => TAgrees.mapM (fun _ =>
    (TAgrees.public _).bind fun _ => (TAgrees.lift (mulScalar_agrees _ _)).bind fun _ => (TAgrees.math (smallNtt_agrees _ _ _)).bind fun _ =>
    (TAgrees.lift (polyNeg_agrees _)).bind fun _ => (TAgrees.lift (mulAssign_agrees _ _)).bind fun _ => (TAgrees.lift (addAssign_agrees _ _)).bind fun _ =>
    TAgrees.lift (addAssign_agrees _ _)) _
theorem generateH1_agrees (sk : SecretKey) (crp : List CommonRandomPoly) (rngs : Nat → Nat → Nat) :
    TAgrees (RelinKeyShare.generateH1 sk crp rngs) (generateH1 sk crp rngs) :=
  (TAgrees.public _).bind fun _ => (polyAt_agrees _ _).bind fun _ => TAgrees.mapM (fun _ =>
    (TAgrees.math (smallNtt_agrees _ _ _)).bind fun _ => (TAgrees.lift (mulAssign_agrees _ _)).bind fun _ => TAgrees.lift (addAssign_agrees _ _)) _
theorem round1_agrees (b : Build) (g : RelinKeyGenerator) (rngs0 rngs1 : Nat → Nat → Nat) : TAgrees (g.round1 b rngs0 rngs1) (round1 b g rngs0 rngs1) := by
  unfold RelinKeyGenerator.round1 round1
  exact (TAgrees.public _).bind fun _ => TAgrees.ite (fun _ => TAgrees.err _) fun _ => (generateH0_agrees _ _ _ _ _).bind fun _ =>
    (generateH1_agrees _ _ _).bind fun _ => TAgrees.pure _
theorem generate2_agrees (ctx : Context) (variance : Nat) (f : Poly .ntt) (r1 : List (Poly .ntt)) (rngs : Nat → Nat → Nat) :
    TAgrees (RelinKeyShare2.generate ctx variance f r1 rngs) (generate2 ctx variance f r1 rngs) :=
  TAgrees.mapM (fun _ => (TAgrees.math (smallNtt_agrees _ _ _)).bind fun _ => (TAgrees.lift (mulAssign_agrees _ _)).bind fun _ => TAgrees.lift (addAssign_agrees _ _)) _
theorem round2_agrees (g : RelinKeyGenerator) (r1 : RelinKeyShare) (rngs0 rngs1 : Nat → Nat → Nat) : TAgrees (g.round2 r1 rngs0 rngs1) (round2 g r1 rngs0 rngs1) :=
  (TAgrees.public _).bind fun _ => (polyAt_agrees _ _).bind fun _ => (generate2_agrees _ _ _ _ _).bind fun _ => (TAgrees.lift (subAssign_agrees _ _)).bind fun _ =>
    (generate2_agrees _ _ _ _ _).bind fun _ => TAgrees.pure _

/-! ## Indistinguishability -/

section
variable {R : α → β → Prop} {S : γ → δ → Prop}

theorem TIndist.bind' {t : TRes α} {t' : TRes β} {f : α → TRes γ} {g : β → TRes δ} (h : TIndist R t t')
    (hf : ∀ a b, R a b → t.run.result = some (.ok a) → t'.run.result = some (.ok b) → TIndist S (f a) (g b)) : TIndist S (t >>= f) (t' >>= g) := by
  change Indist _ (t.run >>= fun x => ExceptT.bindCont f x) (t'.run >>= fun x => ExceptT.bindCont g x)
  refine Indist.bind' h fun x y h1 h2 hx => ?_
  cases hx with
  | error e => exact Indist.pure (.error e)
  | ok hab => exact hf _ _ hab h1 h2
theorem TIndist.bind {t : TRes α} {t' : TRes β} {f : α → TRes γ} {g : β → TRes δ} (h : TIndist R t t') (hf : ∀ a b, R a b → TIndist S (f a) (g b)) :
    TIndist S (t >>= f) (t' >>= g) := TIndist.bind' h fun a b hab _ _ => hf a b hab
theorem TIndist.pure {a : α} {b : β} (h : R a b) : TIndist R (Pure.pure a) (Pure.pure b) := Indist.pure (.ok h)
theorem TIndist.err (e : FheError) : TIndist R (terr e) (terr e) := Indist.pure (.error e)
theorem TIndist.lift {t : Timed α} {t' : Timed β} (h : Indist R t t') : TIndist R (tlift t) (tlift t') :=
  Indist.bind h fun _ _ hab => Indist.pure (.ok hab)
theorem TIndist.math {t : Timed (Except MathError α)} {t' : Timed (Except MathError β)} (h : Indist (SameResult R) t t') : TIndist R (tmath t) (tmath t') := by
  refine Indist.bind h fun _ _ hab => ?_
  cases hab with
  | error e => exact Indist.pure (.error _)
  | ok h => exact Indist.pure (.ok h)
theorem TIndist.public {x x' : Res α} (h : x = x') : TIndist Eq (tpublic x) (tpublic x') := by
  subst h
  exact Indist.refl (fun a => by cases a <;> constructor; rfl) _
theorem TIndist.mono {R' : α → β → Prop} {t : TRes α} {t' : TRes β} (h : TIndist R t t') (hR : ∀ a b, R a b → R' a b) : TIndist R' t t' :=
  Indist.mono h fun _ _ hab => by cases hab with
    | error e => exact .error e
    | ok h => exact .ok (hR _ _ h)
theorem TIndist.branch {c c' : Prop} [Decidable c] [Decidable c'] {f : Bool → TRes γ} {g : Bool → TRes δ} (hc : c ↔ c')
    (h : TIndist S (f (decide c)) (g (decide c))) : TIndist S (tlift (branchOn c) >>= f) (tlift (branchOn c') >>= g) :=
  Indist.branch hc h
theorem TIndist.ite {c c' : Prop} [Decidable c] [Decidable c'] {t u : TRes γ} {t' u' : TRes δ} (hc : c ↔ c') (h : c → TIndist S t t')
    (h' : ¬ c → TIndist S u u') : TIndist S (if c then t else u) (if c' then t' else u') := by
  by_cases hcc : c
  · rw [if_pos hcc, if_pos (hc.mp hcc)]; exact h hcc
  · rw [if_neg hcc, if_neg (fun h => hcc (hc.mpr h))]; exact h' hcc
theorem TIndist.mapM {f : α → TRes γ} {g : β → TRes δ} (h : ∀ a b, R a b → TIndist S (f a) (g b)) : {l : List α} → {l' : List β} → List.Forall₂ R l l' →
    TIndist (List.Forall₂ S) (tmapM f l) (tmapM g l')
  | _, _, .nil => TIndist.branch Iff.rfl (TIndist.pure .nil)
  | _, _, .cons h1 h2 => TIndist.branch Iff.rfl (TIndist.bind (h _ _ h1) fun _ _ hx => TIndist.bind (TIndist.mapM h h2) fun _ _ hy => TIndist.pure (.cons hx hy))
theorem Indist.unwrapT {ε : Type} {t : Timed (Except ε α)} {t' : Timed (Except ε β)} (h : Indist (SameResult R) t t') :
    Indist R (Release.unwrapT t) (Release.unwrapT t') := by
  refine Indist.bind h fun _ _ hab => ?_
  cases hab with
  | error e => exact Indist.panic
  | ok h => exact Indist.pure h
theorem Indist.public {x x' : Option α} (h : x = x') : Indist Eq (Release.publicly x) (Release.publicly x') := by
  subst h
  exact Indist.refl (fun _ => rfl) _
theorem forall₂_self {R : α → α → Prop} (h : ∀ a, R a a) : (l : List α) → List.Forall₂ R l l
  | [] => .nil
  | a :: l => .cons (h a) (forall₂_self h l)
end

theorem SamePublic.of_eq {r : Rep} {a b : Poly r} (h : a = b) : SamePublic a b := h ▸ SamePublic.refl a
theorem SamePlain.level {pt pt' : Plaintext} (h : SamePlain pt pt') : pt.level = pt'.level := by
  unfold Plaintext.level
  rw [h.par, h.poly.ctx]
theorem SamePlain.validateFor {pt pt' : Plaintext} (h : SamePlain pt pt') (par : Par) : pt.validateFor par = pt'.validateFor par := by
  unfold Plaintext.validateFor Plaintext.validateContext
  rw [h.level, h.par, h.poly.ctx]
theorem flatten_len : {a b : List (List Nat)} → SameShape a b → SameLen a.flatten b.flatten
  | _, _, .nil => rfl
  | _, _, .cons h hs => by
    have := flatten_len hs
    simp only [SameLen, List.flatten_cons, List.length_append] at h this ⊢
    rw [h, this]
theorem SamePublic.toU64 {r : Rep} {a b : Poly r} (h : SamePublic a b) : SameLen a.toU64 b.toU64 := flatten_len h.coeffs

theorem prefixOf_indist {v v' : List Nat} (h : SameLen v v') (n : Nat) : Indist SameLen (prefixOf v n) (prefixOf v' n) := by
  have : v.length = v'.length := h
  refine Indist.assert (by rw [this]) (Indist.pure ?_)
  simp [SameLen, this]

/-- Two vectors of plaintext values, held in words. -/
def SameCoefficients : PlaintextCoefficients → PlaintextCoefficients → Prop
  | .small v, .small v' => SameLen v v'
  | _, _ => False

theorem coefficients_indist {pt pt' : Plaintext} (h : SamePlain pt pt') (hw : WordSized pt.par pt.polyNtt.ctx) :
    Indist SameCoefficients (coefficients pt) (coefficients pt') := by
  obtain ⟨m, hm, hf⟩ := hw
  unfold coefficients
  refine Indist.bind (nttToPowerBasis_indist h.poly) fun p p' hp => ?_
  rw [← h.par, ← h.poly.ctx, hm]
  refine Indist.branch Iff.rfl ?_
  simp only [hf, decide_true, if_true]
  exact Indist.bind (prefixOf_indist hp.toU64 _) fun v v' hv => Indist.bind (reduceVec_indist m hv) fun _ _ hx => Indist.pure hx
theorem scaledPoly_indist (par : Par) (lvl : ContextLevel) : (c c' : PlaintextCoefficients) → SameCoefficients c c' →
    Indist SamePublic (scaledPoly par lvl c) (scaledPoly par lvl c')
  | .small v, .small v', h => by
    unfold scaledPoly
    cases par.plaintext.small with
    | none => exact Indist.panic
    | some m =>
      refine Indist.bind (Indist.public rfl) fun q q' hq => ?_
      subst hq
      exact Indist.bind (scalarMulVec_indist m h q) fun _ _ hv => Indist.unwrapT (tryFromU64_indist hv _)
theorem toPoly_indist {pt pt' : Plaintext} (h : SamePlain pt pt') (hw : WordSized pt.par pt.polyNtt.ctx) : Indist SamePublic (toPoly pt) (toPoly pt') := by
  unfold toPoly
  rw [← h.level, ← h.par]
  refine Indist.bind (Indist.public rfl) fun l _ hl => ?_
  subst hl
  refine Indist.bind (Indist.public rfl) fun lvl _ hl => ?_
  subst hl
  exact Indist.bind (coefficients_indist h hw) fun _ _ hc => Indist.bind (scaledPoly_indist _ _ _ _ hc) fun _ _ hp => Indist.bind (intoNtt_indist hp) fun _ _ hp =>
    mulAssignShoup_indist hp (SamePublic.refl _)
theorem scatter_indist : {v v' : List Nat} → SameLen v v' → (map : List Nat) → {c c' : List Nat} → SameLen c c' → Indist SameLen (scatter v map c) (scatter v' map c')
  | [], [], _, _, _, _, hc => by unfold scatter; exact Indist.branch Iff.rfl (Indist.pure hc)
  | _ :: _, _ :: _, _, [], _, _, _ => by unfold scatter; exact Indist.branch Iff.rfl Indist.panic
  | v :: vs, v' :: vs', h, i :: is, c, c', hc => by
    rw [scatter, scatter]
    exact Indist.branch Iff.rfl (Indist.bind (Indist.fetch hc.forall₂ i) fun _ _ _ => scatter_indist (by simpa [SameLen] using h) is (by simpa [SameLen] using hc))
theorem chunkCoefficients_indist {v v' : List Nat} (h : SameLen v v') (k : EncodingKind) (par : Par) :
    TIndist SameLen (chunkCoefficients v k par false) (chunkCoefficients v' k par false) := by
  cases k with
  | poly => exact TIndist.lift (copyPrefix_indist rfl h)
  | simd =>
    unfold chunkCoefficients
    refine TIndist.bind (TIndist.lift (scatter_indist h _ rfl)) fun c c' hc => ?_
    cases par.nttOperator with
    | none => exact TIndist.err _
    | some op => exact TIndist.branch Iff.rfl (TIndist.lift (backward_indist op hc))
theorem encodeU64Chunk_indist {v v' : List Nat} (h : SameLen v v') (k : EncodingKind) (par : Par) (ctx : Context) :
    TIndist SamePublic (encodeU64Chunk k par false v ctx) (encodeU64Chunk k par false v' ctx) :=
  TIndist.bind (chunkCoefficients_indist h k par) fun _ _ hc => TIndist.bind (TIndist.math (tryFromU64_indist hc ctx)) fun _ _ hp => TIndist.lift (intoNtt_indist hp)
theorem chunk_indist {v v' : List Nat} (h : SameLen v v') (d i : Nat) : Indist SameLen (chunk v d i) (chunk v' d i) := by
  have hl : v.length = v'.length := h
  refine Indist.assert (by rw [hl]) (Indist.pure ?_)
  simp [SameLen, hl]
theorem tryEncodeVec_indist {v v' : List Nat} (h : SameLen v v') (e : Encoding) (par : Par) :
    TIndist (List.Forall₂ SamePlain) (tryEncodeVec v e par false) (tryEncodeVec v' e par false) := by
  have hl : v.length = v'.length := h
  unfold tryEncodeVec
  refine TIndist.ite Iff.rfl (fun _ => TIndist.err _) fun _ => TIndist.bind (TIndist.public rfl) fun ctx _ hc => ?_
  subst hc
  refine TIndist.bind (TIndist.lift (Indist.refl (R := Eq) (fun _ => rfl) _)) fun _ _ _ => ?_
  rw [hl]
  refine TIndist.mapM (R := Eq) (fun i _ hi => ?_) (forall₂_self (fun _ => rfl) _)
  subst hi
  exact TIndist.bind (TIndist.lift (chunk_indist h _ _)) fun _ _ hc => TIndist.bind (encodeU64Chunk_indist hc _ _ _) fun _ _ hp => TIndist.pure ⟨rfl, rfl, hp⟩
theorem tryEncodeU64_indist {v v' : List Nat} (h : SameLen v v') (e : Encoding) (par : Par) :
    TIndist SamePlain (tryEncodeU64 v e par false) (tryEncodeU64 v' e par false) := by
  have hl : v.length = v'.length := h
  unfold tryEncodeU64
  rw [hl]
  refine TIndist.branch Iff.rfl ?_
  by_cases hd : v'.length > par.degree
  · simp only [hd, decide_true, if_true]; exact TIndist.err _
  · simp only [hd, decide_false, Bool.false_eq_true, if_false]
    exact TIndist.bind (tryEncodeVec_indist h e par) fun _ _ hv => TIndist.lift (Indist.fetch hv 0)
theorem tryEncodeI64_indist {v v' : List Int} (h : SameLen v v') (e : Encoding) (par : Par) (hw : par.plaintext.small ≠ none) :
    TIndist SamePlain (tryEncodeI64 v e par) (tryEncodeI64 v' e par) := by
  unfold tryEncodeI64
  cases hs : par.plaintext.small with
  | none => exact absurd hs hw
  | some m => exact TIndist.bind (TIndist.lift (reduceVecI64_indist m h)) fun _ _ hx => tryEncodeU64_indist hx e par
theorem decodeSimdU64_indist {v v' : List Nat} (h : SameLen v v') (par : Par) : TIndist SameLen (decodeSimdU64 par v) (decodeSimdU64 par v') := by
  unfold decodeSimdU64
  cases par.nttOperator with
  | none => exact TIndist.err _
  | some op =>
    refine TIndist.bind (TIndist.lift (forward_indist op h)) fun _ _ hv => TIndist.lift (Indist.mono (Indist.mapLoop (R := Eq) (S := AnyWords) (forall₂_self (fun _ => rfl) _)
      fun i _ hi => hi ▸ Indist.fetch hv.forall₂ i) fun _ _ hx => hx.length_eq)
theorem resolveEncoding_eq {pt pt' : Plaintext} (h : SamePlain pt pt') (e : Option Encoding) : pt.resolveEncoding e = pt'.resolveEncoding e := by
  unfold Plaintext.resolveEncoding
  rw [h.encoding]
theorem decodeU64_indist {pt pt' : Plaintext} (h : SamePlain pt pt') (hw : WordSized pt.par pt.polyNtt.ctx) (e : Option Encoding) :
    TIndist SameLen (decodeU64 pt e) (decodeU64 pt' e) := by
  unfold decodeU64
  rw [resolveEncoding_eq h]
  refine TIndist.bind (TIndist.public rfl) fun e _ he => ?_
  subst he
  refine TIndist.bind (TIndist.lift (coefficients_indist h hw)) fun c c' hc => ?_
  match c, c', hc with
  | .small v, .small v', hv =>
    refine TIndist.bind (TIndist.pure (R := SameLen) hv) fun v v' hv => ?_
    rw [← h.par]
    cases e.kind with
    | poly => exact TIndist.pure hv
    | simd => exact decodeSimdU64_indist hv _
theorem decodeI64_indist {pt pt' : Plaintext} (h : SamePlain pt pt') (hw : WordSized pt.par pt.polyNtt.ctx) (e : Option Encoding) :
    TIndist SameLen (decodeI64 pt e) (decodeI64 pt' e) := by
  obtain ⟨m, hm, _⟩ := id hw
  unfold decodeI64
  rw [← h.par, hm]
  exact TIndist.bind (decodeU64_indist h hw e) fun _ _ hv => TIndist.lift (centerVec_indist m hv)

theorem randomKey_indist (par : Par) (rng rng' : Nat → Nat) : Indist SameKey (randomKey par rng) (randomKey par rng') := by
  unfold randomKey
  refine Indist.bind (sampleVecCbd_indist _ _ _ _) fun x y hx => ?_
  cases hx with
  | error => exact Indist.panic
  | ok h => exact Indist.pure ⟨rfl, h.1⟩
theorem polyAt_indist {sk sk' : SecretKey} (h : SameKey sk sk') (ctx : Context) : TIndist SamePublic (polyAt sk ctx) (polyAt sk' ctx) :=
  TIndist.bind (TIndist.math (tryFromI64_indist h.coeffs ctx)) fun _ _ hp => TIndist.lift (intoNtt_indist hp)
theorem encryptPoly_indist (g : Prg) {sk sk' : SecretKey} (h : SameKey sk sk') {p p' : Poly .ntt} (hp : SamePublic p p') (seed : Seed) (rng rng' : Nat → Nat) :
    TIndist AnyWords (encryptPoly g sk p seed rng) (encryptPoly g sk' p' seed rng') := by
  unfold encryptPoly
  rw [← h.par, ← hp.ctx]
  refine TIndist.bind (TIndist.public rfl) fun _ _ _ => TIndist.bind (polyAt_indist h _) fun s s' hs => TIndist.bind (TIndist.public rfl) fun a a' ha =>
    TIndist.bind (TIndist.lift (mulAssign_indist (SamePublic.of_eq ha) hs)) fun _ _ has => TIndist.bind (TIndist.math (smallNtt_indist _ _ _ _)) fun _ _ he =>
    TIndist.bind (TIndist.lift (subAssign_indist he has)) fun _ _ hb => TIndist.bind (TIndist.lift (addAssign_indist hb hp)) fun _ _ _ => TIndist.pure trivial
theorem tryEncrypt_indist (g : Prg) {sk sk' : SecretKey} (h : SameKey sk sk') {pt pt' : Plaintext} (hp : SamePlain pt pt')
    (hw : WordSized pt.par pt.polyNtt.ctx) (seed : Seed) (rng rng' : Nat → Nat) :
    TIndist AnyWords (tryEncrypt g sk pt seed rng) (tryEncrypt g sk' pt' seed rng') := by
  unfold tryEncrypt
  rw [← h.par]
  exact TIndist.bind (TIndist.public (hp.validateFor _)) fun _ _ _ => TIndist.bind (TIndist.lift (toPoly_indist hp hw)) fun _ _ hm => encryptPoly_indist g h hm _ _ _
theorem phaseLoop_indist {s s' : Poly .ntt} (hs : SamePublic s s') : (l : List (Poly .ntt)) → {c c' si si' : Poly .ntt} → SamePublic c c' → SamePublic si si' →
    Indist SamePublic (phaseLoop s l c si) (phaseLoop s' l c' si')
  | [], _, _, _, _, hc, _ => Indist.branch Iff.rfl (Indist.pure hc)
  | ci :: rest, c, c', si, si', hc, hsi => by
    rw [phaseLoop, phaseLoop]
    refine Indist.branch Iff.rfl (Indist.bind (mulAssign_indist (SamePublic.refl _) hsi) fun _ _ hx => Indist.bind (addAssign_indist hc hx) fun _ _ hc => ?_)
    exact Indist.ite Iff.rfl (fun _ => phaseLoop_indist hs rest hc hsi) fun _ => Indist.bind (mulAssign_indist hsi hs) fun _ _ hsi => phaseLoop_indist hs rest hc hsi
theorem phase_indist {sk sk' : SecretKey} (h : SameKey sk sk') (ct : Ciphertext) : TIndist SamePublic (phase sk ct) (phase sk' ct) := by
  unfold phase
  cases ct.c with
  | nil => exact TIndist.lift Indist.panic
  | cons c0 rest => exact TIndist.bind (polyAt_indist h _) fun _ _ hs => TIndist.lift (phaseLoop_indist hs rest (SamePublic.refl _) hs)
theorem finish_indist (b : Build) (par : Par) (hw : par.plaintext.small ≠ none) {d d' : Poly .powerBasis} (h : SamePublic d d') (ctx : Context) :
    TIndist SamePublic (finish b par d ctx) (finish b par d' ctx) := by
  unfold finish
  cases hs : par.plaintext.small with
  | none => exact absurd hs hw
  | some t =>
    refine TIndist.bind (TIndist.lift (Indist.mono (Indist.mapLoop (R := AnyWords) (S := AnyWords) h.toU64.forall₂ fun _ _ _ => Indist.pure trivial) fun _ _ hx => hx.length_eq))
      fun v v' hv => TIndist.bind (TIndist.lift (prefixOf_indist hv _)) fun w w' hw => TIndist.bind (TIndist.public rfl) fun q0 _ hq => ?_
    subst hq
    refine TIndist.bind (TIndist.public rfl) fun x _ hx => ?_
    subst hx
    rcases x with _ | q
    · exact TIndist.err _
    · exact TIndist.bind (TIndist.lift (reduceVec_indist q hw)) fun _ _ hw => TIndist.bind (TIndist.lift (reduceVec_indist t hw)) fun _ _ hw =>
        TIndist.bind (TIndist.math (tryFromU64_indist hw ctx)) fun _ _ hp => TIndist.lift (intoNtt_indist hp)

theorem newPublicKey_indist (g : Prg) {sk sk' : SecretKey} (h : SameKey sk sk') (seed : Seed) (rng rng' : Nat → Nat)
    (hw : ∀ pt, Plaintext.zero ⟨.poly, 0⟩ sk.par = Res.ok pt → WordSized pt.par pt.polyNtt.ctx) :
    Indist AnyWords (newPublicKey g sk seed rng) (newPublicKey g sk' seed rng') := by
  unfold newPublicKey
  rw [← h.par]
  refine Indist.bind' (Indist.public rfl) fun z _ h1 _ hz => ?_
  subst hz
  have hz : Plaintext.zero ⟨.poly, 0⟩ sk.par = Res.ok z := by
    change (Plaintext.zero ⟨.poly, 0⟩ sk.par).unwrap = some z at h1
    rcases Res.cases (Plaintext.zero ⟨.poly, 0⟩ sk.par) with ⟨a, h'⟩ | ⟨e, h'⟩ | h' <;> rw [h'] at h1 ⊢
    · cases h1; rfl
    · cases h1
    · cases h1
  exact Indist.bind (Indist.unwrapT (tryEncrypt_indist g h ⟨rfl, rfl, SamePublic.refl _⟩ (hw z hz) seed _ _)) fun _ _ _ => Indist.pure trivial
theorem pkEncrypt_indist (pk : PublicKey) {pt pt' : Plaintext} (h : SamePlain pt pt') (hw : WordSized pt.par pt.polyNtt.ctx)
    (rngU rng1 rng2 rngU' rng1' rng2' : Nat → Nat) : TIndist AnyWords (pkEncrypt pk pt rngU rng1 rng2) (pkEncrypt pk pt' rngU' rng1' rng2') := by
  unfold pkEncrypt
  refine TIndist.bind (TIndist.public (h.validateFor _)) fun _ _ _ => TIndist.bind (TIndist.public rfl) fun _ _ _ => TIndist.bind (TIndist.public (by rw [h.level])) fun l _ hl => ?_
  subst hl
  refine TIndist.ite Iff.rfl (fun _ => TIndist.bind (TIndist.public rfl) fun _ _ hm => hm ▸ TIndist.err _) fun _ => TIndist.bind (TIndist.public rfl) fun ct _ hc => ?_
  subst hc
  refine TIndist.bind (TIndist.public rfl) fun ctx _ hc => ?_
  subst hc
  exact TIndist.bind (TIndist.math (smallNtt_indist _ _ _ _)) fun _ _ hu => TIndist.bind (TIndist.math (smallNtt_indist _ _ _ _)) fun _ _ h1 =>
    TIndist.bind (TIndist.math (smallNtt_indist _ _ _ _)) fun _ _ h2 => TIndist.bind (TIndist.lift (toPoly_indist h hw)) fun _ _ hm =>
    TIndist.bind (TIndist.public rfl) fun _ _ h0 => TIndist.bind (TIndist.lift (mulAssign_indist hu (SamePublic.of_eq h0))) fun _ _ hc =>
    TIndist.bind (TIndist.lift (addAssign_indist hc h1)) fun _ _ hc => TIndist.bind (TIndist.lift (addAssign_indist hc hm)) fun _ _ hc =>
    TIndist.bind (TIndist.public rfl) fun _ _ hq => TIndist.bind (TIndist.lift (mulAssign_indist hu (SamePublic.of_eq hq))) fun _ _ hd =>
    TIndist.bind (TIndist.lift (addAssign_indist hd h2)) fun _ _ hd => TIndist.pure trivial

theorem publicKeyShare_indist {sk sk' : SecretKey} (h : SameKey sk sk') (crp : CommonRandomPoly) (rng rng' : Nat → Nat) :
    TIndist AnyWords (publicKeyShare sk crp rng) (publicKeyShare sk' crp rng') := by
  unfold publicKeyShare
  rw [← h.par]
  refine TIndist.bind (TIndist.public rfl) fun ctx _ hc => ?_
  subst hc
  exact TIndist.bind (polyAt_indist h _) fun _ _ hs => TIndist.bind (TIndist.math (smallNtt_indist _ _ _ _)) fun _ _ he =>
    TIndist.bind (TIndist.lift (polyNeg_indist (SamePublic.refl _))) fun _ _ hp => TIndist.bind (TIndist.lift (mulAssign_indist hp.disallowVt hs)) fun _ _ hp =>
    TIndist.bind (TIndist.lift (addAssign_indist hp he)) fun _ _ _ => TIndist.pure trivial
theorem publicKeySwitchShare_indist {sk sk' : SecretKey} (h : SameKey sk sk') (pk : PublicKey) (ct : Ciphertext) (rngU rng0 rng1 rngU' rng0' rng1' : Nat → Nat) :
    TIndist AnyWords (publicKeySwitchShare sk pk ct rngU rng0 rng1) (publicKeySwitchShare sk' pk ct rngU' rng0' rng1') := by
  unfold publicKeySwitchShare
  rw [← h.par]
  refine TIndist.ite Iff.rfl (fun _ => TIndist.err _) fun _ => TIndist.ite Iff.rfl (fun _ => TIndist.err _) fun _ => TIndist.bind (TIndist.public rfl) fun pc _ hc => ?_
  subst hc
  refine TIndist.bind (TIndist.public rfl) fun ctx _ hc => ?_
  subst hc
  exact TIndist.bind (polyAt_indist h _) fun _ _ hs => TIndist.bind (TIndist.math (smallNtt_indist _ _ _ _)) fun _ _ hu =>
    TIndist.bind (TIndist.math (smallNtt_indist _ _ _ _)) fun _ _ h0 => TIndist.bind (TIndist.math (smallNtt_indist _ _ _ _)) fun _ _ h1 =>
    TIndist.bind (TIndist.public rfl) fun _ _ hh => TIndist.bind (TIndist.lift (mulAssign_indist (SamePublic.of_eq hh).disallowVt hu)) fun _ _ hh =>
    TIndist.bind (TIndist.public rfl) fun _ _ hx => TIndist.bind (TIndist.lift (mulAssign_indist hs.disallowVt (SamePublic.of_eq hx))) fun _ _ hs =>
    TIndist.bind (TIndist.lift (addAssign_indist hh hs)) fun _ _ hh => TIndist.bind (TIndist.lift (addAssign_indist hh h0)) fun _ _ hh =>
    TIndist.bind (TIndist.public rfl) fun _ _ hk => TIndist.bind (TIndist.lift (mulAssign_indist (SamePublic.of_eq hk).disallowVt hu)) fun _ _ hk =>
    TIndist.bind (TIndist.lift (addAssign_indist hk h1)) fun _ _ hk => TIndist.bind (TIndist.public rfl) fun _ _ _ => TIndist.pure trivial
theorem secretKeySwitchShare_indist {sk sk' sk2 sk2' : SecretKey} (h : SameKey sk sk') (h2 : SameKey sk2 sk2') (ct : Ciphertext) (rng rng' : Nat → Nat) :
    TIndist AnyWords (secretKeySwitchShare sk sk2 ct rng) (secretKeySwitchShare sk' sk2' ct rng') := by
  unfold secretKeySwitchShare
  rw [← h.par, ← h2.par]
  refine TIndist.ite Iff.rfl (fun _ => TIndist.err _) fun _ => TIndist.ite Iff.rfl (fun _ => TIndist.err _) fun _ => TIndist.ite Iff.rfl (fun _ => TIndist.err _) fun _ =>
    TIndist.bind (TIndist.public rfl) fun c0 _ hc => ?_
  subst hc
  exact TIndist.bind (TIndist.public rfl) fun c1 _ hc => TIndist.bind (polyAt_indist h _) fun _ _ hs => TIndist.bind (polyAt_indist h2 _) fun _ _ ht =>
    TIndist.bind (TIndist.math (smallNtt_indist _ _ _ _)) fun _ _ he => TIndist.bind (TIndist.lift (subAssign_indist hs ht)) fun _ _ hh =>
    TIndist.bind (TIndist.lift (mulAssign_indist hh.disallowVt (SamePublic.of_eq hc))) fun _ _ hh => TIndist.bind (TIndist.lift (addAssign_indist hh he)) fun _ _ _ =>
    TIndist.pure trivial
theorem decryptionShare_indist {sk sk' : SecretKey} (h : SameKey sk sk') (ct : Ciphertext) (rng rng' : Nat → Nat) :
    TIndist AnyWords (decryptionShare sk ct rng) (decryptionShare sk' ct rng') := by
  have hz : SameKey { par := sk.par, coeffs := List.replicate sk.par.degree 0 } { par := sk'.par, coeffs := List.replicate sk'.par.degree 0 } :=
    ⟨h.par, by rw [h.par]; rfl⟩
  have := secretKeySwitchShare_indist h hz ct rng rng'
  unfold decryptionShare
  exact TIndist.bind this fun _ _ _ => TIndist.pure trivial
theorem relinKeyGenerator_indist {sk sk' : SecretKey} (h : SameKey sk sk') (crp : List CommonRandomPoly) (rng rng' : Nat → Nat) :
    TIndist SameGenerator (relinKeyGenerator sk crp rng) (relinKeyGenerator sk' crp rng') := by
  unfold relinKeyGenerator
  rw [← h.par]
  refine TIndist.bind (TIndist.public rfl) fun ctx _ hc => ?_
  subst hc
  exact TIndist.ite Iff.rfl (fun _ => TIndist.err _) fun _ => TIndist.ite Iff.rfl (fun _ => TIndist.err _) fun _ =>
    TIndist.bind (TIndist.math (smallNtt_indist _ _ _ _)) fun _ _ hu => TIndist.pure ⟨h, rfl, hu⟩
theorem generateH0_indist (b : Build) {sk sk' : SecretKey} (h : SameKey sk sk') (crp : List CommonRandomPoly) {u u' : Poly .ntt} (hu : SamePublic u u')
    (rngs rngs' : Nat → Nat → Nat) : TIndist AnyWords (generateH0 b sk crp u rngs) (generateH0 b sk' crp u' rngs') := by
  unfold generateH0
  rw [← h.par]
  refine TIndist.bind (TIndist.public rfl) fun ctx _ hc => ?_
  subst hc
  refine TIndist.bind (polyAt_indist h _) fun s s' hs => TIndist.bind (TIndist.public rfl) fun ms _ hm => ?_
  subst hm
  refine TIndist.bind (TIndist.public rfl) fun rns _ hr => ?_
  subst hr
  refine TIndist.mono (TIndist.mapM (R := Eq) (S := SamePublic) (fun x _ hx => ?_) (forall₂_self (fun _ => rfl) _)) fun _ _ _ => trivial
  subst hx
  refine TIndist.bind (TIndist.public rfl) fun w _ hw => ?_
  subst hw
  exact TIndist.bind (TIndist.lift (mulScalar_indist hs w)) fun _ _ hws => TIndist.bind (TIndist.math (smallNtt_indist _ _ _ _)) fun _ _ he =>
    TIndist.bind (TIndist.lift (polyNeg_indist (SamePublic.refl _))) fun _ _ hh => TIndist.bind (TIndist.lift (mulAssign_indist hh.disallowVt hu)) fun _ _ hh =>
    TIndist.bind (TIndist.lift (addAssign_indist hh hws)) fun _ _ hh => TIndist.lift (addAssign_indist hh he)
theorem generateH1_indist {sk sk' : SecretKey} (h : SameKey sk sk') (crp : List CommonRandomPoly) (rngs rngs' : Nat → Nat → Nat) :
    TIndist AnyWords (generateH1 sk crp rngs) (generateH1 sk' crp rngs') := by
  unfold generateH1
  rw [← h.par]
  refine TIndist.bind (TIndist.public rfl) fun ctx _ hc => ?_
  subst hc
  refine TIndist.bind (polyAt_indist h _) fun s s' hs => ?_
  refine TIndist.mono (TIndist.mapM (R := Eq) (S := SamePublic) (fun x _ hx => ?_) (forall₂_self (fun _ => rfl) _)) fun _ _ _ => trivial
  subst hx
  exact TIndist.bind (TIndist.math (smallNtt_indist _ _ _ _)) fun _ _ he => TIndist.bind (TIndist.lift (mulAssign_indist (SamePublic.refl _) hs)) fun _ _ hh =>
    TIndist.lift (addAssign_indist hh he)
theorem round1_indist (b : Build) {g g' : RelinKeyGenerator} (h : SameGenerator g g') (rngs0 rngs1 rngs0' rngs1' : Nat → Nat → Nat) :
    TIndist AnyWords (round1 b g rngs0 rngs1) (round1 b g' rngs0' rngs1') := by
  unfold round1
  rw [← h.sk.par, ← h.crp]
  refine TIndist.bind (TIndist.public rfl) fun ctx _ hc => ?_
  subst hc
  exact TIndist.ite Iff.rfl (fun _ => TIndist.err _) fun _ => TIndist.bind (generateH0_indist b h.sk _ h.u _ _) fun _ _ _ => TIndist.bind (generateH1_indist h.sk _ _ _) fun _ _ _ =>
    TIndist.pure trivial
theorem generate2_indist (ctx : Context) (variance : Nat) {f f' : Poly .ntt} (hf : SamePublic f f') (r1 : List (Poly .ntt)) (rngs rngs' : Nat → Nat → Nat) :
    TIndist AnyWords (generate2 ctx variance f r1 rngs) (generate2 ctx variance f' r1 rngs') := by
  refine TIndist.mono (TIndist.mapM (R := Eq) (S := SamePublic) (fun x _ hx => ?_) (forall₂_self (fun _ => rfl) _)) fun _ _ _ => trivial
  subst hx
  exact TIndist.bind (TIndist.math (smallNtt_indist _ _ _ _)) fun _ _ he => TIndist.bind (TIndist.lift (mulAssign_indist (SamePublic.refl _) hf)) fun _ _ hh =>
    TIndist.lift (addAssign_indist hh he)
theorem round2_indist {g g' : RelinKeyGenerator} (h : SameGenerator g g') (r1 : RelinKeyShare) (rngs0 rngs1 rngs0' rngs1' : Nat → Nat → Nat) :
    TIndist AnyWords (round2 g r1 rngs0 rngs1) (round2 g' r1 rngs0' rngs1') := by
  unfold round2
  rw [← h.sk.par]
  refine TIndist.bind (TIndist.public rfl) fun ctx _ hc => ?_
  subst hc
  exact TIndist.bind (polyAt_indist h.sk _) fun _ _ hs => TIndist.bind (generate2_indist _ _ hs _ _ _) fun _ _ _ => TIndist.bind (TIndist.lift (subAssign_indist h.u hs)) fun _ _ hu =>
    TIndist.bind (generate2_indist _ _ hu _ _ _) fun _ _ _ => TIndist.pure trivial

end Fhe.Release
