import Verif.Lemmas.TimedBfv
import Verif.Lemmas.BfvRelin
/-!
# Traces of decryption and of the generation of key-switching keys
-/
namespace Fhe.Release
open IntPoly Poly RnsScaler Nega
variable {α β γ δ : Type}

/-! ## Decryption -/

theorem run_tpublic {x : Res α} {a : α} (h : (tpublic x).run.result = some (.ok a)) : x = Res.ok a := h

theorem tryDecrypt_indist (b : Build) {sk sk' : SecretKey} (h : SameKey sk sk') (ct : Ciphertext) (hw : sk.par.plaintext.small ≠ none)
    (hs : decryptionSigns sk ct = decryptionSigns sk' ct) : TIndist SamePlain (tryDecrypt b sk ct) (tryDecrypt b sk' ct) := by
  unfold decryptionSigns at hs
  unfold tryDecrypt
  rw [← h.par] at hs ⊢
  refine TIndist.bind (TIndist.public rfl) fun _ _ _ => TIndist.bind' (phase_indist h ct) fun c c' hc h1 h2 => ?_
  refine TIndist.bind' (TIndist.public rfl) fun lvl lvl' hl h3 _ => ?_
  subst hl
  have h3 := run_tpublic h3
  refine TIndist.bind' (TIndist.lift (nttToPowerBasis_indist hc)) fun p p' hp h4 h5 => ?_
  have lift_result : ∀ {t : Timed (Poly .powerBasis)} {x}, (tlift t).run.result = some (.ok x) → t.result = some x := by
    intro t x hx
    change (t >>= _).result = _ at hx
    cases ht : t.result with
    | none => rw [bind_none ht] at hx; cases hx
    | some y => rw [bind_some ht] at hx; cases hx; rfl
  have h4 := lift_result h4
  have h5 := lift_result h5
  have h3 : sk.par.contextLevelAt ct.level = some (Except.ok lvl) := h3
  rw [h1, h2, h3] at hs
  change (match (nttToPowerBasis c).result with | some p => signs lvl.cp.scaler p | none => []) =
    (match (nttToPowerBasis c').result with | some p => signs lvl.cp.scaler p | none => []) at hs
  rw [h4, h5] at hs
  refine TIndist.bind (TIndist.math (scale_indist _ hp (Or.inr hs))) fun d d' hd => TIndist.bind (TIndist.public rfl) fun ctx _ he => ?_
  subst he
  exact TIndist.bind (finish_indist b _ hw hd ctx) fun _ _ hq => TIndist.pure ⟨rfl, rfl, hq⟩

/-! ## Exact scaling -/

theorem sumThetaOmega_zero : (los his : List Nat) → (∀ x ∈ los, x = 0) → (∀ x ∈ his, x = 0) → (sg : List Bool) → (rests : List Nat) →
    (sumThetaOmega los his sg rests 0).result = some 0
  | [], _, _, _, _, _ => by unfold sumThetaOmega; rfl
  | _ :: _, [], _, _, _, _ => by unfold sumThetaOmega; rfl
  | _ :: _, _ :: _, _, _, [], _ => by unfold sumThetaOmega; rfl
  | _ :: _, _ :: _, _, _, _ :: _, [] => by unfold sumThetaOmega; rfl
  | lo :: los, hi :: his, hl, hh, sg :: sgs, r :: rests => by
    have e1 : lo = 0 := hl _ (by simp)
    have e2 : hi = 0 := hh _ (by simp)
    subst e1 e2
    have ih := sumThetaOmega_zero los his (fun x hx => hl x (by simp [hx])) (fun x hx => hh x (by simp [hx])) sgs rests
    have hj : r * joinWords 0 0 % 2 ^ 256 = 0 := by simp [joinWords]
    rw [sumThetaOmega, branch_bind]
    simp only [hj, branch_bind]
    cases sg
    · exact ih
    · exact ih

theorem wNegative_zero {s : RnsScaler} (h1 : ∀ x ∈ s.thetaOmegaLo, x = 0) (h2 : ∀ x ∈ s.thetaOmegaHi, x = 0) (h3 : joinWords s.thetaGammaLo s.thetaGammaHi = 0)
    (rests : List Nat) : wNegative s rests = false := by
  unfold wNegative
  cases h : (wSum s rests).result with
  | none => rfl
  | some x =>
    have hx : x.2 = 0 := by
      unfold wSum at h
      rw [h3] at h
      cases e1 : (sumThetaGarner s.thetaGarnerLo s.thetaGarnerHi rests 0).result with
      | none => rw [bind_none e1] at h; cases h
      | some y =>
        rw [bind_some e1] at h
        cases e2 : (roundV y s.thetaGarnerShift).result with
        | none => rw [bind_none e2] at h; cases h
        | some v =>
          rw [bind_some e2, branch_bind] at h
          rw [bind_some (sumThetaOmega_zero _ _ h1 h2 _ _), branch_bind] at h
          change some _ = some x at h
          have := (Option.some_inj.1 h).symm
          rw [this]
          cases s.thetaGammaSign <;> simp [wadd256, wsub256]
    simp [hx]

theorem theta_zero {up : Bool} {n d a : Nat} (hd : 0 < d) (h : d ∣ n) : RnsScaler.theta up n d a = 0 := by
  have h0 : n * a % d = 0 := Nat.mod_eq_zero_of_dvd (h.mul_right a)
  have hs : signedRemainder (n * a) d = (0, false) := by
    unfold signedRemainder
    rw [h0]
    simp only [Nat.shiftRight_eq_div_pow, pow_one]
    split
    · split
      · rw [if_neg (by omega)]
      · rw [if_neg (by omega)]
    · rfl
  unfold RnsScaler.theta
  rw [hs]
  cases up
  · simp
  · simp only [if_true, Bool.false_eq_true, if_false]
    rw [Nat.zero_shiftLeft, Nat.zero_add]
    exact Nat.div_eq_of_lt (by omega)

variable {b : Build} {n : Nat} {par : Par} {i j : Nat} {l l' : ContextLevel} {c : Context} {vt vt' : Bool}

/-- Switching up multiplies by an integer: no sign is revealed. -/
theorem switcher_signs (hk : par.moduli.length ≤ 64) (ha : AtLevel b n par i l) (ha' : AtLevel b n par j l') {P : Nat}
    (hP : l.ctx.modulus = P * l'.ctx.modulus) {S : Scaler} (hS : switcherNew l'.ctx l.ctx = some (.ok S)) {p p' : Poly .powerBasis}
    (h : SamePublic p p') : signs S p = signs S p' := by
  have h0 := ha'.wf.neZero
  have hpos : 0 < l'.ctx.modulus := NeZero.pos _
  have hneg : ∀ rests, wNegative S.scaler rests = false := by
    obtain ⟨F, hF⟩ : ∃ F, ScalingFactor.new l.ctx.modulus l'.ctx.modulus = some F ∧ F.numerator = l.ctx.modulus ∧ F.denominator = l'.ctx.modulus := by
      unfold ScalingFactor.new
      rw [check_eq (by omega)]
      exact ⟨_, rfl, rfl, rfl⟩
    obtain ⟨hF, hn, hd⟩ := hF
    have hlen := ha'.length
    obtain ⟨sc, sh, e1, e2⟩ := RnsScaler.new_eq (f := F) ha'.wf.level.rns ha.wf.level.rns (by omega) (by rw [ha'.wf.level.rns_moduli]; omega)
    unfold switcherNew Scaler.new at hS
    rw [hF] at hS
    simp only [Option.bind_eq_bind, Option.bind_some] at hS
    rw [if_neg (by rw [ha.deg, ha'.deg]; simp), e1] at hS
    simp only [Option.bind_some, Option.pure_def, Option.some.injEq, Except.ok.injEq] at hS
    have hsc : S.scaler = sc := by rw [← hS]
    rw [hsc]
    have hdv : F.denominator ∣ F.numerator := by rw [hn, hd, hP]; exact Dvd.intro_left _ rfl
    have hd0 : 0 < F.denominator := by omega
    refine wNegative_zero ?_ ?_ ?_
    · rw [e2.thetaOmegaLo]
      intro x hx
      obtain ⟨g, _, rfl⟩ := List.mem_map.1 hx
      rw [theta_zero hd0 hdv]; rfl
    · rw [e2.thetaOmegaHi]
      intro x hx
      obtain ⟨g, _, rfl⟩ := List.mem_map.1 hx
      rw [theta_zero hd0 hdv]; rfl
    · rw [e2.thetaGamma, theta_zero hd0 hdv]
  have hc := (columns_indist h).2
  unfold signs
  rw [show (wNegative S.scaler) = fun _ => false from funext hneg]
  generalize (columns p).result = x at hc
  generalize (columns p').result = y at hc
  cases hc with
  | none => rfl
  | some h => simp only [List.map_const']; rw [h.length_eq]

/-! ## Key-switching keys -/

theorem results_mapM {f f' : α → Res β} {t t' : α → TRes β} (h : ∀ x y, f x = Res.ok y → f' x = Res.ok y → TIndist Eq (t x) (t' x)) :
    (l : List α) → {ys : List β} → l.mapM f = Res.ok ys → l.mapM f' = Res.ok ys → TIndist Eq (tmapM t l) (tmapM t' l)
  | [], _, _, _ => TIndist.branch Iff.rfl (TIndist.pure rfl)
  | x :: l, ys, h1, h2 => by
    rw [List.mapM_cons, Res.bind_eq_ok] at h1 h2
    obtain ⟨y, e1, h1⟩ := h1
    obtain ⟨y', e1', h2⟩ := h2
    rw [Res.bind_eq_ok] at h1 h2
    obtain ⟨zs, e2, h1⟩ := h1
    obtain ⟨zs', e2', h2⟩ := h2
    rw [Res.pure_eq] at h1 h2
    have h1 := Res.ok_inj.1 h1
    have h2 := Res.ok_inj.1 h2
    rw [← h1] at h2
    simp only [List.cons.injEq] at h2
    obtain ⟨rfl, rfl⟩ := h2
    exact TIndist.branch Iff.rfl (TIndist.bind (h x _ e1 e1') fun _ _ hx => TIndist.bind (results_mapM h l e2 e2') fun _ _ hy =>
      TIndist.pure (by rw [hx, hy]))

variable {s s' : IntPoly par.degree} {sk sk' : SecretKey}

theorem masked_eq (hw : ParWF b n par.toBfvParameters) (h : c.WF b n) (hN : c.degree = par.degree) (hk : sk.IsKey par s) (F B : IntPoly par.degree) (gi : Nat)
    {rng : Nat → Nat} (hr : IsStream rng) : ∃ (G : IntPoly par.degree) (v : Bool),
      masked sk (encI c .ntt false s) (encI c .powerBasis vt F) (encI c .nttShoup vt' B) gi rng = Res.ok (encI c .powerBasis v G) := by
  obtain ⟨e, he, hs⟩ := small_encI hw.variance.1 hw.variance.2 hr par.degree
  refine ⟨e - B * s + C (gi : Int) * F, false && (false && false) && vt, ?_⟩
  unfold masked
  rw [show (encI c .nttShoup vt' B).shoupToNtt = some (encI c .ntt vt' B) from rfl, Res.lift_some, Res.ok_bind, disallowVt_encI, mulAssign_encI h hN, Res.lift_some, Res.ok_bind,
    nttToPowerBasis_encI h, Res.lift_some, Res.ok_bind, ctx_encI, hk.par_eq, (hs h hN).1, Res.math_ok, Res.ok_bind, subAssign_encI h hN (by simp), Res.lift_some, Res.ok_bind,
    mulScalar_encI h hN (by simp), Res.lift_some, Res.ok_bind, addAssign_encI h hN (by simp), Res.lift_some]

theorem maskedPart_indist (hk : SameKey sk sk') {s s' : Poly .ntt} (hs : SamePublic s s') {f f' : Poly .powerBasis} (hf : SamePublic f f') (c1i : Poly .nttShoup) (gi : Nat)
    (rng rng' : Nat → Nat) : TIndist SamePublic (maskedPart sk s f c1i gi rng) (maskedPart sk' s' f' c1i gi rng') := by
  unfold maskedPart
  rw [← hk.par]
  refine TIndist.bind (TIndist.lift (shoupToNtt_indist (SamePublic.refl _))) fun _ _ ha => TIndist.bind (TIndist.lift (mulAssign_indist ha.disallowVt hs)) fun _ _ ha =>
    TIndist.bind (TIndist.lift (nttToPowerBasis_indist ha)) fun x y ha => ?_
  rw [← ha.ctx]
  exact TIndist.bind (TIndist.math (smallPowerBasis_indist _ _ _ _)) fun _ _ hb => TIndist.bind (TIndist.lift (subAssign_indist hb ha)) fun _ _ hb =>
    TIndist.bind (TIndist.lift (mulScalar_indist hf gi)) fun _ _ hg => TIndist.lift (addAssign_indist hb hg)

/-- A part of a key-switching key: all that is revealed is the part itself. -/
theorem component_indist (hw : ParWF b n par.toBfvParameters) (h : c.WF b n) (hN : c.degree = par.degree) (hk : sk.IsKey par s) (hk' : sk'.IsKey par s')
    (hsk : SameKey sk sk') (hs : SamePublic (encI c .ntt false s) (encI c .ntt false s')) {F F' : IntPoly par.degree}
    (hF : SamePublic (encI c .powerBasis vt F) (encI c .powerBasis vt F')) (B : IntPoly par.degree) (gi : Nat) {rng rng' : Nat → Nat} (hr : IsStream rng) (hr' : IsStream rng')
    {y : Poly .nttShoup}
    (h1 : KeySwitchingKey.component sk (encI c .ntt false s) (encI c .powerBasis vt F) (encI c .nttShoup vt' B) gi rng = Res.ok y)
    (h2 : KeySwitchingKey.component sk' (encI c .ntt false s') (encI c .powerBasis vt F') (encI c .nttShoup vt' B) gi rng' = Res.ok y) :
    TIndist Eq (component sk (encI c .ntt false s) (encI c .powerBasis vt F) (encI c .nttShoup vt' B) gi rng)
      (component sk' (encI c .ntt false s') (encI c .powerBasis vt F') (encI c .nttShoup vt' B) gi rng') := by
  obtain ⟨G, v, hG⟩ := masked_eq (vt := vt) (vt' := vt') hw h hN hk F B gi hr
  obtain ⟨G', v', hG'⟩ := masked_eq (vt := vt) (vt' := vt') hw h hN hk' F' B gi hr'
  rw [component_masked, hG, Res.ok_bind, allowVt_encI, intoNttShoup_encI h, Res.lift_some] at h1
  rw [component_masked, hG', Res.ok_bind, allowVt_encI, intoNttShoup_encI h, Res.lift_some] at h2
  have hy := (Res.ok_inj.1 h1).trans (Res.ok_inj.1 h2).symm
  have e1 : (encI c .nttShoup true G).shoupToPowerBasis = some (encI c .powerBasis true G) := shoupToPowerBasis_enc h _
  have e2 : (encI c .nttShoup true G').shoupToPowerBasis = some (encI c .powerBasis true G') := shoupToPowerBasis_enc h _
  have he : encI c .powerBasis true G = encI c .powerBasis true G' := by rw [hy, e2] at e1; exact (Option.some_inj.1 e1).symm
  refine TIndist.bind' (maskedPart_indist hsk hs hF _ _ _ _) fun p p' _ r1 r2 => ?_
  have a1 := maskedPart_agrees sk (encI c .ntt false s) (encI c .powerBasis vt F) (encI c .nttShoup vt' B) gi rng (.ok _) (by rw [hG]; rfl)
  have a2 := maskedPart_agrees sk' (encI c .ntt false s') (encI c .powerBasis vt F') (encI c .nttShoup vt' B) gi rng' (.ok _) (by rw [hG']; rfl)
  have b1 : p = encI c .powerBasis v G := by
    have := r1.symm.trans a1
    simpa using this
  have b2 : p' = encI c .powerBasis v' G' := by
    have := r2.symm.trans a2
    simpa using this
  rw [b1, b2, allowVt_encI, allowVt_encI, he]
  exact TIndist.lift (Indist.refl (fun _ => rfl) _)

theorem polyAt_results (hk : sk.IsKey par s) (h : c.WF b n) (hN : c.degree = par.degree) {p : Poly .ntt} (hp : (polyAt sk c).run.result = some (.ok p)) :
    p = encI c .ntt false s := by
  have := polyAt_agrees sk c (.ok _) (by rw [SecretKey.polyAt_encI hk h hN]; rfl)
  simpa using hp.symm.trans this

theorem components_indist (hw : ParWF b n par.toBfvParameters) (h : c.WF b n) (hN : c.degree = par.degree) (hk : sk.IsKey par s) (hk' : sk'.IsKey par s')
    (hsk : SameKey sk sk') (hs : SamePublic (encI c .ntt false s) (encI c .ntt false s')) {F F' : IntPoly par.degree}
    (hF : SamePublic (encI c .powerBasis vt F) (encI c .powerBasis vt F')) {f : Nat → Panics Nat} {rngs rngs' : Nat → Nat → Nat} (hr : ∀ i, IsStream (rngs i)) (hr' : ∀ i, IsStream (rngs' i)) :
    {c1 : List (Poly .nttShoup)} → {B : List (IntPoly par.degree)} → {off : Nat} → SParts c c1 B → {c0 : List (Poly .nttShoup)} →
    ((c1.zipIdx off).mapM fun x => do KeySwitchingKey.component sk (encI c .ntt false s) (encI c .powerBasis vt F) x.1 (← lift (f x.2)) (rngs x.2)) = Res.ok c0 →
    ((c1.zipIdx off).mapM fun x => do KeySwitchingKey.component sk' (encI c .ntt false s') (encI c .powerBasis vt F') x.1 (← lift (f x.2)) (rngs' x.2)) = Res.ok c0 →
    TIndist Eq (tmapM (fun x => do component sk (encI c .ntt false s) (encI c .powerBasis vt F) x.1 (← tpublic (lift (f x.2))) (rngs x.2)) (c1.zipIdx off))
      (tmapM (fun x => do component sk' (encI c .ntt false s') (encI c .powerBasis vt F') x.1 (← tpublic (lift (f x.2))) (rngs' x.2)) (c1.zipIdx off))
  | _, _, _, .nil, _, _, _ => TIndist.branch Iff.rfl (TIndist.pure rfl)
  | _, _, off, .cons (b := β) (l₁ := c1) ⟨v, rfl⟩ hrest, c0, h1, h2 => by
    rw [List.zipIdx_cons, List.mapM_cons, Res.bind_eq_ok] at h1 h2
    obtain ⟨y, e1, h1⟩ := h1
    obtain ⟨y', e1', h2⟩ := h2
    rw [Res.bind_eq_ok] at h1 h2
    obtain ⟨zs, e2, h1⟩ := h1
    obtain ⟨zs', e2', h2⟩ := h2
    rw [Res.pure_eq] at h1 h2
    have h1 := Res.ok_inj.1 h1
    have h2 := Res.ok_inj.1 h2
    rw [← h1] at h2
    simp only [List.cons.injEq] at h2
    obtain ⟨hy, hz⟩ := h2
    rw [hy] at e1'
    rw [hz] at e2'
    rw [List.zipIdx_cons, tmapM, tmapM]
    refine TIndist.branch Iff.rfl (TIndist.bind (R := Eq) (TIndist.bind' (TIndist.public rfl) fun gi gi' hg r1 _ => ?_) fun _ _ hx =>
      TIndist.bind (components_indist hw h hN hk hk' hsk hs hF hr hr' hrest e2 e2') fun _ _ hy => TIndist.pure (by rw [hx, hy]))
    subst hg
    have r1 := run_tpublic r1
    rw [r1, Res.ok_bind] at e1 e1'
    exact component_indist hw h hN hk hk' hsk hs hF β gi (hr _) (hr' _) e1 e1'

theorem keyOf (hk : sk.IsKey par s) (hk' : sk'.IsKey par s') (h : c.WF b n) (hN : c.degree = par.degree) (hsk : SameKey sk sk') :
    SamePublic (encI c .ntt false s) (encI c .ntt false s') := by
  have h1 := polyAt_agrees sk c (.ok _) (by rw [SecretKey.polyAt_encI hk h hN]; rfl)
  have h2 := polyAt_agrees sk' c (.ok _) (by rw [SecretKey.polyAt_encI hk' h hN]; rfl)
  have := (polyAt_indist hsk c).2
  rw [h1, h2] at this
  cases this with
  | some h => cases h with
    | ok h => exact h

theorem newKsk_indist (hw : ParWF b n par.toBfvParameters) (hk : sk.IsKey par s) (hk' : sk'.IsKey par s') (hsk : SameKey sk sk') {g : Prg} (hg : g.OK)
    (ha : AtLevel b n par i l) (ha' : AtLevel b n par j l') {F F' : IntPoly par.degree}
    (hF : SamePublic (encI l'.ctx .powerBasis vt F) (encI l'.ctx .powerBasis vt F')) (seed : Seed) {rngs rngs' : Nat → Nat → Nat}
    (hr : ∀ i, IsStream (rngs i)) (hr' : ∀ i, IsStream (rngs' i)) {k : KeySwitchingKey}
    (h1 : KeySwitchingKey.new b g sk (encI l'.ctx .powerBasis vt F) i j seed rngs = Res.ok k)
    (h2 : KeySwitchingKey.new b g sk' (encI l'.ctx .powerBasis vt F') i j seed rngs' = Res.ok k) :
    TIndist Eq (newKsk b g sk (encI l'.ctx .powerBasis vt F) i j seed rngs) (newKsk b g sk' (encI l'.ctx .powerBasis vt F') i j seed rngs') := by
  have hs := keyOf hk hk' ha'.wf ha'.deg hsk
  unfold KeySwitchingKey.new at h1 h2
  unfold newKsk
  simp only [] at h1 h2 ⊢
  rw [hk.par_eq] at h1 ⊢
  rw [hk'.par_eq] at h2 ⊢
  rw [ha'.contextAt, Res.ok_bind, ha.contextAt, Res.ok_bind, if_neg (by simp [ctx_encI])] at h1 h2
  refine TIndist.bind' (TIndist.public rfl) fun ck _ he r1 _ => ?_
  subst he
  have r1 := run_tpublic r1
  rw [ha'.contextAt] at r1
  have r1 := Res.ok_inj.1 r1
  subst r1
  refine TIndist.bind' (TIndist.public rfl) fun cc _ he r1 _ => ?_
  subst he
  have r1 := run_tpublic r1
  rw [ha.contextAt] at r1
  have r1 := Res.ok_inj.1 r1
  subst r1
  simp only [ctx_encI, ne_eq, not_true, if_false]
  have hgen : ∀ (size : Nat) (c1 : List (Poly .nttShoup)), KeySwitchingKey.generateC1 g l'.ctx seed size = some c1 → ∃ B : List (IntPoly par.degree), SParts l'.ctx c1 B := by
    intro size c1 h
    obtain ⟨d1, B, e1, e2, -⟩ := KeySwitchingKey.generateC1_eq hg ha'.wf ha'.deg seed size
    rw [h] at e1
    cases e1
    exact ⟨B, e2⟩
  refine TIndist.ite Iff.rfl (fun h => ?_) fun h => ?_
  · rw [if_pos h] at h1 h2
    refine TIndist.bind' (TIndist.public rfl) fun q _ he r1 _ => ?_
    subst he
    rw [run_tpublic r1, Res.ok_bind] at h1 h2
    refine TIndist.bind' (TIndist.public rfl) fun log _ he r1 _ => ?_
    subst he
    rw [run_tpublic r1, Res.ok_bind] at h1 h2
    refine TIndist.bind' (TIndist.public rfl) fun size _ he r1 _ => ?_
    subst he
    rw [run_tpublic r1, Res.ok_bind] at h1 h2
    refine TIndist.bind' (TIndist.public rfl) fun c1 _ he r1 _ => ?_
    subst he
    have r1 := run_tpublic r1
    rw [r1, Res.ok_bind, Res.bind_eq_ok] at h1 h2
    obtain ⟨B, hB⟩ := hgen _ _ (Res.lift_eq_ok.1 r1)
    obtain ⟨c0, e1, h1⟩ := h1
    obtain ⟨c0', e2, h2⟩ := h2
    have hcc : c0' = c0 := congrArg KeySwitchingKey.c0 (Res.ok_inj.1 (h2.trans h1.symm))
    rw [hcc] at e2
    refine TIndist.bind (R := Eq) ?_ fun _ _ hx => TIndist.pure (by rw [hx])
    unfold KeySwitchingKey.generateC0Decomposition at e1 e2
    unfold generateC0Decomposition
    cases hB with
    | nil => exact TIndist.err _
    | cons hb hrest =>
      obtain ⟨v, rfl⟩ := hb
      simp only [ctx_encI] at e1 e2 ⊢
      rw [SecretKey.polyAt_encI hk ha'.wf ha'.deg, Res.ok_bind] at e1
      rw [SecretKey.polyAt_encI hk' ha'.wf ha'.deg, Res.ok_bind] at e2
      refine TIndist.bind' (polyAt_indist hsk _) fun p p' _ r1 r2 => ?_
      rw [polyAt_results hk ha'.wf ha'.deg r1, polyAt_results hk' ha'.wf ha'.deg r2]
      exact components_indist hw ha'.wf ha'.deg hk hk' hsk hs hF (f := fun i => KeySwitchingKey.pow64 (i * (log / 2))) hr hr' (.cons ⟨v, rfl⟩ hrest) e1 e2
  · rw [if_neg h] at h1 h2
    refine TIndist.bind' (TIndist.public rfl) fun c1 _ he r1 _ => ?_
    subst he
    have r1 := run_tpublic r1
    rw [r1, Res.ok_bind, Res.bind_eq_ok] at h1 h2
    obtain ⟨B, hB⟩ := hgen _ _ (Res.lift_eq_ok.1 r1)
    obtain ⟨c0, e1, h1⟩ := h1
    obtain ⟨c0', e2, h2⟩ := h2
    have hcc : c0' = c0 := congrArg KeySwitchingKey.c0 (Res.ok_inj.1 (h2.trans h1.symm))
    rw [hcc] at e2
    refine TIndist.bind (R := Eq) ?_ fun _ _ hx => TIndist.pure (by rw [hx])
    unfold KeySwitchingKey.generateC0 at e1 e2
    unfold generateC0
    cases hB with
    | nil => exact TIndist.err _
    | cons hb hrest =>
      obtain ⟨v, rfl⟩ := hb
      simp only [ctx_encI] at e1 e2 ⊢
      rw [SecretKey.polyAt_encI hk ha'.wf ha'.deg, Res.ok_bind, hk.par_eq] at e1
      rw [SecretKey.polyAt_encI hk' ha'.wf ha'.deg, Res.ok_bind, hk'.par_eq] at e2
      rw [hk.par_eq, hk'.par_eq]
      refine TIndist.bind' (polyAt_indist hsk _) fun p p' _ r1 r2 => ?_
      rw [polyAt_results hk ha'.wf ha'.deg r1, polyAt_results hk' ha'.wf ha'.deg r2]
      refine TIndist.bind' (TIndist.public rfl) fun ms _ he r1 _ => ?_
      subst he
      rw [run_tpublic r1, Res.ok_bind] at e1 e2
      refine TIndist.bind' (TIndist.public rfl) fun rns _ he r1 _ => ?_
      subst he
      rw [run_tpublic r1, Res.ok_bind] at e1 e2
      exact components_indist hw ha'.wf ha'.deg hk hk' hsk hs hF (f := fun i => rns.getGarner i) hr hr' (.cons ⟨v, rfl⟩ hrest) e1 e2

theorem tlift_result {t : Timed α} {x : α} (hx : (tlift t).run.result = some (.ok x)) : t.result = some x := by
  change (t >>= _).result = _ at hx
  cases ht : t.result with
  | none => rw [bind_none ht] at hx; cases hx
  | some y => rw [bind_some ht] at hx; cases hx; rfl
theorem tmath_result {t : Timed (Except MathError α)} {x : α} (hx : (tmath t).run.result = some (.ok x)) : t.result = some (.ok x) := by
  change (t >>= _).result = _ at hx
  rcases ht : t.result with _ | _ | y
  · rw [bind_none ht] at hx; cases hx
  · rw [bind_some ht] at hx; cases hx
  · rw [bind_some ht] at hx; cases hx; rfl
theorem Agrees.value {o : Option α} {t : Timed α} (h : Agrees o t) {x y : α} (ho : o = some x) (ht : t.result = some y) : y = x :=
  Option.some_inj.1 (ht.symm.trans (h x ho))

/-- A relinearization key: all that is revealed is the key itself. -/
theorem newRelin_indist (hw : ParWF b n par.toBfvParameters) (h64 : par.moduli.length ≤ 64) (hk : sk.IsKey par s) (hk' : sk'.IsKey par s') (hsk : SameKey sk sk')
    {g : Prg} (hg : g.OK) (hi : i < par.moduli.length) (hij : j ≤ i) (seed : Seed) {rngs rngs' : Nat → Nat → Nat} (hr : ∀ i, IsStream (rngs i)) (hr' : ∀ i, IsStream (rngs' i))
    {k : RelinearizationKey} (h1 : RelinearizationKey.newLeveled b g sk i j seed rngs = Res.ok k) (h2 : RelinearizationKey.newLeveled b g sk' i j seed rngs' = Res.ok k) :
    TIndist Eq (newRelin b g sk i j seed rngs) (newRelin b g sk' i j seed rngs') := by
  obtain ⟨l, ha⟩ := AtLevel.ofLt hw hi
  obtain ⟨l', ha'⟩ := AtLevel.ofLt hw (i := j) (by omega)
  obtain ⟨p1, p2, p3⟩ := modulusAt_ratio hw ha ha' hij
  obtain ⟨S, hS, hS2⟩ := switcher_up h64 ha' ha p3
  unfold RelinearizationKey.newLeveled at h1 h2
  unfold newRelin
  rw [hk.par_eq] at h1 ⊢
  rw [hk'.par_eq] at h2 ⊢
  rw [ha'.contextAt, Res.ok_bind, ha.contextAt, Res.ok_bind] at h1 h2
  refine TIndist.bind' (TIndist.public rfl) fun ck _ he r1 _ => ?_
  subst he
  obtain rfl : l'.ctx = ck := Res.ok_inj.1 (ha'.contextAt.symm.trans (run_tpublic r1))
  refine TIndist.bind' (TIndist.public rfl) fun cc _ he r1 _ => ?_
  subst he
  obtain rfl : l.ctx = cc := Res.ok_inj.1 (ha.contextAt.symm.trans (run_tpublic r1))
  refine TIndist.ite Iff.rfl (fun _ => TIndist.err _) fun hm => ?_
  rw [if_neg hm] at h1 h2
  rw [SecretKey.polyAt_encI hk ha.wf ha.deg, Res.ok_bind, mulAssign_encI ha.wf ha.deg, Res.lift_some, Res.ok_bind,
    nttToPowerBasis_encI ha.wf, Res.lift_some, Res.ok_bind, hS, Res.math_ok, Res.ok_bind, hS2 _ _ _ (by simp), Res.math_ok, Res.ok_bind, Res.bind_eq_ok] at h1
  rw [SecretKey.polyAt_encI hk' ha.wf ha.deg, Res.ok_bind, mulAssign_encI ha.wf ha.deg, Res.lift_some, Res.ok_bind,
    nttToPowerBasis_encI ha.wf, Res.lift_some, Res.ok_bind, hS, Res.math_ok, Res.ok_bind, hS2 _ _ _ (by simp), Res.math_ok, Res.ok_bind, Res.bind_eq_ok] at h2
  obtain ⟨k1, e1, h1⟩ := h1
  obtain ⟨k2, e2, h2⟩ := h2
  have hkk : k2 = k1 := congrArg RelinearizationKey.ksk (Res.ok_inj.1 (h2.trans h1.symm))
  rw [hkk] at e2
  refine TIndist.bind' (polyAt_indist hsk _) fun p p' hp r1 r2 => ?_
  obtain rfl := polyAt_results hk ha.wf ha.deg r1
  obtain rfl := polyAt_results hk' ha.wf ha.deg r2
  refine TIndist.bind' (TIndist.lift (mulAssign_indist hp hp)) fun p p' hp r1 r2 => ?_
  obtain rfl := (mulAssign_agrees _ _).value (mulAssign_encI ha.wf ha.deg _ _) (tlift_result r1)
  obtain rfl := (mulAssign_agrees _ _).value (mulAssign_encI ha.wf ha.deg _ _) (tlift_result r2)
  refine TIndist.bind' (TIndist.lift (nttToPowerBasis_indist hp)) fun p p' hp r1 r2 => ?_
  obtain rfl := (nttToPowerBasis_agrees _).value (nttToPowerBasis_encI ha.wf _) (tlift_result r1)
  obtain rfl := (nttToPowerBasis_agrees _).value (nttToPowerBasis_encI ha.wf _) (tlift_result r2)
  refine TIndist.bind' (TIndist.public rfl) fun S' _ he r1 _ => ?_
  subst he
  have r1 := run_tpublic r1
  rw [hS, Res.math_ok] at r1
  obtain rfl := Res.ok_inj.1 r1
  refine TIndist.bind' (TIndist.math (scale_indist _ hp (Or.inr (switcher_signs h64 ha' ha p3 hS hp)))) fun p p' hp r1 r2 => ?_
  obtain rfl : p = _ := Except.ok.inj ((scale_agrees _ _).value (hS2 _ _ _ (by simp)) (tmath_result r1))
  obtain rfl : p' = _ := Except.ok.inj ((scale_agrees _ _).value (hS2 _ _ _ (by simp)) (tmath_result r2))
  exact TIndist.bind (newKsk_indist hw hk hk' hsk hg ha ha' hp seed hr hr' e1 e2) fun _ _ hx => TIndist.pure (by rw [hx])

/-- A Galois key: all that is revealed is the key itself. -/
theorem newGalois_indist (hw : ParWF b n par.toBfvParameters) (h64 : par.moduli.length ≤ 64) (hk : sk.IsKey par s) (hk' : sk'.IsKey par s') (hsk : SameKey sk sk')
    {g : Prg} (hg : g.OK) (hi : i < par.moduli.length) (hij : j ≤ i) {x : Nat} (hx : x % 2 = 1) (seed : Seed) {rngs rngs' : Nat → Nat → Nat}
    (hr : ∀ i, IsStream (rngs i)) (hr' : ∀ i, IsStream (rngs' i))
    {k : GaloisKey} (h1 : GaloisKey.new b g sk x i j seed rngs = Res.ok k) (h2 : GaloisKey.new b g sk' x i j seed rngs' = Res.ok k) :
    TIndist Eq (newGalois b g sk x i j seed rngs) (newGalois b g sk' x i j seed rngs') := by
  obtain ⟨l, ha⟩ := AtLevel.ofLt hw hi
  obtain ⟨l', ha'⟩ := AtLevel.ofLt hw (i := j) (by omega)
  obtain ⟨p1, p2, p3⟩ := modulusAt_ratio hw ha ha' hij
  obtain ⟨S, hS, hS2⟩ := switcher_up h64 ha' ha p3
  have hn : n ≤ 31 := by have := hw.le_16; omega
  have hσ := SubstExponent.new_odd ha.wf hn hx
  generalize (⟨_, _, _⟩ : SubstExponent) = σ at hσ
  have hf := tryFromI64_encI (vt := false) ha.wf ha.deg (by rw [hk.length]) hk.word
  have hf' := tryFromI64_encI (vt := false) ha.wf ha.deg (by rw [hk'.length]) hk'.word
  rw [← hk.poly] at hf
  rw [← hk'.poly] at hf'
  unfold GaloisKey.new at h1 h2
  unfold newGalois
  rw [hk.par_eq] at h1 ⊢
  rw [hk'.par_eq] at h2 ⊢
  rw [ha'.contextAt, Res.ok_bind, ha.contextAt, Res.ok_bind, hσ, Res.math_ok, Res.ok_bind, hS, Res.math_ok, Res.ok_bind] at h1 h2
  rw [hf, Res.math_ok, Res.ok_bind, GaloisKey.substitute_encI ha.wf hn ha.deg hx hσ, Res.lift_some, Res.ok_bind, hS2 _ _ _ (by simp), Res.math_ok, Res.ok_bind, Res.bind_eq_ok] at h1
  rw [hf', Res.math_ok, Res.ok_bind, GaloisKey.substitute_encI ha.wf hn ha.deg hx hσ, Res.lift_some, Res.ok_bind, hS2 _ _ _ (by simp), Res.math_ok, Res.ok_bind, Res.bind_eq_ok] at h2
  obtain ⟨k1, e1, h1⟩ := h1
  obtain ⟨k2, e2, h2⟩ := h2
  have hkk : k2 = k1 := congrArg GaloisKey.ksk (Res.ok_inj.1 (h2.trans h1.symm))
  rw [hkk] at e2
  refine TIndist.bind' (TIndist.public rfl) fun ck _ he r1 _ => ?_
  subst he
  obtain rfl : l'.ctx = ck := Res.ok_inj.1 (ha'.contextAt.symm.trans (run_tpublic r1))
  refine TIndist.bind' (TIndist.public rfl) fun cc _ he r1 _ => ?_
  subst he
  obtain rfl : l.ctx = cc := Res.ok_inj.1 (ha.contextAt.symm.trans (run_tpublic r1))
  refine TIndist.bind' (TIndist.public rfl) fun σ' _ he r1 _ => ?_
  subst he
  have r1 := run_tpublic r1
  rw [hσ, Res.math_ok] at r1
  obtain rfl := Res.ok_inj.1 r1
  refine TIndist.bind' (TIndist.public rfl) fun S' _ he r1 _ => ?_
  subst he
  have r1 := run_tpublic r1
  rw [hS, Res.math_ok] at r1
  obtain rfl := Res.ok_inj.1 r1
  refine TIndist.bind' (TIndist.math (tryFromI64_indist hsk.coeffs _)) fun p p' hp r1 r2 => ?_
  obtain rfl : p = _ := Except.ok.inj ((tryFromI64_agrees _ _ _).value hf (tmath_result r1))
  obtain rfl : p' = _ := Except.ok.inj ((tryFromI64_agrees _ _ _).value hf' (tmath_result r2))
  refine TIndist.bind' (TIndist.lift (substitute_indist hp _)) fun p p' hp r1 r2 => ?_
  obtain rfl := (substitute_agrees _ _).value (GaloisKey.substitute_encI ha.wf hn ha.deg hx hσ _ _) (tlift_result r1)
  obtain rfl := (substitute_agrees _ _).value (GaloisKey.substitute_encI ha.wf hn ha.deg hx hσ _ _) (tlift_result r2)
  refine TIndist.bind' (TIndist.math (scale_indist _ hp (Or.inr (switcher_signs h64 ha' ha p3 hS hp)))) fun p p' hp r1 r2 => ?_
  obtain rfl : p = _ := Except.ok.inj ((scale_agrees _ _).value (hS2 _ _ _ (by simp)) (tmath_result r1))
  obtain rfl : p' = _ := Except.ok.inj ((scale_agrees _ _).value (hS2 _ _ _ (by simp)) (tmath_result r2))
  exact TIndist.bind (newKsk_indist hw hk hk' hsk hg ha ha' hp seed hr hr' e1 e2) fun _ _ hx => TIndist.pure (by rw [hx])

end Fhe.Release
