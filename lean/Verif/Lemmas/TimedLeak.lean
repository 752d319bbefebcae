import Verif.Lemmas.TimedSpec
/-!
# What decryption does reveal
-/
namespace Fhe.Release
variable {α β γ δ : Type}

theorem bind_cancel {R : α → β → Prop} {t : Timed α} {t' : Timed β} {f : α → Timed γ} {g : β → Timed δ} (h : Indist R t t') {a : α} {b : β}
    (ha : t.result = some a) (hb : t'.result = some b) {A B : List Event} (he : (t >>= f).trace ++ A = (t' >>= g).trace ++ B) :
    (f a).trace ++ A = (g b).trace ++ B := by
  rw [bind_some ha, bind_some hb] at he
  simp only [h.1, List.append_assoc] at he
  exact List.append_cancel_left he

theorem bind_result {t : Timed α} {f : α → Timed β} {y : β} (h : (t >>= f).result = some y) : ∃ a, t.result = some a ∧ (f a).result = some y := by
  cases ht : t.result with
  | none => rw [bind_none ht] at h; cases h
  | some a => rw [bind_some ht] at h; exact ⟨a, rfl, h⟩

theorem rnsScale_reveals (s : RnsScaler) (h1 : s.factor.isOne = false) {rests rests' : List Nat} (h : SameLen rests rests') (size start : Nat) {A B : List Event}
    (he : (rnsScale s rests size start).trace ++ A = (rnsScale s rests' size start).trace ++ B) : wNegative s rests = wNegative s rests' := by
  rw [rnsScale_wSum s rests size start h1, rnsScale_wSum s rests' size start h1] at he
  have hi := wSum_indist s h
  have hr := hi.2
  unfold wNegative
  cases hx : (wSum s rests).result with
  | none =>
    rw [hx] at hr
    cases hy : (wSum s rests').result with
    | none => rfl
    | some y => rw [hy] at hr; cases hr
  | some x =>
    rw [hx] at hr
    cases hy : (wSum s rests').result with
    | none => rw [hy] at hr; cases hr
    | some y =>
      have he := bind_cancel hi hx hy he
      have key : ∀ (z : Nat) (k : Bool × Nat → Timed (List Nat)), ∃ rest, (roundW z >>= k).trace = .branch (decide (z >>> 191 > 0)) :: rest := fun z k => by
        unfold roundW
        rw [bind_assoc', branch_bind]
        exact ⟨_, rfl⟩
      obtain ⟨r, hr⟩ := key x.2 fun y => mapLoop (fun i => scaleOne s rests x.1 y.1 y.2 (start + i)) (List.range size)
      obtain ⟨r', hr'⟩ := key y.2 fun z => mapLoop (fun i => scaleOne s rests' y.1 z.1 z.2 (start + i)) (List.range size)
      rw [hr, hr', List.cons_append, List.cons_append, List.cons.injEq] at he
      simpa using he.1

theorem mapLoop_reveals {f : α → Timed β} {R : α → α → Prop} {S : β → β → Prop} {sg : α → Bool} (hi : ∀ x y, R x y → sg x = sg y → Indist S (f x) (f y))
    (hr : ∀ x y A B, R x y → (f x).trace ++ A = (f y).trace ++ B → sg x = sg y) : {l l' : List α} → List.Forall₂ R l l' → {r r' : List β} →
      (mapLoop f l).result = some r → (mapLoop f l').result = some r' → {A B : List Event} → (mapLoop f l).trace ++ A = (mapLoop f l').trace ++ B → l.map sg = l'.map sg
  | _, _, .nil, _, _, _, _, _, _, _ => rfl
  | x :: xs, y :: ys, .cons hxy ht, r, r', h1, h2, A, B, he => by
    rw [mapLoop] at h1 h2 he
    rw [mapLoop] at he
    rw [branch_bind] at h1 h2 he
    rw [branch_bind] at he
    simp only [List.cons_append, List.cons.injEq, true_and] at h1 h2 he
    obtain ⟨a, ha, h1⟩ := bind_result h1
    obtain ⟨b, hb, h2⟩ := bind_result h2
    obtain ⟨as, has, -⟩ := bind_result h1
    obtain ⟨bs, hbs, -⟩ := bind_result h2
    have hs : sg x = sg y := by
      rw [bind_some ha, bind_some hb] at he
      simp only [List.append_assoc] at he
      exact hr x y _ _ hxy he
    have he := bind_cancel (hi x y hxy hs) ha hb he
    rw [bind_some has, bind_some hbs] at he
    simp only [pure_trace, List.append_nil] at he
    rw [List.map_cons, List.map_cons, hs, mapLoop_reveals hi hr ht has hbs he]

/-- The scaling of a polynomial by a factor other than one reveals its signs. -/
theorem scale_reveals {r : Rep} (s : Scaler) (h1 : s.scaler.factor.isOne = false) (hn : s.ncommon < s.dst.q.length) {p p' : Poly r} (h : SamePublic p p') {q q' : Poly r}
    (hq : (scale s p).result = some (.ok q)) (hq' : (scale s p').result = some (.ok q')) {A B : List Event} (he : (scale s p).trace ++ A = (scale s p').trace ++ B) :
    signs s p = signs s p' := by
  rcases h.split with he' | ⟨hv, hv'⟩
  · rw [he']
  rw [scale_columns s p hv] at hq he
  rw [scale_columns s p' hv'] at hq' he
  split at hq
  · cases hq
  rename_i hc
  have hc' : ¬ p'.ctx ≠ s.src := by rw [← h.ctx]; exact hc
  rw [if_neg hc'] at hq'
  rw [if_neg hc, if_neg hc', branch_bind, branch_bind, List.cons_append, List.cons_append, List.cons.injEq] at he
  have he := he.2
  rw [branch_bind] at hq hq'
  simp only [hn, decide_true, if_true] at hq hq' he
  obtain ⟨x, hx, hq⟩ := bind_result hq
  obtain ⟨y, hy, hq'⟩ := bind_result hq'
  obtain ⟨nx, hnx, -⟩ := bind_result hq
  obtain ⟨ny, hny, -⟩ := bind_result hq'
  have hi := columns_indist h
  have hxy : SameShape x y := by
    have := hi.2
    rw [hx, hy] at this
    cases this; assumption
  have he := bind_cancel hi hx hy he
  rw [bind_some hnx, bind_some hny] at he
  simp only [List.append_assoc] at he
  unfold signs
  rw [hx, hy]
  refine mapLoop_reveals (f := fun c => rnsScale s.scaler c (s.dst.q.length - s.ncommon) s.ncommon) (R := SameLen) (sg := wNegative s.scaler) (S := SameLen) (fun c d hcd hs => rnsScale_indist s.scaler hcd _ _ (.inr hs))
    (fun c d A B hcd he => rnsScale_reveals s.scaler h1 hcd _ _ he) hxy hnx hny he

/-! ## Decryption -/

theorem tbind_result {t : TRes α} {f : α → TRes β} {y : β} (h : (t >>= f).run.result = some (.ok y)) :
    ∃ a, t.run.result = some (.ok a) ∧ (f a).run.result = some (.ok y) := by
  change (t.run >>= fun x => ExceptT.bindCont f x).result = _ at h
  obtain ⟨x, hx, h⟩ := bind_result h
  cases x with
  | error e => cases h
  | ok a => exact ⟨a, hx, h⟩

theorem tbind_cancel {R : α → β → Prop} {t : TRes α} {t' : TRes β} {f : α → TRes γ} {g : β → TRes δ} (h : TIndist R t t') {a : α} {b : β}
    (ha : t.run.result = some (.ok a)) (hb : t'.run.result = some (.ok b)) {A B : List Event} (he : (t >>= f).run.trace ++ A = (t' >>= g).run.trace ++ B) :
    (f a).run.trace ++ A = (g b).run.trace ++ B := bind_cancel (f := fun x => ExceptT.bindCont f x) (g := fun x => ExceptT.bindCont g x) h ha hb he

theorem TIndist.ok {R : α → β → Prop} {t : TRes α} {t' : TRes β} (h : TIndist R t t') {a : α} {b : β} (ha : t.run.result = some (.ok a))
    (hb : t'.run.result = some (.ok b)) : R a b := by
  have := h.2
  rw [ha, hb] at this
  cases this with
  | some h => cases h; assumption

theorem tlift_ok {t : Timed α} {x : α} (hx : (tlift t).run.result = some (.ok x)) : t.result = some x := by
  change (t >>= _).result = _ at hx
  cases ht : t.result with
  | none => rw [bind_none ht] at hx; cases hx
  | some y => rw [bind_some ht] at hx; cases hx; rfl
theorem tmath_ok {t : Timed (Except MathError α)} {x : α} (hx : (tmath t).run.result = some (.ok x)) : t.result = some (.ok x) := by
  change (t >>= _).result = _ at hx
  cases ht : t.result with
  | none => rw [bind_none ht] at hx; cases hx
  | some y =>
    rw [bind_some ht] at hx
    cases y with
    | error e => cases hx
    | ok y => cases hx; rfl
theorem tmath_trace {t : Timed (Except MathError α)} : (tmath t).run.trace = t.trace := by
  change (t >>= _).trace = _
  cases ht : t.result with
  | none => rw [bind_none ht]
  | some y => rw [bind_some ht]; cases y <;> simp

theorem tryDecrypt_reveals (b : Build) {sk sk' : SecretKey} (h : SameKey sk sk') (ct : Ciphertext)
    (hl : ∀ l, sk.par.contextLevelAt ct.level = Res.ok l → l.cp.scaler.scaler.factor.isOne = false ∧ l.cp.scaler.ncommon < l.cp.scaler.dst.q.length) {pt pt' : Plaintext}
    (hpt : (tryDecrypt b sk ct).run.result = some (.ok pt)) (hpt' : (tryDecrypt b sk' ct).run.result = some (.ok pt'))
    (he : (tryDecrypt b sk ct).run.trace = (tryDecrypt b sk' ct).run.trace) : decryptionSigns sk ct = decryptionSigns sk' ct := by
  unfold decryptionSigns
  unfold tryDecrypt at hpt hpt' he
  rw [← h.par] at hpt' he ⊢
  have he : _ ++ [] = _ ++ [] := congrArg (· ++ ([] : List Event)) he
  obtain ⟨u, a1, hpt⟩ := tbind_result hpt
  obtain ⟨u', a1', hpt'⟩ := tbind_result hpt'
  have he := tbind_cancel (TIndist.public rfl) a1 a1' he
  obtain ⟨c, a2, hpt⟩ := tbind_result hpt
  obtain ⟨c', a2', hpt'⟩ := tbind_result hpt'
  have hc := (phase_indist h ct).ok a2 a2'
  have he := tbind_cancel (phase_indist h ct) a2 a2' he
  obtain ⟨l, a3, hpt⟩ := tbind_result hpt
  obtain ⟨l', a3', hpt'⟩ := tbind_result hpt'
  have he := tbind_cancel (TIndist.public rfl) a3 a3' he
  have a3 := run_tpublic a3
  have a3' := run_tpublic a3'
  rw [a3, Res.ok_inj] at a3'
  subst a3'
  obtain ⟨p, a4, hpt⟩ := tbind_result hpt
  obtain ⟨p', a4', hpt'⟩ := tbind_result hpt'
  have hi := TIndist.lift (nttToPowerBasis_indist hc)
  have hp := hi.ok a4 a4'
  have he := tbind_cancel hi a4 a4' he
  have a4 := tlift_ok a4
  have a4' := tlift_ok a4'
  obtain ⟨d, a5, -⟩ := tbind_result hpt
  obtain ⟨d', a5', -⟩ := tbind_result hpt'
  obtain ⟨l1, l2⟩ := hl l a3
  have a3 : sk.par.contextLevelAt ct.level = some (Except.ok l) := a3
  rw [a2, a2', a3]
  change (match (nttToPowerBasis c).result with | some p => signs l.cp.scaler p | none => []) =
    (match (nttToPowerBasis c').result with | some p => signs l.cp.scaler p | none => [])
  rw [a4, a4']
  have key : ∀ (q q' : Poly .powerBasis) (k : Poly .powerBasis → TRes Plaintext), (tmath (scale l.cp.scaler q)).run.result = some (.ok q') →
      (tmath (scale l.cp.scaler q) >>= k).run.trace = (scale l.cp.scaler q).trace ++ (k q').run.trace := fun q q' k hq => by
    change ((tmath (scale l.cp.scaler q)).run >>= fun x => ExceptT.bindCont k x).trace = _
    rw [bind_some hq, tmath_trace]; rfl
  rw [key _ _ _ a5, key _ _ _ a5', List.append_assoc, List.append_assoc] at he
  exact scale_reveals l.cp.scaler l1 l2 hp (tmath_ok a5) (tmath_ok a5') he

theorem reveals_output {ι α : Type} {run : ι → Timed (Except FheError α)} {value : ι → Option (Except FheError α)} {adm : ι → Prop} (ha : ∀ x, Agrees (value x) (run x))
    (hi : ∀ x x' k, adm x → adm x' → value x = some (.ok k) → value x' = some (.ok k) → (run x).trace = (run x').trace) :
    ∃ tr : α → List Event, ∀ x, adm x → ∀ k, value x = some (.ok k) → run x = ⟨some (.ok k), tr k⟩ := by
  obtain ⟨tr, h⟩ := RevealsOnly.of (run := run) (value := value) (adm := fun x => adm x ∧ ∃ k, value x = some (.ok k)) (f := value) ha
    fun x x' y y' ⟨h1, k, hk⟩ ⟨h2, k', hk'⟩ h3 h4 h5 => hi x x' k h1 h2 hk (h5 ▸ hk)
  refine ⟨fun k => tr (some (.ok k)), fun x hx k hk => ?_⟩
  have := h x ⟨hx, k, hk⟩ _ hk
  rw [this, hk]

theorem rnsScaler_factor {src dst : RnsContext} {f : ScalingFactor} {sc : RnsScaler} (h : RnsScaler.new src dst f = some sc) : sc.factor = f := by
  unfold RnsScaler.new at h
  simp only [Option.bind_eq_bind, Option.bind_eq_some_iff, Option.pure_def, Option.some.injEq] at h
  obtain ⟨_, -, _, -, _, -, _, -, _, -, _, -, _, -, rfl⟩ := h
  rfl

theorem level_inv {b : Build} {n : Nat} {par : Par} (hw : ParWF b n par.toBfvParameters) {i : Nat} {l : ContextLevel} (hl : par.contextLevelAt i = Res.ok l) :
    (l.cp.scaler.scaler.factor.isOne = false ∧ l.cp.scaler.ncommon < l.cp.scaler.dst.q.length) ∧ l.cp.scaler.src.degree = par.degree := by
  unfold BfvParameters.contextLevelAt at hl
  cases hg : par.levels[i]? with
  | none =>
    rw [hg] at hl
    obtain ⟨_, -, h2⟩ := Res.bind_eq_ok.1 hl
    exact absurd h2 Res.err_ne_ok
  | some l' =>
    rw [hg] at hl
    obtain rfl := Res.ok_inj.1 hl
    have ha := AtLevel.ofGet hw hg
    obtain ⟨pc, hpc, hlev⟩ := hw.levels
    have hL := hlev i l' hg
    obtain ⟨F, hF, hS⟩ := hL.bridge.scaler
    obtain ⟨n', hn', hpw, -⟩ := Context.new_inv hw.ok hpc
    have hone : F.isOne = false := by
      unfold ScalingFactor.new at hF
      simp only [Option.bind_eq_bind, Option.bind_eq_some_iff, Option.pure_def, Option.some.injEq] at hF
      obtain ⟨_, -, rfl⟩ := hF
      rw [decide_eq_false_iff_not, ← hL.ctx]
      intro he
      have hpos := ha.wf.length_pos
      obtain ⟨m, hm⟩ := List.exists_mem_of_length_pos hpos
      have hmem : m ∈ par.moduli := by
        rw [ha.moduli] at hm
        exact List.mem_of_mem_take hm
      have hdvd : m ∣ l'.ctx.modulus := by
        rw [ha.wf.modulus_eq]
        exact List.dvd_prod hm
      have hc := hw.moduli.coprime m hmem
      rw [he] at hc
      have := Nat.Coprime.eq_one_of_dvd hc.symm hdvd
      have := (hw.moduli.range m hmem).1
      omega
    unfold Scaler.new at hS
    split at hS
    · cases hS
    simp only [Option.bind_eq_bind, Option.bind_eq_some_iff, Option.pure_def, Option.some.injEq, Except.ok.injEq] at hS
    obtain ⟨sc, h1, h2⟩ := hS
    rw [← h2]
    refine ⟨⟨?_, ?_⟩, ?_⟩
    · simp only
      rw [rnsScaler_factor h1, hone]
    · simp only [hone, Bool.false_eq_true, if_false]
      rw [hpw.level.q, List.length_map]
      exact List.length_pos_iff.2 hpw.level.ne_nil
    · simp only
      rw [← hL.ctx, ha.deg]

/-- The scaler of decryption is not the identity. -/
theorem level_scaler {b : Build} {n : Nat} {par : Par} (hw : ParWF b n par.toBfvParameters) {i : Nat} {l : ContextLevel} (hl : par.contextLevelAt i = Res.ok l) :
    l.cp.scaler.scaler.factor.isOne = false ∧ l.cp.scaler.ncommon < l.cp.scaler.dst.q.length := (level_inv hw hl).1

theorem level_degree {b : Build} {n : Nat} {par : Par} (hw : ParWF b n par.toBfvParameters) {i : Nat} {l : ContextLevel} (hl : par.contextLevelAt i = Res.ok l) :
    l.cp.scaler.src.degree = par.degree := (level_inv hw hl).2

theorem mapLoop_length {f : α → Timed β} : {l : List α} → {r : List β} → (mapLoop f l).result = some r → r.length = l.length
  | [], r, h => by cases h; rfl
  | x :: xs, r, h => by
    rw [mapLoop, branch_bind] at h
    obtain ⟨a, -, h⟩ := bind_result h
    obtain ⟨as, has, h⟩ := bind_result h
    cases h
    rw [List.length_cons, List.length_cons, mapLoop_length has]

theorem scale_signs {r : Rep} {s : Scaler} {p q : Poly r} (hn : s.ncommon < s.dst.q.length) (h : (scale s p).result = some (.ok q)) : (signs s p).length = s.src.degree := by
  unfold scale at h
  split at h
  · cases h
  rename_i hc
  rw [branch_bind] at h
  simp only [hn, decide_true, if_true] at h
  obtain ⟨rows, hr, h⟩ := bind_result h
  obtain ⟨cols, hcl, -⟩ := bind_result h
  have : (columns p).result = some cols := by unfold columns; rw [bind_some hr]; exact hcl
  unfold signs
  rw [this]
  simp only [List.length_map]
  rw [mapLoop_length hcl, List.length_range, not_not.1 hc]

theorem decryptionSigns_length {b : Build} {n : Nat} {sk : SecretKey} (hw : ParWF b n sk.par.toBfvParameters) {ct : Ciphertext} {pt : Plaintext}
    (h : sk.tryDecrypt b ct = Res.ok pt) : (decryptionSigns sk ct).length = sk.par.degree := by
  have h := tryDecrypt_agrees b sk ct _ h
  unfold tryDecrypt at h
  unfold decryptionSigns
  obtain ⟨u, a1, h⟩ := tbind_result h
  obtain ⟨c, a2, h⟩ := tbind_result h
  obtain ⟨l, a3, h⟩ := tbind_result h
  have a3 := run_tpublic a3
  obtain ⟨p, a4, h⟩ := tbind_result h
  have a4 := tlift_ok a4
  obtain ⟨d, a5, -⟩ := tbind_result h
  have e3 : sk.par.contextLevelAt ct.level = some (Except.ok l) := a3
  rw [a2, e3]
  change (match (nttToPowerBasis c).result with | some p => signs l.cp.scaler p | none => []).length = _
  rw [a4]
  exact (scale_signs (level_scaler hw a3).2 (tmath_ok a5)).trans (level_degree hw a3)

end Fhe.Release
