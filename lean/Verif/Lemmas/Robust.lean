import Verif.Spec.Robust
import Verif.Lemmas.BfvEvalBuild
import Verif.Lemmas.BfvSer
import Verif.Lemmas.BfvWire
import Verif.Lemmas.MbfvRelin
import Verif.Lemmas.BfvMultiplicator
/-!
# Objects read from arbitrary bytes, lemmas
-/
namespace Fhe
open Nega Poly

variable {b : Build} {n : Nat} {par : Par} {g : Prg} {i j : Nat} {s : IntPoly par.degree}

/-! ## Every well-formed key is a key for something -/

theorem exists_sparts {c : Context} {N : Nat} (h : c.WF b n) (hN : c.degree = N) : ∀ {ps : List (Poly .nttShoup)}, (∀ p ∈ ps, p.Valid ∧ p.ctx = c) →
    ∃ F : List (IntPoly N), List.Forall₂ (fun p f => p.IsMod c f) ps F
  | [], _ => ⟨[], .nil⟩
  | p :: ps, hp => by
    obtain ⟨F, hF⟩ := exists_sparts h hN (ps := ps) fun q hq => hp q (List.mem_cons_of_mem _ hq)
    obtain ⟨f, hf, -⟩ := exists_encI h hN (hp p List.mem_cons_self).2 (hp p List.mem_cons_self).1
    exact ⟨f :: F, .cons ((isMod_iff h hN).2 hf) hF⟩

theorem exists_bound_list {N : Nat} : ∀ E : List (IntPoly N), ∃ e, ∀ x ∈ E, x.Bounded e
  | [] => ⟨0, by simp⟩
  | x :: E => by
    obtain ⟨e, he⟩ := exists_bound_list E
    obtain ⟨e', he'⟩ := x.exists_bound
    refine ⟨max e' e, fun y hy => ?_⟩
    rcases List.mem_cons.1 hy with rfl | hy
    · exact fun j => (he' j).trans (by exact_mod_cast le_max_left _ _)
    · exact fun j => (he y hy j).trans (by exact_mod_cast le_max_right _ _)

namespace KeySwitchingKey
variable {k : KeySwitchingKey}

/-- Only a key of the last level can decompose in a base of its own. -/
theorem WellFormed.logBase_eq (hw : ParWF b n par.toBfvParameters) (hk : k.WellFormed g par) (hl : k.ciphertextLevel + 1 < par.moduli.length) : k.logBase = 0 := by
  obtain ⟨l, hl', hc⟩ := ParWF.contextAtLevel_iff.1 hk.ctx
  have ha := AtLevel.ofGet hw hl'
  rcases hk.count with ⟨h0, -⟩ | ⟨-, q, h1, -⟩
  · exact h0
  · have := ha.length
    rw [hc, h1, List.length_singleton] at this
    omega

theorem WellFormed.gadget (hw : ParWF b n par.toBfvParameters) (hk : k.WellFormed g par) (hb : k.logBase < 64) : ∃ G, k.Gadget G ∧ G.length = k.c0.length := by
  obtain ⟨l, hl, hc⟩ := ParWF.contextAtLevel_iff.1 hk.ctx
  have ha := AtLevel.ofGet hw hl
  rcases hk.count with ⟨h0, h1⟩ | ⟨h0, q, h1, -, h2⟩
  · have hgl : l.ctx.rns.garner.length = l.ctx.moduli.length := by rw [ha.wf.level.rns.len_garner, ha.wf.level.rns_moduli]
    refine ⟨l.ctx.rns.garner.map fun x : Nat => (x : Int), .residues h0 (by rw [List.length_map, hgl, hc]) (by rw [← hc]; exact ha.gadget), by rw [List.length_map, hgl, h1, hc]⟩
  · have hq := ha.wf.supported.range q (by rw [hc, h1]; simp)
    have hlog := (RnsScaler.ceilLog2_spec (a := q) (by omega)).1
    refine ⟨_, .powers (q := q) (count := k.c0.length) (by omega) hb h1 (hlog.trans (Nat.pow_le_pow_right (by norm_num) ?_)) h2, by simp⟩
    rw [h2]
    have h3 := Nat.div_add_mod (RnsScaler.ceilLog2 q + k.logBase - 1) k.logBase
    have h4 := Nat.mod_lt (RnsScaler.ceilLog2 q + k.logBase - 1) (show 0 < k.logBase by omega)
    omega

/-- A key of valid polynomials switches from any `F` to any `s`, with some errors. -/
theorem WellFormed.switches (hw : ParWF b n par.toBfvParameters) (hk : k.WellFormed g par) (hb : k.logBase < 64) (s F : IntPoly par.degree) :
    ∃ (E : List (IntPoly par.degree)) (e : Nat), k.Switches par s F E ∧ ∀ x ∈ E, x.Bounded e := by
  obtain ⟨l', hl', hc'⟩ := ParWF.contextAtLevel_iff.1 hk.ctxKsk
  have ha' := AtLevel.ofGet hw hl'
  obtain ⟨G, hG, hGl⟩ := hk.gadget hw hb
  have hwf : k.ctxKsk.WF b n := by rw [← hc']; exact ha'.wf
  have hN : k.ctxKsk.degree = par.degree := by rw [← hc']; exact ha'.deg
  obtain ⟨A, hA⟩ := exists_sparts hwf hN (ps := k.c0) fun p hp => hk.valid p (List.mem_append_left _ hp)
  obtain ⟨B, hB⟩ := exists_sparts hwf hN (ps := k.c1) fun p hp => hk.valid p (List.mem_append_right _ hp)
  have hAl := hA.length_eq
  have hBl := hB.length_eq
  have hk1 := hk.count1
  obtain ⟨E, hE⟩ : ∃ E : List (IntPoly par.degree), E = (List.range G.length).map fun i => (A.getD i 0 + B.getD i 0 * s) - C (G.getD i 0) * F := ⟨_, rfl⟩
  obtain ⟨e, he⟩ := exists_bound_list E
  refine ⟨E, e, ⟨hk.par_eq, hk.ctx, hk.ctxKsk, A, B, G, hG, hA, hB, ⟨by omega, by omega, by rw [hE]; simp⟩, ?_⟩, he⟩
  intro i a b' e' g' h1 h2 h3 h4 j
  obtain ⟨hi, -⟩ := List.getElem?_eq_some_iff.1 h3
  rw [hE, List.getElem?_map, List.getElem?_range hi, Option.map_some, Option.some_inj] at h4
  rw [← h4]
  simp only [List.getD_eq_getElem?_getD, h1, h2, h3, Option.getD_some]
  rw [Nega.sub_apply, C_mul_apply]
  ring

/-- If the level of the key is not below that of the ciphertexts, it is a key in the usual sense, with some error. -/
theorem WellFormed.isFor (hw : ParWF b n par.toBfvParameters) (hk : k.WellFormed g par) (hb : k.logBase < 64) (hle : k.kskLevel ≤ k.ciphertextLevel) (s G : IntPoly par.degree) :
    ∃ e, k.IsFor par s G k.ciphertextLevel k.kskLevel e := by
  obtain ⟨E, e, h1, h2⟩ := hk.switches hw hb s (IntPoly.scale (k.ratio par) G)
  exact ⟨e, rfl, rfl, hle, E, h1, h2⟩

theorem switchDownNtt_high (hw : ParWF b n par.toBfvParameters) {l l' : ContextLevel} (ha : AtLevel b n par i l) (ha' : AtLevel b n par j l') (hij : j < i) (vt : Bool) (F : IntPoly par.degree) :
    (encI l.ctx .ntt vt F).switchDownNtt l'.ctx = Res.err (.math .contextNotReachable) := by
  have hn : l.ctx.niterationsTo l'.ctx = .error .contextNotReachable := by
    rcases ha.wf.niterationsTo_eq l'.ctx with ⟨k, hk, e1, -⟩ | ⟨-, e2⟩
    · have hlen := ha.length
      obtain ⟨l'', ha''⟩ := AtLevel.ofLt hw (i := i + k) (by omega)
      obtain ⟨-, -, -, f1, -⟩ := switchLoop_eq hw ha ha'' vt F
      rw [e1, Option.some_inj] at f1
      exact absurd f1 (ha'.ctx_ne ha'' (by omega))
    · exact e2
  unfold switchDownNtt
  rw [nttToPowerBasis_encI ha.wf, Res.lift_some, Res.ok_bind]
  unfold switchDownTo
  rw [ctx_encI, hn]
  rfl

/-- If the level of the key is above that of the ciphertexts, the result of a switch cannot be brought to the level of the ciphertexts: an error, not a panic. -/
theorem WellFormed.high (hw : ParWF b n par.toBfvParameters) (hk : k.WellFormed g par) (hb : k.logBase < 64) (hlt : k.ciphertextLevel < k.kskLevel) :
    ∃ l, AtLevel b n par k.ciphertextLevel l ∧ k.ctxCiphertext = l.ctx ∧ ∀ (vt : Bool) (X : IntPoly par.degree), ∃ a : Poly .ntt × Poly .ntt, k.keySwitch (encI l.ctx .powerBasis vt X) = Res.ok a ∧
      (∀ o0 o1 : Poly .ntt, o0.Valid → o1.Valid → k.keySwitchAssign (encI l.ctx .powerBasis vt X) o0 o1 = Res.ok a) ∧
      ∀ x0 x1 : Poly .ntt, x0.ctx = l.ctx → switchPair a x0 x1 = Res.err (.math .contextNotReachable) := by
  obtain ⟨l, hl, hc⟩ := ParWF.contextAtLevel_iff.1 hk.ctx
  obtain ⟨l', hl', hc'⟩ := ParWF.contextAtLevel_iff.1 hk.ctxKsk
  have ha := AtLevel.ofGet hw hl
  have ha' := AtLevel.ofGet hw hl'
  obtain ⟨E, e, h1, -⟩ := hk.switches hw hb 0 0
  refine ⟨l, ha, hc.symm, fun vt X => ?_⟩
  obtain ⟨D, A, B, H, v0, v1, e1, -, -, -, e5⟩ := keySwitch_eq hw h1 vt X
  rw [← hc] at e1 e5
  refine ⟨_, e1, fun o0 o1 h0 h1 => by rw [e5 o0 o1 h0 h1, e1], fun x0 x1 hx => ?_⟩
  unfold switchPair
  rw [if_pos (by rw [ctx_encI, hx, ← hc']; exact fun e => ha'.ctx_ne ha (by omega) e)]
  simp only [hx]
  rw [← hc', switchDownNtt_high hw ha' ha hlt, Res.err_bind]

end KeySwitchingKey

/-! ## Ciphertexts -/

namespace Ciphertext
variable {ct r : Ciphertext} {m : par.Msg} {v : IntPoly par.degree}

theorem Encrypts.usable (hw : ParWF b n par.toBfvParameters) (h : ct.Encrypts par s i m v) : ct.Usable par := by
  obtain ⟨l, F, M, ha, hF, -, -⟩ := h.elim hw
  refine ⟨h.par_eq, by rw [h.level_eq]; exact ha.lt, h.parts, fun p hp => ⟨hF.valid ha.wf p hp, ?_⟩⟩
  rw [h.level_eq, ha.contextAt, hF.ctx p hp]

theorem Usable.encrypts (hw : ParWF b n par.toBfvParameters) (h : ct.Usable par) (s : IntPoly par.degree) : ∃ m v, ct.Encrypts par s ct.level m v :=
  exists_encrypts hw s h.par_eq h.level h.parts (fun p hp => (h.valid p hp).2) fun p hp => (h.valid p hp).1

theorem Usable.parts_eq (hw : ParWF b n par.toBfvParameters) (h : ct.Usable par) : ∃ (l : ContextLevel) (F : List (IntPoly par.degree)), AtLevel b n par ct.level l ∧ Parts l.ctx ct.c F := by
  obtain ⟨l, ha⟩ := AtLevel.ofLt (par := par) hw h.level
  obtain ⟨F, hF, -⟩ := exists_parts (ps := ct.c) ha.wf ha.deg fun p hp => ⟨by have := (h.valid p hp).2; rw [ha.contextAt, Res.ok_inj] at this; exact this.symm, (h.valid p hp).1⟩
  exact ⟨l, F, ha, hF⟩

theorem Usable.validateFor (hw : ParWF b n par.toBfvParameters) (h : ct.Usable par) : ct.validateFor par = Res.ok () := by
  obtain ⟨l, F, ha, hF⟩ := h.parts_eq hw
  exact validateFor_ok ha h.par_eq h.parts hF.ctx

/-- The bytes of the parts. -/
theorem Usable.part_bytes (hw : ParWF b n par.toBfvParameters) (h32 : par.moduli.length ≤ 2 ^ 32) (h : ct.Usable par) (ps : List (Poly .ntt)) (hps : ∀ p ∈ ps, p ∈ ct.c) :
    ∃ xs, ps.mapM Poly.toBytes = some xs ∧ ∀ x ∈ xs, IsBytes x ∧ x.length ≤ par.partSize := by
  obtain ⟨l, F, ha, hF⟩ := h.parts_eq hw
  have hn : n ≤ 31 := by have := hw.le_16; omega
  obtain ⟨xs, h1, h2⟩ := mapM_exists (f := Poly.toBytes) (l := ps) (fun _ x => IsBytes x ∧ x.length ≤ par.partSize) fun p hp => by
    obtain ⟨f, hf, -⟩ := exists_encI ha.wf ha.deg (hF.ctx p (hps p hp)) (h.valid p (hps p hp)).1
    obtain ⟨x, a1, a2, a3, -⟩ := toBytes_enc (r := .ntt) (vt := p.vt) ha.wf hn (ha.fits hw.le_16 h32) (ofInt l.ctx f)
    exact ⟨x, by rw [hf]; exact a1, a2, a3.trans (ha.size_le)⟩
  refine ⟨xs, h1, fun x hx => ?_⟩
  obtain ⟨p, -, h⟩ := mem_forall₂ h2 hx
  exact h

/-- A usable ciphertext can be written. -/
theorem Usable.toBytes_any (hw : ParWF b n par.toBfvParameters) (h32 : par.moduli.length ≤ 2 ^ 32) (h : ct.Usable par) : ∃ bytes, ct.toBytes = some bytes := by
  have hmsg : ∃ msg, ct.toMsg = some msg := by
    unfold toMsg
    cases hl : ct.c.getLast? with
    | none => exact ⟨_, rfl⟩
    | some last =>
      obtain ⟨xs, h1, -⟩ := h.part_bytes hw h32 ct.c.dropLast fun p hp => List.dropLast_subset _ hp
      obtain ⟨ys, h2, -⟩ := h.part_bytes hw h32 [last] fun p hp => by rw [List.mem_singleton.1 hp]; exact List.mem_of_getLast? hl
      simp only []
      rw [h1]
      cases hs : ct.seed with
      | some seed => exact ⟨_, rfl⟩
      | none =>
        cases hy : last.toBytes with
        | none => rw [List.mapM_cons, hy] at h2; simp at h2
        | some y => exact ⟨_, rfl⟩
  obtain ⟨msg, hm⟩ := hmsg
  exact ⟨msg.encode, by unfold toBytes; rw [hm]; rfl⟩

end Ciphertext

/-! ## Relinearization -/

theorem RelinearizationKey.relinearizes_any (hw : ParWF b n par.toBfvParameters) {k : RelinearizationKey} (hk : k.ksk.WellFormed g par) (hb : k.ksk.logBase < 64) {ct : Ciphertext} (hct : ct.Usable par) :
    k.relinearizes ct ≠ Res.panic ∧ ∀ r, k.relinearizes ct = Res.ok r → r.Usable par ∧ r.c.length = 2 := by
  by_cases hgood : ct.c.length = 3 ∧ ct.level = k.ksk.ciphertextLevel
  · obtain ⟨h3, hl⟩ := hgood
    rcases Nat.lt_or_ge k.ksk.ciphertextLevel k.ksk.kskLevel with hlt | hle
    · obtain ⟨l, ha, hc, hpair⟩ := hk.high hw hb hlt
      obtain ⟨l', F, ha', hF⟩ := hct.parts_eq hw
      rw [hl] at ha'
      obtain rfl := ha.unique ha'
      have : ∃ e, k.relinearizes ct = Res.err e := by
        unfold relinearizes
        rw [hk.par_eq, hct.validateFor hw, Res.ok_bind]
        generalize hcs : ct.c = cs at hF h3
        match cs, F, hF with
        | [_, _, _], [F0, F1, F2], .cons ⟨v0, h0⟩ (.cons ⟨v1, h1⟩ (.cons ⟨v2, h2⟩ .nil)) =>
          obtain ⟨a, e1, -, e3⟩ := hpair v2 F2
          simp only []
          rw [if_neg (by simpa using hl), h2, nttToPowerBasis_encI ha.wf, Res.lift_some, Res.ok_bind, e1, Res.ok_bind, e3 _ _ (by rw [h0]; rfl), Res.err_bind]
          exact ⟨_, rfl⟩
        | [], _, _ => simp at h3
        | [_], _, _ => simp at h3
        | [_, _], _, _ => simp at h3
        | _ :: _ :: _ :: _ :: _, _, _ => simp at h3
      obtain ⟨e, he⟩ := this
      rw [he]
      exact ⟨Res.noPanic_err _, fun r hr => absurd hr Res.err_ne_ok⟩
    · obtain ⟨e, he⟩ := hk.isFor hw hb hle 0 (0 * 0)
      obtain ⟨m, v, hm⟩ := hct.encrypts hw 0
      rw [hl] at hm
      obtain ⟨r, W, e1, e2, e3, -⟩ := relinearizes_eq hw (k := k) he hm h3
      rw [e1]
      exact ⟨Res.noPanic_ok _, fun r' hr => by rw [← Res.ok_inj.1 hr]; exact ⟨e2.usable hw, e3⟩⟩
  · have : ∃ e, k.relinearizes ct = Res.err e := by
      unfold relinearizes
      rw [hk.par_eq, hct.validateFor hw, Res.ok_bind]
      split
      · rename_i x0 x1 x2 hx
        by_cases hl : ct.level ≠ k.ksk.ciphertextLevel
        · exact ⟨_, by rw [if_pos hl]⟩
        · exact absurd ⟨by rw [hx]; rfl, by simpa using hl⟩ hgood
      · exact ⟨_, rfl⟩
    obtain ⟨e, he⟩ := this
    rw [he]
    exact ⟨Res.noPanic_err _, fun r hr => absurd hr Res.err_ne_ok⟩

/-! ## Galois keys above the level of their ciphertexts -/

theorem GaloisKey.relinearizeInto_high (hw : ParWF b n par.toBfvParameters) {k : GaloisKey} (hk : k.WellFormed g par) (hb : k.ksk.logBase < 64) (hlt : k.ksk.ciphertextLevel < k.ksk.kskLevel)
    {ct out : Ciphertext} (hct : ct.Usable par) (ho : ∀ p ∈ out.c, p.Valid) : ∃ e, k.relinearizeInto ct out = Res.err e := by
  obtain ⟨l, ha, hc, hpair⟩ := hk.ksk.high hw hb hlt
  have hn : n ≤ 31 := by have := hw.le_16; omega
  obtain ⟨l', F, ha', hF⟩ := hct.parts_eq hw
  have hel := hk.element
  rw [hc] at hel
  unfold relinearizeInto validateCiphertext
  rw [hk.ksk.par_eq, hct.validateFor hw, Res.ok_bind]
  by_cases h2 : ct.c.length = 2
  · by_cases hl : ct.level = k.ksk.ciphertextLevel
    · rw [hl] at ha'
      obtain rfl := ha.unique ha'
      generalize hcs : ct.c = cs at hF h2
      match cs, F, hF with
      | [_, _], [F0, F1], .cons ⟨w0, h0⟩ (.cons ⟨w1, h1⟩ .nil) =>
        simp only []
        subst h0 h1
        rw [if_neg (by simpa using hl), Res.ok_bind]
        obtain ⟨o0, o1⟩ := outParts_valid ha.wf ho (x := (encI l.ctx .ntt w0 F0, encI l.ctx .ntt w1 F1)) (ctx_encI _) (ctx_encI _)
        obtain ⟨a, -, e2, e3⟩ := hpair w1 (Nega.subst k.element.exponent F1)
        simp only []
        rw [substitute_encI ha.wf hn ha.deg hk.range.1 hel, Res.lift_some, Res.ok_bind, nttToPowerBasis_encI ha.wf, Res.lift_some, Res.ok_bind, e2 _ _ o0 o1, Res.ok_bind, e3 _ _ (ctx_encI _), Res.err_bind]
        exact ⟨_, rfl⟩
      | [], _, _ => simp at h2
      | [_], _, _ => simp at h2
      | _ :: _ :: _ :: _, _, _ => simp at h2
    · split
      · rw [if_pos (by simpa using hl), Res.err_bind]; exact ⟨_, rfl⟩
      · rw [Res.err_bind]; exact ⟨_, rfl⟩
  · split
    · rename_i x0 x1 hx
      rw [hx] at h2; simp at h2
    · rw [Res.err_bind]; exact ⟨_, rfl⟩

theorem KeySwitchingKey.IsFor.mono {s G : IntPoly par.degree} {k : KeySwitchingKey} {e e' : Nat} (h : k.IsFor par s G i j e) (he : e ≤ e') : k.IsFor par s G i j e' := by
  obtain ⟨h1, h2, h3, E, h4, h5⟩ := h
  exact ⟨h1, h2, h3, E, h4, fun x hx t => (h5 x hx t).trans (by exact_mod_cast he)⟩

theorem exists_uniform {P : Nat → GaloisKey → Nat → Prop} (hmono : ∀ x k e e', P x k e → e ≤ e' → P x k e') : ∀ {gk : List (Nat × GaloisKey)}, (∀ x k, (x, k) ∈ gk → ∃ e, P x k e) → ∃ e, ∀ x k, (x, k) ∈ gk → P x k e
  | [], _ => ⟨0, by simp⟩
  | (y, k) :: gk, h => by
    obtain ⟨e, he⟩ := exists_uniform hmono (gk := gk) fun x k' hx => h x k' (List.mem_cons_of_mem _ hx)
    obtain ⟨e', he'⟩ := h y k List.mem_cons_self
    refine ⟨max e' e, fun x k' hx => ?_⟩
    rcases List.mem_cons.1 hx with hx | hx
    · rw [Prod.mk.injEq] at hx
      obtain ⟨rfl, rfl⟩ := hx
      exact hmono _ _ _ _ he' (le_max_left _ _)
    · exact hmono _ _ _ _ (he x k' hx) (le_max_right _ _)

/-! ## Evaluation keys -/

theorem mem_of_lookup {α : Type} {x : Nat} {a : α} : ∀ {xs : List (Nat × α)}, xs.lookup x = some a → (x, a) ∈ xs
  | [], h => by simp at h
  | (y, c) :: xs, h => by
    rw [List.lookup_cons] at h
    by_cases hxy : x = y
    · subst hxy
      simp at h
      subst h; exact List.mem_cons_self
    · rw [show (x == y) = false by simpa using hxy] at h
      exact List.mem_cons_of_mem _ (mem_of_lookup h)

namespace EvaluationKey
variable {k : EvaluationKey} {ct : Ciphertext}

theorem WellFormed.rot_iff (hw : ParWF b n par.toBfvParameters) (hk : k.WellFormed b g par) (t x : Nat) : k.rot.lookup t = some x ↔ 1 ≤ t ∧ t < par.degree / 2 ∧ x = 3 ^ t % (2 * par.degree) := by
  have h := hk.rot
  rw [constructRot_eq hw, Option.some_inj] at h
  rw [← h, lookup_tab (fun t => 3 ^ t % (2 * par.degree))]
  by_cases ht : 1 ≤ t ∧ t ≤ par.degree / 2 - 1
  · rw [if_pos ht, Option.some_inj]
    exact ⟨fun h => ⟨ht.1, by omega, h.symm⟩, fun h => h.2.2.symm⟩
  · rw [if_neg ht]
    exact ⟨fun h => by simp at h, fun h => absurd ⟨h.1, by omega⟩ ht⟩

theorem WellFormed.isFor (hw : ParWF b n par.toBfvParameters) (hk : k.WellFormed b g par) (hb : ∀ x gk, k.gk.lookup x = some gk → gk.ksk.logBase < 64) (hle : k.keyLevel ≤ k.ciphertextLevel)
    (s : IntPoly par.degree) : ∃ e, k.IsFor par s k.ciphertextLevel k.keyLevel e := by
  obtain ⟨e, he⟩ := exists_uniform (gk := k.gk) (P := fun x gk e => k.gk.lookup x = some gk → gk.IsFor par s x k.ciphertextLevel k.keyLevel e)
    (fun x gk e e' h hee hx => ⟨(h hx).odd, (h hx).element, (h hx).switches.mono hee⟩) fun x gk _ => by
      by_cases hx : k.gk.lookup x = some gk
      · obtain ⟨h1, h2, h3, h4⟩ := hk.gk x gk hx
        obtain ⟨e, he⟩ := h1.ksk.isFor hw (hb x gk hx) (by rw [h3, h4]; exact hle) s (Nega.subst x s)
        rw [h3, h4] at he
        exact ⟨e, fun _ => ⟨by rw [← h2]; exact h1.range.1, by rw [← h2]; exact h1.element, he⟩⟩
      · exact ⟨0, fun h => absurd h hx⟩
  obtain ⟨l, ha⟩ := AtLevel.ofLt (par := par) hw hk.lt
  obtain ⟨ctx, hctx, hmo⟩ := hk.monomials
  rw [ha.contextAt, Res.ok_inj] at hctx
  subst hctx
  obtain ⟨ms, hms, -, hms'⟩ := makeMonomials_eq hw ha
  rw [hms, Res.ok_inj] at hmo
  subst hmo
  refine ⟨e, hk.par_eq, rfl, rfl, hle, hk.lt, hk.rot_iff hw, fun x gk hx => he x gk (mem_of_lookup hx) hx, fun a ha' => ?_⟩
  rw [log2_degree hw] at ha'
  obtain ⟨p, hp, f, hf, hf'⟩ := hms' a ha'
  exact ⟨p, l.ctx, hp, ha.contextAt, f, hf, hf'⟩

theorem WellFormed.supportsInnerSum_total (hw : ParWF b n par.toBfvParameters) (hk : k.WellFormed b g par) : ∃ q, k.supportsInnerSum = some q := by
  obtain ⟨h1, h2⟩ := steps_range hw
  unfold supportsInnerSum
  rw [hk.par_eq, h1, mapM_lookup (hk.rot_iff hw) h2]
  exact ⟨_, rfl⟩

theorem supportsExpansion_total {level : Nat} (hl : level ≤ 64) : ∃ q, k.supportsExpansion level = some q := by
  unfold supportsExpansion
  split
  · exact ⟨_, rfl⟩
  · split
    · exact ⟨_, rfl⟩
    · rw [mapM_eq_some_map (g := fun l => (k.gk.lookup ((k.par.degree >>> l) + 1)).isSome) (fun l hl' => by
        have : l < level := by simpa using hl'
        rw [check_eq (show l < 64 by omega)]; rfl)]
      exact ⟨_, rfl⟩

theorem validateCiphertext_any (hw : ParWF b n par.toBfvParameters) (hp : k.par = par) (hct : ct.Usable par) :
    (∃ e, k.validateCiphertext ct = Res.err e) ∨ k.validateCiphertext ct = Res.ok () ∧ ct.c.length = 2 ∧ ct.level = k.ciphertextLevel := by
  unfold validateCiphertext
  rw [hp, hct.validateFor hw, Res.ok_bind]
  by_cases h2 : ct.c.length = 2
  · rw [if_neg (by simpa using h2)]
    by_cases hl : ct.level = k.ciphertextLevel
    · rw [if_neg (by simpa using hl)]; exact .inr ⟨rfl, h2, hl⟩
    · rw [if_pos hl]; exact .inl ⟨_, rfl⟩
  · rw [if_pos h2]; exact .inl ⟨_, rfl⟩

theorem getKey_cases (x : Nat) : (∃ e, k.getKey x = Res.err e) ∨ ∃ gk, k.getKey x = Res.ok gk ∧ k.gk.lookup x = some gk := by
  unfold getKey
  cases hx : k.gk.lookup x with
  | none => exact .inl ⟨_, rfl⟩
  | some gk => exact .inr ⟨gk, rfl, rfl⟩

/-- Whatever an operation of an evaluation key does, it does not panic, and what it returns can be used. -/
theorem WellFormed.operations (hw : ParWF b n par.toBfvParameters) (hk : k.WellFormed b g par) (hb : ∀ x gk, k.gk.lookup x = some gk → gk.ksk.logBase < 64) (hct : ct.Usable par) :
    (k.rotatesRows ct ≠ Res.panic ∧ ∀ r, k.rotatesRows ct = Res.ok r → r.Usable par) ∧
    (∀ t, k.rotatesColumnsBy ct t ≠ Res.panic ∧ ∀ r, k.rotatesColumnsBy ct t = Res.ok r → r.Usable par) ∧
    (k.computesInnerSum ct ≠ Res.panic ∧ ∀ r, k.computesInnerSum ct = Res.ok r → r.Usable par) ∧
    ∀ size, k.expands ct size ≠ Res.panic ∧ ∀ out, k.expands ct size = Res.ok out → ∀ r ∈ out, r.Usable par := by
  have herr : ∀ {α : Type} {x : Res α} {Q : α → Prop}, (∃ e, x = Res.err e) → x ≠ Res.panic ∧ ∀ r, x = Res.ok r → Q r := fun ⟨e, he⟩ => by
    rw [he]; exact ⟨Res.noPanic_err _, fun r hr => absurd hr Res.err_ne_ok⟩
  have hok : ∀ {α : Type} {x : Res α} {Q : α → Prop}, (∃ r, x = Res.ok r ∧ Q r) → x ≠ Res.panic ∧ ∀ r, x = Res.ok r → Q r := fun ⟨r, he, hq⟩ => by
    rw [he]; exact ⟨Res.noPanic_ok _, fun r' hr => by rw [← Res.ok_inj.1 hr]; exact hq⟩
  have hn := hw.three_le
  have hN : 8 ≤ par.degree := by rw [hw.degree]; exact Nat.pow_le_pow_right (n := 2) (by norm_num) hn
  rcases validateCiphertext_any hw hk.par_eq hct with ⟨e, he⟩ | ⟨hval, h2, hl⟩
  · refine ⟨herr ⟨e, ?_⟩, fun t => herr ⟨e, ?_⟩, herr ⟨e, ?_⟩, fun size => herr ⟨e, ?_⟩⟩
    · unfold rotatesRows; rw [he, Res.err_bind]
    · unfold rotatesColumnsBy; rw [he, Res.err_bind]
    · unfold computesInnerSum; rw [he, Res.err_bind]
    · unfold expands; rw [he, Res.err_bind]
  have hlev : ∀ {size : Nat}, size ≤ par.degree → RnsScaler.ceilLog2 size ≤ 64 := fun {size} hs => by
    rcases Nat.lt_or_ge 1 size with h1 | h1
    · obtain ⟨-, s2⟩ := RnsScaler.ceilLog2_spec h1
      by_contra hc
      have h3 : 2 ^ (16 + 1) ≤ 2 ^ RnsScaler.ceilLog2 size := Nat.pow_le_pow_right (by norm_num) (by omega)
      have h4 : par.degree ≤ 2 ^ 16 := by rw [hw.degree]; exact Nat.pow_le_pow_right (by norm_num) hw.le_16
      rw [pow_succ] at h3
      omega
    · interval_cases size <;> decide
  obtain ⟨qi, hqi⟩ := hk.supportsInnerSum_total hw
  rcases Nat.lt_or_ge k.ciphertextLevel k.keyLevel with hlt | hle
  · have hhigh : ∀ {x : Nat} {gk : GaloisKey} {out : Ciphertext}, k.gk.lookup x = some gk → (∀ p ∈ out.c, p.Valid) → ∃ e, gk.relinearizeInto ct out = Res.err e := fun {x gk out} hx ho => by
      obtain ⟨h1, h2, h3, h4⟩ := hk.gk x gk hx
      exact GaloisKey.relinearizeInto_high hw h1 (hb x gk hx) (by rw [h3, h4]; exact hlt) hct ho
    refine ⟨herr ?_, fun t => herr ?_, herr ?_, fun size => ?_⟩
    · unfold rotatesRows
      rw [hval, Res.ok_bind]
      split
      · exact ⟨_, rfl⟩
      · rcases getKey_cases (k := k) (k.par.degree * 2 - 1) with ⟨e, he⟩ | ⟨gk, he, hx⟩
        · rw [he]; exact ⟨e, rfl⟩
        · rw [he, Res.ok_bind]; exact hhigh hx (zero_valid _)
    · unfold rotatesColumnsBy
      rw [hval, Res.ok_bind]
      split
      · exact ⟨_, rfl⟩
      · cases hx : k.rot.lookup t with
        | none =>
          simp only []
          rw [hk.par_eq, subU, if_pos (by omega), Res.lift_some, Res.ok_bind]
          exact ⟨_, rfl⟩
        | some x =>
          simp only []
          rcases getKey_cases (k := k) x with ⟨e, he⟩ | ⟨gk, he, hx⟩
          · rw [he]; exact ⟨e, rfl⟩
          · rw [he, Res.ok_bind]; exact hhigh hx (zero_valid _)
    · unfold computesInnerSum
      rw [hval, Res.ok_bind, hqi, Res.lift_some, Res.ok_bind]
      split
      · exact ⟨_, rfl⟩
      · rw [hct.par_eq, (steps_range hw).1, show n - 1 = (n - 2) + 1 by omega, List.range_succ_eq_map, List.map_cons]
        unfold innerLoop
        split
        · exact ⟨_, rfl⟩
        · rename_i x _
          rcases getKey_cases (k := k) x with ⟨e, he⟩ | ⟨gk, he, hx⟩
          · rw [he]; exact ⟨e, rfl⟩
          · obtain ⟨e', he'⟩ := hhigh hx (zero_valid par)
            rw [he, Res.ok_bind, he']
            exact ⟨e', rfl⟩
    · unfold expands
      rw [hval, Res.ok_bind]
      split
      · exact herr ⟨_, rfl⟩
      · split
        · exact herr ⟨_, rfl⟩
        · rename_i h0 hs
          simp only []
          split
          · exact hok ⟨[ct], rfl, fun r hr => by rw [List.mem_singleton.1 hr]; exact hct⟩
          · rename_i hlv
            obtain ⟨q, hq⟩ := supportsExpansion_total (k := k) (hlev (size := size) (by rw [hk.par_eq] at hs; omega))
            rw [hq, Res.lift_some, Res.ok_bind]
            split
            · obtain ⟨c, hc⟩ : ∃ c, RnsScaler.ceilLog2 size = c + 1 := ⟨RnsScaler.ceilLog2 size - 1, by omega⟩
              rw [hc]
              refine herr ?_
              unfold expandLoop
              split
              · exact ⟨_, rfl⟩
              · rename_i mo _
                rcases getKey_cases (k := k) ((k.par.degree >>> 0) + 1) with ⟨e, he⟩ | ⟨gk, he, hx⟩
                · rw [he]; exact ⟨e, rfl⟩
                · obtain ⟨e', he'⟩ := hhigh hx (zero_valid ct.par)
                  rw [he, Res.ok_bind]
                  unfold expandRow
                  rw [he']
                  exact ⟨e', rfl⟩
            · exact herr ⟨_, rfl⟩
  · obtain ⟨e, he⟩ := hk.isFor hw hb hle 0
    obtain ⟨B, hB⟩ := EvaluationKey.exists_error (par := par) k 0 e
    obtain ⟨m, v, hm⟩ := hct.encrypts hw 0
    obtain ⟨V, hV⟩ := IntPoly.exists_bound v
    have hfit : ct.Fits par 0 k.ciphertextLevel m V := ⟨v, hl ▸ hm, h2, hV⟩
    have hS : (0 : IntPoly par.degree).Bounded 0 := fun t => by simp
    have huse : ∀ {y : Ciphertext} {f : par.Msg} {V : Nat}, y.Fits par 0 k.ciphertextLevel f V → y.Usable par := fun ⟨_, h, _⟩ => h.usable hw
    obtain ⟨hr, hc⟩ := rotates_eq hw he hS hB hfit
    refine ⟨?_, fun t => ?_, ?_, fun size => ?_⟩
    · by_cases hs : k.supportsRowRotation = true
      · obtain ⟨r, e1, e2⟩ := hr hs
        exact hok ⟨r, e1, huse e2⟩
      · refine herr ?_
        unfold rotatesRows
        rw [hval, Res.ok_bind, if_pos (by simpa using hs)]
        exact ⟨_, rfl⟩
    · by_cases hs : k.supportsColumnRotationBy t = true
      · obtain ⟨-, -, r, e1, e2⟩ := hc t hs
        exact hok ⟨r, e1, huse e2⟩
      · refine herr ?_
        unfold rotatesColumnsBy
        rw [hval, Res.ok_bind, if_pos (by simpa using hs)]
        exact ⟨_, rfl⟩
    · cases qi
      · refine herr ?_
        unfold computesInnerSum
        rw [hval, Res.ok_bind, hqi, Res.lift_some, Res.ok_bind]
        exact ⟨_, rfl⟩
      · obtain ⟨r, e1, e2⟩ := computesInnerSum_eq hw he hS hB hfit hqi
        exact hok ⟨r, e1, huse e2⟩
    · by_cases h0 : size = 0
      · refine herr ?_
        unfold expands
        rw [hval, Res.ok_bind, if_pos h0]
        exact ⟨_, rfl⟩
      by_cases hs : size ≤ par.degree
      · obtain ⟨q, hq⟩ := supportsExpansion_total (k := k) (hlev hs)
        cases q
        · unfold expands
          rw [hval, Res.ok_bind, if_neg h0, hk.par_eq, if_neg (by omega)]
          simp only []
          split
          · exact hok ⟨[ct], rfl, fun r hr => by rw [List.mem_singleton.1 hr]; exact hct⟩
          · rw [hq, Res.lift_some, Res.ok_bind]
            exact herr ⟨_, rfl⟩
        · obtain ⟨out, e1, e2, e3⟩ := expands_eq hw he hS hB hfit (by omega) hs hq
          refine hok ⟨out, e1, fun r hr => ?_⟩
          obtain ⟨p, hp, rfl⟩ := List.mem_iff_getElem.1 hr
          obtain ⟨y, y1, y2⟩ := e3 p (by omega)
          rw [List.getElem?_eq_getElem hp, Option.some_inj] at y1
          rw [y1]; exact huse y2
      · refine herr ?_
        unfold expands
        rw [hval, Res.ok_bind, if_neg h0, hk.par_eq, if_pos (by omega)]
        exact ⟨_, rfl⟩

end EvaluationKey

/-! ## Multiplicators -/

namespace Multiplicator
variable {mp : Multiplicator} {rk : RelinearizationKey} {ct ct' r : Ciphertext}

/-- With a relinearization key, multiplication computes the parts of the result from those it would return without the key. -/
theorem multiply_parts (h : ({ mp with rk := none, modSwitch := false } : Multiplicator).multiply ct ct' = Res.ok r) :
    ∃ x0 x1 x2, r.c = [x0, x1, x2] ∧ ({ mp with rk := some rk, modSwitch := false } : Multiplicator).multiply ct ct' =
      (({ mp with rk := some rk, modSwitch := false } : Multiplicator).parts x0 x1 x2 >>= fun c => Res.ok { r with c }) := by
  unfold multiply at h ⊢
  rw [Res.bind_eq_ok] at h
  obtain ⟨_, g1, h⟩ := h
  rw [Res.bind_eq_ok] at h
  obtain ⟨_, g2, h⟩ := h
  by_cases h1 : ct.level ≠ mp.level
  · rw [if_pos h1] at h; exact absurd h Res.err_ne_ok
  by_cases h2 : ct'.level ≠ mp.level
  · rw [if_neg h1, if_pos h2] at h; exact absurd h Res.err_ne_ok
  rw [if_neg h1, if_neg h2] at h
  simp only [] at g1 g2
  simp only []
  rw [g1, Res.ok_bind, g2, Res.ok_bind, if_neg h1, if_neg h2]
  match hc : ct.c, hc' : ct'.c with
  | [l0, l1], [r0, r1] =>
    simp only [hc, hc'] at h ⊢
    rw [Res.bind_eq_ok] at h
    obtain ⟨x, g3, h⟩ := h
    have g4 : ({ mp with rk := some rk, modSwitch := false } : Multiplicator).product l0 l1 r0 r1 = Res.ok x := g3
    rw [g4, Res.ok_bind]
    rw [Res.bind_eq_ok] at h
    obtain ⟨ps, g5, h⟩ := h
    unfold parts at g5
    simp only [Res.ok_inj] at g5
    subst g5
    simp only [Bool.false_eq_true, if_false] at h ⊢
    rw [Res.pure_eq, Res.ok_inj] at h
    subst h
    exact ⟨_, _, _, rfl, rfl⟩
  | [], _ => simp only [hc] at h; exact absurd h Res.err_ne_ok
  | [_], _ => simp only [hc] at h; exact absurd h Res.err_ne_ok
  | _ :: _ :: _ :: _, _ => simp only [hc] at h; exact absurd h Res.err_ne_ok
  | [_, _], [] => simp only [hc, hc'] at h; exact absurd h Res.err_ne_ok
  | [_, _], [_] => simp only [hc, hc'] at h; exact absurd h Res.err_ne_ok
  | [_, _], _ :: _ :: _ :: _ => simp only [hc, hc'] at h; exact absurd h Res.err_ne_ok

/-- A multiplicator made from any well-formed key does not panic on usable ciphertexts, and what it returns can be used. -/
theorem default_any (hw : ParWF b n par.toBfvParameters) (hcount : par.moduli.length ≤ 31) (hsum : par.moduli.sum ≤ 2 ^ 65) (hk : rk.ksk.WellFormed g par) (hb : rk.ksk.logBase < 64)
    (hmp : default b rk = Res.ok mp) (hct : ct.Usable par) (hct' : ct'.Usable par) :
    mp.modSwitch = false ∧ mp.level = rk.ksk.ciphertextLevel ∧ mp.par = par ∧ mp.multiply ct ct' ≠ Res.panic ∧ ∀ r, mp.multiply ct ct' = Res.ok r → r.Usable par ∧ r.level = mp.level ∧ r.c.length = 2 := by
  have hlv : rk.ksk.ciphertextLevel < par.moduli.length := by
    obtain ⟨l, hl, -⟩ := ParWF.contextAtLevel_iff.1 hk.ctx
    exact (AtLevel.ofGet hw hl).lt
  obtain ⟨l, ha⟩ := AtLevel.ofLt (par := par) hw hlv
  obtain ⟨ext, hs, hrk, hms, hf⟩ := (default_inv hw hcount hsum ha hk.par_eq rfl).1 mp hmp
  refine ⟨hms, hf.level, hf.par_eq, ?_⟩
  have herr : (∃ e, mp.multiply ct ct' = Res.err e) → mp.multiply ct ct' ≠ Res.panic ∧ ∀ r, mp.multiply ct ct' = Res.ok r → r.Usable par ∧ r.level = mp.level ∧ r.c.length = 2 := fun ⟨e, he⟩ => by
    rw [he]; exact ⟨Res.noPanic_err _, fun r hr => absurd hr Res.err_ne_ok⟩
  by_cases hgood : ct.level = rk.ksk.ciphertextLevel ∧ ct'.level = rk.ksk.ciphertextLevel ∧ ct.c.length = 2 ∧ ct'.c.length = 2
  · obtain ⟨l1, l2, hl1, hl2⟩ := hgood
    obtain ⟨m, v, h1⟩ := hct.encrypts hw 0
    obtain ⟨m', v', h2⟩ := hct'.encrypts hw 0
    rw [l1] at h1
    rw [l2] at h2
    have hf0 : ({ mp with rk := none } : Multiplicator).Follows par.degree (MulStrategy.standard par rk.ksk.ciphertextLevel ext) par rk.ksk.ciphertextLevel l :=
      ⟨hf.1, hf.2, hf.3, hf.4, hf.5, hf.6, hf.7, hf.8, hf.9⟩
    obtain ⟨r, v'', _, _, _, _, _, _, _, e1, e2, e3, -⟩ := multiply_eq hw ha hf0 hs.lhs hs.rhs hs.factors hs.fits h1 h2 hl1 hl2 rfl hms
    have hmp' : ({ mp with rk := some rk, modSwitch := false } : Multiplicator) = mp := by cases mp; simp_all
    have hmp0 : ({ mp with rk := none, modSwitch := false } : Multiplicator) = { mp with rk := none } := by cases mp; simp_all
    rcases Nat.lt_or_ge rk.ksk.ciphertextLevel rk.ksk.kskLevel with hlt | hle
    · obtain ⟨l', ha', hc, hpair⟩ := hk.high hw hb hlt
      obtain rfl := ha.unique ha'
      obtain ⟨l', F, ha', hF⟩ := (e2.usable hw).parts_eq hw
      rw [e2.level_eq] at ha'
      obtain rfl := ha.unique ha'
      obtain ⟨x0, x1, x2, hx, hm⟩ := multiply_parts (rk := rk) (by rw [hmp0]; exact e1)
      rw [hmp'] at hm
      rw [hx] at hF
      apply herr
      rw [hm]
      match F, hF with
      | [F0, F1, F2], .cons ⟨v0, h0⟩ (.cons ⟨v1, h1⟩ (.cons ⟨v2, h2⟩ .nil)) =>
        obtain ⟨a, e1, -, e3⟩ := hpair v2 F2
        unfold parts
        rw [hrk]
        simp only []
        rw [h2, nttToPowerBasis_encI ha.wf, Res.lift_some, Res.ok_bind, e1, Res.ok_bind, e3 _ _ (by rw [h0]; rfl), Res.err_bind, Res.err_bind]
        exact ⟨_, rfl⟩
    · obtain ⟨e, he⟩ := hk.isFor hw hb hle 0 (0 * 0)
      obtain ⟨r', W, g1, g2, g3, -⟩ := RelinearizationKey.relinearizes_eq hw (k := rk) he e2 e3
      have hmul : mp.multiply ct ct' = Res.ok r' := by
        rw [← hmp']
        exact multiply_relin (by rw [hmp0]; exact e1) g1
      rw [hmul]
      exact ⟨Res.noPanic_ok _, fun r hr => by rw [← Res.ok_inj.1 hr]; exact ⟨g2.usable hw, by rw [g2.level_eq, hf.level], g3⟩⟩
  · apply herr
    unfold multiply
    rw [hf.par_eq, hct.validateFor hw, Res.ok_bind, hct'.validateFor hw, Res.ok_bind, hf.level]
    split
    · exact ⟨_, rfl⟩
    · split
      · exact ⟨_, rfl⟩
      · rename_i l1 l2
        split
        · rename_i hx hy
          exact absurd ⟨by simpa using l1, by simpa using l2, by rw [hx]; rfl, by rw [hy]; rfl⟩ hgood
        · exact ⟨_, rfl⟩

/-- Switching is a step of its own. -/
theorem multiply_switch_bind (hms : mp.modSwitch = false) : ({ mp with modSwitch := true } : Multiplicator).multiply ct ct' = mp.multiply ct ct' >>= Ciphertext.switchDown := by
  unfold multiply
  simp only []
  rcases Res.cases (ct.validateFor mp.par) with ⟨_, e1⟩ | ⟨_, e1⟩ | e1
  · rcases Res.cases (ct'.validateFor mp.par) with ⟨_, e2⟩ | ⟨_, e2⟩ | e2
    · rw [e1, Res.ok_bind, Res.ok_bind, e2, Res.ok_bind, Res.ok_bind]
      split
      · rw [Res.err_bind]
      · split
        · rw [Res.err_bind]
        · split
          · rename_i l0 l1 r0 r1 _ _
            have hp : ({ mp with modSwitch := true } : Multiplicator).product l0 l1 r0 r1 = mp.product l0 l1 r0 r1 := rfl
            rw [hp]
            rcases Res.cases (mp.product l0 l1 r0 r1) with ⟨x, e3⟩ | ⟨_, e3⟩ | e3
            · rw [e3, Res.ok_bind, Res.ok_bind]
              have hq : ({ mp with modSwitch := true } : Multiplicator).parts x.1 x.2.1 x.2.2 = mp.parts x.1 x.2.1 x.2.2 := rfl
              rw [hq]
              rcases Res.cases (mp.parts x.1 x.2.1 x.2.2) with ⟨y, e4⟩ | ⟨_, e4⟩ | e4
              · rw [e4, Res.ok_bind, Res.ok_bind, if_pos trivial, hms, if_neg (by simp), Res.pure_eq, Res.ok_bind]
              · rw [e4, Res.err_bind, Res.err_bind, Res.err_bind]
              · rw [e4, Res.panic_bind, Res.panic_bind, Res.panic_bind]
            · rw [e3, Res.err_bind, Res.err_bind, Res.err_bind]
            · rw [e3, Res.panic_bind, Res.panic_bind, Res.panic_bind]
          · rw [Res.err_bind]
    · rw [e1, Res.ok_bind, Res.ok_bind, e2, Res.err_bind, Res.err_bind, Res.err_bind]
    · rw [e1, Res.ok_bind, Res.ok_bind, e2, Res.panic_bind, Res.panic_bind, Res.panic_bind]
  · rw [e1, Res.err_bind, Res.err_bind, Res.err_bind]
  · rw [e1, Res.panic_bind, Res.panic_bind, Res.panic_bind]

end Multiplicator

/-! ## Encryption with any public key -/

theorem PublicKey.tryEncrypt_any (hw : ParWF b n par.toBfvParameters) {pk : PublicKey} (hp : pk.par = par) (hc : pk.c.Usable par) (h0 : pk.c.level = 0) (hQ : par.plaintext.value ≤ par.modulusAt i)
    {pt : Plaintext} {m : par.Msg} (hpt : pt.Holds par i m) {rngU rng1 rng2 : Nat → Nat} (hU : IsStream rngU) (h1 : IsStream rng1) (h2 : IsStream rng2) :
    ∃ r, pk.tryEncrypt pt rngU rng1 rng2 = Res.ok r ∧ r.Usable par ∧ r.level = i ∧ r.c.length = 2 := by
  have hilt : i < par.moduli.length := by
    obtain ⟨l, hl, -⟩ := ParWF.contextAtLevel_iff.1 hpt.ctx
    exact (AtLevel.ofGet hw hl).lt
  obtain ⟨m0, v0, hpk⟩ := hc.encrypts hw 0
  rw [h0] at hpk
  have hs : (0 : IntPoly par.degree).Bounded 0 := fun t => by simp
  obtain ⟨r, v', g1, g2, g3, -⟩ := Ciphertext.switchLoop_eq hw hs i hpk (by omega)
  rw [Nat.zero_add] at g2
  obtain ⟨l, F, M, ha, hF, hM, hph⟩ := g2.elim hw
  obtain ⟨u, hub, hu⟩ := small_encI hw.variance.1 hw.variance.2 hU par.degree
  obtain ⟨e1, he1b, he1⟩ := small_encI hw.variance.1 hw.variance.2 h1 par.degree
  obtain ⟨e2, he2b, he2⟩ := small_encI hw.variance.1 hw.variance.2 h2 par.degree
  have h2 := g2.parts
  match hrc : r.c, hF with
  | [], _ => rw [hrc] at h2; simp at h2
  | [_], _ => rw [hrc] at h2; simp at h2
  | p0 :: p1 :: ps, hF =>
    obtain ⟨f0, F', hp0, hF', rfl⟩ := List.forall₂_cons_left_iff.1 hF
    obtain ⟨f1, F'', hp1, hF'', rfl⟩ := List.forall₂_cons_left_iff.1 hF'
    obtain ⟨vt0, rfl⟩ := hp0
    obtain ⟨vt1, rfl⟩ := hp1
    have hparts : Ciphertext.Parts l.ctx [encI l.ctx .ntt true (u * f0 + e1 + scaleMsg (par.modulusAt i) m), encI l.ctx .ntt true (u * f1 + e2)] [u * f0 + e1 + scaleMsg (par.modulusAt i) m, u * f1 + e2] :=
      .cons ⟨_, rfl⟩ (.cons ⟨_, rfl⟩ .nil)
    refine ⟨{ par, seed := none, c := [encI l.ctx .ntt true (u * f0 + e1 + scaleMsg (par.modulusAt i) m), encI l.ctx .ntt true (u * f1 + e2)], level := i }, ?_,
      ⟨rfl, hilt, le_rfl, fun p hp => ⟨hparts.valid ha.wf p hp, ?_⟩⟩, rfl, rfl⟩
    · unfold tryEncrypt
      rw [hp, hpt.validateFor hw ha, Res.ok_bind, hc.validateFor hw, Res.ok_bind, hpt.level_eq hw ha, Res.lift_some, Res.ok_bind, h0, if_neg (by omega), Nat.sub_zero, g1, Res.ok_bind,
        g2.level_eq, ha.contextAt, Res.ok_bind, (hu ha.wf ha.deg).2.1, Res.math_ok, Res.ok_bind, (he1 ha.wf ha.deg).2.1, Res.math_ok, Res.ok_bind, (he2 ha.wf ha.deg).2.1, Res.math_ok, Res.ok_bind,
        Plaintext.toPoly_encI hw ha hQ hpt, Res.lift_some, Res.ok_bind, hrc, List.getElem?_cons_zero, Res.lift_some, Res.ok_bind,
        mulAssign_encI ha.wf ha.deg, Res.lift_some, Res.ok_bind, addAssign_encI ha.wf ha.deg (by simp), Res.lift_some, Res.ok_bind, addAssign_encI ha.wf ha.deg (by simp), Res.lift_some, Res.ok_bind,
        List.getElem?_cons_succ, List.getElem?_cons_zero, Res.lift_some, Res.ok_bind,
        mulAssign_encI ha.wf ha.deg, Res.lift_some, Res.ok_bind, addAssign_encI ha.wf ha.deg (by simp), Res.lift_some, Res.ok_bind]
      rfl
    · rw [ha.contextAt, hparts.ctx p hp]

/-! ## Decryption and measuring the noise -/

theorem SecretKey.measureNoise_any (hw : ParWF b n par.toBfvParameters) (hcount : par.moduli.length ≤ 31) (hsum : par.moduli.sum ≤ 2 ^ 65) {sk : SecretKey} {s : IntPoly par.degree} (hk : sk.IsKey par s)
    {ct : Ciphertext} (hct : ct.Usable par) (hQ : par.plaintext.value ≤ par.modulusAt ct.level) : ∃ k, sk.measureNoise b ct = Res.ok k := by
  obtain ⟨pt, m, hdec, hholds⟩ := tryDecrypt_total hw hcount hsum hk hct.par_eq hct.level hQ hct.parts hct.valid
  obtain ⟨l, F, ha, hF⟩ := hct.parts_eq hw
  have := ha.wf.neZero
  have h2 := hct.parts
  unfold measureNoise
  rw [hdec, Res.ok_bind, Plaintext.toPoly_encI hw ha hQ hholds, Res.lift_some, Res.ok_bind]
  cases hc : ct.c with
  | nil => rw [hc] at h2; simp at h2
  | cons p ps =>
    rw [hc] at hF
    cases hF with
    | @cons _ f _ F h1 h2 =>
      obtain ⟨vt, rfl⟩ := h1
      simp only []
      rw [ctx_encI, SecretKey.polyAt_encI hk ha.wf ha.deg, Res.ok_bind, disallowVt_encI, SecretKey.noiseLoop_eq ha.wf ha.deg s h2, Res.lift_some, Res.ok_bind, subAssign_encI ha.wf ha.deg (by simp),
        Res.lift_some, Res.ok_bind, nttToPowerBasis_encI ha.wf, Res.lift_some, Res.ok_bind]
      unfold encI
      rw [Plaintext.toBigUint_enc ha.wf, Res.lift_some, Res.ok_bind, check_eq (fun x hx => by
        obtain ⟨j, rfl⟩ := (List.mem_ofFn' _ _).1 hx
        exact (ZMod.val_lt _).le), Res.lift_some, Res.ok_bind]
      exact ⟨_, rfl⟩

/-! ## Seeds -/

theorem Poly.IsMod.congr {c : Context} {N : Nat} {r : Rep} {p : Poly r} {F G : IntPoly N} (hQ : 0 < c.modulus) (h : p.IsMod c F) (h' : p.IsMod c G) (t : Fin N) : F t % (c.modulus : Int) = G t % (c.modulus : Int) := by
  have e := h.coeffs.symm.trans h'.coeffs
  rw [Option.some_inj, List.ofFn_inj] at e
  have e : (F t % (c.modulus : Int)).toNat = (G t % (c.modulus : Int)).toNat := congrFun e t
  have g1 := Int.emod_nonneg (F t) (b := (c.modulus : Int)) (by omega)
  have g2 := Int.emod_nonneg (G t) (b := (c.modulus : Int)) (by omega)
  omega

namespace Ciphertext
variable {ct : Ciphertext} {seed : Seed}

/-- With a seed the last part is not written. -/
theorem toMsg_last {xs : List (Poly .ntt)} {y y' : Poly .ntt} (hs : ct.seed = some seed) : ({ ct with c := xs ++ [y] } : Ciphertext).toMsg = ({ ct with c := xs ++ [y'] } : Ciphertext).toMsg := by
  unfold toMsg
  simp only [List.getLast?_append, List.getLast?_singleton, Option.some_or, List.dropLast_concat, hs]

/-- What is read back from the bytes of a well-formed ciphertext. -/
theorem WellFormed.read_back (hw : ParWF b n par.toBfvParameters) (hct : ct.WellFormed g par) (h32 : par.moduli.length ≤ 2 ^ 32) (hs : ∀ seed, ct.seed = some seed → IsBytes seed) :
    ∃ bytes, ct.toBytes = some bytes ∧ IsBytes bytes ∧ Ciphertext.fromBytes g bytes par = Res.ok { ct with c := ct.c.map Poly.allowVt } := by
  obtain ⟨msg, e1, e2, e3, -, e4, e5⟩ := Ciphertext.roundtrip_eq hw hct h32
  refine ⟨msg.encode, by unfold Ciphertext.toBytes; rw [e1]; rfl, CiphertextMsg.isBytes_encode e4 ?_, ?_⟩
  · rw [e5]
    cases hseed : ct.seed with
    | none => exact fun _ h => by cases h
    | some seed => exact hs seed hseed
  · unfold Ciphertext.fromBytes CiphertextMsg.decode
    rw [CiphertextMsg.codec e3 (partSize_lt' hw h32)]
    exact e2

end Ciphertext

/-- The second part of a relinearized ciphertext: something that depends only on the third part is added. -/
theorem RelinearizationKey.relinearizes_second (hw : ParWF b n par.toBfvParameters) {k : RelinearizationKey} {e : Nat} (hk : k.IsFor par s i j e) : ∃ l, AtLevel b n par i l ∧
    ∀ (w : Bool) (F2 : IntPoly par.degree), ∃ B : IntPoly par.degree, ∀ (ct : Ciphertext) (w0 w1 : Bool) (F0 F1 : IntPoly par.degree), ct.par = par → ct.level = i →
      ct.c = [encI l.ctx .ntt w0 F0, encI l.ctx .ntt w1 F1, encI l.ctx .ntt w F2] → ∃ r y0 v, k.relinearizes ct = Res.ok r ∧ r.c = [y0, encI l.ctx .ntt v (F1 + B)] := by
  obtain ⟨l, ha, hc, hp, hpair⟩ := KeySwitchingKey.IsFor.pair hw hk
  refine ⟨l, ha, fun w F2 => ?_⟩
  obtain ⟨A, B, H, W, v0, v1, a, e1, e2, e3, e4, e5⟩ := hpair w F2
  refine ⟨B, fun ct w0 w1 F0 F1 hpar hlev hcc => ?_⟩
  have hval := Ciphertext.validateFor_ok (par := par) (ct := ct) (l := l) (by rw [hlev]; exact ha) hpar (by rw [hcc]; simp) fun q hq => by
    rw [hcc] at hq
    simp only [List.mem_cons, List.not_mem_nil, or_false] at hq
    rcases hq with rfl | rfl | rfl <;> rfl
  have hlevel : k.ksk.ciphertextLevel = i := hk.level
  refine ⟨{ ct with c := [encI l.ctx .ntt (w0 && v0) (F0 + A), encI l.ctx .ntt (w1 && v1) (F1 + B)] }, _, _, ?_, rfl⟩
  unfold RelinearizationKey.relinearizes
  rw [hp, hval, Res.ok_bind, hcc]
  simp only []
  rw [hlevel, hlev, if_neg (by simp), nttToPowerBasis_encI ha.wf, Res.lift_some, Res.ok_bind, e1, Res.ok_bind, e3 _ _ (ctx_encI _) (ctx_encI _), Res.ok_bind]
  simp only []
  rw [addAssign_encI ha.wf ha.deg (by simp), Res.lift_some, Res.ok_bind, addAssign_encI ha.wf ha.deg (by simp), Res.lift_some, Res.ok_bind, Res.pure_eq]

end Fhe
