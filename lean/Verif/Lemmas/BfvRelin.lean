import Verif.Lemmas.BfvKskNew
/-!
# Lemmas on relinearization and Galois keys
-/
namespace Fhe
open Nega Poly Ciphertext

variable {b : Build} {n N : Nat} {c c' : Context} {r : Rep} {vt vt' : Bool} {par : Par} {i j : Nat} {l l' : ContextLevel}

theorem IntPoly.scale_eq (a : Int) (F : IntPoly N) : IntPoly.scale a F = C a * F := Nega.ext fun j => by rw [C_mul_apply]; rfl

theorem modulusAt_ratio (hw : ParWF b n par.toBfvParameters) (ha : AtLevel b n par i l) (ha' : AtLevel b n par j l') (hij : j ≤ i) :
    par.modulusAt j = par.modulusAt j / par.modulusAt i * par.modulusAt i ∧ 0 < par.modulusAt j / par.modulusAt i ∧ l'.ctx.modulus = par.modulusAt j / par.modulusAt i * l.ctx.modulus := by
  obtain ⟨P, h1, h2⟩ := modulus_factor hw ha' ha hij
  rw [ha.mod, ha'.mod] at h1
  have hpos := ha.pos
  have : par.modulusAt j / par.modulusAt i = P := by rw [h1, Nat.mul_div_cancel _ hpos]
  rw [this, ha.mod, ha'.mod]
  exact ⟨h1, h2, h1⟩

namespace KeySwitchingKey
variable {s G : IntPoly par.degree} {k : KeySwitchingKey} {e : Nat}

/-- Switching with a key that stands for something. -/
theorem IsFor.pair (hw : ParWF b n par.toBfvParameters) (hk : k.IsFor par s G i j e) : ∃ l, AtLevel b n par i l ∧ k.ctxCiphertext = l.ctx ∧ k.par = par ∧
    ∀ (vt : Bool) (X : IntPoly par.degree), ∃ (A B H W : IntPoly par.degree) (v0 v1 : Bool) (a : Poly .ntt × Poly .ntt), k.keySwitch (encI l.ctx .powerBasis vt X) = Res.ok a ∧
      (∀ o0 o1 : Poly .ntt, o0.Valid → o1.Valid → k.keySwitchAssign (encI l.ctx .powerBasis vt X) o0 o1 = Res.ok a) ∧
      (∀ x0 x1 : Poly .ntt, x0.ctx = l.ctx → x1.ctx = l.ctx → switchPair a x0 x1 = Res.ok (encI l.ctx .ntt v0 A, encI l.ctx .ntt v1 B)) ∧
      A + B * s = X * G + C (par.modulusAt i : Int) * H + W ∧ ∀ S, s.Bounded S → W.Bounded (k.errorBound par S e) := by
  obtain ⟨rfl, rfl, hle, E, hE, hb⟩ := hk
  obtain ⟨l, hl, hc⟩ := ParWF.contextAtLevel_iff.1 hE.ctx
  obtain ⟨l', hl', hc'⟩ := ParWF.contextAtLevel_iff.1 hE.ctxKsk
  have ha := AtLevel.ofGet hw hl
  have ha' := AtLevel.ofGet hw hl'
  obtain ⟨p1, p2, -⟩ := modulusAt_ratio hw ha ha' hle
  refine ⟨l, ha, hc.symm, hE.par_eq, fun vt X => ?_⟩
  obtain ⟨A, B, H, D, R0, R1, DD, W, v0, v1, a, e1, e2, e3, e4, e5, rfl, e7, e8, e9, e10⟩ := pair_eq hw hE hle p1 (IntPoly.scale_eq _ _) vt X
  rw [← hc] at e1 e2 e3
  refine ⟨A, B, H, W, v0, v1, a, e1, e2, e3, e4, fun S hS t => ?_⟩
  have := pair_bound (k := k) e5 (dot_digits_bounded hE e7 e8 hb) hS e9 e10 t
  unfold errorBound ratio
  push_cast at this ⊢
  have p3 : (0 : Int) < ((par.modulusAt k.kskLevel / par.modulusAt k.ciphertextLevel : Nat) : Int) := by exact_mod_cast p2
  push_cast at p3
  refine (Int.le_ediv_iff_mul_le (by linarith)).2 ?_
  rw [mul_comm]
  exact this

theorem IsFor.digitSum_eq (hw : ParWF b n par.toBfvParameters) (hk : k.IsFor par s G i j e) (h0 : k.logBase = 0) : k.digitSum = (par.moduli.take (par.moduli.length - i)).sum := by
  obtain ⟨rfl, rfl, hle, E, hE, hb⟩ := hk
  obtain ⟨l, hl, hc⟩ := ParWF.contextAtLevel_iff.1 hE.ctx
  have ha := AtLevel.ofGet hw hl
  unfold digitSum
  rw [if_pos h0, ← hc, ha.moduli]
end KeySwitchingKey

namespace RelinearizationKey
variable {s : IntPoly par.degree} {k : RelinearizationKey} {e : Nat} {ct : Ciphertext} {m : par.Msg} {v : IntPoly par.degree} {sk : SecretKey}

theorem relinearizes_eq (hw : ParWF b n par.toBfvParameters) (hk : k.IsFor par s i j e) (h : ct.Encrypts par s i m v) (h3 : ct.c.length = 3) :
    ∃ (r : Ciphertext) (W : IntPoly par.degree), k.relinearizes ct = Res.ok r ∧ r.Encrypts par s i m (v + C (par.plaintext.value : Int) * W) ∧ r.c.length = 2 ∧ r.seed = ct.seed ∧
      ∀ S, s.Bounded S → W.Bounded (k.ksk.errorBound par S e) := by
  obtain ⟨l, ha, hc, hp, hpair⟩ := KeySwitchingKey.IsFor.pair hw hk
  obtain ⟨l', F, M, ha', hF, hM, hph⟩ := h.elim hw
  obtain rfl := ha.unique ha'
  have hval := validateFor_ok (par := par) (ct := ct) (l := l) (by rw [h.level_eq]; exact ha) h.par_eq (by omega) hF.ctx
  have hlev := h.level_eq
  have hct : ∃ v0 v1 v2 F0 F1 F2, ct.c = [encI l.ctx .ntt v0 F0, encI l.ctx .ntt v1 F1, encI l.ctx .ntt v2 F2] ∧ F = [F0, F1, F2] := by
    have hl := hF.length_eq
    generalize ct.c = cs at hF h3 hl
    match cs, F, hF with
    | [_, _, _], [F0, F1, F2], .cons ⟨v0, h0⟩ (.cons ⟨v1, h1⟩ (.cons ⟨v2, h2⟩ .nil)) => exact ⟨v0, v1, v2, F0, F1, F2, by rw [h0, h1, h2], rfl⟩
    | [], _, _ => simp at h3
    | [_], _, _ => simp at h3
    | [_, _], _, _ => simp at h3
    | _ :: _ :: _ :: _ :: _, _, _ => simp at h3
  obtain ⟨w0, w1, w2, F0, F1, F2, hcc, rfl⟩ := hct
  obtain ⟨A, B, H, W, v0, v1, a, e1, e2, e3, e4, e5⟩ := hpair w2 F2
  rw [phase_three] at hph
  have hlevel : k.ksk.ciphertextLevel = i := hk.level
  refine ⟨{ ct with c := [encI l.ctx .ntt (w0 && v0) (F0 + A), encI l.ctx .ntt (w1 && v1) (F1 + B)] }, W, ?_, ?_, rfl, rfl, e5⟩
  · unfold relinearizes
    rw [hp, hval, Res.ok_bind, hcc]
    simp only []
    rw [hlevel, hlev, if_neg (by simp), nttToPowerBasis_encI ha.wf, Res.lift_some, Res.ok_bind, e1, Res.ok_bind, e3 _ _ (ctx_encI _) (ctx_encI _), Res.ok_bind]
    simp only []
    rw [addAssign_encI ha.wf ha.deg (by simp), Res.lift_some, Res.ok_bind, addAssign_encI ha.wf ha.deg (by simp), Res.lift_some, Res.ok_bind, Res.pure_eq]
  · refine Encrypts.intro ha h.par_eq hlev (by simp) (F := [F0 + A, F1 + B]) (M := M + C (par.plaintext.value : Int) * H) (.cons ⟨_, rfl⟩ (.cons ⟨_, rfl⟩ .nil)) ?_ ?_
    · rw [red_add, hM]
      have : red par.plaintext.value (C (par.plaintext.value : Int) * H) = 0 := by
        apply Nega.ext; intro t
        show ((((C (par.plaintext.value : Int) : IntPoly par.degree) * H) t : Int) : ZMod par.plaintext.value) = 0
        rw [C_mul_apply]; push_cast; rw [ZMod.natCast_self, zero_mul]
      rw [this, add_zero]
    · rw [phase_two]
      linear_combination hph + C (par.plaintext.value : Int) * e4

theorem newLeveled_eq (hw : ParWF b n par.toBfvParameters) (h64 : par.moduli.length ≤ 64) (hk : sk.IsKey par s) {g : Prg} (hg : g.OK) (hi : i < par.moduli.length) (hij : j ≤ i)
    (hone : j + 1 < par.moduli.length) (seed : Seed) {rngs : Nat → Nat → Nat} (hr : ∀ i, IsStream (rngs i)) :
    ∃ k, newLeveled b g sk i j seed rngs = Res.ok k ∧ k.IsFor par s i j (2 * par.variance) ∧ k.ksk.seed = some seed ∧
      KeySwitchingKey.generateC1 g k.ksk.ctxKsk seed k.ksk.c0.length = some k.ksk.c1 ∧ (∀ p ∈ k.ksk.c0 ++ k.ksk.c1, p.vt = true) ∧ k.ksk.logBase = 0 := by
  obtain ⟨l, ha⟩ := AtLevel.ofLt hw hi
  obtain ⟨l', ha'⟩ := AtLevel.ofLt hw (i := j) (by omega)
  have hlen' := ha'.length
  obtain ⟨p1, p2, p3⟩ := modulusAt_ratio hw ha ha' hij
  obtain ⟨S, hS, hS2⟩ := switcher_up h64 ha' ha p3
  obtain ⟨k, E, e1, e2, e3, e4, e5, e6, e7, e8, e9⟩ := KeySwitchingKey.new_eq hw hk hg ha ha' (by omega) false (C ((par.modulusAt j / par.modulusAt i : Nat) : Int) * (s * s)) seed hr
  refine ⟨⟨k⟩, ?_, ⟨e4, e5, hij, E, ?_, e3⟩, e6, e7, e8, e9.2 (by omega)⟩
  · unfold newLeveled
    rw [hk.par_eq, ha'.contextAt, Res.ok_bind, ha.contextAt, Res.ok_bind, if_neg (by omega), SecretKey.polyAt_encI hk ha.wf ha.deg, Res.ok_bind, mulAssign_encI ha.wf ha.deg, Res.lift_some, Res.ok_bind,
      nttToPowerBasis_encI ha.wf, Res.lift_some, Res.ok_bind, hS, Res.math_ok, Res.ok_bind, hS2 _ _ _ (by simp), Res.math_ok, Res.ok_bind]
    rw [show (false && false) = false from rfl, e1, Res.ok_bind, Res.pure_eq]
  · rw [IntPoly.scale_eq]
    show KeySwitchingKey.Switches par s (C ((par.modulusAt k.kskLevel / par.modulusAt k.ciphertextLevel : Nat) : Int) * (s * s)) k E
    rw [e4, e5]; exact e2

end RelinearizationKey

namespace GaloisKey
variable {s : IntPoly par.degree} {k : GaloisKey} {e x : Nat} {ct : Ciphertext} {m : par.Msg} {v : IntPoly par.degree} {sk : SecretKey}

theorem substitute_encI (h : c.WF b n) (hn : n ≤ 31) (hN : c.degree = N) {x : Nat} {σ : SubstExponent} (hx : x % 2 = 1) (hs : SubstExponent.new c x = some (.ok σ)) (r : Rep) (F : IntPoly N) :
    (encI c r vt F).substitute σ = some (encI c r vt (Nega.subst x F)) := by
  unfold encI
  rw [substitute_enc h hn hx hs, ofInt_subst hN]

theorem outParts_valid (h : c.WF b n) {out : List (Poly .ntt)} (ho : ∀ p ∈ out, p.Valid) {x : Poly .ntt × Poly .ntt} (h0 : x.1.ctx = c) (h1 : x.2.ctx = c) :
    (outParts out x).1.Valid ∧ (outParts out x).2.Valid := by
  have hz : (Poly.zero .ntt c).Valid := by rw [zero_encI h rfl]; exact valid_enc h _
  have hcl : ∀ p : Poly .ntt, p.Valid → p.ctx = c → Poly.Valid (r := .ntt) { p with coeffs := p.coeffs.map fun row => row.map fun _ => 0 } := by
    intro p hp hpc
    refine ⟨hp.notLazy, by rw [List.length_map]; exact hp.rows, fun row hrow => ?_, fun i q row hq hrow x hx => ?_, hp.shoup⟩
    · obtain ⟨r, hr, rfl⟩ := List.mem_map.1 hrow
      rw [List.length_map]; exact hp.columns r hr
    · simp only [List.getElem?_map, Option.map_eq_some_iff] at hrow
      obtain ⟨r, -, rfl⟩ := hrow
      obtain ⟨y, -, rfl⟩ := List.mem_map.1 hx
      have : q ∈ c.moduli := by simp only [hpc] at hq; exact List.mem_of_getElem? hq
      have := h.supported.range q this
      omega
  unfold outParts
  match out with
  | [o0, o1] =>
    simp only []
    split
    · rw [h0, h1]; exact ⟨hz, hz⟩
    · rename_i hc
      rw [not_or, not_not, not_not] at hc
      exact ⟨hcl o0 (ho o0 (by simp)) (by rw [hc.1, h0]), hcl o1 (ho o1 (by simp)) (by rw [hc.2, h1])⟩
  | [] => simp only []; rw [h0, h1]; exact ⟨hz, hz⟩
  | [_] => simp only []; rw [h0, h1]; exact ⟨hz, hz⟩
  | _ :: _ :: _ :: _ => simp only []; rw [h0, h1]; exact ⟨hz, hz⟩

theorem relinearize_eq (hw : ParWF b n par.toBfvParameters) (hk : k.IsFor par s x i j e) (h : ct.Encrypts par s i m v) (h2 : ct.c.length = 2) :
    ∃ (r : Ciphertext) (W : IntPoly par.degree), k.relinearize ct = Res.ok r ∧ (∀ out : Ciphertext, (∀ p ∈ out.c, p.Valid) → k.relinearizeInto ct out = Res.ok r) ∧
      r.Encrypts par s i (Nega.subst x m) (Nega.subst x v + C (par.plaintext.value : Int) * W) ∧ r.c.length = 2 ∧ r.seed = none ∧
      ∀ S, s.Bounded S → W.Bounded (k.ksk.errorBound par S e) := by
  obtain ⟨l, ha, hc, hp, hpair⟩ := KeySwitchingKey.IsFor.pair hw hk.switches
  obtain ⟨l', F, M, ha', hF, hM, hph⟩ := h.elim hw
  obtain rfl := ha.unique ha'
  have hn : n ≤ 31 := by have := hw.le_16; omega
  have hval := validateFor_ok (par := par) (ct := ct) (l := l) (by rw [h.level_eq]; exact ha) h.par_eq (by omega) hF.ctx
  have hlev := h.level_eq
  have hct : ∃ v0 v1 F0 F1, ct.c = [encI l.ctx .ntt v0 F0, encI l.ctx .ntt v1 F1] ∧ F = [F0, F1] := by
    generalize ct.c = cs at hF h2
    match cs, F, hF with
    | [_, _], [F0, F1], .cons ⟨v0, h0⟩ (.cons ⟨v1, h1⟩ .nil) => exact ⟨v0, v1, F0, F1, by rw [h0, h1], rfl⟩
    | [], _, _ => simp at h2
    | [_], _, _ => simp at h2
    | _ :: _ :: _ :: _, _, _ => simp at h2
  obtain ⟨w0, w1, F0, F1, hcc, rfl⟩ := hct
  have hel := hk.element
  rw [hc] at hel
  obtain ⟨A, B, H, W, v0, v1, a, e1, e2, e3, e4, e5⟩ := hpair w1 (Nega.subst x F1)
  rw [phase_two] at hph
  have hlevel : k.ksk.ciphertextLevel = i := hk.switches.level
  have hvc : k.validateCiphertext ct = Res.ok (encI l.ctx .ntt w0 F0, encI l.ctx .ntt w1 F1) := by
    unfold validateCiphertext
    rw [hp, hval, Res.ok_bind, hcc]
    simp only []
    rw [hlevel, hlev, if_neg (by simp)]
  refine ⟨{ par := ct.par, seed := none, c := [encI l.ctx .ntt (v0 && w0) (A + Nega.subst x F0), encI l.ctx .ntt v1 B], level := k.ksk.ciphertextLevel }, W, ?_, fun out ho => ?_, ?_, rfl, rfl, e5⟩
  · unfold relinearize
    rw [hvc, Res.ok_bind]
    simp only []
    rw [substitute_encI ha.wf hn ha.deg hk.odd hel, Res.lift_some, Res.ok_bind, nttToPowerBasis_encI ha.wf, Res.lift_some, Res.ok_bind, e1, Res.ok_bind, e3 _ _ (ctx_encI _) (ctx_encI _), Res.ok_bind]
    simp only []
    rw [substitute_encI ha.wf hn ha.deg hk.odd hel, Res.lift_some, Res.ok_bind, addAssign_encI ha.wf ha.deg (by simp), Res.lift_some, Res.ok_bind, Res.pure_eq]
  · unfold relinearizeInto
    rw [hvc, Res.ok_bind]
    simp only []
    obtain ⟨o0, o1⟩ := outParts_valid ha.wf ho (x := (encI l.ctx .ntt w0 F0, encI l.ctx .ntt w1 F1)) (ctx_encI _) (ctx_encI _)
    rw [substitute_encI ha.wf hn ha.deg hk.odd hel, Res.lift_some, Res.ok_bind, nttToPowerBasis_encI ha.wf, Res.lift_some, Res.ok_bind, e2 _ _ o0 o1, Res.ok_bind, e3 _ _ (ctx_encI _) (ctx_encI _), Res.ok_bind]
    simp only []
    rw [substitute_encI ha.wf hn ha.deg hk.odd hel, Res.lift_some, Res.ok_bind, addAssign_encI ha.wf ha.deg (by simp), Res.lift_some, Res.ok_bind, Res.pure_eq]
  · refine Encrypts.intro ha h.par_eq hlevel (by simp) (F := [A + Nega.subst x F0, B]) (M := Nega.subst x M + C (par.plaintext.value : Int) * H) (.cons ⟨_, rfl⟩ (.cons ⟨_, rfl⟩ .nil)) ?_ ?_
    · rw [red_add, show red par.plaintext.value (Nega.subst x M) = Nega.subst x (red par.plaintext.value M) from map_subst _ _ _, hM]
      have : red par.plaintext.value (C (par.plaintext.value : Int) * H) = 0 := by
        apply Nega.ext; intro t
        show ((((C (par.plaintext.value : Int) : IntPoly par.degree) * H) t : Int) : ZMod par.plaintext.value) = 0
        rw [C_mul_apply]; push_cast; rw [ZMod.natCast_self, zero_mul]
      rw [this, add_zero]
    · rw [phase_two]
      have := congrArg (substHom x hk.odd) hph
      simp only [map_mul, map_add, substHom_apply, subst_C] at this
      linear_combination this + C (par.plaintext.value : Int) * e4

theorem new_eq (hw : ParWF b n par.toBfvParameters) (h64 : par.moduli.length ≤ 64) (hk : sk.IsKey par s) {g : Prg} (hg : g.OK) (hi : i < par.moduli.length) (hij : j ≤ i)
    (_hone : j + 1 = par.moduli.length → i = j) (hx : x % 2 = 1) (seed : Seed) {rngs : Nat → Nat → Nat} (hr : ∀ i, IsStream (rngs i)) :
    ∃ k, new b g sk x i j seed rngs = Res.ok k ∧ k.IsFor par s x i j (2 * par.variance) ∧ k.ksk.seed = some seed ∧
      KeySwitchingKey.generateC1 g k.ksk.ctxKsk seed k.ksk.c0.length = some k.ksk.c1 ∧ (∀ p ∈ k.ksk.c0 ++ k.ksk.c1, p.vt = true) ∧ (k.ksk.logBase = 0 ↔ j + 1 < par.moduli.length) := by
  obtain ⟨l, ha⟩ := AtLevel.ofLt hw hi
  obtain ⟨l', ha'⟩ := AtLevel.ofLt hw (i := j) (by omega)
  have hlen' := ha'.length
  have hn : n ≤ 31 := by have := hw.le_16; omega
  obtain ⟨p1, p2, p3⟩ := modulusAt_ratio hw ha ha' hij
  obtain ⟨S, hS, hS2⟩ := switcher_up h64 ha' ha p3
  obtain ⟨k, E, e1, e2, e3, e4, e5, e6, e7, e8, e9⟩ := KeySwitchingKey.new_eq hw hk hg ha ha' (by omega) false (C ((par.modulusAt j / par.modulusAt i : Nat) : Int) * Nega.subst x s) seed hr
  have hσ := SubstExponent.new_odd ha.wf hn hx
  generalize (⟨_, _, _⟩ : SubstExponent) = σ at hσ
  have hctx : k.ctxCiphertext = l.ctx := by
    have h1 := e2.ctx
    rw [e4, ha.contextAt, Res.ok_inj] at h1
    exact h1.symm
  refine ⟨⟨σ, k⟩, ?_, ⟨hx, by show SubstExponent.new k.ctxCiphertext x = _; rw [hctx]; exact hσ, e4, e5, hij, E, ?_, e3⟩, e6, e7, e8, e9.trans (by omega)⟩
  · unfold new
    rw [hk.par_eq, ha'.contextAt, Res.ok_bind, ha.contextAt, Res.ok_bind, hσ, Res.math_ok, Res.ok_bind, hS, Res.math_ok, Res.ok_bind, tryFromI64_encI ha.wf ha.deg (by rw [hk.length]) hk.word,
      Res.math_ok, Res.ok_bind, ← hk.poly, substitute_encI ha.wf hn ha.deg hx hσ, Res.lift_some, Res.ok_bind, hS2 _ _ _ (by simp), Res.math_ok, Res.ok_bind, e1, Res.ok_bind, Res.pure_eq]
  · rw [IntPoly.scale_eq]
    show KeySwitchingKey.Switches par s (C ((par.modulusAt k.kskLevel / par.modulusAt k.ciphertextLevel : Nat) : Int) * Nega.subst x s) k E
    rw [e4, e5]; exact e2

end GaloisKey

/-! ## Slots -/

/-- The order of 3. -/
theorem pow3_order : ∀ {n : Nat}, 1 ≤ n → 3 ^ 2 ^ n % 2 ^ (n + 2) = 1
  | 1, _ => by norm_num
  | n + 2, _ => by
    have ih := pow3_order (n := n + 1) (by omega)
    have h := Nat.div_add_mod (3 ^ 2 ^ (n + 1)) (2 ^ (n + 1 + 2))
    rw [ih] at h
    generalize 3 ^ 2 ^ (n + 1) / 2 ^ (n + 1 + 2) = q at h
    have e : 3 ^ 2 ^ (n + 2) = 2 ^ (n + 2 + 2) * (2 ^ (n + 2) * q * q + q) + 1 := by
      rw [pow_succ 2 (n + 1), pow_mul, ← h]
      ring
    rw [e, Nat.mul_add_mod]
    exact Nat.mod_eq_of_lt (Nat.one_lt_two_pow (by omega))

theorem slot_subst {N t : Nat} {ζ : ZMod t} (hζ : ζ ^ N = -1) {n : Nat} (hn : 1 ≤ n) (hN : N = 2 ^ n) (x : Nat) (m : Nega N (ZMod t)) (i i' : Nat)
    (h : slotPower N i * x % (2 * N) = slotPower N i') : slotValue ζ (Nega.subst x m) i = slotValue ζ m i' := by
  have hpos : 0 < N := by rw [hN]; positivity
  have hroot : (ζ ^ slotPower N i) ^ N = -1 := by
    rw [← slotPower_eq hn hN, ← pow_mul, mul_comm, pow_mul, hζ, Odd.neg_one_pow ⟨_, rfl⟩]
  rw [slotValue_eq, slotValue_eq, evalFn_subst _ hroot hpos, ← pow_mul, ← h]
  have h1 : ζ ^ (2 * N) = 1 := by rw [mul_comm, pow_mul, hζ]; norm_num
  congr 1
  conv_lhs => rw [← Nat.div_add_mod (slotPower N i * x) (2 * N), pow_add, pow_mul, h1, one_pow, one_mul]

theorem neg_mul_mod {M a x : Nat} (ha : 0 < a) (hM : a ≤ M) (hx : a * x % M ≠ 0) : (M - a) * x % M = M - a * x % M := by
  have hlt := Nat.mod_lt (a * x) (show 0 < M by omega)
  have h1 : ((M - a) * x + a * x) % M = 0 := by rw [← add_mul, Nat.sub_add_cancel hM, Nat.mul_mod_right]
  rw [Nat.add_mod] at h1
  have h2 := Nat.mod_lt ((M - a) * x) (show 0 < M by omega)
  generalize (M - a) * x % M = u at *
  generalize a * x % M = w at *
  have h3 := Nat.div_add_mod (u + w) M
  rw [h1] at h3
  rcases Nat.lt_or_ge ((u + w) / M) 1 with h | h
  · rw [Nat.lt_one_iff.1 h] at h3; omega
  · have : (u + w) / M < 2 := by rw [Nat.div_lt_iff_lt_mul (by omega)]; omega
    rw [Nat.le_antisymm (Nat.lt_succ_iff.1 this) h] at h3; omega

theorem pow3_pos {n : Nat} (h1 : 1 ≤ n) (a : Nat) : 3 ^ a % 2 ^ n % 2 = 1 := by
  rw [Nat.mod_mod_of_dvd _ (dvd_pow_self 2 (by omega)), Nat.pow_mod]; norm_num

theorem pow3_mod {n : Nat} (hn : 1 ≤ n) (a : Nat) : 3 ^ (a % 2 ^ n) % 2 ^ (n + 2) = 3 ^ a % 2 ^ (n + 2) := by
  conv_rhs => rw [← Nat.div_add_mod a (2 ^ n), pow_add, pow_mul, Nat.mul_mod, Nat.pow_mod, pow3_order hn, one_pow]
  rw [Nat.mod_eq_of_lt (Nat.one_lt_two_pow (by omega)), one_mul, Nat.mod_mod]

theorem slotPower_rotate {n N : Nat} (hn : 2 ≤ n) (hN : N = 2 ^ n) {x k : Nat} (hx : x % (2 * N) = 3 ^ k % (2 * N)) (i : Nat) :
    slotPower N i * x % (2 * N) = slotPower N (rotateColumns N k i) := by
  obtain ⟨m, rfl⟩ : ∃ m, n = m + 1 := ⟨n - 1, by omega⟩
  have h2N : 2 * N = 2 ^ (m + 2) := by rw [hN]; ring
  have hh : N / 2 = 2 ^ m := by rw [hN, pow_succ, Nat.mul_div_cancel _ (by norm_num)]
  have hNN : N = 2 * 2 ^ m := by rw [hN, pow_succ, mul_comm]
  unfold slotPower rotateColumns
  rw [h2N] at hx
  rw [hh, h2N]
  have hpos : 0 < 2 ^ m := by positivity
  by_cases h : i < 2 ^ m
  · have hlt := Nat.mod_lt (i + k) hpos
    rw [if_pos h, if_pos h, if_pos hlt, Nat.mul_mod, hx, Nat.mod_mod, ← Nat.mul_mod, ← pow_add, pow3_mod (by omega)]
  · have hlt := Nat.mod_lt (i - 2 ^ m + k) hpos
    rw [if_neg h, if_neg h, if_neg (by omega), Nat.add_sub_cancel_left, pow3_mod (by omega)]
    have h1 := pow3_pos (n := m + 2) (by omega) (i - 2 ^ m)
    have e : 3 ^ (i - 2 ^ m) % 2 ^ (m + 2) * x % 2 ^ (m + 2) = 3 ^ (i - 2 ^ m + k) % 2 ^ (m + 2) := by
      rw [Nat.mul_mod, hx, Nat.mod_mod, ← Nat.mul_mod, ← pow_add]
    have h2 := pow3_pos (n := m + 2) (by omega) (i - 2 ^ m + k)
    have h3 := Nat.mod_lt (3 ^ (i - 2 ^ m)) (show 0 < 2 ^ (m + 2) by positivity)
    rw [neg_mul_mod (by omega) h3.le (by rw [e]; omega), e]

theorem slotPower_swap {n N : Nat} (hn : 2 ≤ n) (hN : N = 2 ^ n) {x : Nat} (hx : x % (2 * N) = 2 * N - 1) {i : Nat} (hi : i < N) :
    slotPower N i * x % (2 * N) = slotPower N (swapRows N i) := by
  obtain ⟨m, rfl⟩ : ∃ m, n = m + 1 := ⟨n - 1, by omega⟩
  have h2N : 2 * N = 2 ^ (m + 2) := by rw [hN]; ring
  have hh : N / 2 = 2 ^ m := by rw [hN, pow_succ, Nat.mul_div_cancel _ (by norm_num)]
  have hNN : N = 2 * 2 ^ m := by rw [hN, pow_succ, mul_comm]
  have hpos : 0 < 2 ^ m := by positivity
  have hpos2 : 0 < 2 ^ (m + 2) := by positivity
  unfold slotPower swapRows
  rw [h2N] at hx
  rw [hh, h2N]
  have key : ∀ a, 0 < a → a < 2 ^ (m + 2) → a * x % 2 ^ (m + 2) = 2 ^ (m + 2) - a := by
    intro a h0 h1
    rw [Nat.mul_mod, hx, Nat.mod_eq_of_lt h1, mul_comm, neg_mul_mod (a := 1) (by omega) (by omega) (by rw [one_mul, Nat.mod_eq_of_lt h1]; omega),
      one_mul, Nat.mod_eq_of_lt h1]
  by_cases h : i < 2 ^ m
  · have e : (i + 2 ^ m) % N = i + 2 ^ m := Nat.mod_eq_of_lt (by omega)
    have h2 := pow3_pos (n := m + 2) (by omega) i
    rw [if_pos h, e, if_neg (by omega), Nat.add_sub_cancel, key _ (by omega) (Nat.mod_lt _ hpos2)]
  · have e : (i + 2 ^ m) % N = i - 2 ^ m := by
      rw [show i + 2 ^ m = (i - 2 ^ m) + N by omega, Nat.add_mod_right, Nat.mod_eq_of_lt (by omega)]
    have h2 := pow3_pos (n := m + 2) (by omega) (i - 2 ^ m)
    have h3 := Nat.mod_lt (3 ^ (i - 2 ^ m)) hpos2
    rw [if_neg h, e, if_pos (by omega), key _ (by omega) (by omega)]
    omega

theorem rotateColumns_lt {N k i : Nat} {n : Nat} (hn : 1 ≤ n) (hN : N = 2 ^ n) : rotateColumns N k i < N := by
  obtain ⟨m, rfl⟩ : ∃ m, n = m + 1 := ⟨n - 1, by omega⟩
  have hh : N / 2 = 2 ^ m := by rw [hN, pow_succ, Nat.mul_div_cancel _ (by norm_num)]
  have hNN : N = 2 * 2 ^ m := by rw [hN, pow_succ, mul_comm]
  have hpos : 0 < 2 ^ m := by positivity
  unfold rotateColumns
  rw [hh]
  have h1 := Nat.mod_lt (i + k) hpos
  have h2 := Nat.mod_lt (i - 2 ^ m + k) hpos
  split <;> omega

theorem contextAtLevel_err (hw : ParWF b n par.toBfvParameters) {t : Nat} (ht : par.moduli.length ≤ t) : ∃ e, par.contextAtLevel t = Res.err e := by
  have hpos := List.length_pos_of_ne_nil hw.ne_nil
  refine ⟨.invalidLevel t 0 (par.moduli.length - 1), ?_⟩
  unfold BfvParameters.contextAtLevel BfvParameters.maxLevel
  rw [List.getElem?_eq_none (by rw [hw.length]; omega), hw.length, subU_eq (by omega)]
  rfl

/-- The root behind the slots is one of `X^N + 1`. -/
theorem PlaintextVec.SlotRoot.neg_one (hw : ParWF b n par.toBfvParameters) (hop : par.nttOperator ≠ none) {ζ : ZMod par.plaintext.value} (hζ : PlaintextVec.SlotRoot par.toBfvParameters ζ) :
    ζ ^ par.degree = -1 := by
  obtain ⟨op, hop'⟩ := Option.ne_none_iff_exists'.1 hop
  obtain ⟨ω, ωi, md, g1, g2, -⟩ := hw.op_wf hop'
  have hp : Nat.Prime par.plaintext.value := by rw [← g2]; exact g1.prime
  have : Fact (Nat.Prime par.plaintext.value) := ⟨hp⟩
  have hprim := hζ.prim hop
  have hN : 0 < par.degree := by rw [hw.degree]; positivity
  have h1 : (ζ ^ par.degree) ^ 2 = 1 := by rw [← pow_mul, mul_comm]; exact hprim.pow_eq_one
  rcases sq_eq_one_iff.1 h1 with h | h
  · have := hprim.dvd_of_pow_eq_one _ h
    have := Nat.le_of_dvd hN this
    omega
  · exact h

/-- Every ciphertext of valid parts encrypts something. -/
theorem Ciphertext.exists_encrypts (hw : ParWF b n par.toBfvParameters) (s : IntPoly par.degree) {ct : Ciphertext} (hp : ct.par = par) (hi : ct.level < par.moduli.length) (h2 : 2 ≤ ct.c.length)
    (hc : ∀ p ∈ ct.c, par.contextAtLevel ct.level = Res.ok p.ctx) (hv : ∀ p ∈ ct.c, p.Valid) : ∃ m v, ct.Encrypts par s ct.level m v := by
  obtain ⟨l, ha⟩ := AtLevel.ofLt (par := par) hw hi
  obtain ⟨F, hF, -⟩ := exists_parts (ps := ct.c) ha.wf ha.deg fun p hp => ⟨by have := hc p hp; rw [ha.contextAt, Res.ok_inj] at this; exact this.symm, hv p hp⟩
  exact ⟨red par.plaintext.value 0, C (par.plaintext.value : Int) * Fhe.phase s F, Encrypts.intro ha hp rfl h2 hF rfl (by ring)⟩

end Fhe
