import Verif.Lemmas.BfvOps
import Verif.Lemmas.WireMsg
/-!
# Noise bounds, public keys, chains of modulus switches and serialization of ciphertexts
-/
namespace Fhe
open Nega Poly Ciphertext

variable {b : Build} {n N : Nat} {c : Context} {par : Par} {i : Nat} {l : ContextLevel} {s : IntPoly par.degree}

/-! ## Bounds -/

theorem geom_succ (x k : Nat) : geom x (k + 1) = 1 + x * geom x k := by
  unfold geom
  rw [Finset.sum_range_succ', Finset.mul_sum, add_comm]
  congr 1
  exact Finset.sum_congr rfl fun i _ => by ring

theorem phase_bounded {s : IntPoly N} {S B : Nat} (hs : s.Bounded S) : ∀ {D : List (IntPoly N)}, (∀ d ∈ D, d.Bounded B) → (Fhe.phase s D).Bounded (B * geom (N * S) D.length)
  | [], _ => by rw [phase_nil]; exact IntPoly.Bounded.zero
  | d :: D, h => by
    rw [phase_cons, List.length_cons, geom_succ]
    refine ((h d (by simp)).add (hs.mul (phase_bounded hs fun e he => h e (by simp [he])))).mono ?_
    apply le_of_eq; ring

theorem small_of_bounded {v : IntPoly N} {B Q : Nat} (hv : v.Bounded B) (h : 2 ^ 62 * B ≤ (2 ^ 61 - 1) * Q) : v.Small Q := fun j => by
  have h1 : (2 : Int) ^ 62 * |v j| ≤ 2 ^ 62 * B := mul_le_mul_of_nonneg_left (hv j) (by positivity)
  have h2 : ((2 ^ 62 * B : Nat) : Int) ≤ (((2 ^ 61 - 1) * Q : Nat) : Int) := by exact_mod_cast h
  push_cast at h2
  exact h1.trans h2

/-! ## Secret keys -/

theorem SecretKey.random_eq (hw : ParWF b n par.toBfvParameters) {rng : Nat → Nat} (hr : IsStream rng) :
    ∃ sk s, SecretKey.random par rng = some sk ∧ sk.IsKey par s ∧ s.Bounded (2 * par.variance) := by
  obtain ⟨w, e, -⟩ := Props.C12_sample_vec_cbd (n := par.degree) hw.variance.1 hw.variance.2 hr
  obtain ⟨hl, hbd⟩ := Props.C12_bounded hw.variance.1 hw.variance.2 hr e
  generalize hL : (List.range par.degree).map _ = v at e hl hbd
  refine ⟨⟨par, v⟩, IntPoly.ofList par.degree v, ?_, ⟨rfl, hl, fun x hx => ?_, rfl⟩, fun j => ?_⟩
  · unfold SecretKey.random; rw [e]; rfl
  · obtain ⟨x1, x2⟩ := hbd x hx
    have : (par.variance : Int) ≤ 32 := by exact_mod_cast hw.variance.2
    constructor <;> omega
  · show |v.getD j.val 0| ≤ _
    rw [List.getD_eq_getElem _ _ (by rw [hl]; exact j.isLt)]
    have := hbd _ (List.getElem_mem (by rw [hl]; exact j.isLt : j.val < v.length))
    exact abs_le.2 ⟨by push_cast; exact this.1, by push_cast; exact this.2⟩

theorem SecretKey.tryEncrypt_spec (hw : ParWF b n par.toBfvParameters) (ha : AtLevel b n par i l) {sk : SecretKey} (hk : sk.IsKey par s) {g : Prg} (hg : g.OK)
    (hQ : par.plaintext.value ≤ par.modulusAt i) {pt : Plaintext} {m : par.Msg} (hpt : pt.Holds par i m)
    (seed : Seed) {rng : Nat → Nat} (hr : IsStream rng) :
    ∃ (ct : Ciphertext) (e : IntPoly par.degree), sk.tryEncrypt g pt seed rng = Res.ok ct ∧ e.Bounded (2 * par.variance) ∧
      ct.Encrypts par s i m (C (par.plaintext.value : Int) * e - scaleRest (par.modulusAt i) m) ∧ ct.c.length = 2 ∧ ct.seed = some seed ∧
      ∃ p, g.poly .ntt l.ctx seed = some p ∧ ct.c.getLast? = some p.allowVt := by
  have ht := hw.t_pos
  have : NeZero par.plaintext.value := ⟨by omega⟩
  obtain ⟨A, e, he, hA, h⟩ := tryEncrypt_eq hw ha hk hg hQ hpt seed hr
  refine ⟨_, e, h, he, ?_, rfl, rfl, _, hA, rfl⟩
  refine Encrypts.intro ha rfl rfl le_rfl (.cons ⟨_, rfl⟩ (.cons ⟨_, rfl⟩ .nil)) (M := msgInt m) (red_msgInt m) ?_
  rw [phase_two]
  have := scaleMsg_mul (par.modulusAt i) m
  linear_combination this

/-! ## Chains of modulus switches -/

theorem modulusAt_succ (hw : ParWF b n par.toBfvParameters) {q : Nat} (hi : i + 1 < par.moduli.length) (hq : par.moduli[par.moduli.length - 1 - i]? = some q) :
    par.modulusAt i = q * par.modulusAt (i + 1) ∧ 2 ≤ q := by
  obtain ⟨l, ha⟩ := AtLevel.ofLt (par := par) hw (i := i) (by omega)
  obtain ⟨l', ha'⟩ := AtLevel.ofLt (par := par) hw hi
  obtain ⟨-, hmod, -⟩ := switchPoly_eq ha ha' (vt := false) 0
  have hgl : par.moduli[par.moduli.length - 1 - i]? = some (l.ctx.moduli.getLastD 0) := by
    rw [ha.moduli, List.getLastD_eq_getLast?, List.getLast?_eq_getElem?, List.length_take, List.getElem?_take, if_pos (by omega),
      show min (par.moduli.length - i) par.moduli.length - 1 = par.moduli.length - 1 - i by omega, List.getElem?_eq_getElem (by omega)]
    rfl
  rw [hq] at hgl
  obtain rfl : q = l.ctx.moduli.getLastD 0 := by simpa using hgl
  rw [← ha.mod, ← ha'.mod]
  refine ⟨hmod, ?_⟩
  have := (hw.moduli.range _ (List.mem_of_getElem? hq)).1
  omega

theorem Ciphertext.switchDown_bound (hw : ParWF b n par.toBfvParameters) {ct : Ciphertext} {m : par.Msg} {v : IntPoly par.degree} (h : ct.Encrypts par s i m v) (hi : i + 1 < par.moduli.length)
    {S V : Nat} (hs : s.Bounded S) (hv : v.Bounded V) :
    ∃ (r : Ciphertext) (v' : IntPoly par.degree) (q : Nat), ct.switchDown = Res.ok r ∧ r.Encrypts par s (i + 1) m v' ∧ r.c.length = ct.c.length ∧ r.seed = none ∧
      par.moduli[par.moduli.length - 1 - i]? = some q ∧ v'.Bounded ((V + par.plaintext.value * (q / 2 * geom (par.degree * S) ct.c.length)) / q) := by
  obtain ⟨r, v', q, D, h1, h2, h3, h4, h5, h6, h7, h8⟩ := switchDown_eq hw h hi
  refine ⟨r, v', q, h1, h2, h3, h4, h5, fun j => ?_⟩
  obtain ⟨-, hq⟩ := modulusAt_succ hw hi h5
  have hb := hv.sub ((phase_bounded hs h7).C_mul (par.plaintext.value : Int)) j
  rw [← h8, C_mul_apply, abs_mul, Int.natAbs_natCast, h6] at hb
  have hq' : |(q : Int)| = q := abs_of_nonneg (by positivity)
  rw [hq'] at hb
  have : ((q * (v' j).natAbs : Nat) : Int) ≤ ((V + par.plaintext.value * (q / 2 * geom (par.degree * S) ct.c.length) : Nat) : Int) := by
    push_cast at hb ⊢; exact hb
  have h9 : (v' j).natAbs ≤ (V + par.plaintext.value * (q / 2 * geom (par.degree * S) ct.c.length)) / q := by
    rw [Nat.le_div_iff_mul_le (by omega), mul_comm]; exact_mod_cast this
  rw [Int.abs_eq_natAbs]; exact_mod_cast h9

theorem Ciphertext.switchLoop_eq (hw : ParWF b n par.toBfvParameters) {S : Nat} (hs : s.Bounded S) {m : par.Msg} : ∀ (k : Nat) {i : Nat} {ct : Ciphertext} {v : IntPoly par.degree},
    ct.Encrypts par s i m v → i + k < par.moduli.length →
    ∃ (r : Ciphertext) (v' : IntPoly par.degree), ct.switchLoop k = Res.ok r ∧ r.Encrypts par s (i + k) m v' ∧ r.c.length = ct.c.length ∧ (r.seed = if k = 0 then ct.seed else none) ∧
      ∀ V : Nat, v.Bounded V → ∀ j, (par.modulusAt i : Int) * (|v' j| - par.plaintext.value * geom (par.degree * S) ct.c.length) ≤
        par.modulusAt (i + k) * (V - par.plaintext.value * geom (par.degree * S) ct.c.length)
  | 0, i, ct, v, h, hi => ⟨ct, v, rfl, h, rfl, by simp, fun V hV j => by
      have := hV j
      have h0 : (0 : Int) ≤ par.modulusAt i := by positivity
      exact mul_le_mul_of_nonneg_left (by omega) h0⟩
  | k + 1, i, ct, v, h, hi => by
    obtain ⟨r, v', q, D, h1, h2, h3, h4, h5, h6, h7, h8⟩ := switchDown_eq hw h (by omega)
    obtain ⟨hmod, hq⟩ := modulusAt_succ hw (i := i) (by omega) h5
    obtain ⟨r', v'', g1, g2, g3, g4, g5⟩ := switchLoop_eq hw hs k h2 (by omega)
    refine ⟨r', v'', ?_, by rw [show i + (k + 1) = i + 1 + k by omega]; exact g2, by rw [g3, h3], ?_, fun V hV j => ?_⟩
    · rw [switchLoop, h1, Res.ok_bind, g1]
    · rw [g4, h4]; simp
    · -- the bound of the intermediate noise, as a natural number
      rw [show i + (k + 1) = i + 1 + k by omega]
      rw [h3] at g5
      set G := geom (par.degree * S) ct.c.length with hG
      have hb := hV.sub ((phase_bounded hs h7).C_mul (par.plaintext.value : Int))
      rw [← h8, Int.natAbs_natCast, h6, ← hG] at hb
      have hv' : v'.Bounded ((V + par.plaintext.value * (q / 2 * G)) / q) := fun j => by
        have hb := hb j
        rw [C_mul_apply, abs_mul, abs_of_nonneg (by positivity : (0 : Int) ≤ q)] at hb
        have : ((q * (v' j).natAbs : Nat) : Int) ≤ ((V + par.plaintext.value * (q / 2 * G) : Nat) : Int) := by push_cast at hb ⊢; exact hb
        have h9 : (v' j).natAbs ≤ (V + par.plaintext.value * (q / 2 * G)) / q := by
          rw [Nat.le_div_iff_mul_le (by omega), mul_comm]; exact_mod_cast this
        rw [Int.abs_eq_natAbs]; exact_mod_cast h9
      have g := g5 _ hv' j
      have hdiv : (q : Int) * ((V + par.plaintext.value * (q / 2 * G)) / q : Nat) ≤ V + par.plaintext.value * ((q / 2 : Nat) * G) := by
        have := Nat.mul_div_le (V + par.plaintext.value * (q / 2 * G)) q
        have : ((q * ((V + par.plaintext.value * (q / 2 * G)) / q) : Nat) : Int) ≤ ((V + par.plaintext.value * (q / 2 * G) : Nat) : Int) := by exact_mod_cast this
        push_cast at this ⊢; exact this
      generalize ((V + par.plaintext.value * (q / 2 * G)) / q : Nat) = W at g hdiv
      have hh : par.plaintext.value * (q / 2 * G) + par.plaintext.value * G ≤ par.plaintext.value * (q * G) := by
        rw [← mul_add]
        refine Nat.mul_le_mul_left _ ?_
        calc q / 2 * G + G = (q / 2 + 1) * G := by ring
          _ ≤ q * G := Nat.mul_le_mul_right _ (by omega)
      have hh' : (par.plaintext.value : Int) * ((q / 2 : Nat) * G) + par.plaintext.value * G ≤ par.plaintext.value * (q * G) := by exact_mod_cast hh
      have hQ0 : (0 : Int) ≤ par.modulusAt (i + 1 + k) := by positivity
      have e1 : (q : Int) * (par.modulusAt (i + 1) * (|v'' j| - par.plaintext.value * G)) ≤ q * (par.modulusAt (i + 1 + k) * ((W : Int) - par.plaintext.value * G)) :=
        mul_le_mul_of_nonneg_left g (by positivity)
      have e2 : (par.modulusAt (i + 1 + k) : Int) * (q * (W : Int) - q * (par.plaintext.value * G)) ≤ par.modulusAt (i + 1 + k) * (V - par.plaintext.value * G) := by
        refine mul_le_mul_of_nonneg_left ?_ hQ0
        have : (par.plaintext.value : Int) * (q * G) = q * (par.plaintext.value * G) := by ring
        linarith
      rw [hmod]
      push_cast
      calc (q : Int) * par.modulusAt (i + 1) * (|v'' j| - par.plaintext.value * G) = q * (par.modulusAt (i + 1) * (|v'' j| - par.plaintext.value * G)) := by ring
        _ ≤ _ := e1
        _ = par.modulusAt (i + 1 + k) * (q * (W : Int) - q * (par.plaintext.value * G)) := by ring
        _ ≤ _ := e2

/-! ## Public keys -/

theorem Encrypts_mapVt {ct : Ciphertext} {m : par.Msg} {v : IntPoly par.degree} (hw : ParWF b n par.toBfvParameters) (h : ct.Encrypts par s i m v) :
    ({ ct with c := ct.c.map Poly.disallowVt } : Ciphertext).Encrypts par s i m v := by
  obtain ⟨l, F, M, ha, hF, hM, hph⟩ := h.elim hw
  refine Encrypts.intro ha h.par_eq h.level_eq (by simpa using h.parts) (F := F) ?_ hM hph
  show Parts l.ctx (ct.c.map Poly.disallowVt) F
  refine List.forall₂_map_left_iff.2 (hF.imp ?_)
  rintro _ f ⟨vt, rfl⟩
  exact ⟨_, rfl⟩

theorem scaleRest_zero (Q : Nat) {t : Nat} : scaleRest Q (0 : Nega N (ZMod t)) = 0 := by
  apply Nega.ext; intro j
  show ((Q * (0 : ZMod t).val % t : Nat) : Int) = 0
  simp

theorem beq_of_vt {r : Rep} {p q : Poly r} (h : { p with vt := false } = ({ q with vt := false } : Poly r)) : p.beq q = true := by
  obtain ⟨c1, l1, v1, r1, s1⟩ := p
  obtain ⟨c2, l2, v2, r2, s2⟩ := q
  simp only [Poly.mk.injEq] at h
  obtain ⟨rfl, rfl, -, rfl, rfl⟩ := h
  simp [Poly.beq]

theorem beq_iff {r : Rep} {p q : Poly r} : p.beq q = true ↔ { p with vt := false } = ({ q with vt := false } : Poly r) := by
  refine ⟨fun h => ?_, beq_of_vt⟩
  obtain ⟨c1, l1, v1, r1, s1⟩ := p
  obtain ⟨c2, l2, v2, r2, s2⟩ := q
  simp only [Poly.beq, Bool.and_eq_true, decide_eq_true_eq, beq_iff_eq] at h
  obtain ⟨⟨⟨rfl, rfl⟩, rfl⟩, rfl⟩ := h
  rfl

theorem Encrypts.valid {ct : Ciphertext} {m : par.Msg} {v : IntPoly par.degree} (hw : ParWF b n par.toBfvParameters) (h : ct.Encrypts par s i m v) :
    ct.level < par.moduli.length ∧ ∀ p ∈ ct.c, p.Valid ∧ par.contextAtLevel ct.level = Res.ok p.ctx := by
  obtain ⟨l, F, M, ha, hF, hM, hph⟩ := h.elim hw
  rw [h.level_eq]
  exact ⟨ha.lt, fun p hp => ⟨hF.valid ha.wf p hp, by rw [hF.ctx p hp, ha.contextAt]⟩⟩

theorem Encrypts.wellFormed {ct : Ciphertext} {m : par.Msg} {v : IntPoly par.degree} (hw : ParWF b n par.toBfvParameters) (h : ct.Encrypts par s i m v) {g : Prg}
    (hs : ∀ seed, ct.seed = some seed → seed.length = 32 ∧ ∀ last, ct.c.getLast? = some last → ∃ p, g.poly .ntt last.ctx seed = some p ∧ last.beq p = true) :
    ct.WellFormed g par := ⟨h.par_eq, (Encrypts.valid hw h).1, h.parts, (Encrypts.valid hw h).2, hs⟩

theorem PublicKey.new_eq (hw : ParWF b n par.toBfvParameters) {sk : SecretKey} (hk : sk.IsKey par s) {g : Prg} (hg : g.OK)
    (hQ : par.plaintext.value ≤ par.modulusAt 0) {seed : Seed} (h32 : seed.length = 32) {rng : Nat → Nat} (hr : IsStream rng)
    (hz : ∃ pt, Plaintext.zero ⟨.poly, 0⟩ par = Res.ok pt ∧ pt.Holds par 0 0) :
    ∃ (pk : PublicKey) (e : IntPoly par.degree), PublicKey.new g sk seed rng = some pk ∧ pk.par = par ∧ e.Bounded (2 * par.variance) ∧ pk.c.Encrypts par s 0 0 (C (par.plaintext.value : Int) * e) ∧ pk.c.c.length = 2 ∧
      pk.c.seed = some seed ∧ pk.c.WellFormed g par ∧ ∀ p ∈ pk.c.c, p.vt = false := by
  obtain ⟨l, ha⟩ := AtLevel.ofLt (par := par) hw (i := 0) (List.length_pos_of_ne_nil hw.ne_nil)
  obtain ⟨pt, hz, hpt⟩ := hz
  obtain ⟨ct, e, h1, h2, h3, h4, h5, p, h6, h7⟩ := SecretKey.tryEncrypt_spec hw ha hk hg hQ hpt seed hr
  rw [scaleRest_zero, sub_zero] at h3
  have h3' := Encrypts_mapVt hw h3
  refine ⟨⟨par, { ct with c := ct.c.map Poly.disallowVt }⟩, e, ?_, rfl, h2, h3', by simpa using h4, h5, Encrypts.wellFormed hw h3' fun seed' hs' => ?_, ?_⟩
  · unfold PublicKey.new
    rw [hk.par_eq, hz, Res.unwrap_ok, Option.bind_eq_bind, Option.bind_some, h1, Res.unwrap_ok, Option.bind_eq_bind, Option.bind_some]; rfl
  · obtain rfl : seed = seed' := by
      have : ct.seed = some seed' := hs'
      rw [h5] at this; simpa using this
    refine ⟨h32, fun last hl => ⟨p, ?_, ?_⟩⟩
    · have hc : last.ctx = l.ctx := by
        have h9 := (Encrypts.valid hw h3').2 last (List.mem_of_getLast? hl)
        have h10 : par.contextAtLevel ct.level = Res.ok last.ctx := h9.2
        rw [h3.level_eq, ha.contextAt, Res.ok_inj] at h10
        exact h10.symm
      rw [hc, h6]
    · have hl : (ct.c.map Poly.disallowVt).getLast? = some last := hl
      rw [List.getLast?_map, h7] at hl
      obtain rfl : p.allowVt.disallowVt = last := by simpa using hl
      exact beq_of_vt rfl
  · intro p hp
    have hp : p ∈ ct.c.map Poly.disallowVt := hp
    obtain ⟨q, -, rfl⟩ := List.mem_map.1 hp
    rfl

theorem PublicKey.tryEncrypt_eq (hw : ParWF b n par.toBfvParameters) {pk : PublicKey} (hp : pk.par = par) {v0 : IntPoly par.degree} {m0 : par.Msg} {i0 : Nat} (hpk : pk.c.Encrypts par s i0 m0 v0)
    (hlen : pk.c.c.length = 2) (hi : i0 ≤ i) (hilt : i < par.moduli.length) (hQ : par.plaintext.value ≤ par.modulusAt i) {pt : Plaintext} {m : par.Msg} (hpt : pt.Holds par i m)
    {S : Nat} (hs : s.Bounded S)
    {rngU rng1 rng2 : Nat → Nat} (hU : IsStream rngU) (h1 : IsStream rng1) (h2 : IsStream rng2) :
    ∃ (ct : Ciphertext) (v' u e1 e2 : IntPoly par.degree), pk.tryEncrypt pt rngU rng1 rng2 = Res.ok ct ∧ ct.c.length = 2 ∧ ct.seed = none ∧
      (∀ V : Nat, v0.Bounded V → ∀ j, (par.modulusAt i0 : Int) * (|v' j| - par.plaintext.value * geom (par.degree * S) 2) ≤
        par.modulusAt i * (V - par.plaintext.value * geom (par.degree * S) 2)) ∧
      u.Bounded (2 * par.variance) ∧ e1.Bounded (2 * par.variance) ∧ e2.Bounded (2 * par.variance) ∧
      ct.Encrypts par s i (red par.plaintext.value u * m0 + m) (u * v' + C (par.plaintext.value : Int) * (e1 + s * e2) - scaleRest (par.modulusAt i) m) := by
  have ht := hw.t_pos
  have : NeZero par.plaintext.value := ⟨by omega⟩
  obtain ⟨r, v', g1, g2, g3, g4, g5⟩ := switchLoop_eq hw hs (i - i0) hpk (by omega)
  rw [show i0 + (i - i0) = i by omega] at g2 g5
  rw [hlen] at g3 g5
  obtain ⟨l, F, M, ha, hF, hM, hph⟩ := g2.elim hw
  obtain ⟨u, hub, hu⟩ := small_encI hw.variance.1 hw.variance.2 hU par.degree
  obtain ⟨e1, he1b, he1⟩ := small_encI hw.variance.1 hw.variance.2 h1 par.degree
  obtain ⟨e2, he2b, he2⟩ := small_encI hw.variance.1 hw.variance.2 h2 par.degree
  obtain ⟨l0, F0, M0, ha0, hF0, -⟩ := hpk.elim hw
  match hrc : r.c, g3, hF with
  | [p0, p1], _, hF =>
    obtain ⟨f0, F', hp0, hF', rfl⟩ := List.forall₂_cons_left_iff.1 hF
    obtain ⟨f1, F'', hp1, hF'', rfl⟩ := List.forall₂_cons_left_iff.1 hF'
    obtain rfl := List.forall₂_nil_left_iff.1 hF''
    obtain ⟨vt0, rfl⟩ := hp0
    obtain ⟨vt1, rfl⟩ := hp1
    refine ⟨{ par, seed := none, c := [encI l.ctx .ntt true (u * f0 + e1 + scaleMsg (par.modulusAt i) m), encI l.ctx .ntt true (u * f1 + e2)], level := i }, v', u, e1, e2, ?_, rfl, rfl, g5, hub, he1b, he2b, ?_⟩
    · have hv : pk.c.validateFor par = Res.ok () := by
        have ha0' := ha0; rw [← hpk.level_eq] at ha0'
        exact validateFor_ok ha0' hpk.par_eq hpk.parts fun p hp => hF0.ctx p hp
      unfold tryEncrypt
      rw [hp, hpt.validateFor hw ha, Res.ok_bind, hv, Res.ok_bind, hpt.level_eq hw ha, Res.lift_some, Res.ok_bind, hpk.level_eq, if_neg (by omega), g1, Res.ok_bind,
        g2.level_eq, ha.contextAt, Res.ok_bind, (hu ha.wf ha.deg).2.1, Res.math_ok, Res.ok_bind, (he1 ha.wf ha.deg).2.1, Res.math_ok, Res.ok_bind, (he2 ha.wf ha.deg).2.1, Res.math_ok, Res.ok_bind,
        Plaintext.toPoly_encI hw ha hQ hpt, Res.lift_some, Res.ok_bind, hrc, List.getElem?_cons_zero, Res.lift_some, Res.ok_bind,
        mulAssign_encI ha.wf ha.deg, Res.lift_some, Res.ok_bind, addAssign_encI ha.wf ha.deg (by simp), Res.lift_some, Res.ok_bind, addAssign_encI ha.wf ha.deg (by simp), Res.lift_some, Res.ok_bind,
        List.getElem?_cons_succ, List.getElem?_cons_zero, Res.lift_some, Res.ok_bind,
        mulAssign_encI ha.wf ha.deg, Res.lift_some, Res.ok_bind, addAssign_encI ha.wf ha.deg (by simp), Res.lift_some, Res.ok_bind]
      rfl
    · refine Encrypts.intro ha rfl rfl le_rfl (.cons ⟨_, rfl⟩ (.cons ⟨_, rfl⟩ .nil)) (M := u * M + msgInt m) (by rw [red_add, red_mul, hM, red_msgInt]) ?_
      rw [phase_two] at hph ⊢
      have := scaleMsg_mul (par.modulusAt i) m
      linear_combination u * hph + this

/-! ## Serialization -/

namespace Ciphertext

theorem allowVt_of_beq {p q : Poly .ntt} (h : p.beq q = true) : p.allowVt = q.allowVt := by
  have := congrArg Poly.allowVt (beq_iff.1 h)
  exact this

/-- A bound on the number of bytes of a polynomial. -/
def _root_.Fhe.BfvParameters.partSize (par : BfvParameters) : Nat := par.moduli.length * (8 * par.degree) + 80

theorem _root_.Fhe.AtLevel.size_le (ha : AtLevel b n par i l) : l.ctx.moduli.length * (8 * l.ctx.degree) + 80 ≤ par.partSize := by
  have h1 : l.ctx.moduli.length ≤ par.moduli.length := by rw [ha.moduli, List.length_take]; omega
  unfold BfvParameters.partSize
  rw [ha.deg]
  exact Nat.add_le_add_right (Nat.mul_le_mul_right _ h1) _

/-- The encoding of a polynomial fits in memory. -/
theorem _root_.Fhe.AtLevel.fits (ha : AtLevel b n par i l) (hn : n ≤ 16) (h32 : par.moduli.length ≤ 2 ^ 32) : l.ctx.moduli.length * (8 * l.ctx.degree) ≤ 2 ^ 63 := by
  have h1 : l.ctx.moduli.length ≤ 2 ^ 32 := by rw [ha.moduli, List.length_take]; omega
  have h2 : 8 * l.ctx.degree ≤ 2 ^ 31 := by
    have : l.ctx.degree ≤ 2 ^ 16 := by rw [ha.wf.level.degree]; exact Nat.pow_le_pow_right (by norm_num) hn
    omega
  exact (Nat.mul_le_mul h1 h2).trans (by norm_num)

theorem mem_forall₂ {α β : Type} {P : α → β → Prop} {l : List α} {l' : List β} (h : List.Forall₂ P l l') {y : β} (hy : y ∈ l') : ∃ x ∈ l, P x y := by
  induction h with
  | nil => cases hy
  | cons h _ ih =>
    rcases List.mem_cons.1 hy with rfl | hy
    · exact ⟨_, by simp, h⟩
    · obtain ⟨x, hx, h⟩ := ih hy
      exact ⟨x, by simp [hx], h⟩

theorem roundtrip_eq (hw : ParWF b n par.toBfvParameters) {g : Prg} {ct : Ciphertext} (h : ct.WellFormed g par) (h32 : par.moduli.length ≤ 2 ^ 32) :
    ∃ msg, ct.toMsg = some msg ∧ fromMsg g msg par = Res.ok { ct with c := ct.c.map Poly.allowVt } ∧ msg.Fits par.partSize ∧ msg.c.length ≤ ct.c.length ∧ (∀ x ∈ msg.c, IsBytes x) ∧ msg.seed = ct.seed.getD [] := by
  obtain ⟨l, ha⟩ := AtLevel.ofLt (par := par) hw h.level
  have hn : n ≤ 31 := by have := hw.le_16; omega
  have hctx : ∀ p ∈ ct.c, p.ctx = l.ctx := fun p hp => by
    have := (h.valid p hp).2
    rw [ha.contextAt, Res.ok_inj] at this
    exact this.symm
  have hlt : ct.level < 2 ^ 32 := by have := h.level; omega
  have hlev : ct.level % 2 ^ 32 = ct.level := Nat.mod_eq_of_lt (by have := h.level; omega)
  have hser : ∀ p ∈ ct.c, ∃ x, p.toBytes = some x ∧ math (Poly.fromBytes .ntt x l.ctx) = Res.ok p.disallowVt ∧ IsBytes x ∧ x.length ≤ par.partSize := by
    intro p hp
    obtain ⟨f, hf, -⟩ := exists_encI ha.wf ha.deg (hctx p hp) (h.valid p hp).1
    obtain ⟨x, a1, a2, a3, a5⟩ := toBytes_enc (r := .ntt) (vt := p.vt) ha.wf hn (ha.fits hw.le_16 h32) (ofInt l.ctx f)
    refine ⟨x, by rw [hf]; exact a1, ?_, a2, a3.trans (ha.size_le)⟩
    rw [a5, Res.math_ok]
    conv_rhs => rw [hf]
    rfl
  have hmax : par.maxLevel = some (par.moduli.length - 1) := by
    unfold BfvParameters.maxLevel
    have := h.level
    rw [hw.length, subU_eq (by omega)]
  have hne : ct.c ≠ [] := ne_nil_of_two h.parts
  obtain ⟨last, hlast⟩ : ∃ last, ct.c.getLast? = some last := ⟨_, List.getLast?_eq_some_getLast hne⟩
  have hsplit : ct.c = ct.c.dropLast ++ [last] := by
    conv_lhs => rw [← List.dropLast_append_getLast hne]
    rw [List.getLast?_eq_some_getLast hne] at hlast
    simpa using hlast
  have hdl : 1 ≤ ct.c.dropLast.length := by have := h.parts; rw [List.length_dropLast]; omega
  obtain ⟨rest, hr1, hr2⟩ := mapM_exists (f := Poly.toBytes) (l := ct.c.dropLast) (fun p x => math (Poly.fromBytes .ntt x l.ctx) = Res.ok p.disallowVt ∧ IsBytes x ∧ x.length ≤ par.partSize)
    fun p hp => hser p (List.dropLast_subset _ hp)
  have hr3 : (rest.mapM fun x => math (Poly.fromBytes .ntt x l.ctx)) = Res.ok (ct.c.dropLast.map Poly.disallowVt) := by
    rw [Res.mapM_eq_ok, List.forall₂_map_right_iff]
    exact hr2.flip.imp fun _ _ h => h.1
  have hr4 : ∀ x ∈ rest, IsBytes x ∧ x.length ≤ par.partSize := fun x hx => by
    obtain ⟨p, -, h⟩ := mem_forall₂ hr2 hx
    exact h.2
  have hrl : rest.length = ct.c.dropLast.length := hr2.length_eq.symm
  have hmm : ∀ v : List (Poly .ntt), (v.map Poly.disallowVt).map Poly.allowVt = v.map Poly.allowVt := fun v => by rw [List.map_map]; rfl
  cases hseed : ct.seed with
  | none =>
    obtain ⟨x, hx1, hx2, hx3, hx4⟩ := hser last (List.mem_of_getLast? hlast)
    have hall : ∀ y ∈ rest ++ [x], IsBytes y ∧ y.length ≤ par.partSize := fun y hy => by
      rcases List.mem_append.1 hy with hy | hy
      · exact hr4 y hy
      · rw [List.mem_singleton.1 hy]; exact ⟨hx3, hx4⟩
    refine ⟨{ c := rest ++ [x], seed := [], level := ct.level }, ?_, ?_, ⟨fun y hy => (hall y hy).2, by simp, hlt⟩, by simp only [List.length_append, List.length_singleton, hrl, List.length_dropLast]; have := h.parts; omega, fun y hy => (hall y hy).1, rfl⟩
    · unfold toMsg
      rw [hlast]; simp only []
      rw [hr1, Option.bind_eq_bind, Option.bind_some, hseed]; simp only []
      rw [hx1, Option.bind_eq_bind, Option.bind_some, hlev]; rfl
    · unfold fromMsg
      simp only []
      rw [if_neg (by simp only [List.append_eq_nil_iff, List.length_append, List.length_singleton]; rintro (⟨-, h⟩ | ⟨h, -⟩); · { cases h }; · omega), hmax, Res.lift_some, Res.ok_bind, if_neg (by have := h.level; omega), ha.contextAt, Res.ok_bind, List.mapM_append, hr3, Res.ok_bind,
        List.mapM_cons, hx2, Res.ok_bind, List.mapM_nil, Res.pure_eq, Res.ok_bind, Res.pure_eq, Res.ok_bind, Res.pure_eq, Res.ok_bind, if_pos trivial]
      rw [Res.pure_eq, List.map_append, hmm, h.par_eq]
      conv_rhs => rw [hsplit]
      rw [List.map_append]; rfl
  | some seed =>
    obtain ⟨h32, hse⟩ := h.seed seed hseed
    obtain ⟨p, hp1, hp2⟩ := hse last hlast
    rw [hctx last (List.mem_of_getLast? hlast)] at hp1
    refine ⟨{ c := rest, seed, level := ct.level }, ?_, ?_, ⟨fun y hy => (hr4 y hy).2, le_of_eq h32, hlt⟩, by simp only [hrl, List.length_dropLast]; omega, fun y hy => (hr4 y hy).1, rfl⟩
    · unfold toMsg
      rw [hlast]; simp only []
      rw [hr1, Option.bind_eq_bind, Option.bind_some, hseed]; simp only []
      rw [hlev]; rfl
    · unfold fromMsg
      simp only []
      have hs0 : seed ≠ [] := by rintro rfl; simp at h32
      rw [if_neg (by rw [not_or]; exact ⟨List.ne_nil_of_length_pos (by omega), by simp [hs0]⟩), hmax, Res.lift_some, Res.ok_bind, if_neg (by have := h.level; omega), ha.contextAt, Res.ok_bind, hr3, Res.ok_bind,
        if_neg hs0, if_neg (by simp [h32]), hp1, Res.lift_some, Res.ok_bind]
      rw [Res.pure_eq, List.map_append, hmm, h.par_eq]
      conv_rhs => rw [hsplit]
      rw [List.map_append, List.map_singleton, List.map_singleton, allowVt_of_beq hp2]

theorem allowVt_beq {ct : Ciphertext} : ({ ct with c := ct.c.map Poly.allowVt } : Ciphertext).beq ct = true := by
  unfold beq
  simp only [decide_true, Bool.true_and, List.length_map, Bool.and_true, List.all_eq_true]
  rintro ⟨x, y⟩ hxy
  obtain ⟨k, hk, e⟩ := List.getElem_of_mem hxy
  rw [List.getElem_zip, List.getElem_map] at e
  simp only [Prod.mk.injEq] at e
  rw [← e.1, ← e.2]
  exact beq_of_vt rfl

end Ciphertext
end Fhe

namespace Fhe
open Nega Poly Ciphertext
variable {b : Build} {n N : Nat} {c : Context} {par : Par} {i : Nat} {l : ContextLevel} {s : IntPoly par.degree}

/-! ## Decryption of arbitrary ciphertexts -/

/-- The message with given coefficients. -/
theorem exists_msg {t : Nat} [NeZero t] {w : List Nat} (hl : w.length = N) (hlt : ∀ x ∈ w, x < t) : ∃ m : Nega N (ZMod t), msgCoeffs m = w := by
  refine ⟨fun j => ((w.getD j.val 0 : Nat) : ZMod t), ?_⟩
  unfold msgCoeffs
  refine List.ext_getElem (by simp [hl]) fun j h1 h2 => ?_
  rw [List.getElem_ofFn]
  simp only [List.getD_eq_getElem _ _ h2]
  rw [ZMod.val_natCast, Nat.mod_eq_of_lt (hlt _ (List.getElem_mem h2))]

theorem tryDecrypt_total (hw : ParWF b n par.toBfvParameters) (hcount : par.moduli.length ≤ 31) (hsum : par.moduli.sum ≤ 2 ^ 65) {sk : SecretKey} (hk : sk.IsKey par s)
    {ct : Ciphertext} (hp : ct.par = par) (hlev : ct.level < par.moduli.length) (hQ : par.plaintext.value ≤ par.modulusAt ct.level) (h2 : 2 ≤ ct.c.length)
    (hv : ∀ p ∈ ct.c, p.Valid ∧ par.contextAtLevel ct.level = Res.ok p.ctx) :
    ∃ pt m, sk.tryDecrypt b ct = Res.ok pt ∧ pt.Holds par ct.level m := by
  have ht := hw.t_pos
  have : NeZero par.plaintext.value := ⟨by omega⟩
  obtain ⟨l, ha⟩ := AtLevel.ofLt (par := par) hw hlev
  obtain ⟨F, hF, -⟩ := exists_parts ha.wf ha.deg (ps := ct.c) fun p hp => ⟨by
    have := (hv p hp).2
    rw [ha.contextAt, Res.ok_inj] at this
    exact this.symm, (hv p hp).1⟩
  obtain ⟨pc, g, z, hpc, -, -, hdec⟩ := tryDecrypt_raw hw hcount hsum hk ha hp rfl h2 hF
  obtain ⟨w, w1, w2, w3, -⟩ := finish_raw hw ha hQ hpc g
  obtain ⟨m, hm⟩ := exists_msg (N := par.degree) w1 w2
  rw [w3, Res.ok_bind, Res.pure_eq, ← hm] at hdec
  exact ⟨_, m, hdec, Plaintext.holds_of_enc hw rfl ha.get rfl fun x hx => by have := w2 x (by rw [← hm]; exact hx); rw [ha.mod]; omega⟩

/-- For a word-sized plaintext modulus that is not below the first ciphertext modulus, encryptions of zero decrypt to something else. -/
theorem tryDecrypt_wrong (hw : ParWF b n par.toBfvParameters) (hcount : par.moduli.length ≤ 31) (hsum : par.moduli.sum ≤ 2 ^ 65) {sk : SecretKey} (hk : sk.IsKey par s)
    {q0 : Nat} (hq0 : par.moduli.head? = some q0) (hlt : q0 ≤ par.plaintext.value) (h62 : par.plaintext.value < 2 ^ 62) (hQ : par.plaintext.value ≤ par.modulusAt i)
    {ct : Ciphertext} {v : IntPoly par.degree} (hct : ct.Encrypts par s i 0 v) (hv : v.Small (par.modulusAt i)) :
    ∃ (pt : Plaintext) (m : par.Msg), sk.tryDecrypt b ct = Res.ok pt ∧ pt.Holds par i m ∧ ∀ j, (m j).val = par.plaintext.value % q0 ∧ m j ≠ 0 := by
  have ht := hw.t_pos
  have : NeZero par.plaintext.value := ⟨by omega⟩
  obtain ⟨l, F, M, ha, hF, hM, hph⟩ := hct.elim hw
  have := ha.wf.neZero
  obtain ⟨pc, g, z, hpc, hg, hz, hdec⟩ := tryDecrypt_raw hw hcount hsum hk ha hct.par_eq hct.level_eq hct.parts hF
  have hz0 : ∀ j : Fin par.degree, z j = 0 := by
    intro j
    have h2 := congrFun hph j
    rw [Nega.add_apply, C_mul_apply, C_mul_apply, ← ha.mod] at h2
    have h3 := hv j
    rw [← ha.mod] at h3
    obtain ⟨h4, h5, h6⟩ := decrypt_round (NeZero.pos _) ht h2 h3 (hz j)
    have h7 : (par.plaintext.value : Int) ∣ M j := by
      have := congrFun hM j
      rw [← ZMod.intCast_zmod_eq_zero_iff_dvd]
      exact this
    have h8 : (par.plaintext.value : Int) ∣ z j := by have := dvd_add h4 h7; rwa [sub_add_cancel] at this
    obtain ⟨k, hk⟩ := h8
    rcases lt_trichotomy k 0 with hk0 | rfl | hk0
    · have : (par.plaintext.value : Int) * k ≤ par.plaintext.value * (-1) := mul_le_mul_of_nonneg_left (by omega) (by positivity)
      omega
    · rw [hk, mul_zero]
    · have : (par.plaintext.value : Int) * 1 ≤ par.plaintext.value * k := mul_le_mul_of_nonneg_left (by omega) (by positivity)
      omega
  obtain ⟨w, w1, w2, w3, w4, -⟩ := finish_raw hw ha hQ hpc g
  obtain ⟨q0', e1, e2, e3, rfl⟩ := w4 h62
  rw [hq0] at e1
  obtain rfl : q0 = q0' := by simpa using e1
  obtain ⟨m, hm⟩ := exists_msg (N := par.degree) w1 w2
  rw [w3, Res.ok_bind, Res.pure_eq, ← hm] at hdec
  refine ⟨_, m, hdec, Plaintext.holds_of_enc hw rfl ha.get rfl (fun x hx => by have := w2 x (by rw [← hm]; exact hx); rw [ha.mod]; omega), fun j => ?_⟩
  have hmj : (m j).val = par.plaintext.value % q0 := by
    have h1 : (msgCoeffs m)[j.val]? = some (m j).val := by simp [msgCoeffs]
    rw [hm] at h1
    simp only [tab, List.getElem?_map, List.getElem?_range j.isLt, Option.map_some, Option.some.injEq] at h1
    rw [← h1, hg j j.isLt, hz0 j, Int.cast_zero, ZMod.val_zero, Nat.zero_mod, Nat.zero_add, Nat.mod_eq_of_lt]
    exact (Nat.mod_lt _ (by omega)).trans_le hlt
  refine ⟨hmj, fun h0 => ?_⟩
  rw [h0, ZMod.val_zero] at hmj
  have hc := hw.moduli.coprime q0 (List.mem_of_mem_head? (by rw [hq0]; rfl))
  have hd := Nat.dvd_of_mod_eq_zero hmj.symm
  have : q0 ∣ 1 := by rw [← hc]; exact Nat.dvd_gcd hd (dvd_refl _)
  have := Nat.le_of_dvd one_pos this
  omega

/-! ## The noise meter -/

theorem bitLen_mono {a c : Nat} (h : a ≤ c) : bitLen a ≤ bitLen c := bitLen_le_iff.2 (h.trans_lt (bitLen_le_iff.1 le_rfl))

theorem foldl_max_le {f : Nat → Nat} {B : Nat} : ∀ {l : List Nat} {a : Nat}, l.foldl (fun y x => max y (f x)) a ≤ B ↔ a ≤ B ∧ ∀ x ∈ l, f x ≤ B
  | [], a => by simp
  | x :: l, a => by
    rw [List.foldl_cons, foldl_max_le]
    simp only [List.mem_cons, forall_eq_or_imp, Nat.max_le, and_assoc]

theorem measureNoise_eq (hw : ParWF b n par.toBfvParameters) (hr : par.toBfvParameters.Reliable i) {sk : SecretKey} (hk : sk.IsKey par s)
    {ct : Ciphertext} {m : par.Msg} {v : IntPoly par.degree} (hct : ct.Encrypts par s i m v) (hv : v.Small (par.modulusAt i)) :
    ∃ (k : Nat) (w : IntPoly par.degree), sk.measureNoise b ct = Res.ok k ∧ C (par.plaintext.value : Int) * w = v + scaleRest (par.modulusAt i) m ∧
      ∀ B, k ≤ B ↔ ∀ j, |w j| < 2 ^ B := by
  have ht := hw.t_pos
  have : NeZero par.plaintext.value := ⟨by omega⟩
  obtain ⟨l, F, M, ha, hF, hM, hph⟩ := hct.elim hw
  have := ha.wf.neZero
  obtain ⟨l', ha', hlt, hdec⟩ := tryDecrypt_eq hw hr hk hct hv
  obtain rfl := ha.unique ha'
  have hholds := Plaintext.holds_of_enc hw (pt := { par, encoding := none, polyNtt := enc l.ctx .ntt false (ofNats l.ctx (msgCoeffs m)) }) rfl ha.get rfl hlt
  have hmodl := hr.modulus
  -- `M` and the representative of the message differ by a multiple of `t`
  obtain ⟨H, hH⟩ : ∃ H : IntPoly par.degree, M = msgInt m + C (par.plaintext.value : Int) * H := by
    have : ∀ j, ∃ h : Int, M j - (msgInt m) j = par.plaintext.value * h := fun j => by
      have e1 := congrFun hM j
      have e2 := congrFun (red_msgInt m) j
      rw [← e2] at e1
      have e3 : ((M j : Int) : ZMod par.plaintext.value) = ((msgInt m j : Int) : ZMod par.plaintext.value) := e1
      exact (ZMod.intCast_eq_intCast_iff_dvd_sub _ _ _).1 e3.symm
    obtain ⟨H, hH⟩ : ∃ H : IntPoly par.degree, ∀ j, M j - (msgInt m) j = par.plaintext.value * H j := ⟨fun j => (this j).choose, fun j => (this j).choose_spec⟩
    refine ⟨H, ?_⟩
    apply Nega.ext; intro j
    rw [Nega.add_apply, C_mul_apply, ← hH]; ring
  have hsm := scaleMsg_mul (par.modulusAt i) m
  refine ⟨(List.ofFn fun j : Fin l.ctx.degree => (ofInt l.ctx (Fhe.phase s F - scaleMsg (par.modulusAt i) m) j).val).foldl (fun noise x => max noise (min (bitLen x) (bitLen (l.ctx.modulus - x)))) 0,
    Fhe.phase s F - scaleMsg (par.modulusAt i) m - C (par.modulusAt i : Int) * H, ?eq, ?w, ?bound⟩
  case w => rw [hH] at hph; linear_combination hph - hsm
  case eq =>
    have h2 := hct.parts
    unfold SecretKey.measureNoise
    rw [hdec, Res.ok_bind, Plaintext.toPoly_encI hw ha (by omega) hholds, Res.lift_some, Res.ok_bind]
    cases hc : ct.c with
    | nil => rw [hc] at h2; simp at h2
    | cons p ps =>
      rw [hc] at hF
      cases hF with
      | @cons _ f _ F h1 h2 =>
        obtain ⟨vt, rfl⟩ := h1
        simp only []
        rw [ctx_encI, SecretKey.polyAt_encI hk ha.wf ha.deg, Res.ok_bind, disallowVt_encI, SecretKey.noiseLoop_eq ha.wf ha.deg s h2, Res.lift_some, Res.ok_bind, subAssign_encI ha.wf ha.deg (by simp),
          Res.lift_some, Res.ok_bind, nttToPowerBasis_encI ha.wf, Res.lift_some, Res.ok_bind]
        unfold encI
        rw [Plaintext.toBigUint_enc ha.wf, Res.lift_some, Res.ok_bind, check_eq (fun x hx => by
          obtain ⟨j, rfl⟩ := (List.mem_ofFn' _ _).1 hx
          exact (ZMod.val_lt _).le), Res.lift_some, Res.ok_bind]
        rfl
  case bound =>
    intro B
    rw [foldl_max_le]
    simp only [Nat.zero_le, true_and]
    set w : IntPoly par.degree := Fhe.phase s F - scaleMsg (par.modulusAt i) m - C (par.modulusAt i : Int) * H with hwdef
    have hwv : C (par.plaintext.value : Int) * w = v + scaleRest (par.modulusAt i) m := by rw [hwdef]; rw [hH] at hph; linear_combination hph - hsm
    have hwX : Fhe.phase s F - scaleMsg (par.modulusAt i) m = w + C (l.ctx.modulus : Int) * H := by rw [hwdef, ha.mod]; ring
    have hsmall : ∀ j, 2 * |w j| ≤ (l.ctx.modulus : Int) := by
      intro j
      have e := congrFun hwv j
      rw [Nega.add_apply, C_mul_apply] at e
      have hb := scaleRest_bounded (par.modulusAt i) (by omega : 0 < par.plaintext.value) m j
      have hv := hv j
      rw [ha.mod]
      have e1 : (par.plaintext.value : Int) * |w j| ≤ |v j| + par.plaintext.value := by
        have : |(par.plaintext.value : Int) * w j| = par.plaintext.value * |w j| := by rw [abs_mul, abs_of_nonneg (by positivity : (0 : Int) ≤ par.plaintext.value)]
        rw [← this, e]
        exact (abs_add_le _ _).trans (by linarith)
      have e2 : ((2 * par.plaintext.value : Nat) : Int) ≤ (par.modulusAt i : Int) := by exact_mod_cast hmodl
      push_cast at e2
      have ht' : (2 : Int) ≤ par.plaintext.value := by exact_mod_cast ht
      -- 2 |w| > Q would give t |w| > t Q / 2 ≥ Q
      by_contra hc
      push Not at hc
      have e3 : (par.plaintext.value : Int) * par.modulusAt i ≤ par.plaintext.value * (2 * |w j|) := mul_le_mul_of_nonneg_left hc.le (by omega)
      have e4 : (2 : Int) * par.modulusAt i ≤ par.plaintext.value * par.modulusAt i := mul_le_mul_of_nonneg_right ht' (by positivity)
      have e5 : (par.plaintext.value : Int) * (2 * |w j|) = 2 * (par.plaintext.value * |w j|) := by ring
      have hQ0 : (0 : Int) < par.modulusAt i := by exact_mod_cast ha.pos
      linarith
    have hval : ∀ j : Fin par.degree, min (bitLen ((w j : Int) : ZMod l.ctx.modulus).val) (bitLen (l.ctx.modulus - ((w j : Int) : ZMod l.ctx.modulus).val)) = bitLen (w j).natAbs := by
      intro j
      have h1 := hsmall j
      have h2 := ZMod.val_intCast (n := l.ctx.modulus) (w j)
      have hpos : (0 : Int) < l.ctx.modulus := by exact_mod_cast NeZero.pos l.ctx.modulus
      rcases lt_or_ge (w j) 0 with hneg | hnn
      · rw [abs_of_neg hneg] at h1
        have e : (w j) % (l.ctx.modulus : Int) = w j + l.ctx.modulus := by
          rw [← Int.add_emod_right, Int.emod_eq_of_lt (by omega) (by omega)]
        have e1 : l.ctx.modulus - ((w j : Int) : ZMod l.ctx.modulus).val = (w j).natAbs := by omega
        rw [e1, min_eq_right]
        exact bitLen_mono (by omega)
      · rw [abs_of_nonneg hnn] at h1
        have e : (w j) % (l.ctx.modulus : Int) = w j := Int.emod_eq_of_lt hnn (by omega)
        have e1 : ((w j : Int) : ZMod l.ctx.modulus).val = (w j).natAbs := by omega
        rw [e1, min_eq_left]
        exact bitLen_mono (by omega)
    have hcoef : ∀ (j : Fin l.ctx.degree) (hj : j.val < par.degree), ofInt l.ctx (Fhe.phase s F - scaleMsg (par.modulusAt i) m) j = ((w ⟨j.val, hj⟩ : Int) : ZMod l.ctx.modulus) := by
      intro j hj
      rw [(ofInt_eq_iff_exists ha.deg _ _).2 ⟨H, hwX⟩, ← coeff_val (ofInt l.ctx w) j, coeff_ofInt ha.deg, coeff_of_lt _ hj]
    constructor
    · intro h j
      have hj : j.val < l.ctx.degree := by rw [ha.deg]; exact j.isLt
      have := h _ ((List.mem_ofFn' _ _).2 ⟨⟨j.val, hj⟩, rfl⟩)
      beta_reduce at this
      rw [hcoef ⟨j.val, hj⟩ j.isLt, hval, bitLen_le_iff] at this
      rw [Int.abs_eq_natAbs]; exact_mod_cast this
    · intro h x hx
      obtain ⟨j, rfl⟩ := (List.mem_ofFn' _ _).1 hx
      have hj : j.val < par.degree := by rw [← ha.deg]; exact j.isLt
      beta_reduce
      rw [hcoef j hj, hval, bitLen_le_iff]
      have := h ⟨j.val, hj⟩
      rw [Int.abs_eq_natAbs] at this; exact_mod_cast this

/-! ## Contexts of deserialized polynomials -/

theorem Poly.computeShoup_ctx {r : Rep} {p p' : Poly r} (h : p.computeShoup = some p') : p'.ctx = p.ctx ∧ p'.vt = p.vt := by
  unfold Poly.computeShoup at h
  simp only [Option.bind_eq_bind, Option.bind_eq_some_iff] at h
  obtain ⟨x, -, h⟩ := h
  obtain rfl : _ = p' := by simpa using h
  exact ⟨rfl, rfl⟩

theorem Poly.fromParts_ctx {r r' : Rep} {p : Poly r'} {p' : Poly r} (h : Poly.fromParts r p = some p') : p'.ctx = p.ctx ∧ p'.vt = p.vt := by
  unfold Poly.fromParts at h
  split_ifs at h
  · split at h
    · simp only [Option.bind_eq_bind, Option.bind_eq_some_iff] at h
      obtain ⟨x, hx, h⟩ := h
      obtain rfl : _ = p' := by simpa using h
      exact Poly.computeShoup_ctx hx
    · obtain rfl : _ = p' := by simpa using h
      exact ⟨rfl, rfl⟩
  · obtain rfl : _ = p' := by simpa using h
    exact ⟨rfl, rfl⟩

theorem Poly.nttForward_ctx {r : Rep} {p p' : Poly r} (h : p.nttForward = some p') : p'.ctx = p.ctx ∧ p'.vt = p.vt := by
  unfold Poly.nttForward at h
  simp only [Option.bind_eq_bind, Option.bind_eq_some_iff] at h
  obtain ⟨x, -, h⟩ := h
  obtain rfl : _ = p' := by simpa using h
  exact ⟨rfl, rfl⟩

theorem Poly.ofPowerBasis_ctx {r : Rep} {p : Poly .powerBasis} {p' : Poly r} (h : Poly.ofPowerBasis r p = some p') : p'.ctx = p.ctx ∧ p'.vt = p.vt := by
  cases r with
  | powerBasis =>
    obtain rfl : p = p' := by simpa [Poly.ofPowerBasis] using h
    exact ⟨rfl, rfl⟩
  | ntt =>
    unfold Poly.ofPowerBasis Poly.intoNtt at h
    rw [Option.bind_eq_bind, Option.bind_eq_some_iff] at h
    obtain ⟨x, hx, h⟩ := h
    rw [(Poly.fromParts_ctx h).1, (Poly.nttForward_ctx hx).1, (Poly.fromParts_ctx h).2, (Poly.nttForward_ctx hx).2]
    exact ⟨rfl, rfl⟩
  | nttShoup =>
    unfold Poly.ofPowerBasis Poly.intoNttShoup at h
    rw [Option.bind_eq_bind, Option.bind_eq_some_iff] at h
    obtain ⟨x, hx, h⟩ := h
    rw [Option.bind_eq_some_iff] at h
    obtain ⟨y, hy, h⟩ := h
    rw [(Poly.fromParts_ctx h).1, (Poly.computeShoup_ctx hy).1, (Poly.nttForward_ctx hx).1, (Poly.fromParts_ctx h).2, (Poly.computeShoup_ctx hy).2, (Poly.nttForward_ctx hx).2]
    exact ⟨rfl, rfl⟩

theorem Poly.tryFromU64_ctx {v : List Nat} {ctx : Context} {vt : Bool} {p : Poly .powerBasis} (h : Poly.tryFromU64 v ctx vt = some (.ok p)) : p.ctx = ctx ∧ p.vt = vt := by
  unfold Poly.tryFromU64 at h
  by_cases h1 : v.length = ctx.q.length * ctx.degree
  · rw [if_pos h1, Option.bind_eq_bind, Option.bind_eq_some_iff] at h
    obtain ⟨x, -, h⟩ := h
    obtain rfl : _ = p := by simpa using h
    exact ⟨rfl, rfl⟩
  · rw [if_neg h1] at h
    by_cases h2 : v.length ≤ ctx.degree
    · rw [if_pos h2] at h
      simp only [Option.bind_eq_bind] at h
      rw [Option.bind_eq_some_iff] at h
      obtain ⟨x, -, h⟩ := h
      obtain rfl : _ = p := by simpa using h
      exact ⟨rfl, rfl⟩
    · rw [if_neg h2] at h
      simp at h

/-- A deserialized polynomial is of the context it was asked for. -/
theorem Poly.fromRq_ctx {r : Rep} {m : RqMsg} {ctx : Context} {vt : Bool} {p : Poly r} (h : Poly.fromRq r m ctx vt = some (.ok p)) : p.ctx = ctx ∧ p.vt = vt := by
  unfold Poly.fromRq at h
  rw [Option.bind_eq_bind, Option.bind_eq_some_iff] at h
  obtain ⟨x, -, h⟩ := h
  cases x with
  | error e => simp at h
  | ok x =>
    obtain ⟨repr, coeffs⟩ := x
    simp only [] at h
    by_cases hr : repr ≠ r
    · rw [if_pos hr] at h; simp at h
    · rw [if_neg hr, Option.bind_eq_bind, Option.bind_eq_some_iff] at h
      obtain ⟨y, hy, h⟩ := h
      cases y with
      | error e => simp at h
      | ok y =>
        simp only [Option.bind_eq_bind, Option.bind_eq_some_iff] at h
        obtain ⟨z, hz, h⟩ := h
        obtain rfl : z = p := by simpa using h
        obtain ⟨h1, h2⟩ := Poly.ofPowerBasis_ctx hz
        obtain ⟨h3, h4⟩ := Poly.tryFromU64_ctx hy
        exact ⟨h1.trans h3, h2.trans h4⟩

/-- A polynomial read from bytes is of the context it was asked for. -/
theorem Poly.fromBytes_ctx {r : Rep} {m : List Nat} {ctx : Context} {p : Poly r} (h : Poly.fromBytes r m ctx = some (.ok p)) : p.ctx = ctx ∧ p.vt = false := by
  unfold Poly.fromBytes at h
  split at h
  · cases h
  · exact Poly.fromRq_ctx h

end Fhe
