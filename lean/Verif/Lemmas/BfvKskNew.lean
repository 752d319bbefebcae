import Verif.Lemmas.BfvKsk
/-!
# Lemmas on the generation of keys and on switching between levels
-/
namespace Fhe
open Nega Poly Ciphertext

variable {b : Build} {n N : Nat} {c c' : Context} {r : Rep} {vt vt' : Bool} {par : Par} {i j : Nat} {l l' : ContextLevel}

/-! ## Between levels -/

theorem AtLevel.ctx_ne (ha : AtLevel b n par i l) (ha' : AtLevel b n par j l') (hij : i ≠ j) : l.ctx ≠ l'.ctx := by
  intro h
  have h1 := ha.length
  have h2 := ha'.length
  have := ha.lt
  have := ha'.lt
  rw [h, h2] at h1
  omega

/-- Several steps down. -/
theorem switchLoop_eq (hw : ParWF b n par.toBfvParameters) : ∀ {k i : Nat} {l l' : ContextLevel}, AtLevel b n par i l → AtLevel b n par (i + k) l' →
    ∀ (vt : Bool) (F : IntPoly par.degree), ∃ (P : Nat) (Y R : IntPoly par.degree), Context.descend k l.ctx = some l'.ctx ∧
      switchDownLoop k (encI l.ctx .powerBasis vt F) = some (.ok (encI l'.ctx .powerBasis vt Y)) ∧ l.ctx.modulus = P * l'.ctx.modulus ∧ 0 < P ∧
      F = C (P : Int) * Y + R ∧ ∀ t, 2 * |R t| ≤ k * P
  | 0, i, l, l', ha, ha', vt, F => by
    obtain rfl := ha.unique ha'
    exact ⟨1, F, 0, rfl, rfl, by simp, by norm_num, by simp, fun t => by rw [Nega.zero_apply]; simp⟩
  | k + 1, i, l, l', ha, ha', vt, F => by
    obtain ⟨l1, ha1⟩ := AtLevel.ofLt hw (i := i + 1) (by have := ha'.lt; omega)
    obtain ⟨e1, e2, e3, e4⟩ := switchOnce_eq ha ha1 (vt := vt) F
    obtain ⟨δ, hδ, hF⟩ := roundI_err e4 F
    generalize l.ctx.moduli.getLastD 0 = q at *
    obtain ⟨P, Y, R, d1, d2, d3, d4, d5, d6⟩ := switchLoop_eq hw ha1 (by rwa [show i + (k + 1) = i + 1 + k by omega] at ha') vt (roundI q F)
    refine ⟨q * P, Y, C (q : Int) * R + δ, by rw [Context.descend, e1]; exact d1, ?_, by rw [e3, d3, Nat.mul_assoc], Nat.mul_pos e4 d4, ?_, fun t => ?_⟩
    · rw [switchDownLoop, e2]
      simp only [Option.bind_eq_bind, Option.bind_some]
      exact d2
    · rw [hF, d5]
      push_cast
      rw [map_mul]
      ring
    · rw [Nega.add_apply, C_mul_apply]
      have h1 := d6 t
      have h2 := hδ t
      have h3 : 2 * ((q / 2 : Nat) : Int) ≤ q := by omega
      have h4 := abs_add_le ((q : Int) * R t) (δ t)
      rw [abs_mul, Nat.abs_cast] at h4
      push_cast
      have h5 : (q : Int) * (2 * |R t|) ≤ q * (k * P) := by gcongr
      have h6 : (q : Int) ≤ q * P := by nlinarith
      nlinarith

theorem switchDownNtt_eq (hw : ParWF b n par.toBfvParameters) (ha : AtLevel b n par i l) (ha' : AtLevel b n par j l') (hij : i ≤ j) (vt : Bool) (F : IntPoly par.degree) :
    ∃ (P : Nat) (Y R : IntPoly par.degree), (encI l.ctx .ntt vt F).switchDownNtt l'.ctx = Res.ok (encI l'.ctx .ntt vt Y) ∧ l.ctx.modulus = P * l'.ctx.modulus ∧ 0 < P ∧
      F = C (P : Int) * Y + R ∧ ∀ t, 2 * |R t| ≤ (j - i : Nat) * P := by
  obtain ⟨P, Y, R, d1, d2, d3, d4, d5, d6⟩ := switchLoop_eq hw ha (l' := l') (k := j - i) (by rwa [show i + (j - i) = j by omega]) vt F
  refine ⟨P, Y, R, ?_, d3, d4, d5, d6⟩
  have hn : l.ctx.niterationsTo l'.ctx = .ok (j - i) := by
    have hlt := ha'.lt
    have hlen := ha.length
    rcases ha.wf.niterationsTo_eq l'.ctx with ⟨k, hk, e1, e2⟩ | ⟨e1, -⟩
    · obtain ⟨l'', ha''⟩ := AtLevel.ofLt hw (i := i + k) (by omega)
      obtain ⟨-, -, -, f1, -⟩ := switchLoop_eq hw ha ha'' vt F
      rw [e1, Option.some_inj] at f1
      by_cases h : j = i + k
      · rw [e2, h, Nat.add_sub_cancel_left]
      · exact absurd f1 (ha'.ctx_ne ha'' h)
    · exact absurd d1 (e1 _ (by omega))
  unfold switchDownNtt
  rw [nttToPowerBasis_encI ha.wf, Res.lift_some, Res.ok_bind]
  unfold switchDownTo
  rw [ctx_encI, hn]
  simp only [Option.bind_eq_bind]
  rw [d2]
  simp only [Option.bind_some, ctx_encI, ne_eq, not_true, if_false]
  rw [show (pure (Except.ok (encI l'.ctx .powerBasis vt Y)) : Panics (Except MathError (Poly .powerBasis))) = some (.ok (encI l'.ctx .powerBasis vt Y)) from rfl, Res.math_ok, Res.ok_bind, intoNtt_encI ha'.wf,
    Res.lift_some]

theorem modulus_factor (hw : ParWF b n par.toBfvParameters) (ha : AtLevel b n par i l) (ha' : AtLevel b n par j l') (hij : i ≤ j) : ∃ P, l.ctx.modulus = P * l'.ctx.modulus ∧ 0 < P := by
  obtain ⟨P, -, -, -, h, h', -⟩ := switchDownNtt_eq hw ha ha' hij false 0
  exact ⟨P, h, h'⟩

/-- Up: multiplication by the ratio of the moduli. -/
theorem switcher_up (hk : par.moduli.length ≤ 64) (ha : AtLevel b n par i l) (ha' : AtLevel b n par j l') {P : Nat}
    (hP : l.ctx.modulus = P * l'.ctx.modulus) : ∃ S : Scaler, switcherNew l'.ctx l.ctx = some (.ok S) ∧
      ∀ (X : IntPoly par.degree) (r : Rep) (vt : Bool), r ≠ .nttShoup → S.scale (encI l'.ctx r vt X) = some (.ok (encI l.ctx r vt (C (P : Int) * X))) := by
  have h0 := ha'.wf.neZero
  have hpos : 0 < l'.ctx.modulus := NeZero.pos _
  have hlen := ha'.length
  obtain ⟨F, S, e1, e2, e3⟩ := Scaler.scale_encI ha'.wf ha.wf ha'.deg ha.deg (by omega) (num := l.ctx.modulus) (den := l'.ctx.modulus) (NeZero.ne _) (by
    unfold Spec.scalerRoom
    have hd : ∀ x, l'.ctx.modulus ∣ l.ctx.modulus * x := fun x => by rw [hP]; exact Dvd.dvd.mul_right (Dvd.intro_left _ rfl) _
    rw [if_pos (hd _), List.sum_eq_zero]
    · norm_num
    · intro x hx
      obtain ⟨y, -, rfl⟩ := List.mem_map.1 hx
      rw [if_pos (hd _)])
  refine ⟨S, by unfold switcherNew; rw [e1]; exact e2, fun X r vt hr => ?_⟩
  obtain ⟨A, Z, E, ⟨H, f1⟩, -, f3, f4, -, f6⟩ := e3 X
  have hZ : Z = C (P : Int) * A := by
    apply Nega.ext; intro t
    have h1 := congrArg (fun Y : IntPoly par.degree => Y t) f3
    simp only [Nega.add_apply, C_mul_apply] at h1
    have h2 := f4 t
    rw [C_mul_apply]
    have h3 : E t = l'.ctx.modulus * (Z t - P * A t) := by
      have hP' : (l.ctx.modulus : Int) = P * l'.ctx.modulus := by exact_mod_cast hP
      rw [hP'] at h1
      linear_combination -h1
    rw [h3, abs_mul, Nat.abs_cast] at h2
    have hd : (0 : Int) < l'.ctx.modulus := by exact_mod_cast hpos
    have h4 : 2 ^ 62 * |Z t - P * A t| ≤ 2 ^ 61 + 1 := by
      refine le_of_mul_le_mul_left ?_ hd
      linarith
    have h5 : |Z t - P * A t| < 1 := by linarith
    have := Int.abs_lt_one_iff.1 h5
    linarith
  rw [f6 r vt hr]
  congr 2
  refine (encI_congr ha.deg (H := H) ?_).symm
  rw [f1, hZ, hP]
  push_cast
  rw [map_mul]
  ring

/-! ## Generation -/

namespace KeySwitchingKey

theorem generateC1_eq {g : Prg} (hg : g.OK) (h : c.WF b n) (hN : c.degree = N) (seed : Seed) (size : Nat) :
    ∃ (c1 : List (Poly .nttShoup)) (B : List (IntPoly N)), generateC1 g c seed size = some c1 ∧ SParts c c1 B ∧ c1.length = size ∧ ∀ p ∈ c1, p.vt = true := by
  unfold generateC1
  suffices H : ∀ l : List Nat, ∃ (c1 : List (Poly .nttShoup)) (B : List (IntPoly N)), (l.mapM fun i => do return (← g.poly .nttShoup c (g.derive seed i)).allowVt) = some c1 ∧ SParts c c1 B ∧ c1.length = l.length ∧
      ∀ p ∈ c1, p.vt = true by
    obtain ⟨c1, B, h1, h2, h3, h4⟩ := H (List.range size)
    exact ⟨c1, B, h1, h2, by rw [h3, List.length_range], h4⟩
  intro l
  induction l with
  | nil => exact ⟨[], [], rfl, .nil, rfl, by simp⟩
  | cons i l ih =>
    obtain ⟨c1, B, h1, h2, h3, h4⟩ := ih
    obtain ⟨A, hA⟩ := Prg.poly_encI hg h hN .nttShoup (g.derive seed i)
    refine ⟨encI c .nttShoup true A :: c1, A :: B, ?_, .cons ⟨_, rfl⟩ h2, by simp [h3], ?_⟩
    · rw [List.mapM_cons, hA, h1]; rfl
    · intro p hp
      rcases List.mem_cons.1 hp with rfl | hp
      · rfl
      · exact h4 p hp

variable {s : IntPoly par.degree} {sk : SecretKey}

theorem component_eq (hw : ParWF b n par.toBfvParameters) (h : c.WF b n) (hN : c.degree = par.degree) (hk : sk.IsKey par s) (F B : IntPoly par.degree) (gi : Nat) {rng : Nat → Nat} (hr : IsStream rng) :
    ∃ e : IntPoly par.degree, e.Bounded (2 * par.variance) ∧
      component sk (encI c .ntt false s) (encI c .powerBasis vt F) (encI c .nttShoup vt' B) gi rng = Res.ok (encI c .nttShoup true (e - B * s + C (gi : Int) * F)) := by
  obtain ⟨e, he, hs⟩ := small_encI hw.variance.1 hw.variance.2 hr par.degree
  refine ⟨e, he, ?_⟩
  unfold component
  rw [show (encI c .nttShoup vt' B).shoupToNtt = some (encI c .ntt vt' B) from rfl, Res.lift_some, Res.ok_bind, disallowVt_encI, mulAssign_encI h hN, Res.lift_some, Res.ok_bind,
    nttToPowerBasis_encI h, Res.lift_some, Res.ok_bind, ctx_encI, hk.par_eq, (hs h hN).1, Res.math_ok, Res.ok_bind, subAssign_encI h hN (by simp), Res.lift_some, Res.ok_bind,
    mulScalar_encI h hN (by simp), Res.lift_some, Res.ok_bind, addAssign_encI h hN (by simp), Res.lift_some, Res.ok_bind, allowVt_encI, intoNttShoup_encI h, Res.lift_some]

theorem components_eq (hw : ParWF b n par.toBfvParameters) (h : c.WF b n) (hN : c.degree = par.degree) (hk : sk.IsKey par s) (F : IntPoly par.degree) {f : Nat → Panics Nat} {g : Nat → Nat}
    {rngs : Nat → Nat → Nat} (hr : ∀ i, IsStream (rngs i)) : ∀ {c1 : List (Poly .nttShoup)} {B : List (IntPoly par.degree)} {off : Nat}, SParts c c1 B → (∀ i < c1.length, f (off + i) = some (g (off + i))) →
    ∃ (c0 : List (Poly .nttShoup)) (A E : List (IntPoly par.degree)),
      ((c1.zipIdx off).mapM fun x => do component sk (encI c .ntt false s) (encI c .powerBasis vt F) x.1 (← lift (f x.2)) (rngs x.2)) = Res.ok c0 ∧ SParts c c0 A ∧
      A.length = B.length ∧ E.length = B.length ∧ (∀ e ∈ E, e.Bounded (2 * par.variance)) ∧ (∀ p ∈ c0, p.vt = true) ∧
      ∀ (i : Nat) (a b' e : IntPoly par.degree), A[i]? = some a → B[i]? = some b' → E[i]? = some e → a + b' * s = e + C (g (off + i) : Int) * F
  | _, _, off, .nil, _ => ⟨[], [], [], by simp [Res.pure_eq], .nil, rfl, rfl, by simp, by simp, by simp⟩
  | _, _, off, .cons (b := β) (l₁ := c1) (l₂ := B) ⟨v, rfl⟩ hrest, hf => by
    obtain ⟨c0, A, E, h1, h2, h3, h4, h5, h6, h7⟩ := components_eq hw h hN hk F (f := f) (g := g) hr (off := off + 1) hrest (fun i hi => by
      have := hf (i + 1) (by simpa using hi)
      rwa [show off + (i + 1) = off + 1 + i by omega] at this)
    obtain ⟨e, he, hc⟩ := component_eq hw h hN hk (vt := vt) (vt' := v) F β (g off) (hr off)
    have h0 := hf 0 (by simp)
    rw [add_zero] at h0
    refine ⟨_ :: c0, (e - β * s + C (g off : Int) * F) :: A, e :: E, ?_, .cons ⟨true, rfl⟩ h2, by simp [h3], by simp [h4], ?_, ?_, ?_⟩
    · rw [List.zipIdx_cons, List.mapM_cons]
      simp only [h0, Res.lift_some, Res.ok_bind]
      rw [hc, Res.ok_bind, h1, Res.ok_bind, Res.pure_eq]
    · intro x hx
      rcases List.mem_cons.1 hx with rfl | hx
      · exact he
      · exact h5 x hx
    · intro x hx
      rcases List.mem_cons.1 hx with rfl | hx
      · rfl
      · exact h6 x hx
    · intro i a b' e' ha hb hE
      cases i with
      | zero =>
        simp only [List.getElem?_cons_zero, Option.some_inj] at ha hb hE
        subst ha hb hE
        rw [add_zero]; ring
      | succ i =>
        have := h7 i a b' e' (by simpa using ha) (by simpa using hb) (by simpa using hE)
        rwa [show off + 1 + i = off + (i + 1) by omega] at this

theorem new_eq (hw : ParWF b n par.toBfvParameters) (hk : sk.IsKey par s) {g : Prg} (hg : g.OK) (ha : AtLevel b n par i l) (ha' : AtLevel b n par j l')
    (hone : l'.ctx.moduli.length = 1 → i = j) (vt : Bool) (F : IntPoly par.degree) (seed : Seed) {rngs : Nat → Nat → Nat} (hr : ∀ i, IsStream (rngs i)) :
    ∃ (k : KeySwitchingKey) (E : List (IntPoly par.degree)), new b g sk (encI l'.ctx .powerBasis vt F) i j seed rngs = Res.ok k ∧ k.Switches par s F E ∧ (∀ e ∈ E, e.Bounded (2 * par.variance)) ∧
      k.ciphertextLevel = i ∧ k.kskLevel = j ∧ k.seed = some seed ∧ generateC1 g k.ctxKsk seed k.c0.length = some k.c1 ∧ (∀ p ∈ k.c0 ++ k.c1, p.vt = true) ∧
      (k.logBase = 0 ↔ l'.ctx.moduli.length ≠ 1) := by
  unfold new
  simp only []
  rw [hk.par_eq, ha'.contextAt, Res.ok_bind, ha.contextAt, Res.ok_bind, if_neg (by simp [ctx_encI])]
  by_cases h1 : l'.ctx.moduli.length = 1
  · rw [if_pos h1]
    obtain rfl := hone h1
    obtain rfl := ha.unique ha'
    obtain ⟨q, hq⟩ := List.length_eq_one_iff.1 h1
    have hr2 := ha.wf.supported.range q (by rw [hq]; simp)
    have hntt := ha.wf.supported.ntt q (by rw [hq]; simp)
    have hq8 : 8 < q := by
      have h8 : 2 ^ 3 ≤ 2 ^ n := Nat.pow_le_pow_right (by norm_num) ha.wf.supported.three_le
      by_contra hc
      rw [Nat.mod_eq_of_lt (by omega)] at hntt
      omega
    obtain ⟨hlog1, hlog2⟩ := RnsScaler.ceilLog2_spec (show 1 < q by omega)
    have hlog3 : 4 ≤ RnsScaler.ceilLog2 q := by
      by_contra hc
      have : 2 ^ RnsScaler.ceilLog2 q ≤ 2 ^ 3 := Nat.pow_le_pow_right (by norm_num) (by omega)
      omega
    have hlog4 : RnsScaler.ceilLog2 q < 63 := by
      by_contra hc
      have : 2 ^ 63 ≤ 2 ^ RnsScaler.ceilLog2 q := Nat.pow_le_pow_right (by norm_num) (by omega)
      omega
    generalize hlog : RnsScaler.ceilLog2 q = log at hlog1 hlog2 hlog3 hlog4
    rw [hq, List.head?_cons, Res.lift_some, Res.ok_bind]
    unfold logModulus divCeil
    rw [check_eq (show q ≤ 2 ^ 63 by omega)]
    simp only [Option.bind_eq_bind, Option.bind_some, Option.pure_def, Res.lift_some, Res.ok_bind, hlog]
    rw [check_eq (show log / 2 ≠ 0 by omega)]
    simp only [Option.bind_some, Res.lift_some, Res.ok_bind]
    generalize hlb : log / 2 = lb
    generalize hcount : (log + lb - 1) / lb = count
    have hlb0 : 2 ≤ lb := by omega
    have hdm := Nat.div_add_mod (log + lb - 1) lb
    have hml := Nat.mod_lt (log + lb - 1) (show 0 < lb by omega)
    rw [hcount] at hdm
    have hc0 : 0 < count := by
      rcases Nat.eq_zero_or_pos count with h | h
      · rw [h] at hdm; omega
      · exact h
    obtain ⟨c1, B, e1, e2, e3, e4⟩ := generateC1_eq hg ha.wf ha.deg seed count
    rw [e1, Res.lift_some, Res.ok_bind]
    have hBl : B.length = count := by rw [← e2.length_eq, e3]
    obtain ⟨c0, A, E, f1, f2, f3, f4, f5, f6, f7⟩ := components_eq hw ha.wf ha.deg hk (vt := vt) F (f := fun i => pow64 (i * lb)) (g := fun i => 2 ^ (i * lb)) hr (off := 0) e2 (fun i hi => by
      unfold pow64
      have : i * lb ≤ (count - 1) * lb := Nat.mul_le_mul_right _ (by omega)
      have e : lb * count = (count - 1) * lb + lb := by
        obtain ⟨m, rfl⟩ : ∃ m, count = m + 1 := ⟨count - 1, by omega⟩
        rw [Nat.add_sub_cancel]; ring
      rw [zero_add, check_eq (show i * lb < 64 by omega)]; rfl)
    have hgen : generateC0Decomposition sk (encI l.ctx .powerBasis vt F) c1 rngs lb = Res.ok c0 := by
      unfold generateC0Decomposition
      rcases e2 with _ | ⟨⟨v, rfl⟩, hrest⟩
      · simp at e3; omega
      · simp only [ctx_encI]
        rw [SecretKey.polyAt_encI hk ha.wf ha.deg, Res.ok_bind]
        exact f1
    rw [hgen, Res.ok_bind, Res.pure_eq]
    have hc0l : c0.length = count := by rw [f2.length_eq, f3, hBl]
    refine ⟨_, E, rfl, ⟨rfl, ha.contextAt, ha.contextAt, A, B, _, .powers (q := q) (count := count) ?_ ?_ hq ?_ ?_, (sparts_iff ha.wf ha.deg).2 f2, (sparts_iff ha.wf ha.deg).2 e2, ?_, ?_⟩, f5, rfl, rfl, rfl, ?_, ?_, ?_⟩
    · show 0 < lb; omega
    · show lb < 64; omega
    · show q ≤ 2 ^ (lb * count)
      exact hlog1.trans (Nat.pow_le_pow_right (by norm_num) (by omega))
    · show count = (RnsScaler.ceilLog2 q + lb - 1) / lb
      rw [hlog, hcount]
    · simp only [List.length_map, List.length_range]; omega
    · intro i a b' e g' h1 h2 h3 h4 j
      have := f7 i a b' e h1 h2 h4
      rw [this, Nega.add_apply, C_mul_apply]
      congr 2
      rw [List.getElem?_map, Option.map_eq_some_iff] at h3
      obtain ⟨x, hx, rfl⟩ := h3
      obtain ⟨hx1, hx2⟩ := List.getElem?_eq_some_iff.1 hx
      rw [List.getElem_range] at hx2
      subst hx2
      rw [zero_add]; push_cast; rfl
    · simp only [hc0l]; exact e1
    · intro p hp
      rcases List.mem_append.1 hp with hp | hp
      · exact f6 p hp
      · exact e4 p hp
    · exact ⟨fun h => absurd (show lb = 0 from h) (by omega), fun h => absurd rfl h⟩
  · rw [if_neg h1]
    obtain ⟨c1, B, e1, e2, e3, e4⟩ := generateC1_eq hg ha'.wf ha'.deg seed l.ctx.moduli.length
    rw [e1, Res.lift_some, Res.ok_bind]
    have hBl : B.length = l.ctx.moduli.length := by rw [← e2.length_eq, e3]
    have hrns := ha.wf.level.rns
    have hrm := ha.wf.level.rns_moduli
    have hgl : l.ctx.rns.garner.length = l.ctx.moduli.length := by rw [hrns.len_garner, hrm]
    obtain ⟨c0, A, E, f1, f2, f3, f4, f5, f6, f7⟩ := components_eq hw ha'.wf ha'.deg hk (vt := vt) F (f := fun i => l.ctx.rns.getGarner i) (g := fun i => l.ctx.rns.garner.getD i 0) hr (off := 0) e2 (fun i hi => by
      unfold RnsContext.getGarner
      rw [zero_add, List.getD_eq_getElem _ _ (by omega), List.getElem?_eq_getElem])
    have hlen := ha.length
    have hgen : generateC0 b sk (encI l'.ctx .powerBasis vt F) c1 rngs = Res.ok c0 := by
      have hpre : prefixOf par.moduli c1.length = some l.ctx.moduli := by
        unfold prefixOf
        rw [check_eq (by omega), ha.moduli, e3, ← hlen]
        rfl
      unfold generateC0
      rcases e2 with _ | ⟨⟨v, rfl⟩, hrest⟩
      · have := ha.lt; simp at e3; omega
      · simp only [ctx_encI]
        rw [SecretKey.polyAt_encI hk ha'.wf ha'.deg, Res.ok_bind, hk.par_eq, hpre, Res.lift_some, Res.ok_bind, ha.wf.level.rns_new, Res.math_ok, Res.ok_bind]
        exact f1
    rw [hgen, Res.ok_bind, Res.pure_eq]
    have hc0l : c0.length = l.ctx.moduli.length := by rw [f2.length_eq, f3, hBl]
    refine ⟨_, E, rfl, ⟨rfl, ha.contextAt, ha'.contextAt, A, B, l.ctx.rns.garner.map fun x : Nat => (x : Int), .residues rfl ?_ ?_, (sparts_iff ha'.wf ha'.deg).2 f2, (sparts_iff ha'.wf ha'.deg).2 e2, ?_, ?_⟩, f5, rfl, rfl, rfl, ?_, ?_, fun _ => h1, fun _ => rfl⟩
    · rw [List.length_map, hgl]
    · intro i j q g' h1 h2
      rw [List.getElem?_map, Option.map_eq_some_iff] at h2
      obtain ⟨x, hx, rfl⟩ := h2
      obtain ⟨hj, rfl⟩ := List.getElem?_eq_some_iff.1 h1
      have hxg : l.ctx.rns.garner.getD i 0 = x := by rw [List.getD_eq_getElem?_getD, hx]; rfl
      have hj' : j < l.ctx.moduli.length := hj
      show ((l.ctx.moduli[j] : Nat) : Int) ∣ _
      by_cases hij : i = j
      · subst hij
        have := hrns.garner_self
        simp only [hrm] at this
        have h3 := this i hj'
        rw [hxg] at h3
        rw [if_pos rfl]
        have h4 := Int.dvd_self_sub_emod (x := (x : Int)) (m := ((l.ctx.moduli[i] : Nat) : Int))
        have h5 : (x : Int) % ((l.ctx.moduli[i] : Nat) : Int) = 1 := by exact_mod_cast h3
        rwa [h5] at h4
      · have := hrns.garner_other
        simp only [hrm] at this
        have h3 := this i j hj' hij
        rw [hxg] at h3
        rw [if_neg hij, sub_zero]
        exact_mod_cast h3
    · rw [List.length_map]; omega
    · intro i a b' e g' h1 h2 h3 h4 j
      have := f7 i a b' e h1 h2 h4
      rw [this, Nega.add_apply, C_mul_apply]
      congr 2
      rw [List.getElem?_map, Option.map_eq_some_iff] at h3
      obtain ⟨x, hx, rfl⟩ := h3
      rw [zero_add, List.getD_eq_getElem?_getD, hx]; rfl
    · simp only [hc0l]; exact e1
    · intro p hp
      rcases List.mem_append.1 hp with hp | hp
      · exact f6 p hp
      · exact e4 p hp

end KeySwitchingKey

/-! ## Switching to the secret key at the level of the ciphertext -/

namespace KeySwitchingKey
variable {s F F₀ : IntPoly par.degree} {k : KeySwitchingKey} {E : List (IntPoly par.degree)}

theorem dot_digits_bounded (hk : k.Switches par s F E) {D : List (IntPoly par.degree)} (hl : D.length = E.length)
    (hd : ∀ (i : Nat) (d : IntPoly par.degree), D[i]? = some d → ∀ j, 0 ≤ d j ∧ d j < k.digitBound i) {e : Nat} (he : ∀ x ∈ E, x.Bounded e) :
    (IntPoly.dot D E).Bounded (par.degree * k.digitSum * e) := by
  obtain ⟨A, B, G, hG, hA, hB, ⟨hlA, hlB, hlE⟩, hrow⟩ := hk.parts
  have h := IntPoly.dot_bounded (f := k.digitBound) (D := D) (E := E) (fun i d h j => by
    have := hd i d h j
    rw [abs_of_nonneg this.1]; exact this.2.le) he
  refine h.mono (Nat.mul_le_mul_right _ (Nat.mul_le_mul_left _ (le_of_eq ?_)))
  have hc0 : k.c0.length = G.length := by rw [hA.length_eq, hlA]
  rw [hl, hlE]
  unfold digitSum digitBound
  cases hG with
  | residues base count crt =>
    simp only [if_pos base]
    rw [count]
    generalize k.ctxCiphertext.moduli = v
    clear * -
    induction v with
    | nil => rfl
    | cons a v ih => rw [List.length_cons, Finset.sum_range_succ', List.sum_cons]; simp only [List.getD_cons_succ, List.getD_cons_zero]; rw [ih, add_comm]
  | powers base word one enough exact =>
    simp only [if_neg (show ¬ k.logBase = 0 by omega)]
    rw [Finset.sum_const, Finset.card_range, hc0, smul_eq_mul]

/-- Key switching followed by the switch down to the level of the ciphertext. -/
theorem pair_eq (hw : ParWF b n par.toBfvParameters) (hk : k.Switches par s F E) (hle : k.kskLevel ≤ k.ciphertextLevel) {P : Nat}
    (hP : par.modulusAt k.kskLevel = P * par.modulusAt k.ciphertextLevel) (hF : F = C (P : Int) * F₀) (vt : Bool) (X : IntPoly par.degree) :
    ∃ (A B H D R0 R1 : IntPoly par.degree) (DD : List (IntPoly par.degree)) (W : IntPoly par.degree) (v0 v1 : Bool) (a : Poly .ntt × Poly .ntt),
      k.keySwitch (encI k.ctxCiphertext .powerBasis vt X) = Res.ok a ∧
      (∀ o0 o1 : Poly .ntt, o0.Valid → o1.Valid → k.keySwitchAssign (encI k.ctxCiphertext .powerBasis vt X) o0 o1 = Res.ok a) ∧
      (∀ x0 x1 : Poly .ntt, x0.ctx = k.ctxCiphertext → x1.ctx = k.ctxCiphertext → switchPair a x0 x1 = Res.ok (encI k.ctxCiphertext .ntt v0 A, encI k.ctxCiphertext .ntt v1 B)) ∧
      A + B * s = X * F₀ + C (par.modulusAt k.ciphertextLevel : Int) * H + W ∧ C (P : Int) * W = D - R0 - s * R1 ∧ D = IntPoly.dot DD E ∧ DD.length = E.length ∧
      (∀ (i : Nat) (d : IntPoly par.degree), DD[i]? = some d → ∀ j, 0 ≤ d j ∧ d j < k.digitBound i) ∧
      (∀ t, 2 * |R0 t| ≤ (k.ciphertextLevel - k.kskLevel : Nat) * P) ∧ (∀ t, 2 * |R1 t| ≤ (k.ciphertextLevel - k.kskLevel : Nat) * P) := by
  obtain ⟨l, hl, hc⟩ := ParWF.contextAtLevel_iff.1 hk.ctx
  obtain ⟨l', hl', hc'⟩ := ParWF.contextAtLevel_iff.1 hk.ctxKsk
  have ha := AtLevel.ofGet hw hl
  have ha' := AtLevel.ofGet hw hl'
  obtain ⟨DD, A, B, H, v0, v1, e1, e2, e3, e4, e5⟩ := keySwitch_eq hw hk vt X
  obtain ⟨P0, Y0, R0, f1, f2, f3, f4, f5⟩ := switchDownNtt_eq hw ha' ha hle v0 A
  obtain ⟨P1, Y1, R1, g1, g2, g3, g4, g5⟩ := switchDownNtt_eq hw ha' ha hle v1 B
  have hpos := ha.pos
  have hP0 : P0 = P := by
    rw [ha'.mod, ha.mod, hP] at f2
    exact (Nat.eq_of_mul_eq_mul_right hpos f2).symm
  have hP1 : P1 = P := by
    rw [ha'.mod, ha.mod, hP] at g2
    exact (Nat.eq_of_mul_eq_mul_right hpos g2).symm
  subst hP0 hP1
  refine ⟨Y0, Y1, H * F₀, IntPoly.dot DD E, R0, R1, DD, Y0 + Y1 * s - X * F₀ - C (par.modulusAt k.ciphertextLevel : Int) * (H * F₀), v0, v1, _, e1, fun o0 o1 h0 h1 => by rw [e5 o0 o1 h0 h1, e1], ?_, by ring, ?_, rfl, e3, e4, f5, g5⟩
  · intro x0 x1 h0 h1
    unfold switchPair
    by_cases heq : k.ctxKsk = k.ctxCiphertext
    · rw [if_neg (by rw [h0]; exact not_not.2 heq), ← hc]
      have hll : k.kskLevel = k.ciphertextLevel := by
        by_contra hne
        exact ha'.ctx_ne ha hne (by rw [hc, hc', heq])
      have hz : ∀ {R : IntPoly par.degree}, (∀ t, 2 * |R t| ≤ (k.ciphertextLevel - k.kskLevel : Nat) * (P1 : Int)) → R = 0 := fun {R} h => by
        apply Nega.ext; intro t
        have := h t
        rw [hll, Nat.sub_self] at this
        rw [Nega.zero_apply]
        have h2 := abs_nonneg (R t)
        have : |R t| = 0 := by push_cast at this; omega
        exact abs_eq_zero.1 this
      have hP1 : P1 = 1 := by
        rw [hll] at hP
        exact Nat.eq_of_mul_eq_mul_right hpos (by rw [one_mul]; exact hP.symm)
      rw [hz f5, hP1] at f4
      rw [hz g5, hP1] at g4
      simp only [Nat.cast_one, map_one, one_mul, add_zero] at f4 g4
      rw [f4, g4, hc, heq]
    · rw [if_pos (by rw [h0]; exact heq), h0, h1, ← hc, ← hc', f1, Res.ok_bind, g1, Res.ok_bind, Res.pure_eq]
  · rw [← hc, ha.mod, hF] at e2
    rw [f4, g4] at e2
    linear_combination e2

/-- The bound on the error of the switch. -/
theorem pair_bound {P e S : Nat} {m : Nat} {W D R0 R1 : IntPoly par.degree} (hW : C (P : Int) * W = D - R0 - s * R1) (hD : D.Bounded (par.degree * k.digitSum * e)) (hs : s.Bounded S)
    (h0 : ∀ t, 2 * |R0 t| ≤ (m : Nat) * P) (h1 : ∀ t, 2 * |R1 t| ≤ (m : Nat) * P) : ∀ t, 2 * P * |W t| ≤ 2 * (par.degree * k.digitSum * e) + m * P * (1 + par.degree * S) := by
  intro t
  have hw := congrArg (fun Y : IntPoly par.degree => Y t) hW
  simp only [Nega.sub_apply, C_mul_apply] at hw
  have b1 : IntPoly.Bounded (C (2 : Int) * R1 : IntPoly par.degree) (m * P) := fun j => by
    rw [C_mul_apply, abs_mul]; exact_mod_cast h1 j
  have b2 := (hs.mul b1) t
  rw [show s * (C 2 * R1) = C (2 : Int) * (s * R1) by ring, C_mul_apply, abs_mul] at b2
  have e : (P : Int) * |W t| = |D t - R0 t - (s * R1) t| := by rw [← hw, abs_mul, Nat.abs_cast]
  have t1 := abs_sub (D t - R0 t) ((s * R1) t)
  have t2 := abs_sub (D t) (R0 t)
  have b3 := hD t
  have b4 := h0 t
  push_cast at b2 b3 b4 ⊢
  rw [abs_two] at b2
  nlinarith

end KeySwitchingKey
end Fhe
