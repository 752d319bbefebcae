import Verif.Lemmas.Tail
import Verif.Lemmas.BfvPublic
/-!
# Keys and encryptions as functions of the sampled polynomials
-/
namespace Fhe
open Nega Poly Ciphertext

variable {b : Build} {n N : Nat} {c : Context} {par : Par} {l : ContextLevel} {s : IntPoly par.degree}

/-- The polynomial sampled from a stream. -/
def drawn (N v : Nat) (rng : Nat → Nat) : IntPoly N :=
  match sampleVecCbd N v rng with
  | some (.ok (l, _)) => IntPoly.ofList N l
  | _ => 0

theorem drawn_words {v W : Nat} (w : Fin W → Fin (2 ^ 64)) : drawn N v (wordsOf w) = sampled N v w := by
  funext j
  unfold drawn sampled entry
  split
  · rename_i h; rw [h]; rfl
  · rename_i h
    rcases h' : sampleVecCbd N v (wordsOf w) with _ | _ | ⟨l, k⟩
    · rfl
    · rfl
    · exact absurd h' (h l k)

theorem drawn_encI {v : Nat} (h1 : 1 ≤ v) (h2 : v ≤ 32) {rng : Nat → Nat} (hr : IsStream rng) (N : Nat) :
    (drawn N v rng).Bounded (2 * v) ∧ ∀ {b : Build} {n : Nat} {c : Context}, c.WF b n → c.degree = N → smallNtt c v rng = some (.ok (encI c .ntt false (drawn N v rng))) := by
  obtain ⟨w, e, -⟩ := Props.C12_sample_vec_cbd (n := N) h1 h2 hr
  obtain ⟨hl, hbd⟩ := Props.C12_bounded h1 h2 hr e
  generalize hL : (List.range N).map _ = l at e hl hbd
  have hd : drawn N v rng = IntPoly.ofList N l := by unfold drawn; rw [e]
  rw [hd]
  refine ⟨fun j => ?_, fun {b n c} h hN => ?_⟩
  · show |l.getD j.val 0| ≤ _
    rw [List.getD_eq_getElem _ _ (by rw [hl]; exact j.isLt)]
    have := hbd _ (List.getElem_mem (by rw [hl]; exact j.isLt : j.val < l.length))
    exact abs_le.2 ⟨by push_cast; exact this.1, by push_cast; exact this.2⟩
  · have hp : smallPowerBasis c v rng = some (.ok (encI c .powerBasis false (IntPoly.ofList N l))) := by
      unfold smallPowerBasis
      rw [if_neg (by simp [h1, h2]), hN, e]
      simp only [Option.bind_eq_bind, Option.bind_some]
      exact tryFromI64_encI h hN (by rw [hl]) fun x hx => by
        obtain ⟨x1, x2⟩ := hbd x hx
        have : (v : Int) ≤ 32 := by exact_mod_cast h2
        constructor <;> omega
    unfold smallNtt; rw [hp]; simp only [Option.bind_eq_bind, Option.bind_some]; rw [intoNtt_encI h]; rfl

theorem SecretKey.random_drawn (hw : ParWF b n par.toBfvParameters) {rng : Nat → Nat} (hr : IsStream rng) :
    ∃ sk, SecretKey.random par rng = some sk ∧ sk.IsKey par (drawn par.degree par.variance rng) := by
  obtain ⟨w, e, -⟩ := Props.C12_sample_vec_cbd (n := par.degree) hw.variance.1 hw.variance.2 hr
  obtain ⟨hl, hbd⟩ := Props.C12_bounded hw.variance.1 hw.variance.2 hr e
  generalize hL : (List.range par.degree).map _ = v at e hl hbd
  refine ⟨⟨par, v⟩, ?_, ⟨rfl, hl, fun x hx => ?_, ?_⟩⟩
  · unfold SecretKey.random; rw [e]; rfl
  · obtain ⟨x1, x2⟩ := hbd x hx
    have : (par.variance : Int) ≤ 32 := by exact_mod_cast hw.variance.2
    constructor <;> omega
  · unfold drawn; rw [e]

theorem scaleMsg_zero (Q : Nat) {N t : Nat} : scaleMsg Q (0 : Nega N (ZMod t)) = 0 := by
  apply Nega.ext; intro j
  show ((Q * (0 : ZMod t).val / t : Nat) : Int) = 0
  simp

/-- The public key made from a secret key, a seed and a stream. -/
theorem PublicKey.new_drawn (hw : ParWF b n par.toBfvParameters) (ha : AtLevel b n par 0 l) {sk : SecretKey} (hk : sk.IsKey par s) {g : Prg} (hQ : par.plaintext.value ≤ par.modulusAt 0)
    {seed : Seed} {A : IntPoly par.degree} (hA : g.poly .ntt l.ctx seed = some (encI l.ctx .ntt false A)) {rng : Nat → Nat} (hr : IsStream rng)
    (hz : ∃ pt, Plaintext.zero ⟨.poly, 0⟩ par = Res.ok pt ∧ pt.Holds par 0 0) :
    PublicKey.new g sk seed rng = some ⟨par, { par, seed := some seed, c := [encI l.ctx .ntt false (drawn par.degree par.variance rng - A * s), encI l.ctx .ntt false A], level := 0 }⟩ := by
  obtain ⟨pt, hz, hpt⟩ := hz
  have he := (drawn_encI hw.variance.1 hw.variance.2 hr par.degree).2 ha.wf ha.deg
  unfold PublicKey.new SecretKey.tryEncrypt
  rw [hk.par_eq, hz, Res.unwrap_ok, Option.bind_eq_bind, Option.bind_some, hpt.validateFor hw ha, Res.ok_bind, Plaintext.toPoly_encI hw ha hQ hpt, Res.lift_some, Res.ok_bind]
  unfold SecretKey.encryptPoly
  rw [ctx_encI, hk.par_eq, ha.levelOf, Res.ok_bind, SecretKey.polyAt_encI hk ha.wf ha.deg, Res.ok_bind, hA, Res.lift_some, Res.ok_bind, mulAssign_encI ha.wf ha.deg, Res.lift_some, Res.ok_bind,
    he, Res.math_ok, Res.ok_bind, subAssign_encI ha.wf ha.deg (by simp), Res.lift_some, Res.ok_bind, addAssign_encI ha.wf ha.deg (by simp), Res.lift_some, Res.ok_bind, scaleMsg_zero, add_zero]
  rfl

/-- An encryption of a plaintext of level 0 with a public key. -/
theorem PublicKey.tryEncrypt_drawn (hw : ParWF b n par.toBfvParameters) (ha : AtLevel b n par 0 l) (hQ : par.plaintext.value ≤ par.modulusAt 0) {F A : IntPoly par.degree} {seed : Option Seed}
    {vt vt' : Bool} {pt : Plaintext} {m : par.Msg} (hpt : pt.Holds par 0 m) {rngU rng1 rng2 : Nat → Nat} (hU : IsStream rngU) (h1 : IsStream rng1) (h2 : IsStream rng2) :
    PublicKey.tryEncrypt ⟨par, { par, seed, c := [encI l.ctx .ntt vt F, encI l.ctx .ntt vt' A], level := 0 }⟩ pt rngU rng1 rng2 =
      Res.ok { par, seed := none, c := [encI l.ctx .ntt true (drawn par.degree par.variance rngU * F + drawn par.degree par.variance rng1 + scaleMsg (par.modulusAt 0) m),
        encI l.ctx .ntt true (drawn par.degree par.variance rngU * A + drawn par.degree par.variance rng2)], level := 0 } := by
  have hu := (drawn_encI hw.variance.1 hw.variance.2 hU par.degree).2 ha.wf ha.deg
  have he1 := (drawn_encI hw.variance.1 hw.variance.2 h1 par.degree).2 ha.wf ha.deg
  have he2 := (drawn_encI hw.variance.1 hw.variance.2 h2 par.degree).2 ha.wf ha.deg
  have hv : Ciphertext.validateFor { par, seed, c := [encI l.ctx .ntt vt F, encI l.ctx .ntt vt' A], level := 0 } par = Res.ok () :=
    validateFor_ok ha rfl le_rfl fun p hp => by
      rcases List.mem_cons.1 hp with rfl | hp
      · rfl
      · rw [List.mem_singleton.1 hp]; rfl
  unfold PublicKey.tryEncrypt
  dsimp only
  rw [hpt.validateFor hw ha, Res.ok_bind, hv, Res.ok_bind, hpt.level_eq hw ha, Res.lift_some, Res.ok_bind, if_neg (by omega), Nat.sub_self]
  unfold switchLoop
  rw [Res.ok_bind, ha.contextAt, Res.ok_bind, hu, Res.math_ok, Res.ok_bind, he1, Res.math_ok, Res.ok_bind, he2, Res.math_ok, Res.ok_bind,
    Plaintext.toPoly_encI hw ha hQ hpt, Res.lift_some, Res.ok_bind, List.getElem?_cons_zero, Res.lift_some, Res.ok_bind,
    mulAssign_encI ha.wf ha.deg, Res.lift_some, Res.ok_bind, addAssign_encI ha.wf ha.deg (by simp), Res.lift_some, Res.ok_bind, addAssign_encI ha.wf ha.deg (by simp), Res.lift_some, Res.ok_bind,
    List.getElem?_cons_succ, List.getElem?_cons_zero, Res.lift_some, Res.ok_bind,
    mulAssign_encI ha.wf ha.deg, Res.lift_some, Res.ok_bind, addAssign_encI ha.wf ha.deg (by simp), Res.lift_some, Res.ok_bind]
  rfl

/-- The phase of an encryption with a public key made from the secret. -/
theorem phase_drawn {t Q : Nat} [NeZero t] {s u e e1 e2 A : IntPoly N} (m : Nega N (ZMod t)) :
    C (t : Int) * Fhe.phase s [u * (e - A * s) + e1 + scaleMsg Q m, u * A + e2] = C (Q : Int) * msgInt m + (C (t : Int) * (u * e + e1 + s * e2) - scaleRest Q m) := by
  rw [phase_two]
  have := scaleMsg_mul Q m
  linear_combination this

end Fhe
