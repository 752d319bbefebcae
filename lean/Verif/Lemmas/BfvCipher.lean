import Verif.Lemmas.IntPoly
import Verif.Props.Util
/-!
# Lemmas on ciphertexts and keys
-/
namespace Fhe
open Nega Poly

/-! ## Sources of polynomials -/

/-- Sampled polynomials do not depend on the context. -/
theorem small_encI {v : Nat} (h1 : 1 ≤ v) (h2 : v ≤ 32) {rng : Nat → Nat} (hr : IsStream rng) (N : Nat) :
    ∃ e : IntPoly N, e.Bounded (2 * v) ∧ ∀ {b : Build} {n : Nat} {c : Context}, c.WF b n → c.degree = N →
      smallPowerBasis c v rng = some (.ok (encI c .powerBasis false e)) ∧ smallNtt c v rng = some (.ok (encI c .ntt false e)) ∧
      smallNttShoup c v rng = some (.ok (encI c .nttShoup false e)) := by
  obtain ⟨w, e, -⟩ := Props.C12_sample_vec_cbd (n := N) h1 h2 hr
  obtain ⟨hl, hbd⟩ := Props.C12_bounded h1 h2 hr e
  generalize hL : (List.range N).map _ = l at e hl hbd
  refine ⟨IntPoly.ofList N l, fun j => ?_, fun {b n c} h hN => ?_⟩
  · show |l.getD j.val 0| ≤ _
    rw [List.getD_eq_getElem _ _ (by rw [hl]; exact j.isLt)]
    have := hbd _ (List.getElem_mem (by rw [hl]; exact j.isLt : j.val < l.length))
    exact abs_le.2 ⟨by push_cast; exact this.1, by push_cast; exact this.2⟩
  · have hp : smallPowerBasis c v rng = some (.ok (encI c .powerBasis false (IntPoly.ofList N l))) := by
      unfold smallPowerBasis
      rw [if_neg (by simp [h1, h2]), hN, e]
      simp only [Option.bind_eq_bind, Option.bind_some]
      exact tryFromI64_encI h hN (by rw [hl]) fun x hx => by
        obtain ⟨x1, x2⟩ := hbd x hx
        have : (v : Int) ≤ 32 := by exact_mod_cast h2
        constructor <;> omega
    refine ⟨hp, ?_, ?_⟩
    · unfold smallNtt; rw [hp]; simp only [Option.bind_eq_bind, Option.bind_some]; rw [intoNtt_encI h]; rfl
    · unfold smallNttShoup; rw [hp]; simp only [Option.bind_eq_bind, Option.bind_some]; rw [intoNttShoup_encI h]; rfl

variable {b : Build} {n N : Nat} {c : Context} {r : Rep} {vt vt' : Bool}

theorem Prg.poly_encI {g : Prg} (hg : g.OK) (h : c.WF b n) (hN : c.degree = N) (r : Rep) (seed : Seed) :
    ∃ A : IntPoly N, g.poly r c seed = some (encI c r false A) := by
  have := h.neZero
  obtain ⟨h1, h2⟩ := hg seed c fun q hq => by have := h.supported.range q hq; omega
  have hs : SampleRows c (g.expand seed c) := by
    refine ⟨h1, fun row hrow => ?_, fun i q row hq hr => (h2 i q row hq hr).2⟩
    obtain ⟨i, hi, rfl⟩ := List.getElem_of_mem hrow
    exact (h2 i (c.moduli[i]'(by omega)) _ (List.getElem?_eq_getElem _) (List.getElem?_eq_getElem _)).1
  obtain ⟨f, hf, -⟩ := random_enc h r hs
  obtain ⟨A, rfl, -⟩ := exists_ofInt hN f
  exact ⟨A, hf⟩

theorem SecretKey.polyAt_encI {par : Par} {sk : SecretKey} {s : IntPoly par.degree} (hk : sk.IsKey par s) (h : c.WF b n) (hN : c.degree = par.degree) :
    sk.polyAt c = Res.ok (encI c .ntt false s) := by
  unfold polyAt
  rw [tryFromI64_encI h hN (by rw [hk.length]) hk.word, Res.math_ok, Res.ok_bind, intoNtt_encI h, Res.lift_some, hk.poly]

/-! ## Levels -/

/-- What is known of a level of built parameters. -/
structure AtLevel (b : Build) (n : Nat) (par : Par) (i : Nat) (l : ContextLevel) : Prop where
  get : par.levels[i]? = some l
  wf : l.ctx.WF b n
  deg : l.ctx.degree = par.degree
  mod : l.ctx.modulus = par.modulusAt i
  moduli : l.ctx.moduli = par.moduli.take (par.moduli.length - i)
  lt : i < par.moduli.length

namespace AtLevel
variable {par : Par} {i : Nat} {l : ContextLevel}

theorem ofGet (hw : ParWF b n par.toBfvParameters) (hl : par.levels[i]? = some l) : AtLevel b n par i l := by
  obtain ⟨h1, h2, h3⟩ := hw.ctxWF hl
  exact ⟨hl, h1, h3, hw.modulusAt_eq hl, h2, hw.level_lt hl⟩
theorem ofLt (hw : ParWF b n par.toBfvParameters) (hi : i < par.moduli.length) : ∃ l, AtLevel b n par i l := by
  obtain ⟨l, hl⟩ := hw.exists_level hi
  exact ⟨l, ofGet hw hl⟩
theorem unique {l' : ContextLevel} (h : AtLevel b n par i l) (h' : AtLevel b n par i l') : l = l' := by
  have := h.get; rw [h'.get] at this; simpa using this.symm
theorem contextAt (h : AtLevel b n par i l) : par.contextAtLevel i = Res.ok l.ctx := ParWF.contextAtLevel_iff.2 ⟨l, h.get, rfl⟩
theorem contextLevelAt (h : AtLevel b n par i l) : par.contextLevelAt i = Res.ok l := by unfold BfvParameters.contextLevelAt; rw [h.get]
theorem length (h : AtLevel b n par i l) : l.ctx.moduli.length = par.moduli.length - i := by rw [h.moduli, List.length_take]; omega
theorem levelOf (h : AtLevel b n par i l) : par.levelOfContext l.ctx = Res.ok i := by
  have := h.lt
  unfold BfvParameters.levelOfContext
  rw [h.length, if_neg (by omega), show par.moduli.length - (par.moduli.length - i) = i by omega, h.get]
  simp
theorem pos (h : AtLevel b n par i l) : 0 < par.modulusAt i := by
  have := h.wf.neZero
  rw [← h.mod]; exact NeZero.pos _
theorem degree_eq (hw : ParWF b n par.toBfvParameters) (_h : AtLevel b n par i l) : par.degree = 2 ^ n := hw.degree
end AtLevel

theorem ptrEq_self (par : Par) : par.ptrEq par = true := by simp [Par.ptrEq]

namespace Ciphertext
variable {par : Par} {s : IntPoly par.degree} {ct : Ciphertext} {i : Nat} {m : par.Msg} {v : IntPoly par.degree} {l : ContextLevel}

/-- The parts are the reductions of integer polynomials. -/
abbrev Parts (c : Context) (ps : List (Poly .ntt)) (F : List (IntPoly N)) : Prop := List.Forall₂ (fun p f => ∃ vt, p = encI c .ntt vt f) ps F

theorem parts_iff (h : c.WF b n) (hN : c.degree = N) {ps : List (Poly .ntt)} {F : List (IntPoly N)} :
    List.Forall₂ (fun p f => p.IsMod c f) ps F ↔ Parts c ps F := by
  constructor
  · exact List.Forall₂.imp fun p f hp => ⟨p.vt, (isMod_iff h hN).1 hp⟩
  · refine List.Forall₂.imp ?_
    rintro _ f ⟨vt, rfl⟩
    exact isMod_encI h hN f

/-- The message that an integer polynomial stands for. -/
abbrev red (t : Nat) {N : Nat} (M : IntPoly N) : Nega N (ZMod t) := Nega.map (Int.castRingHom (ZMod t)) M

theorem Encrypts.elim (hw : ParWF b n par.toBfvParameters) (h : ct.Encrypts par s i m v) :
    ∃ l F M, AtLevel b n par i l ∧ Parts l.ctx ct.c F ∧ red par.plaintext.value M = m ∧
      C (par.plaintext.value : Int) * Fhe.phase s F = C (par.modulusAt i : Int) * M + v := by
  obtain ⟨c, F, M, h1, h2, h3, h4⟩ := h.phase
  obtain ⟨l, hl, rfl⟩ := ParWF.contextAtLevel_iff.1 h1
  have ha := AtLevel.ofGet hw hl
  refine ⟨l, F, M, ha, (parts_iff ha.wf ha.deg).1 h2, Nega.ext h3, ?_⟩
  apply Nega.ext; intro j
  rw [Nega.add_apply, C_mul_apply, C_mul_apply]
  exact h4 j

theorem Encrypts.intro (ha : AtLevel b n par i l) (hp : ct.par = par) (hi : ct.level = i) (h2 : 2 ≤ ct.c.length) {F : List (IntPoly par.degree)} {M : IntPoly par.degree}
    (hF : Parts l.ctx ct.c F) (hM : red par.plaintext.value M = m)
    (h : C (par.plaintext.value : Int) * Fhe.phase s F = C (par.modulusAt i : Int) * M + v) : ct.Encrypts par s i m v := by
  refine ⟨hp, hi, h2, l.ctx, F, M, ha.contextAt, (parts_iff ha.wf ha.deg).2 hF, congrFun hM, fun j => ?_⟩
  have := congrFun h j
  rwa [Nega.add_apply, C_mul_apply, C_mul_apply] at this

theorem Parts.ctx {ps : List (Poly .ntt)} {F : List (IntPoly N)} (h : Parts c ps F) : ∀ p ∈ ps, p.ctx = c := by
  intro p hp
  obtain ⟨k, hk, rfl⟩ := List.getElem_of_mem hp
  obtain ⟨vt, e⟩ := (List.forall₂_iff_get.1 h).2 k hk (by rw [← h.length_eq]; exact hk)
  simp only [List.get_eq_getElem] at e
  rw [e]; rfl

/-- The parts may be given by any polynomials with the right reductions. -/
theorem Parts.valid (h : c.WF b n) {ps : List (Poly .ntt)} {F : List (IntPoly N)} (hp : Parts c ps F) : ∀ p ∈ ps, p.Valid := by
  intro p hm
  obtain ⟨k, hk, rfl⟩ := List.getElem_of_mem hm
  obtain ⟨vt, e⟩ := (List.forall₂_iff_get.1 hp).2 k hk (by rw [← hp.length_eq]; exact hk)
  simp only [List.get_eq_getElem] at e
  rw [e]; exact valid_enc h _

theorem exists_parts (h : c.WF b n) (hN : c.degree = N) : ∀ {ps : List (Poly .ntt)}, (∀ p ∈ ps, p.ctx = c ∧ p.Valid) →
    ∃ F : List (IntPoly N), Parts c ps F ∧ ∀ f ∈ F, ∀ j, 0 ≤ f j ∧ f j < c.modulus
  | [], _ => ⟨[], .nil, by simp⟩
  | p :: ps, hp => by
    obtain ⟨f, h1, h2⟩ := exists_encI h hN (hp p (by simp)).1 (hp p (by simp)).2
    obtain ⟨F, h3, h4⟩ := exists_parts h hN (ps := ps) fun q hq => hp q (List.mem_cons_of_mem _ hq)
    refine ⟨f :: F, .cons ⟨p.vt, h1⟩ h3, fun g hg => ?_⟩
    rcases List.mem_cons.1 hg with rfl | hg
    · exact h2
    · exact h4 g hg

theorem validateFor_ok (ha : AtLevel b n par ct.level l) (hp : ct.par = par) (h2 : 2 ≤ ct.c.length) (hc : ∀ p ∈ ct.c, p.ctx = l.ctx) :
    ct.validateFor par = Res.ok () := by
  unfold validateFor
  rw [hp, ptrEq_self, if_neg (by simp), ha.contextAt, Res.ok_bind]
  unfold validateContext
  rw [if_neg (by omega), if_neg (by simp), if_neg (by simpa using hc)]

end Ciphertext

theorem phase_nil (s : IntPoly N) : phase s [] = 0 := rfl
theorem phase_cons (s f : IntPoly N) (F : List (IntPoly N)) : phase s (f :: F) = f + s * phase s F := rfl
theorem phase_two (s f g : IntPoly N) : phase s [f, g] = f + s * g := by rw [phase_cons, phase_cons, phase_nil, mul_zero, add_zero]
theorem phase_three (s f g k : IntPoly N) : phase s [f, g, k] = f + s * g + s ^ 2 * k := by rw [phase_cons, phase_two]; ring

/-! ## Decryption -/

namespace SecretKey
open Ciphertext

theorem phaseLoop_eq (h : c.WF b n) (hN : c.degree = N) (s : IntPoly N) : ∀ {ps : List (Poly .ntt)} {F : List (IntPoly N)}, Parts c ps F →
    ∀ (X SI : IntPoly N), phaseLoop (encI c .ntt false s) ps (encI c .ntt false X) (encI c .ntt false SI) = some (encI c .ntt false (X + SI * Fhe.phase s F)) := by
  intro ps F hp
  induction hp with
  | nil => intro X SI; rw [phaseLoop, phase_nil, mul_zero, add_zero]
  | @cons p f ps F hpf hrest ih =>
    intro X SI
    obtain ⟨vt, rfl⟩ := hpf
    rw [phaseLoop, disallowVt_encI]
    simp only [Option.bind_eq_bind]
    rw [mulAssign_encI h hN, Option.bind_some, addAssign_encI h hN (by simp), Option.bind_some, phase_cons]
    by_cases hps : ps = []
    · subst hps
      cases hrest
      rw [if_pos rfl, Option.bind_some, phaseLoop, phase_nil, mul_zero, add_zero]
      simp only [Bool.and_self]
      rw [mul_comm f SI]
    · rw [if_neg hps, mulAssign_encI h hN, Option.bind_some]
      simp only [Bool.and_self]
      rw [ih]
      congr 2
      ring

theorem noiseLoop_eq (h : c.WF b n) (hN : c.degree = N) (s : IntPoly N) : ∀ {ps : List (Poly .ntt)} {F : List (IntPoly N)}, Parts c ps F →
    ∀ (X SI : IntPoly N), noiseLoop (encI c .ntt false s) ps (encI c .ntt false X) (encI c .ntt false SI) = some (encI c .ntt false (X + SI * Fhe.phase s F)) := by
  intro ps F hp
  induction hp with
  | nil => intro X SI; rw [noiseLoop, phase_nil, mul_zero, add_zero]
  | @cons p f ps F hpf hrest ih =>
    intro X SI
    obtain ⟨vt, rfl⟩ := hpf
    rw [noiseLoop, disallowVt_encI]
    simp only [Option.bind_eq_bind]
    rw [mulAssign_encI h hN, Option.bind_some, addAssign_encI h hN (by simp), Option.bind_some, phase_cons, mulAssign_encI h hN, Option.bind_some]
    simp only [Bool.and_self]
    rw [ih]
    congr 2
    ring

theorem phase_eq {par : Par} {s : IntPoly par.degree} {sk : SecretKey} (hk : sk.IsKey par s) {ct : Ciphertext} (h : c.WF b n) (hN : c.degree = par.degree)
    {F : List (IntPoly par.degree)} (hF : Parts c ct.c F) (hne : ct.c ≠ []) : sk.phase ct = Res.ok (encI c .ntt false (Fhe.phase s F)) := by
  unfold phase
  cases hc : ct.c with
  | nil => exact absurd hc hne
  | cons p ps =>
    rw [hc] at hF
    cases hF with
    | @cons _ f _ F h1 h2 =>
      obtain ⟨vt, rfl⟩ := h1
      simp only []
      rw [ctx_encI, polyAt_encI hk h hN, Res.ok_bind, disallowVt_encI, phaseLoop_eq h hN s h2, Res.lift_some, phase_cons]

end SecretKey
end Fhe
