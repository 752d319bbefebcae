import Verif.Props.BfvCipher
/-!
# Property C48: construction of ciphertexts from polynomials
-/
namespace Fhe.Props
open Nega Poly ParamsBuilder Ciphertext

variable {b : Build} {par : Par} {st : ParamsBuilder}

/-- C48: `Ciphertext::new` never panics and accepts exactly the lists of at least two polynomials of the same context, which must be the context of a
level of the parameters; the ciphertext consists of these polynomials, has that level and passes the validation of the other operations. -/
theorem C48_new (hb : b.OK) (h : build b st = Res.ok par.toBfvParameters) (c : List (Poly .ntt)) :
    Ciphertext.new c par ≠ Res.panic ∧
    (∀ r, Ciphertext.new c par = Res.ok r ↔ 2 ≤ c.length ∧ r.par = par ∧ r.c = c ∧ r.seed = none ∧ r.level < par.moduli.length ∧ ∀ p ∈ c, par.contextAtLevel r.level = Res.ok p.ctx) ∧
    (∀ r, Ciphertext.new c par = Res.ok r → r.validateFor par = Res.ok ()) ∧
    (c.length < 2 → Ciphertext.new c par = Res.err (.tooFewPolynomials c.length 2)) := by
  obtain ⟨n, hw, -⟩ := build_inv hb h
  have key : Ciphertext.new c par ≠ Res.panic ∧
      ∀ r, Ciphertext.new c par = Res.ok r ↔ 2 ≤ c.length ∧ r.par = par ∧ r.c = c ∧ r.seed = none ∧ r.level < par.moduli.length ∧ ∀ p ∈ c, par.contextAtLevel r.level = Res.ok p.ctx := by
    unfold Ciphertext.new
    by_cases h2 : c.length < 2
    · rw [if_pos h2]
      exact ⟨fun h => (by cases h), fun r => ⟨fun h => (by cases h), fun h => by omega⟩⟩
    rw [if_neg h2]
    obtain ⟨p0, rest, rfl⟩ := List.exists_cons_of_ne_nil (l := c) (by rintro rfl; simp at h2)
    rw [List.head?_cons, Option.map_some, Res.lift_some, Res.ok_bind]
    have hno : (∀ i, par.contextAtLevel i ≠ Res.ok p0.ctx) → par.levelOfContext p0.ctx = Res.err (.math .contextNotReachable) := fun hn => by
      unfold BfvParameters.levelOfContext
      split
      · rfl
      · split
        · rfl
        · rename_i l hl
          rw [if_neg]
          exact fun he => hn _ (ParWF.contextAtLevel_iff.2 ⟨l, hl, he⟩)
    by_cases hex : ∃ i, par.contextAtLevel i = Res.ok p0.ctx
    · obtain ⟨i, hi⟩ := hex
      obtain ⟨l, hl, hlc⟩ := ParWF.contextAtLevel_iff.1 hi
      have ha : AtLevel b n par i l := AtLevel.ofGet hw hl
      rw [← hlc, ha.levelOf, Res.ok_bind]
      by_cases hall : ∀ p ∈ p0 :: rest, p.ctx = l.ctx
      · have hany : (p0 :: rest).any (fun ci => ci.ctx ≠ l.ctx) = false := by
          rw [List.any_eq_false]
          exact fun p hp => by simp [hall p hp]
        rw [hany]
        simp only [Bool.false_eq_true, if_false]
        refine ⟨fun h => (by cases h), fun r => ⟨fun hr => ?_, fun hr => ?_⟩⟩
        · obtain rfl := Res.ok_inj.1 hr
          exact ⟨by omega, rfl, rfl, rfl, ha.lt, fun p hp => by rw [hall p hp]; exact ha.contextAt⟩
        · obtain ⟨r1, r2, r3, r4, r5, r6⟩ := hr
          obtain ⟨l', hl', hlc'⟩ := ParWF.contextAtLevel_iff.1 (r6 p0 (by simp))
          have ha' : AtLevel b n par r.level l' := AtLevel.ofGet hw hl'
          have h3 := ha'.levelOf
          rw [hlc', ← hlc, ha.levelOf] at h3
          have h4 := Res.ok_inj.1 h3
          refine congrArg Res.ok ?_
          cases r
          simp only at r2 r3 r4 h4
          rw [r2, r3, r4, h4]
      · have hany : (p0 :: rest).any (fun ci => ci.ctx ≠ l.ctx) = true := by
          rw [List.any_eq_true]
          push Not at hall
          obtain ⟨p, hp, hne⟩ := hall
          exact ⟨p, hp, by simp [hne]⟩
        rw [hany, if_pos rfl]
        refine ⟨fun h => (by cases h), fun r => ⟨fun h => (by cases h), fun hr => absurd (fun p hp => ?_) hall⟩⟩
        obtain ⟨-, -, -, -, -, r6⟩ := hr
        have h1 := r6 p hp
        rw [r6 p0 (by simp)] at h1
        rw [hlc]
        exact (Res.ok_inj.1 h1).symm
    · push Not at hex
      rw [hno hex, Res.err_bind]
      refine ⟨fun h => (by cases h), fun r => ⟨fun h => (by cases h), fun hr => absurd (hr.2.2.2.2.2 p0 (by simp)) (hex _)⟩⟩
  refine ⟨key.1, key.2, fun r hr => ?_, fun h2 => by unfold Ciphertext.new; rw [if_pos h2]⟩
  obtain ⟨r1, r2, r3, -, r5, r6⟩ := (key.2 r).1 hr
  exact (C48_validate hb h r).2.2 ⟨by rw [r2]; exact ptrEq_self par, r5, by rw [r3]; exact r1, by rw [r3]; exact r6⟩

/-- The parts of any encryption make a ciphertext again; one part alone does not. -/
example (hb : b.OK) (h : build b st = Res.ok par.toBfvParameters) {s : IntPoly par.degree} {i : Nat} {ct : Ciphertext} {m : par.Msg} {v : IntPoly par.degree} (hct : ct.Encrypts par s i m v) (hs : ct.seed = none) :
    Ciphertext.new ct.c par = Res.ok ct ∧ Ciphertext.new (ct.c.take 1) par = Res.err (.tooFewPolynomials 1 2) := by
  obtain ⟨n, hw, -⟩ := build_inv hb h
  have h2 := hct.parts
  have hl : (ct.c.take 1).length = 1 := by rw [List.length_take]; omega
  refine ⟨((C48_new hb h ct.c).2.1 ct).2 ⟨h2, hct.par_eq, rfl, hs, ?_, fun p hp => ?_⟩, ?_⟩
  · obtain ⟨c, F, M, h3, -⟩ := hct.phase
    obtain ⟨l, hl, -⟩ := ParWF.contextAtLevel_iff.1 h3
    rw [hct.level_eq]
    exact (AtLevel.ofGet hw hl).lt
  · obtain ⟨c, F, M, h3, h4, -⟩ := hct.phase
    obtain ⟨k, hk, rfl⟩ := List.getElem_of_mem hp
    have hf := List.forall₂_iff_get.1 h4
    have := (hf.2 k hk (by rw [← hf.1]; exact hk)).ctx
    rw [hct.level_eq, h3]
    exact congrArg Res.ok this.symm
  · have := (C48_new hb h (ct.c.take 1)).2.2.2 (by omega)
    rw [hl] at this
    exact this

end Fhe.Props
