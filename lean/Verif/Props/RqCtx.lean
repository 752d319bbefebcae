import Verif.Lemmas.RqCtx
import Verif.Lemmas.RqScale
import Mathlib.Tactic.NormNum.Prime
/-!
# Property C22: contexts and their chains
-/
namespace Fhe.Props
open Context

variable {b : Build} {moduli : List Nat} {degree : Nat}

/-- The moduli lists and degrees that a context supports.  The last condition is about the fixed pseudo-random stream from which
the generator of the roots of unity is drawn: one of its first hundred values modulo `q` is not a square. -/
structure Supports (b : Build) (moduli : List Nat) (degree : Nat) : Prop where
  pow_two : ∃ n, 3 ≤ n ∧ degree = 2 ^ n
  ne_nil : moduli ≠ []
  coprime : moduli.Pairwise Nat.Coprime
  range : ∀ q ∈ moduli, 2 ≤ q ∧ q < 2 ^ 62
  prime : ∀ q ∈ moduli, q.Prime
  ntt : ∀ q ∈ moduli, q % (2 * degree) = 1
  nonsquare : ∀ q ∈ moduli, ∃ j < 100, ¬ IsSquare (b.rng q j : ZMod q)

theorem supports_iff {n : Nat} (h3 : 3 ≤ n) : Supports b moduli (2 ^ n) ↔ Supported b moduli n := by
  constructor
  · intro h
    exact ⟨h3, h.ne_nil, RnsContext.coprimeAt_of_pairwise h.coprime, h.range, h.prime, h.ntt, h.nonsquare⟩
  · intro h
    refine ⟨⟨n, h3, rfl⟩, h.ne_nil, ?_, h.range, h.prime, h.ntt, h.rng⟩
    rw [List.pairwise_iff_getElem]
    intro i j hi hj hij
    exact h.coprime i j hi hj (by omega)

/-- C22: a context can be built exactly for the supported parameters; it then has the given moduli and degree, and its modulus is
the product. -/
theorem C22_new (hb : b.OK) :
    (Supports b moduli degree ↔ ∃ c, Context.new b moduli degree = some (.ok c)) ∧
    ∀ c, Context.new b moduli degree = some (.ok c) → c.moduli = moduli ∧ c.degree = degree ∧ c.modulus = moduli.prod := by
  refine ⟨⟨?_, ?_⟩, ?_⟩
  · intro h
    obtain ⟨n, h3, rfl⟩ := h.pow_two
    obtain ⟨c, h1, -⟩ := new_ok hb ((supports_iff h3).1 h)
    exact ⟨c, h1⟩
  · rintro ⟨c, hc⟩
    obtain ⟨n, rfl, hw, rfl⟩ := new_inv hb hc
    exact (supports_iff hw.level.three_le).2 hw.supported
  · intro c hc
    obtain ⟨n, rfl, hw, rfl⟩ := new_inv hb hc
    exact ⟨rfl, hw.level.degree, hw.modulus_eq⟩

/-- C22: level `i` exists exactly for `i` below the number of moduli, and is the context that would be built from the moduli
without the last `i` ones. -/
theorem C22_level (hb : b.OK) {c : Context} (hc : Context.new b moduli degree = some (.ok c)) (i : Nat) :
    (i < moduli.length → ∃ t, c.contextAtLevel i = some (.ok t) ∧ Context.new b (moduli.take (moduli.length - i)) degree = some (.ok t)) ∧
    (moduli.length ≤ i → c.contextAtLevel i = some (.error (.invalidContextLevel i (moduli.length - 1)))) := by
  obtain ⟨n, rfl, hw, rfl⟩ := new_inv hb hc
  constructor
  · intro hi
    obtain ⟨t, h1, h2, h3⟩ := hw.descend_eq hi
    refine ⟨t, ?_, ?_⟩
    · unfold contextAtLevel
      rw [if_neg (by omega), h1]; rfl
    · rw [← h3]; exact h2.new
  · intro hi
    unfold contextAtLevel
    rw [if_pos hi]

/-- C22: the number of iterations from a context to another one is the level of the latter; contexts that are not a level are
reported as not reachable. -/
theorem C22_niterations (hb : b.OK) {c : Context} (hc : Context.new b moduli degree = some (.ok c)) (t : Context) :
    (∀ i, c.contextAtLevel i = some (.ok t) → c.niterationsTo t = .ok i) ∧
    ((∀ i, c.contextAtLevel i ≠ some (.ok t)) → c.niterationsTo t = .error .contextNotReachable) := by
  obtain ⟨n, rfl, hw, rfl⟩ := new_inv hb hc
  have hlev : ∀ i, c.contextAtLevel i = some (.ok t) ↔ i < c.moduli.length ∧ descend i c = some t := by
    intro i
    unfold contextAtLevel
    by_cases hi : i ≥ c.moduli.length
    · rw [if_pos hi]; constructor
      · intro hh; cases hh
      · intro hh; omega
    · rw [if_neg hi]
      rcases descend i c with _ | t'
      · constructor
        · intro hh; cases hh
        · rintro ⟨_, hh⟩; cases hh
      · constructor
        · intro hh; cases hh; exact ⟨by omega, rfl⟩
        · rintro ⟨_, hh⟩; cases hh; rfl
  rcases hw.niterationsTo_eq t with ⟨i, h1, h2, h3⟩ | ⟨h1, h2⟩
  · refine ⟨fun j hj => ?_, fun hh => absurd ((hlev i).2 ⟨h1, h2⟩) (hh i)⟩
    obtain ⟨hj1, hj2⟩ := (hlev j).1 hj
    obtain ⟨t1, a1, -, a3⟩ := hw.descend_eq h1
    obtain ⟨t2, b1, -, b3⟩ := hw.descend_eq hj1
    rw [h2] at a1; cases a1
    rw [hj2] at b1; cases b1
    have := congrArg List.length (a3.symm.trans b3)
    rw [List.length_take, List.length_take] at this
    rw [h3]; congr 1; omega
  · refine ⟨fun j hj => ?_, fun _ => h2⟩
    obtain ⟨hj1, hj2⟩ := (hlev j).1 hj
    exact absurd hj2 (h1 j hj1)

/-! ### A concrete build and context -/

/-- A stream that always yields 5, which is not a square modulo 97 and modulo 193. -/
def exBuild : Build := ⟨true, true, fun p _ => 5 % p⟩

theorem exBuild_ok : exBuild.OK := fun _ _ h => Nat.mod_lt _ h

theorem exSupports : Supports exBuild [97, 193] 16 := by
  refine ⟨⟨4, by norm_num, by norm_num⟩, by decide, by decide, by decide, ?_, by decide, ?_⟩
  · intro q hq
    simp only [List.mem_cons, List.not_mem_nil, or_false] at hq
    rcases hq with rfl | rfl <;> norm_num
  · intro q hq
    simp only [List.mem_cons, List.not_mem_nil, or_false] at hq
    rcases hq with rfl | rfl
    · exact ⟨0, by norm_num, by decide +kernel⟩
    · exact ⟨0, by norm_num, by decide +kernel⟩

theorem exContext : ∃ c, Context.new exBuild [97, 193] 16 = some (.ok c) := (C22_new exBuild_ok).1.1 exSupports

example : ∃ c t, Context.new exBuild [97, 193] 16 = some (.ok c) ∧ c.contextAtLevel 1 = some (.ok t) ∧ c.niterationsTo t = .ok 1 ∧
    Context.new exBuild [97] 16 = some (.ok t) := by
  obtain ⟨c, hc⟩ := exContext
  obtain ⟨t, h1, h2⟩ := (C22_level exBuild_ok hc 1).1 (by decide)
  exact ⟨c, t, hc, h1, (C22_niterations exBuild_ok hc t).1 1 h1, h2⟩

end Fhe.Props
