import Verif.Lemmas.Rns
/-!
# Properties C19-C20: residue number systems
-/
namespace Fhe.Props
open RnsContext

variable {cfg : Bool} {l : List Nat} {c : RnsContext}

/-! ## C19: construction -/

/-- C19: a nonempty list of pairwise coprime moduli in `[2, 2^62)` is accepted, without panicking. The context's modulus
is the product of the list, and its Garner coefficients are the CRT idempotents: coefficient `i` is `1` modulo the
`i`-th modulus, `0` modulo the others, and below the product. -/
theorem C19_new_ok (hne : l ≠ []) (hco : l.Pairwise Nat.Coprime) (hq : ∀ q ∈ l, 2 ≤ q ∧ q < 2 ^ 62) :
    ∃ c, RnsContext.new cfg l = some (.ok c) ∧ c.modulus = l.prod ∧
      ∀ i (hi : i < l.length), ∃ g, c.getGarner i = some g ∧ g < l.prod ∧ g % l[i] = 1 ∧
        ∀ j (hj : j < l.length), j ≠ i → g % l[j] = 0 := by
  obtain ⟨c, h1, h2, rfl, -⟩ := new_ok (cfg := cfg) hne (coprimeAt_of_pairwise hco) hq
  refine ⟨c, h1, h2.product, fun i hi => ?_⟩
  have hl : i < c.garner.length := by rw [h2.len_garner]; exact hi
  have hg : c.garner.getD i 0 = c.garner[i] := by simp [List.getD_eq_getElem?_getD, hl]
  refine ⟨c.garner[i], List.getElem?_eq_getElem hl, ?_, ?_, ?_⟩
  · rw [← h2.product]; exact h2.garner_lt _ (List.getElem_mem hl)
  · rw [← hg]; exact h2.garner_self i hi
  · intro j hj hji
    rw [← hg]; exact Nat.mod_eq_zero_of_dvd (h2.garner_other i j hj (fun e => hji e.symm))

/-- C19: every other list is rejected, without panicking, with an error that names the reason: empty; two positions
whose moduli share a factor; or else a modulus outside `[2, 2^62)` (the first one). -/
theorem C19_new_error (h : ¬ (l ≠ [] ∧ l.Pairwise Nat.Coprime ∧ ∀ q ∈ l, 2 ≤ q ∧ q < 2 ^ 62)) :
    (l = [] ∧ RnsContext.new cfg l = some (.error .emptyModuli)) ∨
    (∃ a b : Fin l.length, a ≠ b ∧ Nat.gcd l[a] l[b] ≠ 1 ∧ RnsContext.new cfg l = some (.error (.nonCoprimeModuli l[a] l[b]))) ∨
    (l.Pairwise Nat.Coprime ∧ ∃ pre q post, l = pre ++ q :: post ∧ (∀ x ∈ pre, 2 ≤ x ∧ x < 2 ^ 62) ∧ ¬ (2 ≤ q ∧ q < 2 ^ 62) ∧
      RnsContext.new cfg l = some (.error (.invalidModulus q))) := by
  by_cases hne : l = []
  · exact Or.inl ⟨hne, by rw [hne, new_nil]⟩
  by_cases hc : CoprimeAt l
  · by_cases hq : ∀ q ∈ l, 2 ≤ q ∧ q < 2 ^ 62
    · exact absurd ⟨hne, hc.pairwise, hq⟩ h
    · obtain ⟨pre, q, post, e, h2, h3⟩ := exists_first_bad hq
      exact Or.inr (Or.inr ⟨hc.pairwise, pre, q, post, e, h2, h3, by rw [e] at hc ⊢; exact new_invalid hc h2 h3⟩)
  · exact Or.inr (Or.inl (new_nonCoprime hc))

/-- A concrete context, the one of the library's tests. -/
theorem witnessRns : ∃ c, RnsContext.new true [4, 15, 1153] = some (.ok c) :=
  let ⟨c, h, _⟩ := C19_new_ok (cfg := true) (l := [4, 15, 1153]) (by decide) (by decide) (by decide); ⟨c, h⟩
example : ∃ c, RnsContext.new true [4, 15, 1153] = some (.ok c) ∧ c.modulus = 69180 :=
  let ⟨c, h, h2, _⟩ := C19_new_ok (cfg := true) (l := [4, 15, 1153]) (by decide) (by decide) (by decide); ⟨c, h, h2⟩
example : RnsContext.new true [2, 3, 5, 30] = some (.error (.nonCoprimeModuli 2 30)) := by decide
example : RnsContext.new true [3, 1] = some (.error (.invalidModulus 1)) := by
  exact new_invalid (pre := [3]) (post := []) (coprimeAt_of_pairwise (by decide)) (by decide) (by decide)

/-! ## C20: projection and lifting -/

/-- C20: projection is the list of remainders. -/
theorem C20_project (hc : RnsContext.new cfg l = some (.ok c)) (a : Nat) : c.project a = some (l.map (a % ·)) := by
  obtain ⟨h, rfl, -⟩ := WF_of_new hc
  exact project_eq h a

/-- C20: lifting any `rests` of the right length (reduced or not) yields the unique integer below the modulus with
these residues. -/
theorem C20_lift (hc : RnsContext.new cfg l = some (.ok c)) {r : List Nat} (hr : r.length = l.length) :
    ∃ x, c.lift r = some x ∧ x < c.modulus ∧ (∀ i (hi : i < l.length), x % l[i] = r[i] % l[i]) ∧
      ∀ y < c.modulus, (∀ i (hi : i < l.length), y % l[i] = r[i] % l[i]) → y = x := by
  obtain ⟨h, rfl, -⟩ := WF_of_new hc
  obtain ⟨x, h1, h2, -, h3⟩ := lift_eq h hr
  have hget : ∀ i (hi : i < c.moduliU64.length), r.getD i 0 = r[i] := fun i hi => by
    simp [List.getD_eq_getElem?_getD, show i < r.length by omega]
  refine ⟨x, h1, h2, fun i hi => by rw [h3 i hi, hget i hi], fun y hy hyr => h.ext hy h2 fun q hq => ?_⟩
  obtain ⟨i, hi, rfl⟩ := List.getElem_of_mem hq
  rw [hyr i hi, h3 i hi, hget i hi]

/-- C20: lift after project is reduction modulo the product, and project after lift is the identity on reduced rests. -/
theorem C20_round_trip (hc : RnsContext.new cfg l = some (.ok c)) :
    (∀ a, (c.project a).bind c.lift = some (a % c.modulus)) ∧
    (∀ r : List Nat, r.length = l.length → (∀ i (hi : i < l.length) (hi' : i < r.length), r[i] < l[i]) →
      (c.lift r).bind c.project = some r) := by
  obtain ⟨h, rfl, -⟩ := WF_of_new hc
  have hp := h.product_pos
  constructor
  · intro a
    obtain ⟨x, h1, h2, h3, h4⟩ := C20_lift hc (r := c.moduliU64.map (a % ·)) (by simp)
    rw [project_eq h, Option.bind_some, h1]
    congr 1
    refine (h4 _ (Nat.mod_lt _ hp) fun i hi => ?_).symm
    rw [List.getElem_map, Nat.mod_mod]
    exact Nat.mod_mod_of_dvd _ (by rw [RnsContext.modulus, h.product]; exact List.dvd_prod (List.getElem_mem hi))
  · intro r hr hlt
    obtain ⟨x, h1, h2, h3, h4⟩ := C20_lift hc hr
    rw [h1, Option.bind_some, project_eq h]
    congr 1
    refine List.ext_getElem (by rw [List.length_map, hr]) fun i hi hi' => ?_
    rw [List.length_map] at hi
    rw [List.getElem_map, h3 i hi, Nat.mod_eq_of_lt (hlt i hi hi')]

example : ∃ c, RnsContext.new true [4, 15, 1153] = some (.ok c) ∧ (c.project 100000).bind c.lift = some 30820 := by
  obtain ⟨c, h, h2, -⟩ := C19_new_ok (cfg := true) (l := [4, 15, 1153]) (by decide) (by decide) (by decide)
  exact ⟨c, h, by rw [(C20_round_trip h).1, h2]; rfl⟩

/-- C20: lifting is a ring homomorphism: adding or multiplying two tuples of residues componentwise (reducing or not)
adds or multiplies the lifted integers modulo the product. -/
theorem C20_hom (hc : RnsContext.new cfg l = some (.ok c)) {r s : List Nat} (hr : r.length = l.length) (hs : s.length = l.length)
    {x y : Nat} (hx : c.lift r = some x) (hy : c.lift s = some y) :
    c.lift (List.zipWith (· + ·) r s) = some ((x + y) % c.modulus) ∧
    c.lift (List.zipWith (· * ·) r s) = some (x * y % c.modulus) := by
  obtain ⟨x', hx', -, hxr, -⟩ := C20_lift hc hr
  obtain ⟨y', hy', -, hyr, -⟩ := C20_lift hc hs
  obtain rfl : x = x' := Option.some.inj (hx.symm.trans hx')
  obtain rfl : y = y' := Option.some.inj (hy.symm.trans hy')
  have h := (WF_of_new hc).1
  have hl : c.moduliU64 = l := (WF_of_new hc).2.1
  have hdvd : ∀ i (hi : i < l.length), l[i] ∣ c.modulus := fun i hi => by
    rw [RnsContext.modulus, h.product, hl]; exact List.dvd_prod (List.getElem_mem hi)
  have key : ∀ op : Nat → Nat → Nat, (∀ q a b a' b', a % q = a' % q → b % q = b' % q → op a b % q = op a' b' % q) →
      c.lift (List.zipWith op r s) = some (op x y % c.modulus) := by
    intro op hop
    obtain ⟨z, h1, -, -, h4⟩ := C20_lift hc (r := List.zipWith op r s) (by simp [hr, hs])
    rw [h1, h4 (op x y % c.modulus) (Nat.mod_lt _ h.product_pos)]
    intro i hi
    rw [Nat.mod_mod_of_dvd _ (hdvd i hi), List.getElem_zipWith]
    exact hop _ _ _ _ _ (hxr i hi) (hyr i hi)
  exact ⟨key (· + ·) fun q a b a' b' h1 h2 => Nat.ModEq.add h1 h2, key (· * ·) fun q a b a' b' h1 h2 => Nat.ModEq.mul h1 h2⟩

example : ∃ c, RnsContext.new true [4, 15, 1153] = some (.ok c) ∧
    ∃ x y, c.lift [3, 7, 1000] = some x ∧ c.lift [2, 9, 1152] = some y := by
  obtain ⟨c, h⟩ := witnessRns
  obtain ⟨x, hx, -⟩ := C20_lift h (r := [3, 7, 1000]) rfl
  obtain ⟨y, hy, -⟩ := C20_lift h (r := [2, 9, 1152]) rfl
  exact ⟨c, h, x, y, hx, hy⟩

end Fhe.Props
