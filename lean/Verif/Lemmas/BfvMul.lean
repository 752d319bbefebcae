import Verif.Model.BfvMul
import Verif.Lemmas.BfvPublic
/-!
# Lemmas on the multiplication of ciphertexts
-/
namespace Fhe
open Nega Poly Ciphertext

variable {b : Build} {n N : Nat} {c c' : Context} {r : Rep} {vt vt' : Bool}

/-! ## Scaling of integer polynomials -/

/-- `2 |x| 2^55 ≤ Q (2^55 + 1)`: centered, up to a relative `2^-55`. -/
def AlmostCentered (Q : Nat) (A : IntPoly N) : Prop := ∀ j, 2 * |A j| * 2 ^ 55 ≤ Q * (2 ^ 55 + 1)

theorem Scaler.scale_encI (h : c.WF b n) (h' : c'.WF b n) (hN : c.degree = N) (hN' : c'.degree = N) (hk : c.moduli.length ≤ 64) {num den : Nat} (hd : den ≠ 0)
    (hroom : Spec.scalerRoom c.moduli c.rns.garner num den ≤ 2 ^ 65) :
    ∃ (F : ScalingFactor) (s : Scaler), ScalingFactor.new num den = some F ∧ Scaler.new c c' F = some (.ok s) ∧
      ∀ X : IntPoly N, ∃ A Z E : IntPoly N, (∃ H, X = A + C (c.modulus : Int) * H) ∧ AlmostCentered c.modulus A ∧ C (den : Int) * Z = C (num : Int) * A + E ∧
        (∀ j, 2 ^ 62 * |E j| ≤ (2 ^ 61 + 1) * den) ∧ (num = den → Z = A) ∧ ∀ (r : Rep) (vt : Bool), r ≠ .nttShoup → s.scale (encI c r vt X) = some (.ok (encI c' r vt Z)) := by
  have := h.neZero
  have := h'.neZero
  obtain ⟨F, s, G, e1, e2, -, -, e3, e4⟩ := Scaler.scale_enc h h' hk hd hroom
  refine ⟨F, s, e1, e2, fun X => ?_⟩
  have hX := e3 (ofInt c X)
  choose z hz1 hz2 using hX
  choose a ha1 ha2 ha3 ha4 ha5 using hz1
  obtain ⟨A, hA⟩ : ∃ A : IntPoly N, ∀ j, A j = a j.val := ⟨fun j => a j.val, fun j => rfl⟩
  obtain ⟨Z, hZ⟩ : ∃ Z : IntPoly N, ∀ j, Z j = z j.val := ⟨fun j => z j.val, fun j => rfl⟩
  refine ⟨A, Z, C (den : Int) * Z - C (num : Int) * A, ?_, fun j => ?_, by ring, fun j => ?_, fun hnd => ?_, fun r vt hr => ?_⟩
  · refine (ofInt_eq_iff_exists hN X A).1 ((ofInt_eq_iff hN X A).2 fun j => ?_)
    have h1 := ha1 j.val
    rw [coeff_ofInt hN, coeff_intCast] at h1
    have h2 := ZMod.val_intCast (n := c.modulus) (X j)
    rw [h2] at h1
    have h3 : (c.modulus : Int) ∣ X j - X j % c.modulus := Int.dvd_self_sub_emod
    rw [hA]
    rcases h1 with h1 | h1
    · rw [h1]; exact h3
    · rw [h1, show X j - (X j % c.modulus - c.modulus) = X j - X j % c.modulus + c.modulus by ring]
      exact dvd_add h3 dvd_rfl
  · rw [hA]; exact ha2 j.val
  · rw [Nega.sub_apply, C_mul_apply, C_mul_apply, hA, hZ]
    have h1 := ha3 j.val
    have h2 := ha4 j.val
    have h3 : |(den : Int) * z j.val - num * a j.val| * 2 ^ 62 ≤ (2 ^ 61 + 1) * den := by
      rcases abs_cases ((den : Int) * z j.val - num * a j.val) with ⟨e, -⟩ | ⟨e, -⟩ <;> rw [e] <;> nlinarith
    linarith
  · apply Nega.ext; intro j
    rw [hA, hZ]; exact ha5 j.val hnd
  · unfold encI
    rw [e4 r vt _ hr]
    have : G (ofInt c X) = ofInt c' Z := by
      subst hN'
      apply Nega.ext; intro j
      rw [← coeff_val (G (ofInt c X)) j, hz2 j.val j.isLt, ofInt_self]
      show _ = ((Z j : Int) : ZMod c'.modulus)
      rw [hZ]
    rw [this]

/-- Scaling of a list of parts. -/
theorem mapM_scale {S : Scaler} {num den : Nat}
    (hS : ∀ X : IntPoly N, ∃ A Z E : IntPoly N, (∃ H, X = A + C (c.modulus : Int) * H) ∧ AlmostCentered c.modulus A ∧ C (den : Int) * Z = C (num : Int) * A + E ∧
        (∀ j, 2 ^ 62 * |E j| ≤ (2 ^ 61 + 1) * den) ∧ (num = den → Z = A) ∧ ∀ (r : Rep) (vt : Bool), r ≠ .nttShoup → S.scale (encI c r vt X) = some (.ok (encI c' r vt Z))) (s : IntPoly N) :
    ∀ {ps : List (Poly .ntt)} {F : List (IntPoly N)}, Parts c ps F →
    ∃ (rs : List (Poly .ntt)) (A Z E : List (IntPoly N)), (ps.mapM fun ci => unwrapMath (S.scale ci)) = some rs ∧ Parts c' rs Z ∧
      List.Forall₂ (fun f a => ∃ H, f = a + C (c.modulus : Int) * H) F A ∧ (∀ a ∈ A, AlmostCentered c.modulus a) ∧
      C (den : Int) * Fhe.phase s Z = C (num : Int) * Fhe.phase s A + Fhe.phase s E ∧ (E.length = F.length ∧ Z.length = F.length) ∧ (∀ e ∈ E, ∀ j, 2 ^ 62 * |e j| ≤ (2 ^ 61 + 1) * den) ∧ (num = den → Z = A)
  | _, _, .nil => ⟨[], [], [], [], by simp, by simp, by simp, by simp, by simp [phase_nil], ⟨rfl, rfl⟩, by simp, fun _ => rfl⟩
  | _, _, .cons (a := p) (b := f) ⟨vt, hp⟩ hrest => by
    obtain ⟨rs, A, Z, E, h1, h2, h3, h4, h5, h6, h7, h8⟩ := mapM_scale hS s hrest
    obtain ⟨a, z, e, g1, g2, g3, g4, g5, g6⟩ := hS f
    subst hp
    refine ⟨encI c' .ntt vt z :: rs, a :: A, z :: Z, e :: E, ?_, .cons ⟨vt, rfl⟩ h2, .cons g1 h3, ?_, ?_, ⟨by simp [h6.1], by simp [h6.2]⟩, ?_, fun hnd => by rw [g5 hnd, h8 hnd]⟩
    · rw [List.mapM_cons, g6 _ _ (by simp), Res.unwrapMath_ok, h1]; rfl
    · intro x hx
      rcases List.mem_cons.1 hx with rfl | hx
      exacts [g2, h4 x hx]
    · rw [phase_cons, phase_cons, phase_cons]
      linear_combination g3 + s * h5
    · intro x hx
      rcases List.mem_cons.1 hx with rfl | hx
      exacts [g4, h7 x hx]

/-- Congruent parts have congruent phases. -/
theorem phase_congr {Q : Int} (s : IntPoly N) : ∀ {F A : List (IntPoly N)}, List.Forall₂ (fun f a => ∃ H, f = a + C Q * H) F A → ∃ H, Fhe.phase s F = Fhe.phase s A + C Q * H
  | _, _, .nil => ⟨0, by simp [phase_nil]⟩
  | _, _, .cons (a := f) (b := a) ⟨H, h⟩ hrest => by
    obtain ⟨H', h'⟩ := phase_congr s hrest
    refine ⟨H + s * H', ?_⟩
    rw [phase_cons, phase_cons, h, h']; ring

/-! ## The product of lists of parts -/

/-- `mulRow` on integer polynomials. -/
def mulRowI (f : IntPoly N) : List (IntPoly N) → List (IntPoly N) → List (IntPoly N)
  | [], H => H
  | _ :: _, [] => []
  | g :: G, h :: H => (h + f * g) :: mulRowI f G H

/-- `mulAll` on integer polynomials. -/
def mulAllI : List (IntPoly N) → List (IntPoly N) → List (IntPoly N) → List (IntPoly N)
  | [], _, H => H
  | f :: F, G, H => match mulRowI f G H with
    | [] => mulAllI F G []
    | h :: H => h :: mulAllI F G H

theorem mulRowI_length (f : IntPoly N) : ∀ G H : List (IntPoly N), G.length ≤ H.length → (mulRowI f G H).length = H.length
  | [], H, _ => rfl
  | _ :: _, [], h => by simp at h
  | g :: G, h :: H, hl => by rw [mulRowI, List.length_cons, mulRowI_length f G H (by simpa using hl), List.length_cons]

theorem mulRowI_phase (s f : IntPoly N) : ∀ G H : List (IntPoly N), G.length ≤ H.length → Fhe.phase s (mulRowI f G H) = Fhe.phase s H + f * Fhe.phase s G
  | [], H, _ => by rw [mulRowI, phase_nil, mul_zero, add_zero]
  | _ :: _, [], h => by simp at h
  | g :: G, h :: H, hl => by rw [mulRowI, phase_cons, phase_cons, phase_cons, mulRowI_phase s f G H (by simpa using hl)]; ring

theorem mulRowI_bounded {f : IntPoly N} {A B K : Nat} (hf : f.Bounded A) : ∀ {G H : List (IntPoly N)}, (∀ g ∈ G, g.Bounded B) → (∀ h ∈ H, h.Bounded K) →
    ∀ x ∈ mulRowI f G H, x.Bounded (K + N * A * B)
  | [], H, _, hH, x, hx => (hH x hx).mono (by omega)
  | _ :: _, [], _, _, x, hx => by simp [mulRowI] at hx
  | g :: G, h :: H, hG, hH, x, hx => by
    rw [mulRowI, List.mem_cons] at hx
    rcases hx with rfl | hx
    · exact (hH h (by simp)).add (hf.mul (hG g (by simp)))
    · exact mulRowI_bounded hf (fun g hg => hG g (by simp [hg])) (fun h hh => hH h (by simp [hh])) x hx

theorem mulAllI_length : ∀ F G H : List (IntPoly N), G ≠ [] → F.length + G.length ≤ H.length + 1 → (mulAllI F G H).length = H.length
  | [], _, _, _, _ => rfl
  | f :: F, G, H, hG, hl => by
    have hg := List.length_pos_of_ne_nil hG
    simp only [List.length_cons] at hl
    have h1 := mulRowI_length f G H (by omega)
    rw [mulAllI]
    cases hr : mulRowI f G H with
    | nil => rw [hr] at h1; simp at h1; omega
    | cons h T =>
      rw [hr, List.length_cons] at h1
      simp only []
      cases F with
      | nil => rw [mulAllI, List.length_cons]; omega
      | cons f' F =>
        simp only [List.length_cons] at hl
        rw [List.length_cons, mulAllI_length (f' :: F) G T hG (by simp only [List.length_cons]; omega)]; omega

theorem mulAllI_phase (s : IntPoly N) : ∀ F G H : List (IntPoly N), G ≠ [] → F.length + G.length ≤ H.length + 1 →
    Fhe.phase s (mulAllI F G H) = Fhe.phase s H + Fhe.phase s F * Fhe.phase s G
  | [], _, _, _, _ => by rw [mulAllI, phase_nil, zero_mul, add_zero]
  | f :: F, G, H, hG, hl => by
    have hg := List.length_pos_of_ne_nil hG
    simp only [List.length_cons] at hl
    have h1 := mulRowI_length f G H (by omega)
    have h2 := mulRowI_phase s f G H (by omega)
    rw [mulAllI]
    cases hr : mulRowI f G H with
    | nil => rw [hr] at h1; simp at h1; omega
    | cons h T =>
      rw [hr, List.length_cons] at h1
      rw [hr, phase_cons] at h2
      simp only []
      rw [phase_cons, phase_cons]
      cases F with
      | nil => rw [mulAllI, phase_nil]; linear_combination h2
      | cons f' F =>
        simp only [List.length_cons] at hl
        rw [mulAllI_phase s (f' :: F) G T hG (by simp only [List.length_cons]; omega)]
        linear_combination h2

theorem mulAllI_bounded {A B : Nat} : ∀ {F G H : List (IntPoly N)} {K : Nat}, (∀ f ∈ F, f.Bounded A) → (∀ g ∈ G, g.Bounded B) → (∀ h ∈ H, h.Bounded K) →
    ∀ x ∈ mulAllI F G H, x.Bounded (K + F.length * (N * A * B))
  | [], _, H, K, _, _, hH, x, hx => (hH x hx).mono (by simp)
  | f :: F, G, H, K, hF, hG, hH, x, hx => by
    have h1 := mulRowI_bounded (hF f (by simp)) hG hH
    rw [mulAllI] at hx
    have e : K + N * A * B + F.length * (N * A * B) = K + (f :: F).length * (N * A * B) := by rw [List.length_cons]; ring
    cases hr : mulRowI f G H with
    | nil =>
      rw [hr] at hx
      simp only [] at hx
      have := mulAllI_bounded (H := []) (K := K + N * A * B) (fun g hg => hF g (by simp [hg])) hG (by simp) x hx
      rwa [e] at this
    | cons h T =>
      rw [hr] at hx h1
      simp only [] at hx
      rcases List.mem_cons.1 hx with rfl | hx
      · exact (h1 x (by simp)).mono (by rw [← e]; exact Nat.le_add_right _ _)
      · have := mulAllI_bounded (H := T) (K := K + N * A * B) (fun g hg => hF g (by simp [hg])) hG (fun y hy => h1 y (by simp [hy])) x hx
        rwa [e] at this

theorem mulRow_eq (h : c.WF b n) (hN : c.degree = N) (f : IntPoly N) : ∀ {bs cs : List (Poly .ntt)} {G H : List (IntPoly N)}, Parts c bs G → Parts c cs H → G.length ≤ H.length →
    ∃ rs, mulRow (encI c .ntt vt f) bs cs = some rs ∧ Parts c rs (mulRowI f G H)
  | _, _, _, _, .nil, hH, _ => ⟨_, rfl, hH⟩
  | _, _, _, _, .cons _ _, .nil, hl => by simp at hl
  | _, _, _, _, .cons (b := g) ⟨v1, h1⟩ hG, .cons (b := k) ⟨v2, h2⟩ hH, hl => by
    obtain ⟨rs, e1, e2⟩ := mulRow_eq h hN f hG hH (by simpa using hl)
    subst h1 h2
    refine ⟨encI c .ntt (v2 && (vt && v1)) (k + f * g) :: rs, ?_, .cons ⟨_, rfl⟩ e2⟩
    rw [mulRow, mulAssign_encI h hN]
    simp only [Option.bind_eq_bind, Option.bind_some]
    rw [addAssign_encI h hN (by simp), Option.bind_some, e1]; rfl

theorem mulAll_eq (h : c.WF b n) (hN : c.degree = N) : ∀ {as bs cs : List (Poly .ntt)} {F G H : List (IntPoly N)}, Parts c as F → Parts c bs G → Parts c cs H → G ≠ [] →
    F.length + G.length ≤ H.length + 1 → ∃ rs, mulAll as bs cs = some rs ∧ Parts c rs (mulAllI F G H)
  | _, _, _, _, _, _, .nil, _, hH, _, _ => ⟨_, rfl, hH⟩
  | _, bs, cs, _, G, H, .cons (b := f) (l₁ := as) (l₂ := F) ⟨v1, h1⟩ hF, hG, hH, hne, hl => by
    have hg := List.length_pos_of_ne_nil hne
    simp only [List.length_cons] at hl
    subst h1
    obtain ⟨rs, e1, e2⟩ := mulRow_eq (vt := v1) h hN f hG hH (by omega)
    have h1 := mulRowI_length f G H (by omega)
    rw [mulAll, e1, mulAllI]
    simp only [Option.bind_eq_bind, Option.bind_some]
    generalize mulRowI f G H = T at e2 h1
    cases e2 with
    | nil => simp at h1; omega
    | @cons p t ps T hp hT =>
      simp only [List.length_cons] at h1
      simp only []
      cases hF with
      | nil => exact ⟨_, by simp [mulAll], .cons hp hT⟩
      | cons hf hF =>
        simp only [List.length_cons] at hl
        obtain ⟨rs, e3, e4⟩ := mulAll_eq h hN (.cons hf hF) hG hT hne (by simp only [List.length_cons]; omega)
        exact ⟨p :: rs, by rw [e3]; rfl, .cons hp e4⟩

/-! ## Room -/

/-- A centered polynomial is determined by its residues. -/
theorem eq_of_almostCentered {P : Nat} : ∀ {X A : List (IntPoly N)}, List.Forall₂ (fun x a => ∃ H, x = a + C (P : Int) * H) X A →
    (∀ x ∈ X, ∀ j, 2 * |x j| * 2 ^ 55 < P * (2 ^ 55 - 1)) → (∀ a ∈ A, AlmostCentered P a) → X = A
  | _, _, .nil, _, _ => rfl
  | _, _, .cons (a := x) (b := a) (l₁ := X) (l₂ := A) ⟨H, h⟩ hrest, hX, hA => by
    rw [eq_of_almostCentered hrest (fun y hy => hX y (by simp [hy])) (fun y hy => hA y (by simp [hy]))]
    have : x = a := by
      apply Nega.ext; intro j
      have h1 := congrFun h j
      rw [Nega.add_apply, C_mul_apply] at h1
      have h2 := hX x (by simp) j
      have h3 := hA a (by simp) j
      have h4 : |(P : Int) * H j| < P := by
        have : (P : Int) * H j = x j - a j := by linarith
        rw [this]
        have := abs_sub (x j) (a j)
        nlinarith
      have h5 : H j = 0 := by
        rw [abs_mul, Nat.abs_cast] at h4
        have hP : (0 : Int) < P := by
          by_contra hc
          have : (P : Int) = 0 := by omega
          rw [this] at h4; simp at h4
        have : |H j| < 1 := by
          by_contra hc
          push Not at hc
          nlinarith
        exact Int.abs_lt_one_iff.1 this
      rw [h1, h5, mul_zero, add_zero]
    rw [this]

theorem AlmostCentered.bounded {Q : Nat} {A : IntPoly N} (h : AlmostCentered Q A) : A.Bounded (Q * (2 ^ 55 + 1) / 2 ^ 56) := by
  intro j
  have h1 := h j
  have h2 : (|A j| : Int) * 2 ^ 56 ≤ Q * (2 ^ 55 + 1) := by linarith
  push_cast
  exact (Int.le_ediv_iff_mul_le (by norm_num)).2 h2

section
variable {par : Par} {i : Nat} {l : ContextLevel}

theorem prod_lt_pow : ∀ {v : List Nat}, (∀ m ∈ v, m < 2 ^ 64) → v.prod < 2 ^ (v.map fun m => 64 - lz64 m).sum + (if v = [] then 1 else 0)
  | [], _ => by simp
  | m :: v, h => by
    have h1 := prod_lt_pow (v := v) fun m hm => h m (by simp [hm])
    have e : 64 - lz64 m = bitLen m := by
      have : bitLen m ≤ 64 := bitLen_le_iff.2 (h m (by simp))
      unfold lz64; omega
    have h2 := bitLen_le_iff.1 (le_refl (bitLen m))
    rw [List.map_cons, List.sum_cons, List.prod_cons, e, pow_add, if_neg (by simp), add_zero]
    by_cases hv : v = []
    · subst hv; simpa using h2
    · rw [if_neg hv, add_zero] at h1
      exact Nat.mul_lt_mul'' h2 h1

theorem pow_le_prod {e : Nat} : ∀ {v : List Nat}, (∀ m ∈ v, 2 ^ e ≤ m) → 2 ^ (e * v.length) ≤ v.prod
  | [], _ => by simp
  | m :: v, h => by
    rw [List.length_cons, List.prod_cons, Nat.mul_succ, pow_add, mul_comm]
    exact Nat.mul_le_mul (h m (by simp)) (pow_le_prod fun x hx => h x (by simp [hx]))

theorem sum_le_mul {k : Nat} : ∀ {v : List Nat}, (∀ m ∈ v, m ≤ k) → v.sum ≤ k * v.length
  | [], _ => by simp
  | m :: v, h => by
    rw [List.length_cons, List.sum_cons, Nat.mul_succ, add_comm]
    exact Nat.add_le_add (sum_le_mul fun x hx => h x (by simp [hx])) (h m (by simp))

theorem prod_dvd_of_nodup {x : Nat} : ∀ {v : List Nat}, v.Nodup → (∀ q ∈ v, q.Prime) → (∀ q ∈ v, q ∣ x) → v.prod ∣ x
  | [], _, _, _ => by simp
  | q :: v, hnd, hp, hd => by
    rw [List.prod_cons]
    rw [List.nodup_cons] at hnd
    refine Nat.Coprime.mul_dvd_of_dvd_of_dvd ?_ (hd q (by simp)) (prod_dvd_of_nodup hnd.2 (fun y hy => hp y (by simp [hy])) fun y hy => hd y (by simp [hy]))
    refine Nat.coprime_list_prod_right_iff.2 fun y hy => ?_
    exact (Nat.coprime_primes (hp q (by simp)) (hp y (by simp [hy]))).2 (by rintro rfl; exact hnd.1 hy)

theorem sum_filter_append (p : Nat → Prop) [DecidablePred p] : ∀ (q q' g g' : List Nat), q.length = g.length → (∀ x ∈ g', p x) →
    (((q ++ q').zip (g ++ g')).map fun qg => if p qg.2 then 0 else qg.1).sum ≤ q.sum
  | [], q', [], g', _, hp => by
    apply le_of_eq
    simp only [List.nil_append, List.sum_nil]
    apply List.sum_eq_zero
    intro x hx
    obtain ⟨⟨a, b⟩, h1, rfl⟩ := List.mem_map.1 hx
    simp only [if_pos (hp b (List.of_mem_zip h1).2)]
  | [], _, _ :: _, _, h, _ => by simp at h
  | _ :: _, _, [], _, h, _ => by simp at h
  | x :: q, q', y :: g, g', h, hp => by
    have := sum_filter_append p q q' g g' (by simpa using h) hp
    simp only [List.cons_append, List.zip_cons_cons, List.map_cons, List.sum_cons]
    split <;> omega

/-- The context of the products. -/
structure MulWF (b : Build) (n : Nat) (par : Par) (l : ContextLevel) (dst : Context) : Prop where
  wf : dst.WF b n
  deg : dst.degree = par.degree
  count : dst.moduli.length ≤ 64
  large : l.ctx.modulus * (l.ctx.modulus * 2 ^ 28) ≤ dst.modulus
  room : Spec.scalerRoom dst.moduli dst.rns.garner par.plaintext.value l.ctx.modulus ≤ 2 ^ 65

theorem AtLevel.mulWF_of (hw : ParWF b n par.toBfvParameters) (hcount : par.moduli.length ≤ 31) (hsum : par.moduli.sum ≤ 2 ^ 65) (ha : AtLevel b n par i l) {ext : List Nat} {dst : Context}
    (e2 : ∀ p ∈ ext, ParamsBuilder.IsModulus par.degree 62 p) (e3 : ext.length = ((par.moduliSizes.take (par.moduli.length - i)).sum + 60 + 61) / 62)
    (e4 : Context.new b (par.moduli.take (par.moduli.length - i) ++ ext) par.degree = some (.ok dst)) : MulWF b n par l dst := by
  obtain ⟨n', hn, hwf, hmod⟩ := Context.new_inv hw.ok e4
  obtain rfl : n = n' := by
    rw [hw.degree] at hn
    exact Nat.pow_right_injective (le_refl 2) hn
  rw [← ha.moduli] at hmod
  have hlen : (par.moduli.take (par.moduli.length - i)).length = par.moduli.length - i := by rw [List.length_take]; omega
  have hpos : 0 < par.moduli.length - i := by have := ha.lt; omega
  have hsz : (par.moduliSizes.take (par.moduli.length - i)) = l.ctx.moduli.map fun m => 64 - lz64 m := by rw [hw.sizes, ha.moduli, List.map_take]
  have hS : (par.moduliSizes.take (par.moduli.length - i)).sum ≤ 62 * (par.moduli.length - i) := by
    rw [hsz]
    refine (sum_le_mul (k := 62) ?_).trans (by rw [List.length_map, ha.length])
    intro x hx
    obtain ⟨m, hm, rfl⟩ := List.mem_map.1 hx
    have hr := hw.moduli.range m (by rw [ha.moduli] at hm; exact List.mem_of_mem_take hm)
    have h1 : bitLen m ≤ 62 := bitLen_le_iff.2 hr.2
    unfold lz64; omega
  have hext : ext.length ≤ 32 := by rw [e3]; omega
  have hQ := prod_lt_pow (v := l.ctx.moduli) fun m hm => by
    have hr := hw.moduli.range m (by rw [ha.moduli] at hm; exact List.mem_of_mem_take hm)
    exact hr.2.trans (by norm_num)
  rw [if_neg (by intro h0; have := ha.length; rw [h0] at this; simp at this; omega), add_zero, ← hsz, ← ha.wf.modulus_eq] at hQ
  have hP : dst.modulus = l.ctx.modulus * ext.prod := by rw [hwf.modulus_eq, hmod, List.prod_append, ← ha.wf.modulus_eq]
  refine ⟨hwf, by rw [hwf.level.degree, hw.degree], ?_, ?_, ?_⟩
  · rw [hmod, List.length_append, ha.length]; omega
  · rw [hP]
    refine Nat.mul_le_mul_left _ ?_
    have h1 := pow_le_prod (e := 61) (v := ext) fun m hm => (e2 m hm).2.1
    refine le_trans ?_ h1
    refine le_trans (Nat.mul_le_mul_right _ hQ.le) ?_
    rw [← pow_add]
    exact Nat.pow_le_pow_right (by norm_num) (by omega)
  · unfold Spec.scalerRoom
    rw [if_pos (by rw [← hwf.modulus_eq, hP]; exact Dvd.dvd.mul_left (Dvd.intro _ rfl) _), add_zero]
    have hg : dst.rns.garner.length = l.ctx.moduli.length + ext.length := by
      rw [hwf.level.rns.len_garner, hwf.level.rns_moduli, hmod, List.length_append]
    rw [hmod, ← List.take_append_drop l.ctx.moduli.length dst.rns.garner]
    refine (sum_filter_append (fun g => l.ctx.modulus ∣ par.plaintext.value * g) _ _ _ _ (by rw [List.length_take, hg]; omega) fun g hgm => ?_).trans ?_
    · refine Dvd.dvd.mul_left ?_ _
      obtain ⟨k, hk, rfl⟩ := List.getElem_of_mem hgm
      rw [List.length_drop] at hk
      rw [List.getElem_drop]
      have key := hwf.level.rns.garner_other
      simp only [hwf.level.rns_moduli] at key
      rw [ha.wf.modulus_eq]
      have hnd : l.ctx.moduli.Nodup := by rw [ha.moduli]; exact hw.moduli.nodup.sublist (List.take_sublist _ _)
      refine prod_dvd_of_nodup hnd (fun q hq => hw.moduli.prime q (by rw [ha.moduli] at hq; exact List.mem_of_mem_take hq)) fun q hq => ?_
      obtain ⟨j, hj, rfl⟩ := List.getElem_of_mem hq
      have hj' : j < dst.moduli.length := by rw [hmod, List.length_append]; omega
      have := key (l.ctx.moduli.length + k) j hj' (by omega)
      rw [List.getD_eq_getElem _ _ (by omega)] at this
      refine (dvd_of_eq ?_).trans this
      simp only [hmod, List.getElem_append_left hj]
    · rw [ha.moduli]; exact (take_sum_le _ _).trans hsum

theorem AtLevel.mulWF (hw : ParWF b n par.toBfvParameters) (hcount : par.moduli.length ≤ 31) (hsum : par.moduli.sum ≤ 2 ^ 65) (ha : AtLevel b n par i l) : MulWF b n par l l.mul.dst := by
  obtain ⟨pc, hpc, hlevs⟩ := hw.levels
  obtain ⟨ext, e1, e2, e3, e4⟩ := (hlevs i l ha.get).dst
  exact ha.mulWF_of hw hcount hsum (fun p hp => (e2 p hp).1) e3 e4

theorem parts_zero (h : c.WF b n) (hN : c.degree = N) {z : Poly .ntt} (hz : z = Poly.zero .ntt c ∨ z = (Poly.zero .ntt c).allowVt) (k : Nat) :
    Parts c (List.replicate k z) (List.replicate k (0 : IntPoly N)) := by
  have : ∃ vt, z = encI c .ntt vt (0 : IntPoly N) := by
    rcases hz with rfl | rfl
    · exact ⟨false, zero_encI h hN _⟩
    · exact ⟨true, by rw [zero_encI h hN]; rfl⟩
  induction k with
  | zero => exact .nil
  | succ k ih => exact .cons this ih

theorem phase_zeros (s : IntPoly N) (k : Nat) : Fhe.phase s (List.replicate k 0) = 0 := by
  induction k with
  | zero => rfl
  | succ k ih => rw [List.replicate_succ, phase_cons, ih, mul_zero, add_zero]

/-- The common part of the two branches. -/
theorem mulScaled_eq (hw : ParWF b n par.toBfvParameters) (hcount : par.moduli.length ≤ 31) (hsum : par.moduli.sum ≤ 2 ^ 65) (ha : AtLevel b n par i l) (s : IntPoly par.degree)
    {as bs : List (Poly .ntt)} {A B : List (IntPoly par.degree)} (hA : Parts l.mul.dst as A) (hB : Parts l.mul.dst bs B) (cA : ∀ x ∈ A, AlmostCentered l.ctx.modulus x)
    (cB : ∀ x ∈ B, AlmostCentered l.ctx.modulus x) (hne : A ≠ []) (hneB : B ≠ []) (hlen : A.length ≤ 2 ^ 12) (par' : Par) (level : Nat) :
    ∃ (rs : List (Poly .ntt)) (Z E : List (IntPoly par.degree)), mulScaled l.mul par' level as bs = some ⟨par', none, rs, level⟩ ∧ Parts l.ctx rs Z ∧
      C (l.ctx.modulus : Int) * Fhe.phase s Z = C (par.plaintext.value : Int) * (Fhe.phase s A * Fhe.phase s B) + Fhe.phase s E ∧ rs.length = A.length + B.length - 1 ∧ E.length = rs.length ∧
      (∀ e ∈ E, ∀ j, 2 ^ 62 * |e j| ≤ (2 ^ 61 + 1) * l.ctx.modulus) := by
  have hm := ha.mulWF hw hcount hsum
  have := ha.wf.neZero
  obtain ⟨pc, hpc, hlevs⟩ := hw.levels
  obtain ⟨SF, hSF, hS⟩ := (hlevs i l ha.get).down
  obtain ⟨F', S', e1, e2, hscale⟩ := Scaler.scale_encI hm.wf ha.wf hm.deg ha.deg hm.count (num := par.plaintext.value) (den := l.ctx.modulus) (NeZero.ne _) hm.room
  rw [hSF] at e1
  obtain rfl : SF = F' := by simpa using e1
  rw [hS] at e2
  obtain rfl : l.mul.downScaler = S' := by simpa using e2
  have hla : as.length = A.length := hA.length_eq
  have hlb : bs.length = B.length := hB.length_eq
  have pA := List.length_pos_of_ne_nil hne
  have pB := List.length_pos_of_ne_nil hneB
  have hz := parts_zero (N := par.degree) hm.wf hm.deg (z := if (as ++ bs).all (·.vt) then (Poly.zero .ntt l.mul.dst).allowVt else Poly.zero .ntt l.mul.dst) (by split <;> simp)
    (as.length + bs.length - 1)
  obtain ⟨ms, f1, f2⟩ := mulAll_eq hm.wf hm.deg hA hB hz hneB (by rw [List.length_replicate]; omega)
  obtain ⟨rs, X, Z, E, g1, g2, g3, g4, g5, g6, g7, -⟩ := mapM_scale hscale s f2
  have hX := eq_of_almostCentered g3 (fun x hx j => by
    have h1 := mulAllI_bounded (fun f hf => (cA f hf).bounded) (fun f hf => (cB f hf).bounded) (K := 0)
      (H := List.replicate (as.length + bs.length - 1) 0) (by intro h hh; rw [List.eq_of_mem_replicate hh]; exact IntPoly.Bounded.zero) x hx j
    rw [Nat.zero_add] at h1
    have hQ := ha.pos
    rw [← ha.mod] at hQ
    have hN : par.degree ≤ 2 ^ 16 := by rw [hw.degree]; exact Nat.pow_le_pow_right (by norm_num) hw.le_16
    have hl := hm.large
    generalize hH : l.ctx.modulus * (2 ^ 55 + 1) / 2 ^ 56 = H at h1
    have hH' : H * 2 ^ 56 ≤ l.ctx.modulus * (2 ^ 55 + 1) := by rw [← hH]; exact Nat.div_mul_le_self _ _
    have hlN : A.length * par.degree ≤ 2 ^ 28 := (Nat.mul_le_mul hlen hN).trans (by norm_num)
    generalize l.ctx.modulus = Q at hl hH' hQ
    generalize l.mul.dst.modulus = P at hl
    have h2 : A.length * (par.degree * H * H) ≤ 2 ^ 28 * (H * H) := by
      calc A.length * (par.degree * H * H) = A.length * par.degree * (H * H) := by ring
        _ ≤ _ := Nat.mul_le_mul_right _ hlN
    have h3 : (H * 2 ^ 56) * (H * 2 ^ 56) ≤ Q * (2 ^ 55 + 1) * (Q * (2 ^ 55 + 1)) := Nat.mul_le_mul hH' hH'
    have h4 : 2 ^ 28 * (H * H) * 2 ^ 56 < P * (2 ^ 55 - 1) := by
      have hQQ : 0 < Q * Q := Nat.mul_pos hQ hQ
      have h5 : Q * Q * 2 ^ 28 * (2 ^ 55 - 1) ≤ P * (2 ^ 55 - 1) := Nat.mul_le_mul_right _ (by rw [mul_assoc]; exact hl)
      refine lt_of_lt_of_le ?_ h5
      have h3' : H * H * 2 ^ 112 ≤ Q * Q * (2 ^ 55 + 1) ^ 2 := by linarith
      have h7 : 2 ^ 28 * (H * H) * 2 ^ 56 * 2 ^ 56 < Q * Q * 2 ^ 28 * (2 ^ 55 - 1) * 2 ^ 56 := by
        calc 2 ^ 28 * (H * H) * 2 ^ 56 * 2 ^ 56 = 2 ^ 28 * (H * H * 2 ^ 112) := by ring
          _ ≤ 2 ^ 28 * (Q * Q * (2 ^ 55 + 1) ^ 2) := Nat.mul_le_mul_left _ h3'
          _ = Q * Q * (2 ^ 28 * (2 ^ 55 + 1) ^ 2) := by ring
          _ < Q * Q * (2 ^ 28 * (2 ^ 55 - 1) * 2 ^ 56) := Nat.mul_lt_mul_of_pos_left (by norm_num) hQQ
          _ = _ := by ring
      exact Nat.lt_of_mul_lt_mul_right h7
    have h6 : (2 * |x j| * 2 ^ 55 : Int) ≤ ((2 ^ 28 * (H * H) * 2 ^ 56 : Nat) : Int) := by
      have : |x j| ≤ ((2 ^ 28 * (H * H) : Nat) : Int) := h1.trans (by exact_mod_cast h2)
      push_cast at this ⊢
      linarith
    refine lt_of_le_of_lt h6 ?_
    have : ((2 ^ 28 * (H * H) * 2 ^ 56 : Nat) : Int) < ((P * (2 ^ 55 - 1) : Nat) : Int) := by exact_mod_cast h4
    refine this.trans_le (le_of_eq ?_)
    push_cast; norm_num) g4
  subst hX
  refine ⟨rs, Z, E, ?_, g2, ?_, ?_, ?_, g7⟩
  · unfold mulScaled
    rw [subU_eq (by omega)]
    simp only [Option.bind_eq_bind, Option.bind_some]
    rw [f1, Option.bind_some, g1]; rfl
  · rw [g5, mulAllI_phase s A B _ hneB (by rw [List.length_replicate]; omega), phase_zeros, zero_add]
  · rw [g2.length_eq, g6.2, mulAllI_length _ _ _ hneB (by rw [List.length_replicate]; omega), List.length_replicate, hla, hlb]
  · rw [g2.length_eq, g6.2, g6.1]

end

namespace Ciphertext
variable {par : Par} {i : Nat} {l : ContextLevel} {s : IntPoly par.degree} {ct ct' : Ciphertext} {m m' : par.Msg} {v v' : IntPoly par.degree}

/-- Equal ciphertexts have the same parts. -/
theorem Parts.of_beq (h : c.WF b n) (hN : c.degree = N) : ∀ {ps qs : List (Poly .ntt)} {F : List (IntPoly N)}, Parts c ps F → ps.length = qs.length →
    ((ps.zip qs).all fun x => x.1.beq x.2) = true → Parts c qs F
  | _, [], _, .nil, _, _ => .nil
  | _, _ :: _, _, .nil, h, _ => by simp at h
  | _, [], _, .cons _ _, h, _ => by simp at h
  | _, q :: qs, _, .cons (b := f) ⟨vt, hp⟩ hF, hl, hb => by
    simp only [List.zip_cons_cons, List.all_cons, Bool.and_eq_true] at hb
    refine .cons ⟨q.vt, ?_⟩ (Parts.of_beq h hN hF (by simpa using hl) hb.2)
    subst hp
    have h1 := beq_iff.1 hb.1
    have h2 : ({ encI c .ntt vt f with vt := false } : Poly .ntt) = encI c .ntt false f := rfl
    rw [h2] at h1
    have h3 : ({ (encI c .ntt false f) with vt := q.vt } : Poly .ntt) = q := by rw [h1]
    rw [← h3]; rfl

theorem mul_eq (hw : ParWF b n par.toBfvParameters) (hcount : par.moduli.length ≤ 31) (hsum : par.moduli.sum ≤ 2 ^ 65) (h : ct.Encrypts par s i m v) (h' : ct'.Encrypts par s i m' v')
    (hlen : ct.c.length ≤ 2 ^ 12) :
    ∃ (r : Ciphertext) (v'' M M' : IntPoly par.degree) (E : List (IntPoly par.degree)), ct.mul ct' = some r ∧ r.Encrypts par s i (m * m') v'' ∧ r.c.length = ct.c.length + ct'.c.length - 1 ∧ r.seed = none ∧
      red par.plaintext.value M = m ∧ red par.plaintext.value M' = m' ∧
      (∃ A B : List (IntPoly par.degree), A.length = ct.c.length ∧ B.length = ct'.c.length ∧ (∀ x ∈ A, AlmostCentered (par.modulusAt i) x) ∧ (∀ x ∈ B, AlmostCentered (par.modulusAt i) x) ∧
        C (par.modulusAt i : Int) * M + v = C (par.plaintext.value : Int) * Fhe.phase s A ∧ C (par.modulusAt i : Int) * M' + v' = C (par.plaintext.value : Int) * Fhe.phase s B) ∧
      E.length = r.c.length ∧ (∀ e ∈ E, ∀ j, 2 ^ 62 * |e j| ≤ (2 ^ 61 + 1) * par.modulusAt i) ∧
      C (par.modulusAt i : Int) * v'' = C (par.modulusAt i : Int) * (M * v' + M' * v) + v * v' + C (par.plaintext.value : Int) * Fhe.phase s E := by
  obtain ⟨l, F, M, ha, hF, hM, hph⟩ := h.elim hw
  obtain ⟨l', G, M', ha', hG, hM', hph'⟩ := h'.elim hw
  obtain rfl := ha.unique ha'
  have hm := ha.mulWF hw hcount hsum
  have := ha.wf.neZero
  obtain ⟨pc, hpc, hlevs⟩ := hw.levels
  have hL := (hlevs i l ha.get).extender
  obtain ⟨F', S', e1, e2, hscale⟩ := Scaler.scale_encI ha.wf hm.wf ha.deg hm.deg (by rw [ha.length]; omega) (num := 1) (den := 1) (by norm_num)
    (by simp [Spec.scalerRoom])
  have hone : ScalingFactor.new 1 1 = some ScalingFactor.one := rfl
  rw [hone] at e1
  obtain rfl : ScalingFactor.one = F' := by simpa using e1
  rw [hL] at e2
  obtain rfl : l.mul.extender = S' := by simpa using e2
  -- the extended parts, for any list with the parts `F` or `G`
  have ext : ∀ {ps : List (Poly .ntt)} {F : List (IntPoly par.degree)}, Parts l.ctx ps F → ∃ (rs : List (Poly .ntt)) (A : List (IntPoly par.degree)),
      (ps.mapM fun ci => unwrapMath (l.mul.extender.scale ci)) = some rs ∧ Parts l.mul.dst rs A ∧ (∀ a ∈ A, AlmostCentered l.ctx.modulus a) ∧ A.length = F.length ∧
      ∃ H, Fhe.phase s F = Fhe.phase s A + C (l.ctx.modulus : Int) * H := by
    intro ps F hF
    obtain ⟨rs, A, Z, E, g1, g2, g3, g4, -, g6, -, g8⟩ := mapM_scale hscale s hF
    obtain rfl := g8 rfl
    exact ⟨rs, Z, g1, g2, g4, g6.2, phase_congr s g3⟩
  have hne : ct.c ≠ [] := ne_nil_of_two h.parts
  have h2 := h.parts
  have h2' := h'.parts
  -- both branches multiply lists with the parts `F` and `G`
  obtain ⟨as, bs, A, B, fA, fB, cA, cB, lA, lB, ⟨HA, pA⟩, ⟨HB, pB⟩, hmul⟩ : ∃ (as bs : List (Poly .ntt)) (A B : List (IntPoly par.degree)), Parts l.mul.dst as A ∧ Parts l.mul.dst bs B ∧
      (∀ a ∈ A, AlmostCentered l.ctx.modulus a) ∧ (∀ a ∈ B, AlmostCentered l.ctx.modulus a) ∧ A.length = F.length ∧ B.length = G.length ∧
      (∃ H, Fhe.phase s F = Fhe.phase s A + C (l.ctx.modulus : Int) * H) ∧ (∃ H, Fhe.phase s G = Fhe.phase s B + C (l.ctx.modulus : Int) * H) ∧
      ct.mul ct' = mulScaled l.mul par i as bs := by
    obtain ⟨as, A, a1, a2, a3, a4, a5⟩ := ext hF
    by_cases hb : ct'.beq ct = true
    · have hb' := hb
      simp only [Ciphertext.beq, Bool.and_eq_true, decide_eq_true_eq] at hb'
      obtain ⟨bs, B, b1, b2, b3, b4, b5⟩ := ext (Parts.of_beq ha.wf ha.deg hG hb'.1.1.2 hb'.1.2)
      rw [a1] at b1
      obtain rfl : as = bs := by simpa using b1
      refine ⟨as, as, A, B, a2, b2, a3, b3, a4, b4, a5, b5, ?_⟩
      unfold Ciphertext.mul
      rw [if_neg hne, if_pos hb, h.par_eq, h.level_eq, h'.level_eq, ha.contextLevelAt, Res.unwrap_ok]
      simp only [Option.bind_eq_bind, Option.bind_some]
      rw [a1, Option.bind_some]
    · obtain ⟨bs, B, b1, b2, b3, b4, b5⟩ := ext hG
      refine ⟨as, bs, A, B, a2, b2, a3, b3, a4, b4, a5, b5, ?_⟩
      unfold Ciphertext.mul
      rw [if_neg hne, if_neg hb, h.par_eq, h'.par_eq, h.level_eq, h'.level_eq, ptrEq_self, ha.contextLevelAt, Res.unwrap_ok]
      simp only [check_true, Option.bind_eq_bind, Option.bind_some]
      rw [a1, Option.bind_some, b1, Option.bind_some]
  have hlF := hF.length_eq
  have hlG := hG.length_eq
  obtain ⟨rs, Z, E, k1, k2, k3, k4, k5, k6⟩ := mulScaled_eq hw hcount hsum ha s fA fB cA cB (ne_nil_of_two (by omega)) (ne_nil_of_two (by omega)) (by omega) par i
  rw [← hmul] at k1
  rw [ha.mod] at pA pB k3 k6 cA cB
  have qA : C (par.modulusAt i : Int) * (M - C (par.plaintext.value : Int) * HA) + v = C (par.plaintext.value : Int) * Fhe.phase s A := by linear_combination C (par.plaintext.value : Int) * pA - hph
  have qB : C (par.modulusAt i : Int) * (M' - C (par.plaintext.value : Int) * HB) + v' = C (par.plaintext.value : Int) * Fhe.phase s B := by linear_combination C (par.plaintext.value : Int) * pB - hph'
  have redC : ∀ H : IntPoly par.degree, red par.plaintext.value (C (par.plaintext.value : Int) * H) = 0 := by
    intro H
    apply Nega.ext; intro j
    show (((C (par.plaintext.value : Int) * H : IntPoly par.degree) j : Int) : ZMod par.plaintext.value) = 0
    rw [C_mul_apply]; push_cast; simp
  have hMA : red par.plaintext.value (M - C (par.plaintext.value : Int) * HA) = m := by rw [red_sub, hM, redC, sub_zero]
  have hMB : red par.plaintext.value (M' - C (par.plaintext.value : Int) * HB) = m' := by rw [red_sub, hM', redC, sub_zero]
  generalize M - C (par.plaintext.value : Int) * HA = MA at qA hMA
  generalize M' - C (par.plaintext.value : Int) * HB = MB at qB hMB
  refine ⟨⟨par, none, rs, i⟩, C (par.plaintext.value : Int) * Fhe.phase s Z - C (par.modulusAt i : Int) * (MA * MB), MA, MB, E, k1,
    Encrypts.intro ha rfl rfl (by rw [k4, lA, lB]; omega) k2 (M := MA * MB) (by rw [red_mul, hMA, hMB]) (by ring), by rw [k4, lA, lB, hlF, hlG], rfl, hMA, hMB,
    ⟨A, B, by omega, by omega, cA, cB, qA, qB⟩, k5, k6, ?_⟩
  linear_combination C (par.plaintext.value : Int) * k3 - (C (par.modulusAt i : Int) * MB + v') * qA - C (par.plaintext.value : Int) * Fhe.phase s A * qB

theorem mulAll_nil : ∀ (as c : List (Poly .ntt)), mulAll as [] c = some c
  | [], c => rfl
  | a :: as, [] => by
    unfold mulAll
    simp only [mulRow, Option.bind_eq_bind, Option.bind_some]
    exact mulAll_nil as []
  | a :: as, c :: cs => by
    unfold mulAll
    simp only [mulRow, Option.bind_eq_bind, Option.bind_some]
    rw [mulAll_nil as cs]; rfl

/-- A ciphertext times the empty one. -/
theorem mul_zero (hw : ParWF b n par.toBfvParameters) (hcount : par.moduli.length ≤ 31) (hsum : par.moduli.sum ≤ 2 ^ 65) (h : ct.Encrypts par s 0 m v) :
    ∃ r, ct.mul (Ciphertext.zero par) = some r ∧ r.c.length = ct.c.length - 1 ∧ r.par = par := by
  obtain ⟨l, F, M, ha, hF, hM, hph⟩ := h.elim hw
  have hm := ha.mulWF hw hcount hsum
  have := ha.wf.neZero
  obtain ⟨pc, hpc, hlevs⟩ := hw.levels
  have hL := (hlevs 0 l ha.get).extender
  obtain ⟨F', S', e1, e2, hscale⟩ := Scaler.scale_encI ha.wf hm.wf ha.deg hm.deg (by rw [ha.length]; omega) (num := 1) (den := 1) (by norm_num)
    (by simp [Spec.scalerRoom])
  have hone : ScalingFactor.new 1 1 = some ScalingFactor.one := rfl
  rw [hone] at e1
  obtain rfl : ScalingFactor.one = F' := by simpa using e1
  rw [hL] at e2
  obtain rfl : l.mul.extender = S' := by simpa using e2
  obtain ⟨as, A, Z, E, g1, g2, g3, g4, -, g6, -, g8⟩ := mapM_scale hscale s hF
  obtain ⟨SF, hSF, hS⟩ := (hlevs 0 l ha.get).down
  obtain ⟨F', S', e1, e2, hscale⟩ := Scaler.scale_encI hm.wf ha.wf hm.deg ha.deg hm.count (num := par.plaintext.value) (den := l.ctx.modulus) (NeZero.ne _) hm.room
  rw [hSF] at e1
  obtain rfl : SF = F' := by simpa using e1
  rw [hS] at e2
  obtain rfl : l.mul.downScaler = S' := by simpa using e2
  have hlF := hF.length_eq
  have hla := g2.length_eq
  have hz := parts_zero (N := par.degree) hm.wf hm.deg (z := if (as ++ []).all (·.vt) then (Poly.zero .ntt l.mul.dst).allowVt else Poly.zero .ntt l.mul.dst) (by split <;> simp)
    (as.length + 0 - 1)
  obtain ⟨rs, X, Z', E', k1, k2, k3, k4, -, k6, -, -⟩ := mapM_scale hscale s hz
  have hne : ct.c ≠ [] := ne_nil_of_two h.parts
  have h2 := h.parts
  refine ⟨⟨par, none, rs, 0⟩, ?_, ?_, rfl⟩
  · unfold Ciphertext.mul
    have hbe : (Ciphertext.zero par).beq ct = false := by
      simp only [Ciphertext.beq, Ciphertext.zero, List.length_nil]
      have : ¬ (0 = ct.c.length) := by omega
      simp [this]
    rw [if_neg hne, if_neg (by rw [hbe]; simp), h.par_eq, h.level_eq]
    simp only [Ciphertext.zero, ptrEq_self, check_true, Option.bind_eq_bind, Option.bind_some]
    rw [ha.contextLevelAt, Res.unwrap_ok, Option.bind_some, g1, Option.bind_some]
    simp only [List.mapM_nil, Option.pure_def, Option.bind_some]
    unfold mulScaled
    simp only [List.length_nil]
    rw [subU_eq (by omega)]
    simp only [Option.bind_eq_bind, Option.bind_some]
    rw [mulAll_nil, Option.bind_some, k1]; rfl
  · rw [k2.length_eq, k6.2, List.length_replicate]
    omega

end Ciphertext
end Fhe
