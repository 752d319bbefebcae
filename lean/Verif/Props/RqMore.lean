import Verif.Props.RqRing
import Verif.Lemmas.RqDot
/-!
# Properties C26-C28, C57, C58: modulus switching, dot products, serialization, scaling and sampling of polynomials
-/
namespace Fhe.Props
open Context Poly Nega

variable {b : Build} {moduli : List Nat} {degree : Nat} {c : Context} {r : Rep}

/-! ## C26: modulus switching -/

/-- C26: switching down by the last modulus `q` replaces every coefficient `x` in `[0, Q)` by `⌊(x + ⌊q/2⌋) / q⌋` modulo `Q/q`;
without a further level the call fails. -/
theorem C26_switch_down (hb : b.OK) (hc : Context.new b moduli degree = some (.ok c)) {p : Poly .powerBasis} {f : c.Elem} (hp : Represents c p f) :
    (∀ q, moduli.length ≥ 2 → moduli.getLast? = some q → ∃ c' p' f', Context.new b moduli.dropLast degree = some (.ok c') ∧ c.modulus = c'.modulus * q ∧
      p.switchDown = some (.ok p') ∧ Represents c' p' f' ∧ ∀ j < degree, coeff f' j = (((coeff f j).val + q / 2) / q : Nat)) ∧
    (moduli.length = 1 → p.switchDown = some (.error .noMoreContext)) := by
  obtain ⟨n, hdeg, hw, hm⟩ := new_inv hb hc
  subst hm
  have hd : c.degree = degree := by rw [hw.level.degree, hdeg]
  rw [(represents_iff hw).1 hp]
  constructor
  · intro q hl hq
    obtain ⟨t, h1, h2, h3⟩ := hw.descend_eq (i := 1) (by omega)
    have hnx : c.next = some t := by
      cases h : c.next with
      | none => rw [descend, h] at h1; cases h1
      | some t' => rw [descend, h] at h1; exact h1
    have hm' : t.moduli = c.moduli.dropLast := by rw [h3, List.dropLast_eq_take]
    have hdt : t.degree = degree := by rw [h2.level.degree, hdeg]
    have hnew := h2.new
    rw [hm', ← hdeg] at hnew
    refine ⟨t, _, _, hnew, ?_, switchDown_enc hw hnx h2 hm' f, represents_enc h2 _, fun j hj => ?_⟩
    · rw [hw.modulus_eq, h2.modulus_eq, hm']
      obtain ⟨ne, he⟩ := List.mem_getLast?_eq_getLast hq
      conv_lhs => rw [← List.dropLast_append_getLast ne]
      rw [List.prod_append, ← he]; simp
    · rw [coeff_of_lt _ (by rw [hdt]; exact hj)]
      simp only [roundDiv, ofFn, List.getLastD_eq_getLast?, hq, Option.getD_some]
  · intro hl
    have hnx : c.next = none := by
      cases h : c.next with
      | none => rfl
      | some t =>
        exfalso
        have hnew := hw.new
        rw [Context.new] at hnew
        cases hl1 : newLevel b c.moduli (2 ^ n) with
        | none => rw [hl1] at hnew; cases hnew
        | some x =>
          cases x with
          | error e => rw [hl1] at hnew; cases hnew
          | ok l =>
            rw [hl1] at hnew
            simp only [Option.bind_eq_bind, Option.bind_some] at hnew
            rw [dif_neg (by omega)] at hnew
            have : c.nexts = [] := by rw [← Except.ok.inj (Option.some.inj hnew)]
            unfold next at h; rw [this] at h; cases h
    unfold switchDown
    rw [show (enc c .powerBasis p.vt f).ctx = c from rfl, hnx]; rfl

/-- C26: switching down to a level divides, one modulus at a time, by the moduli that the level lacks, the last one first; targets that
are not a level are reported as not reachable. -/
theorem C26_switch_down_to (hb : b.OK) (hc : Context.new b moduli degree = some (.ok c)) {p : Poly .powerBasis} {f : c.Elem} (hp : Represents c p f) (t : Context) :
    (∀ i, c.contextAtLevel i = some (.ok t) → ∃ p' f', p.switchDownTo t = some (.ok p') ∧ Represents t p' f' ∧
      ∀ j < degree, coeff f' j = ((moduli.drop (moduli.length - i)).reverse.foldl (fun x q => (x + q / 2) / q) (coeff f j).val : Nat)) ∧
    ((∀ i, c.contextAtLevel i ≠ some (.ok t)) → p.switchDownTo t = some (.error .contextNotReachable)) := by
  obtain ⟨h1, h2⟩ := C22_niterations hb hc t
  obtain ⟨n, hdeg, hw, hm⟩ := new_inv hb hc
  subst hm
  rw [(represents_iff hw).1 hp]
  constructor
  · intro i hi
    have hil : i < c.moduli.length := by
      by_contra hh
      unfold contextAtLevel at hi
      rw [if_pos (by omega)] at hi; cases hi
    obtain ⟨t', a1, a2, a3, a4⟩ := switchDownLoop_enc (vt := p.vt) hw hil f
    have htt : t' = t := by
      unfold contextAtLevel at hi
      rw [if_neg (by omega), a1] at hi; cases hi; rfl
    subst htt
    refine ⟨enc t' .powerBasis p.vt (roundDivs t'.degree t'.modulus (c.moduli.drop (c.moduli.length - i)).reverse f), _, ?_,
      represents_enc a2 (roundDivs t'.degree t'.modulus (c.moduli.drop (c.moduli.length - i)).reverse f), fun j hj => ?_⟩
    · unfold switchDownTo
      rw [show (enc c .powerBasis p.vt f).ctx = c from rfl, h1 i hi]
      simp only
      rw [a4]
      simp only [Option.bind_eq_bind, Option.bind_some]
      rw [if_neg (by simp [enc])]; rfl
    · rw [coeff_of_lt _ (by rw [a2.level.degree, ← hdeg]; exact hj)]
      rfl
  · intro hh
    unfold switchDownTo
    rw [show (enc c .powerBasis p.vt f).ctx = c from rfl, h2 hh]; rfl

/-- C26: one step is within half of the closest value: `|q y - x| ≤ q/2`. -/
theorem C26_rounding (x q : Nat) (hq : 0 < q) : 2 * |(q * ((x + q / 2) / q : Nat) : Int) - x| ≤ q := by
  have h1 := Nat.div_add_mod (x + q / 2) q
  have h2 := Nat.mod_lt (x + q / 2) hq
  generalize (x + q / 2) / q = y at *
  generalize (x + q / 2) % q = z at *
  generalize hw : q * y = w at *
  rw [show ((q : Int) * (y : Int)) = (w : Int) by rw [← hw]; push_cast; ring]
  have : |(w : Int) - x| ≤ (q / 2 : Nat) := abs_le.2 ⟨by omega, by omega⟩
  omega

/-! ## C27: dot products -/

/-- C27: the dot product of two lists of the same positive length is the sum of the products, for any length; its timing flag is the
conjunction of all flags. -/
theorem C27_dot_product (hb : b.OK) (hc : Context.new b moduli degree = some (.ok c)) {ps qs : List (Poly .ntt)} {fs gs : List c.Elem}
    (hp : List.Forall₂ (fun p f => Represents c p f) ps fs) (hq : List.Forall₂ (fun p f => Represents c p f) qs gs) (hl : ps.length = qs.length) (hne : ps ≠ []) :
    ∃ s, dotProduct ps qs = some (.ok s) ∧ Represents c s (List.zipWith (· * ·) fs gs).sum ∧ s.vt = (ps.all (·.vt) && qs.all (·.vt)) := by
  obtain ⟨n, hdeg, hw, hm⟩ := new_inv hb hc
  have key : ∀ (ps qs : List (Poly .ntt)) (fs gs : List c.Elem), List.Forall₂ (fun p f => Represents c p f) ps fs → List.Forall₂ (fun p f => Represents c p f) qs gs →
      ps.length = qs.length → ∃ l : List ((Bool × c.Elem) × (Bool × c.Elem)), ps = (l.map fun x => enc c .ntt x.1.1 x.1.2) ∧ qs = (l.map fun x => enc c .ntt x.2.1 x.2.2) ∧
        List.zipWith (· * ·) fs gs = l.map (fun x => x.1.2 * x.2.2) ∧ (l.all fun x => x.1.1 && x.2.1) = (ps.all (·.vt) && qs.all (·.vt)) := by
    intro ps qs fs gs h1
    induction h1 generalizing qs gs with
    | nil =>
      intro h2 hl
      cases h2 with
      | nil => exact ⟨[], rfl, rfl, rfl, rfl⟩
      | cons _ _ => cases hl
    | @cons p f ps fs hpf h1 ih =>
      intro h2 hl
      cases h2 with
      | nil => cases hl
      | @cons q g qs gs hqg h2 =>
        obtain ⟨l, a1, a2, a3, a4⟩ := ih _ _ h2 (by simpa using hl)
        refine ⟨((p.vt, f), (q.vt, g)) :: l, ?_, ?_, ?_, ?_⟩
        · rw [List.map_cons, ← a1, ← (represents_iff hw).1 hpf]
        · rw [List.map_cons, ← a2, ← (represents_iff hw).1 hqg]
        · rw [List.zipWith_cons_cons, a3]; rfl
        · rw [List.all_cons, List.all_cons, List.all_cons, a4]
          cases p.vt <;> cases q.vt <;> cases ps.all (·.vt) <;> rfl
  obtain ⟨l, a1, a2, a3, a4⟩ := key ps qs fs gs hp hq hl
  rw [a3, ← a4, a1, a2]
  have hl' : l ≠ [] := by rintro rfl; exact hne a1
  exact ⟨_, dotProduct_enc hw l hl', represents_enc hw _, rfl⟩

/-- C27: empty lists, lists of different lengths and operands of different contexts are rejected. -/
theorem C27_errors (ps qs : List (Poly .ntt)) :
    (ps = [] ∨ qs = [] → dotProduct ps qs = some (.error .emptyDotProduct)) ∧
    (ps ≠ [] → qs ≠ [] → ps.length ≠ qs.length → dotProduct ps qs = some (.error (.dotProductLengthMismatch ps.length qs.length))) ∧
    (∀ p, ps.head? = some p → ps.length = qs.length → (∃ q ∈ ps ++ qs, q.ctx ≠ p.ctx) → dotProduct ps qs = some (.error .polynomialContextMismatch)) := by
  refine ⟨?_, fun h1 h2 h3 => ?_, fun p h1 h2 h3 => ?_⟩
  · rintro (rfl | rfl) <;> simp [Poly.dotProduct]
  · unfold Poly.dotProduct
    rw [if_neg (by simp [h1, h2]), if_pos h3]
  · cases ps with
    | nil => cases h1
    | cons a ps =>
      cases h1
      cases qs with
      | nil => cases h2
      | cons q' qs =>
        unfold Poly.dotProduct
        rw [if_neg (by simp), if_neg (by omega)]
        simp only
        rw [if_pos]
        obtain ⟨q, hq, hne⟩ := h3
        rw [List.mem_append] at hq
        rcases hq with hq | hq
        · exact .inl (List.any_eq_true.2 ⟨q, hq, by simpa using hne⟩)
        · exact .inr (List.any_eq_true.2 ⟨q, hq, by simpa using hne⟩)

/-! ## C28: serialization -/

/-- C28: a message made from an object of any representation says so, never allows variable-time computations, and read in the same
context gives back the same object, with the timing flag the reader asks for; it is refused in any other representation. -/
theorem C28_roundtrip (hb : b.OK) (hc : Context.new b moduli degree = some (.ok c)) (hd : degree ≤ 2 ^ 31) {p : Poly r} {f : c.Elem} (hp : Represents c p f) :
    ∃ m, p.toRq = some m ∧ m.degree = degree ∧ m.allowVariableTime = false ∧ (∀ vt, fromRq r m c vt = some (.ok { p with vt := vt })) ∧
      ∀ (r' : Rep) (vt : Bool), r' ≠ r → fromRq r' m c vt = some (.error (.serialization 4)) := by
  obtain ⟨n, hdeg, hw, hm⟩ := new_inv hb hc
  have hn : n ≤ 31 := (Nat.pow_le_pow_iff_right (by norm_num)).1 (hdeg ▸ hd)
  obtain ⟨m, a1, a2, a3, a4, -, -, a5⟩ := toRq_enc (r := r) (vt := p.vt) hw hn f
  have hpe := (represents_iff hw).1 hp
  refine ⟨m, by rw [hpe]; exact a1, by rw [a3, hw.level.degree, hdeg], a4, fun vt => by rw [a5 vt, hpe]; rfl, fun r' vt hr' => ?_⟩
  have := a5 vt
  unfold fromRq at this ⊢
  cases hpp : parseProto m c with
  | none => rw [hpp] at this; cases this
  | some x =>
    rw [hpp] at this
    cases x with
    | error e => cases this
    | ok y =>
      obtain ⟨r0, cs⟩ := y
      simp only [Option.bind_eq_bind, Option.bind_some] at this ⊢
      by_cases h0 : r0 = r
      · subst h0; rw [if_pos (Ne.symm hr')]; rfl
      · rw [if_pos h0] at this; cases this

/-- C28: messages with an unknown representation, with a degree that is not a positive multiple of `8`, or whose data have the wrong
length are rejected. -/
theorem C28_reject (c : Context) (m : RqMsg) (vt : Bool) :
    ((m.representation ≠ 1 ∧ m.representation ≠ 2 ∧ m.representation ≠ 3) → fromRq r m c vt = some (.error (.serialization 1))) ∧
    ((m.representation = 1 ∨ m.representation = 2 ∨ m.representation = 3) → (m.degree % 8 ≠ 0 ∨ m.degree = 0) →
      fromRq r m c vt = some (.error (.serialization 2))) ∧
    ((m.representation = 1 ∨ m.representation = 2 ∨ m.representation = 3) → m.degree % 8 = 0 → m.degree ≠ 0 →
      ∀ lens, (c.q.mapM fun q => q.serializationLength m.degree) = some lens → m.coefficients.length ≠ lens.sum →
      fromRq r m c vt = some (.error (.serialization 3))) := by
  refine ⟨fun ⟨h1, h2, h3⟩ => ?_, fun h h' => ?_, fun h h8 h0 lens hl hne => ?_⟩
  · unfold fromRq parseProto
    simp [h1, h2, h3]
  · have h'' : m.degree % 8 ≠ 0 ∨ m.degree < 8 := by omega
    unfold fromRq parseProto
    rcases h with h | h | h <;> simp [h, h'']
  · have h'' : ¬ (m.degree % 8 ≠ 0 ∨ m.degree < 8) := by omega
    unfold fromRq parseProto
    rcases h with h | h | h <;> simp [h, h'', hl, hne]

/-- C28, a limitation of the code: reading does not check that the residues are reduced, so a message made of `0xFF` bytes is accepted
in the power basis and the object is not valid. -/
theorem C28_not_reduced : ∃ (c : Context) (m : RqMsg) (p : Poly .powerBasis), Context.new exBuild [97] 16 = some (.ok c) ∧
    fromRq .powerBasis m c false = some (.ok p) ∧ ¬ p.Valid := by
  obtain ⟨c0, hc0⟩ := exContext
  obtain ⟨c, -, hc⟩ := (C22_level exBuild_ok hc0 1).1 (by simp)
  obtain ⟨n, hdeg, hw, hm⟩ := new_inv exBuild_ok hc
  change c.moduli = [97] at hm
  have hd : c.degree = 16 := by rw [hw.level.degree, hdeg]
  obtain ⟨m, hq, hp⟩ : ∃ m : Modulus, c.q = [m] ∧ m.p = 97 := by
    have h1 := hw.level.moduli
    rw [hm] at h1
    cases ho : c.ops with
    | nil => rw [ho] at h1; cases h1
    | cons op l =>
      cases l with
      | nil => rw [ho] at h1; exact ⟨op.p, by rw [hw.level.q, ho]; rfl, by simpa using h1.symm⟩
      | cons op' l => rw [ho] at h1; simp at h1
  have hs : m.serializationLength 16 = some 14 := by unfold Modulus.serializationLength Modulus.nbits; rw [hp]; decide +kernel
  have hde' : ∀ l, l = List.replicate 14 255 → m.deserializeVec l = some (List.replicate 16 127) := by
    rintro _ rfl; unfold Modulus.deserializeVec Modulus.nbits; rw [hp]; decide +kernel
  refine ⟨c, ⟨1, 16, List.replicate 14 255, false⟩, ⟨c, false, false, [List.replicate 16 127], none⟩, hc, ?_, fun hv => ?_⟩
  · unfold fromRq parseProto
    simp [hq, hs, parseRows, check, tryFromU64, fromShapeVec, hd, splitRows, ofPowerBasis, hde']
  · have := hv.reduced 0 97 (List.replicate 16 127) (by rw [hm]; rfl) rfl 127 (by simp)
    omega

/-! ## C57: scaling of polynomials -/

/-- C57: a scaler by `num/den` between two contexts of the same degree applies the RNS scaler to every coefficient, in the power basis
and in the `Ntt` representation, without overflow when the accumulator has enough room. -/
theorem C57_scale (hb : b.OK) {moduli' : List Nat} {c' : Context} (hc : Context.new b moduli degree = some (.ok c)) (hc' : Context.new b moduli' degree = some (.ok c'))
    (hk : moduli.length ≤ 64) {num den : Nat} (hd : den ≠ 0) (hroom : Spec.scalerRoom moduli c.rns.garner num den ≤ 2 ^ 65) :
    ∃ F s, ScalingFactor.new num den = some F ∧ Scaler.new c c' F = some (.ok s) ∧
      ∀ r, r ≠ .nttShoup → ∀ (p : Poly r) (f : c.Elem), Represents c p f → ∃ (q : Poly r) (g : c'.Elem), s.scale p = some (.ok q) ∧ Represents c' q g ∧ q.vt = p.vt ∧
        ∀ j < degree, ∃ z : Int, Spec.IsScaled c.modulus num den (coeff f j).val z ∧ coeff g j = (z : ZMod c'.modulus) := by
  obtain ⟨n, hdeg, hw, hm⟩ := new_inv hb hc
  obtain ⟨n', hdeg', hw', hm'⟩ := new_inv hb hc'
  have hnn : n = n' := Nat.pow_right_injective (le_refl 2) (hdeg.symm.trans hdeg')
  subst hnn hm
  obtain ⟨F, s, G, h1, h2, h3, h4, h5, h6⟩ := Scaler.scale_enc hw hw' hk hd hroom
  refine ⟨F, s, h1, h2, fun r hr p f hp => ?_⟩
  rw [(represents_iff hw).1 hp]
  refine ⟨_, _, h6 r _ f hr, represents_enc hw' _, rfl, fun j hj => ?_⟩
  obtain ⟨z, hz1, hz2⟩ := h5 f j
  exact ⟨z, hz1, hz2 (by rw [hw'.level.degree, ← hdeg]; exact hj)⟩

/-- C57: contexts of different degrees and operands of another context are rejected. -/
theorem C57_errors (F : ScalingFactor) (s : Scaler) {c' : Context} (p : Poly r) :
    (c.degree ≠ c'.degree → Scaler.new c c' F = some (.error (.degreeMismatch c.degree c'.degree))) ∧
    (p.ctx ≠ s.src → s.scale p = some (.error .polynomialContextMismatch)) := by
  constructor
  · intro h; unfold Scaler.new; rw [if_pos h]
  · intro h; unfold Scaler.scale; rw [if_pos h]

/-! ## C58: small and random polynomials -/

/-- C58: for a variance `1 ≤ v ≤ 32` and any random stream, sampling a small polynomial succeeds in each representation, with the same
element: its coefficients are the centered binomial samples of the stream, of absolute value at most `2 v`; the result does not allow
variable-time computations.  Other variances are rejected. -/
theorem C58_small (hb : b.OK) (hc : Context.new b moduli degree = some (.ok c)) (v : Nat) (rng : Nat → Nat) (hr : ∀ i, rng i < 2 ^ 64) :
    (1 ≤ v ∧ v ≤ 32 → ∃ l w p q s, sampleVecCbd degree v rng = some (.ok (l, w)) ∧ l.length = degree ∧ (∀ x ∈ l, |x| ≤ 2 * v) ∧
      smallPowerBasis c v rng = some (.ok p) ∧ smallNtt c v rng = some (.ok q) ∧ smallNttShoup c v rng = some (.ok s) ∧
      Represents c p (elemOfInts c l) ∧ Represents c q (elemOfInts c l) ∧ Represents c s (elemOfInts c l) ∧ p.vt = false ∧ q.vt = false ∧ s.vt = false) ∧
    (¬ (1 ≤ v ∧ v ≤ 32) → smallPowerBasis c v rng = some (.error (.invalidVariance v)) ∧ smallNtt c v rng = some (.error (.invalidVariance v)) ∧
      smallNttShoup c v rng = some (.error (.invalidVariance v))) := by
  obtain ⟨n, hdeg, hw, hm⟩ := new_inv hb hc
  have hd : c.degree = degree := by rw [hw.level.degree, hdeg]
  constructor
  · rintro ⟨h1, h2⟩
    obtain ⟨w, e, -⟩ := C12_sample_vec_cbd (n := degree) h1 h2 hr
    obtain ⟨hl, hbd⟩ := C12_bounded h1 h2 hr e
    generalize hL : (List.range degree).map _ = l at e hl hbd
    have hp : smallPowerBasis c v rng = some (.ok (enc c .powerBasis false (elemOfInts c l))) := by
      unfold smallPowerBasis
      rw [if_neg (by simp [h1, h2]), hd, e]
      simp only [Option.bind_eq_bind, Option.bind_some]
      exact tryFromI64_eq hw (by rw [hl, hd]) fun x hx => by
        obtain ⟨x1, x2⟩ := hbd x hx
        have : (v : Int) ≤ 32 := by exact_mod_cast h2
        constructor <;> omega
    refine ⟨l, w, _, enc c .ntt false (elemOfInts c l), enc c .nttShoup false (elemOfInts c l), e, hl, fun x hx => abs_le.2 ⟨(hbd x hx).1, (hbd x hx).2⟩, hp, ?_, ?_,
      represents_enc hw _, represents_enc hw _, represents_enc hw _, rfl, rfl, rfl⟩
    · unfold smallNtt; rw [hp]; simp only [Option.bind_eq_bind, Option.bind_some]; rw [intoNtt_enc hw]; rfl
    · unfold smallNttShoup; rw [hp]; simp only [Option.bind_eq_bind, Option.bind_some]; rw [intoNttShoup_enc hw]; rfl
  · intro h
    have hp : smallPowerBasis c v rng = some (.error (.invalidVariance v)) := by unfold smallPowerBasis; rw [if_pos h]; rfl
    unfold smallNtt smallNttShoup
    rw [hp]; exact ⟨rfl, rfl, rfl⟩

/-- C58: a random polynomial built from a sampler that returns, for every modulus, as many values as the degree, each below the modulus,
is valid and has those residues; it does not allow variable-time computations. -/
theorem C58_random (hb : b.OK) (hc : Context.new b moduli degree = some (.ok c)) (r : Rep) (rows : List (List Nat)) (hl : rows.length = moduli.length)
    (hcols : ∀ row ∈ rows, row.length = degree) (hred : ∀ (i q : Nat) (row : List Nat), moduli[i]? = some q → rows[i]? = some row → ∀ x ∈ row, x < q) :
    ∃ p, random r c rows = some p ∧ p.ctx = c ∧ p.Valid ∧ p.coeffs = rows ∧ p.vt = false := by
  obtain ⟨n, hdeg, hw, hm⟩ := new_inv hb hc
  subst hm
  obtain ⟨f, h1, h2⟩ := random_enc hw r ⟨hl, fun row hrow => by rw [hcols row hrow, hw.level.degree, hdeg], hred⟩
  exact ⟨_, h1, rfl, valid_enc hw f, h2, rfl⟩

/-! ## Concrete instances -/

example : ∃ (c c' : Context) (p p' : Poly .powerBasis) (g : c'.Elem), Context.new exBuild [97, 193] 16 = some (.ok c) ∧ Context.new exBuild [97] 16 = some (.ok c') ∧
    tryFromU64 [1000, 18720] c true = some (.ok p) ∧ p.switchDown = some (.ok p') ∧ Represents c' p' g ∧ coeff g 0 = 5 ∧ coeff g 1 = 0 := by
  obtain ⟨c, hc⟩ := exContext
  obtain ⟨p, hp, h, -⟩ := (C29_u64 exBuild_ok hc [1000, 18720] (by simp) (by simp) true).1 (by norm_num)
  obtain ⟨c', p', f', a1, a2, a3, a4, a5⟩ := (C26_switch_down exBuild_ok hc h).1 193 (by simp) (by simp)
  obtain ⟨-, hdeg, hmod⟩ := (C22_new exBuild_ok).2 c hc
  obtain ⟨-, -, hmod'⟩ := (C22_new exBuild_ok).2 c' a1
  have key : ∀ N Q Q' : Nat, N = 16 → Q = 97 * 193 → Q' = 97 →
      ((((coeff (fun j : Fin N => (((([1000, 18720] : List Nat).map Int.ofNat).getD j 0 : Int) : ZMod Q)) 0).val + 193 / 2) / 193 : Nat) : ZMod Q') = 5 ∧
      ((((coeff (fun j : Fin N => (((([1000, 18720] : List Nat).map Int.ofNat).getD j 0 : Int) : ZMod Q)) 1).val + 193 / 2) / 193 : Nat) : ZMod Q') = 0 := by
    rintro _ _ _ rfl rfl rfl; decide +kernel
  obtain ⟨k1, k2⟩ := key c.degree c.modulus c'.modulus hdeg (by rw [hmod]; simp) (by rw [hmod']; simp)
  exact ⟨c, c', p, p', f', hc, a1, hp, a3, a4, (a5 0 (by norm_num)).trans k1, (a5 1 (by norm_num)).trans k2⟩

example : ∃ (c : Context) (p q s : Poly .ntt), Context.new exBuild [97, 193] 16 = some (.ok c) ∧ Represents c p (mono 2) ∧ Represents c q (mono 3) ∧
    Poly.dotProduct [p, q] [q, q] = some (.ok s) ∧ Represents c s (mono 5 + (mono 6 + 0)) := by
  obtain ⟨c, hc⟩ := exContext
  obtain ⟨p, hp, -⟩ := (C23_represents (r := .ntt) exBuild_ok hc).2.1 (mono 2) false
  obtain ⟨q, hq, -⟩ := (C23_represents (r := .ntt) exBuild_ok hc).2.1 (mono 3) false
  obtain ⟨s, h1, h2, -⟩ := C27_dot_product exBuild_ok hc (.cons hp (.cons hq .nil)) (.cons hq (.cons hq .nil)) rfl (by simp)
  refine ⟨c, p, q, s, hc, hp, hq, h1, ?_⟩
  rw [List.zipWith_cons_cons, List.zipWith_cons_cons, ← mono_add, ← mono_add] at h2
  exact h2

example : ∃ (c : Context) (p : Poly .nttShoup) (m : RqMsg), Context.new exBuild [97, 193] 16 = some (.ok c) ∧ Represents c p (mono 2) ∧ p.toRq = some m ∧
    fromRq .nttShoup m c p.vt = some (.ok p) := by
  obtain ⟨c, hc⟩ := exContext
  obtain ⟨p, hp, -⟩ := (C23_represents (r := .nttShoup) exBuild_ok hc).2.1 (mono 2) false
  obtain ⟨m, h1, -, -, h2, -⟩ := C28_roundtrip exBuild_ok hc (by norm_num) hp
  exact ⟨c, p, m, hc, hp, h1, h2 _⟩

/-- The hypothesis of `C57_scale` for the factor `1/97` between the two levels of the example (switching down by hand). -/
example : ∃ c c' F s, Context.new exBuild [97, 193] 16 = some (.ok c) ∧ Context.new exBuild [97] 16 = some (.ok c') ∧
    ScalingFactor.new 1 193 = some F ∧ Scaler.new c c' F = some (.ok s) := by
  obtain ⟨c, hc⟩ := exContext
  obtain ⟨t, -, h2⟩ := (C22_level exBuild_ok hc 1).1 (by simp)
  obtain ⟨F, s, h3, h4, -⟩ := C57_scale exBuild_ok hc h2 (by simp) (num := 1) (den := 193) (by norm_num) (by
    unfold Spec.scalerRoom
    refine (Nat.add_le_add (List.sum_le_card_nsmul _ 193 ?_) (show _ ≤ 290 by split <;> simp)).trans ?_
    · intro x hx
      obtain ⟨y, hy, rfl⟩ := List.mem_map.1 hx
      have := (List.of_mem_zip hy).1
      simp at this
      split <;> omega
    · have : (([97, 193] : List Nat).zip c.rns.garner).length ≤ 2 := by simp
      simp only [List.length_map, smul_eq_mul]
      omega)
  exact ⟨c, t, F, s, hc, h2, h3, h4⟩

end Fhe.Props
