import Mathlib.Tactic.NormNum.Prime
import Mathlib.Data.Finset.Card
import Verif.Lemmas.NttMain
/-!
# Properties C14-C18: number-theoretic transforms

Every theorem is about operators returned by the constructor: `NttOperator.new dbg rng m N = some (some op)` for a
modulus `m` accepted by `Modulus.new`.  `dbg` is the build mode, `rng` the stream of values drawn from `0..p`.
-/
namespace Fhe.Props
open Finset NttOperator

variable {cfg dbg : Bool} {p N : Nat} {m : Modulus} {rng : Nat → Nat} {op : NttOperator}

/-! ## C18: construction -/

/-- C18: sizes that are not a power of two, or below 8, panic. -/
theorem C18_bad_size (h : ¬ (8 ≤ N ∧ ∃ k, N = 2 ^ k)) : NttOperator.new dbg rng m N = none := new_bad_size h

/-- C18: an unsupported pair (the modulus is composite, or not `1` modulo `2N`) gives `None`. -/
theorem C18_unsupported (hm : Modulus.new cfg p = some (.ok m)) (h8 : 8 ≤ N) (hN : ∃ k ≤ 62, N = 2 ^ k)
    (h : ¬ (p.Prime ∧ p % (2 * N) = 1)) : NttOperator.new dbg rng m N = some none := by
  obtain ⟨-, rfl, -⟩ := Modulus.WF_of_new hm
  obtain ⟨k, hk, rfl⟩ := hN
  refine new_unsupported ?_ hk fun h' => h h'.symm
  by_contra hc
  have : 2 ^ k < 2 ^ 3 := Nat.pow_lt_pow_right (by norm_num) (by omega)
  omega

/-- C18: for a supported pair, the constructor succeeds exactly when one of the first 100 draws is a quadratic
non-residue modulo `p` (half of the nonzero residues are).  Otherwise debug builds panic and release builds return
`None`; no operator with wrong tables is ever returned. -/
theorem C18_supported (hm : Modulus.new cfg p = some (.ok m)) (h8 : 8 ≤ N) (hN : ∃ k ≤ 62, N = 2 ^ k)
    (hp : p.Prime) (hmod : p % (2 * N) = 1) (hr : ∀ i, rng i < p) :
    ((∃ i < 100, ¬ IsSquare (rng i : ZMod p)) →
      ∃ op, NttOperator.new dbg rng m N = some (some op) ∧ op.p = m ∧ op.size = N) ∧
    ((∀ i < 100, IsSquare (rng i : ZMod p)) → NttOperator.new dbg rng m N = if dbg then none else some none) := by
  obtain ⟨hw, rfl, -⟩ := Modulus.WF_of_new hm
  obtain ⟨k, hk, rfl⟩ := hN
  have h3 : 3 ≤ k := by
    by_contra hc
    have : 2 ^ k < 2 ^ 3 := Nat.pow_lt_pow_right (by norm_num) (by omega)
    omega
  rcases new_supported (dbg := dbg) hw h3 hk hmod hp hr with ⟨⟨j, hj, hs⟩, op, ω, ωi, h1, h2, h4⟩ | ⟨h1, h2⟩
  · exact ⟨fun _ => ⟨op, h1, h4, h2.size⟩, fun h => absurd (h j hj) hs⟩
  · exact ⟨fun ⟨j, hj, hs⟩ => absurd (h1 j hj) hs, fun _ => h2⟩

/-- A concrete operator: `p = 17`, `N = 8`, the drawn value being 3. -/
theorem witnessNtt (cfg dbg : Bool) : ∃ m op, Modulus.new cfg 17 = some (.ok m) ∧
    NttOperator.new dbg (fun _ => 3) m 8 = some (some op) := by
  obtain ⟨m, hm, -, -⟩ := Modulus.new_eq_ok (cfg := cfg) (p := 17) (by norm_num)
  obtain ⟨op, h, -⟩ := (C18_supported (dbg := dbg) hm (N := 8) (le_refl _) ⟨3, by norm_num, by norm_num⟩ (by norm_num) (by norm_num)
    (rng := fun _ => 3) (fun _ => by norm_num)).1 ⟨0, by norm_num, by decide⟩
  exact ⟨m, op, hm, h⟩
example (m : Modulus) : NttOperator.new true (fun _ => 3) m 12 = none :=
  C18_bad_size (by rintro ⟨-, k, hk⟩; have h3 : k < 4 := by by_contra hc; have : 2 ^ 4 ≤ 2 ^ k := Nat.pow_le_pow_right (by norm_num) (by omega); omega
                   interval_cases k <;> omega)
example : ∃ m, Modulus.new true 1153 = some (.ok m) ∧ NttOperator.new true (fun _ => 3) m 1024 = some none :=
  let ⟨m, hm, _⟩ := Modulus.new_eq_ok (cfg := true) (p := 1153) (by norm_num)
  ⟨m, hm, C18_unsupported hm (by norm_num) ⟨10, by norm_num, by norm_num⟩ (by norm_num)⟩
example : ∃ m, Modulus.new true 17 = some (.ok m) ∧ NttOperator.new false (fun _ => 4) m 8 = some none :=
  let ⟨m, hm, _⟩ := Modulus.new_eq_ok (cfg := true) (p := 17) (by norm_num)
  ⟨m, hm, (C18_supported hm (by norm_num) ⟨3, by norm_num, by norm_num⟩ (by norm_num) (by norm_num)
    (rng := fun _ => 4) (fun _ => by norm_num)).2 (fun _ _ => by decide)⟩

/-! ## C14: the forward transform evaluates -/

/-- C14: there is a primitive `2N`-th root of unity `ω` modulo `p`, fixed by the operator, such that for every reduced
input of length `N` the forward transform does not panic and entry `i` of its result is the canonical representative of
the input polynomial's value at `ω^(2 rev(i) + 1)`, `rev` being bit reversal on `log2 N` bits. -/
theorem C14_forward (hm : Modulus.new cfg p = some (.ok m)) (hr : ∀ i, rng i < p)
    (hop : NttOperator.new dbg rng m N = some (some op)) :
    ∃ ω : ZMod p, IsPrimitiveRoot ω (2 * N) ∧ ∀ a : List Nat, a.length = N → (∀ x ∈ a, x < p) →
      ∃ r, op.forward a = some r ∧ r.length = N ∧ ∀ i (hi : i < r.length), r[i] < p ∧
        (r[i] : ZMod p) = Spec.polyEval a (ω ^ (2 * Spec.bitRev N.log2 i + 1)) := by
  obtain ⟨hw, rfl, -⟩ := Modulus.WF_of_new hm
  obtain ⟨n, ω, ωi, h, rfl, rfl⟩ := WF_of_new hw hr hop
  have : NeZero op.p.p := ⟨h.prime.ne_zero⟩
  refine ⟨ω, h.isPrimitiveRoot, fun a hl ha => ?_⟩
  refine ⟨_, forward_eq h (by rw [hl, h.size]) (fun x hx => by have := ha x hx; omega), length_fwdVal _ _ _ _, fun i hi => ?_⟩
  have hi' := hi
  rw [length_fwdVal] at hi'
  have hg : (fwdVal op.p.p n ω a)[i] = (evalState n (ω : ZMod op.p.p) (fun t => (a.getD t 0 : ZMod op.p.p)) n i).val := by
    have := tab_get? (fun x => (evalState n (ω : ZMod op.p.p) (fun t => (a.getD t 0 : ZMod op.p.p)) n x).val) hi'
    rw [List.getElem_eq_iff]; exact this
  rw [hg, ZMod.natCast_zmod_val, log2_two_pow, ← revBits_eq_bitRev, evalState_polyEval hl]
  exact ⟨ZMod.val_lt _, rfl⟩

/-- C14: bit reversal on `n` bits permutes `[0, 2^n)`, so the evaluation points of `C14_forward` are all the odd powers
of `ω`, each exactly once. -/
theorem C14_points (n : Nat) : Set.BijOn (Spec.bitRev n) (Set.Iio (2 ^ n)) (Set.Iio (2 ^ n)) := by
  have hinj : ∀ n i j, i < 2 ^ n → j < 2 ^ n → revBits n i = revBits n j → i = j := by
    intro n
    induction n with
    | zero => intro i j hi hj _; simp at hi hj; omega
    | succ n ih =>
      intro i j hi hj h
      simp only [revBits] at h
      have h1 := revBits_lt n (i / 2)
      have h2 := revBits_lt n (j / 2)
      rw [pow_succ] at hi hj
      have hmod : i % 2 = j % 2 := by
        rcases Nat.mod_two_eq_zero_or_one i with e | e <;> rcases Nat.mod_two_eq_zero_or_one j with e' | e' <;>
          rw [e, e'] at h <;> omega
      rw [hmod] at h
      have := ih (i / 2) (j / 2) (by omega) (by omega) (by omega)
      omega
  have hmaps : Set.MapsTo (Spec.bitRev n) (Set.Iio (2 ^ n)) (Set.Iio (2 ^ n)) := by
    intro i _; rw [← revBits_eq_bitRev]; exact revBits_lt n i
  have hio : Set.InjOn (Spec.bitRev n) (Set.Iio (2 ^ n)) := by
    intro i hi j hj h
    rw [← revBits_eq_bitRev, ← revBits_eq_bitRev] at h
    exact hinj n i j hi hj h
  refine ⟨hmaps, hio, ?_⟩
  have h := Finset.surjOn_of_injOn_of_card_le (s := range (2 ^ n)) (t := range (2 ^ n)) (Spec.bitRev n)
    (by simpa using hmaps) (by simpa using hio) (le_refl _)
  simpa using h

example : ∃ m op r, Modulus.new true 17 = some (.ok m) ∧ NttOperator.new true (fun _ => 3) m 8 = some (some op) ∧
    op.forward [1, 2, 3, 4, 5, 6, 7, 16] = some r ∧ r.length = 8 := by
  obtain ⟨m, op, hm, hop⟩ := witnessNtt true true
  obtain ⟨ω, -, h⟩ := C14_forward hm (fun _ => by norm_num) hop
  obtain ⟨r, h1, h2, -⟩ := h [1, 2, 3, 4, 5, 6, 7, 16] rfl (by decide)
  exact ⟨m, op, r, hm, hop, h1, h2⟩

/-! ## C15: the transforms are inverse to each other -/

/-- C15: on reduced vectors of length `N`, backward after forward and forward after backward are both the identity. -/
theorem C15_inverse (hm : Modulus.new cfg p = some (.ok m)) (hr : ∀ i, rng i < p)
    (hop : NttOperator.new dbg rng m N = some (some op)) {a : List Nat} (hl : a.length = N) (ha : ∀ x ∈ a, x < p) :
    (op.forward a).bind op.backward = some a ∧ (op.backward a).bind op.forward = some a := by
  obtain ⟨hw, rfl, -⟩ := Modulus.WF_of_new hm
  obtain ⟨n, ω, ωi, h, rfl, rfl⟩ := WF_of_new hw hr hop
  have : NeZero op.p.p := ⟨h.prime.ne_zero⟩
  rw [← h.size] at hl
  constructor
  · rw [forward_eq h hl (fun x hx => by have := ha x hx; omega), Option.bind_some,
      backward_eq h (by rw [length_fwdVal, h.size]) (fun x hx => by have := reduced_of_tab_val _ x hx; omega), bwdVal_fwdVal h hl ha]
  · rw [backward_eq h hl (fun x hx => by have := ha x hx; omega), Option.bind_some,
      forward_eq h (by rw [length_bwdVal, h.size]) (fun x hx => by have := reduced_of_tab_val _ x hx; omega), fwdVal_bwdVal h hl ha]

/-- C15: the backward transform of a reduced vector is itself a reduced vector of length `N` (no panic). -/
theorem C15_backward_reduced (hm : Modulus.new cfg p = some (.ok m)) (hr : ∀ i, rng i < p)
    (hop : NttOperator.new dbg rng m N = some (some op)) {a : List Nat} (hl : a.length = N) (ha : ∀ x ∈ a, x < p) :
    ∃ r, op.backward a = some r ∧ r.length = N ∧ ∀ x ∈ r, x < p := by
  obtain ⟨hw, rfl, -⟩ := Modulus.WF_of_new hm
  obtain ⟨n, ω, ωi, h, rfl, rfl⟩ := WF_of_new hw hr hop
  have : NeZero op.p.p := ⟨h.prime.ne_zero⟩
  rw [← h.size] at hl
  exact ⟨_, backward_eq h hl (fun x hx => by have := ha x hx; omega), length_bwdVal _ _ _ _ _, fun x hx => reduced_of_tab_val _ x hx⟩

example : ∃ m op, Modulus.new true 17 = some (.ok m) ∧ NttOperator.new true (fun _ => 3) m 8 = some (some op) ∧
    (op.forward [1, 2, 3, 4, 5, 6, 7, 16]).bind op.backward = some [1, 2, 3, 4, 5, 6, 7, 16] := by
  obtain ⟨m, op, hm, hop⟩ := witnessNtt true true
  exact ⟨m, op, hm, hop, (C15_inverse hm (fun _ => by norm_num) hop rfl (by decide)).1⟩

/-! ## C16: products -/

/-- C16: transforming two polynomials, multiplying the transforms entry by entry and transforming back yields the
canonical coefficients of their product modulo `X^N + 1` and modulo `p`. -/
theorem C16_product (hm : Modulus.new cfg p = some (.ok m)) (hr : ∀ i, rng i < p)
    (hop : NttOperator.new dbg rng m N = some (some op)) {a b : List Nat} (hla : a.length = N) (ha : ∀ x ∈ a, x < p)
    (hlb : b.length = N) (hb : ∀ x ∈ b, x < p) :
    ∃ c, (do let fa ← op.forward a; let fb ← op.forward b; op.backward (← m.mulVec fa fb)) = some c ∧ c.length = N ∧
      ∀ k (hk : k < c.length), c[k] < p ∧
        (c[k] : ZMod p) = Spec.negaCoeff N (fun i => (a.getD i 0 : ZMod p)) (fun i => (b.getD i 0 : ZMod p)) k := by
  obtain ⟨hw, rfl, -⟩ := Modulus.WF_of_new hm
  obtain ⟨n, ω, ωi, h, rfl, rfl⟩ := WF_of_new hw hr hop
  have : NeZero op.p.p := ⟨h.prime.ne_zero⟩
  rw [← h.size] at hla hlb
  have hred : ∀ a, ∀ x ∈ fwdVal op.p.p n ω a, x < op.p.p := fun a => reduced_of_tab_val _
  have hneg : (negaList op.p.p (2 ^ n) a b).length = op.size := by rw [negaList, length_tab, h.size]
  refine ⟨negaList op.p.p (2 ^ n) a b, ?_, by rw [negaList, length_tab], fun k hk => ?_⟩
  · rw [forward_eq h hla (fun x hx => by have := ha x hx; omega), forward_eq h hlb (fun x hx => by have := hb x hx; omega)]
    simp only [Option.bind_eq_bind, Option.bind_some]
    rw [Modulus.mulVec_eq hw (by rw [length_fwdVal, length_fwdVal]) (hred a) (hred b), Option.bind_some, ← fwdVal_negaList h,
      backward_eq h (by rw [length_fwdVal, h.size]) (fun x hx => by have := hred _ x hx; omega),
      bwdVal_fwdVal h hneg (reduced_of_tab_val _)]
  · have hk' := hk
    rw [negaList, length_tab] at hk'
    have hg : (negaList op.p.p (2 ^ n) a b)[k] =
        (Spec.negaCoeff (2 ^ n) (fun i => (a.getD i 0 : ZMod op.p.p)) (fun i => (b.getD i 0 : ZMod op.p.p)) k).val := by
      rw [List.getElem_eq_iff]; exact tab_get? _ hk'
    rw [hg, ZMod.natCast_zmod_val]
    exact ⟨ZMod.val_lt _, rfl⟩

example : ∃ m op c, Modulus.new true 17 = some (.ok m) ∧ NttOperator.new true (fun _ => 3) m 8 = some (some op) ∧
    (do let fa ← op.forward [0, 0, 0, 0, 0, 0, 0, 1]; let fb ← op.forward [5, 1, 0, 0, 0, 0, 0, 0]
        op.backward (← m.mulVec fa fb)) = some c ∧ c.length = 8 := by
  obtain ⟨m, op, hm, hop⟩ := witnessNtt true true
  obtain ⟨c, h1, h2, -⟩ := C16_product hm (fun _ => by norm_num) hop (a := [0, 0, 0, 0, 0, 0, 0, 1]) (b := [5, 1, 0, 0, 0, 0, 0, 0])
    rfl (by decide) rfl (by decide)
  exact ⟨m, op, c, hm, hop, h1, h2⟩

/-! ## C17: variable-time and lazy transforms -/

/-- C17: on every reduced input the variable-time transforms return what the constant-time ones return, and the lazy
forward transform returns representatives in `[0, 4p)` of the same residues. -/
theorem C17_vt (hm : Modulus.new cfg p = some (.ok m)) (hr : ∀ i, rng i < p)
    (hop : NttOperator.new dbg rng m N = some (some op)) {a : List Nat} (hl : a.length = N) (ha : ∀ x ∈ a, x < p) :
    op.forwardVt a = op.forward a ∧ op.backwardVt a = op.backward a ∧
    ∃ r, op.forwardVtLazy a = some r ∧ (∀ x ∈ r, x < 4 * p) ∧ op.forward a = some (r.map (· % p)) := by
  obtain ⟨hw, rfl, -⟩ := Modulus.WF_of_new hm
  obtain ⟨n, ω, ωi, h, rfl, rfl⟩ := WF_of_new hw hr hop
  rw [← h.size] at hl
  have ha4 : ∀ x ∈ a, x < 4 * op.p.p := fun x hx => by have := ha x hx; omega
  have ha2 : ∀ x ∈ a, x < 2 * op.p.p := fun x hx => by have := ha x hx; omega
  refine ⟨by rw [forwardVt_eq h hl ha4, forward_eq h hl ha4], by rw [backwardVt_eq h hl ha2, backward_eq h hl ha2], ?_⟩
  obtain ⟨f', e1, e2⟩ := forwardVtLazy_eq h hl ha4
  refine ⟨_, e1, ?_, ?_⟩
  · intro x hx
    obtain ⟨i, hi, rfl⟩ := mem_tab.1 hx
    exact (e2 i hi).1
  · rw [forward_eq h hl ha4, tab_map, fwdVal]
    congr 1
    refine tab_congr fun x hx => (val_of_lt (Nat.mod_lt _ h.modulus.pos) ?_).symm
    rw [ZMod.natCast_mod, (e2 x hx).2]

/-- C17: the forward transforms also accept unreduced inputs below `4p`, and the backward ones below `2p`; the results
only depend on the residues. -/
theorem C17_lazy_inputs (hm : Modulus.new cfg p = some (.ok m)) (hr : ∀ i, rng i < p)
    (hop : NttOperator.new dbg rng m N = some (some op)) {a : List Nat} (hl : a.length = N) :
    ((∀ x ∈ a, x < 4 * p) → op.forward a = op.forward (a.map (· % p)) ∧ op.forwardVt a = op.forward (a.map (· % p))) ∧
    ((∀ x ∈ a, x < 2 * p) → op.backward a = op.backward (a.map (· % p)) ∧ op.backwardVt a = op.backward (a.map (· % p))) := by
  obtain ⟨hw, rfl, -⟩ := Modulus.WF_of_new hm
  obtain ⟨n, ω, ωi, h, rfl, rfl⟩ := WF_of_new hw hr hop
  have hpos := hw.pos
  rw [← h.size] at hl
  have hl' : (a.map (· % op.p.p)).length = op.size := by rw [List.length_map, hl]
  have hm1 : ∀ x ∈ a.map (· % op.p.p), x < op.p.p := by
    intro x hx
    obtain ⟨y, -, rfl⟩ := List.mem_map.1 hx
    exact Nat.mod_lt _ hpos
  have hget : ∀ i, (((a.map (· % op.p.p)).getD i 0 : Nat) : ZMod op.p.p) = ((a.getD i 0 : Nat) : ZMod op.p.p) := by
    intro i
    rw [List.getD_eq_getElem?_getD, List.getD_eq_getElem?_getD, List.getElem?_map]
    cases a[i]? <;> simp
  have hf : fwdVal op.p.p n ω (a.map (· % op.p.p)) = fwdVal op.p.p n ω a := by unfold fwdVal; simp only [hget]
  have hb : bwdVal op.p.p n ωi op.sizeInv (a.map (· % op.p.p)) = bwdVal op.p.p n ωi op.sizeInv a := by unfold bwdVal; simp only [hget]
  have h4 : ∀ x ∈ a.map (· % op.p.p), x < 4 * op.p.p := fun x hx => by have := hm1 x hx; omega
  have h2 : ∀ x ∈ a.map (· % op.p.p), x < 2 * op.p.p := fun x hx => by have := hm1 x hx; omega
  constructor
  · intro ha
    rw [forward_eq h hl ha, forward_eq h hl' h4, forwardVt_eq h hl ha, hf]; exact ⟨rfl, rfl⟩
  · intro ha
    rw [backward_eq h hl ha, backward_eq h hl' h2, backwardVt_eq h hl ha, hb]; exact ⟨rfl, rfl⟩

example : ∃ m op, Modulus.new true 17 = some (.ok m) ∧ NttOperator.new true (fun _ => 3) m 8 = some (some op) ∧
    op.forwardVt [1, 2, 3, 4, 5, 6, 7, 16] = op.forward [1, 2, 3, 4, 5, 6, 7, 16] ∧
    op.forward [67, 2, 3, 4, 5, 6, 7, 16] = op.forward [16, 2, 3, 4, 5, 6, 7, 16] := by
  obtain ⟨m, op, hm, hop⟩ := witnessNtt true true
  exact ⟨m, op, hm, hop, (C17_vt hm (fun _ => by norm_num) hop rfl (by decide)).1,
    ((C17_lazy_inputs hm (fun _ => by norm_num) hop (a := [67, 2, 3, 4, 5, 6, 7, 16]) rfl).1 (by decide)).1⟩

end Fhe.Props
