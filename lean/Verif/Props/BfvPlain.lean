import Verif.Props.BfvParams
import Verif.Lemmas.BfvEncode
/-!
# Properties C34-C36, C54: plaintexts

Every theorem is about parameters that `build` returned; `par.toBfvParameters` are the parameters behind the `Arc`.
-/
namespace Fhe.Props
open Nega Poly ParamsBuilder

variable {b : Build} {par : Par} {s : ParamsBuilder}

/-! ## C34: slots -/

/-- C34: an operator for the slots exists only if the plaintext modulus is a prime that is one modulo `2N`; and then it does, unless the
build's random draws are a hundred times quadratic residues. -/
theorem C34_available (hb : b.OK) (h : build b s = Res.ok par.toBfvParameters) :
    (par.nttOperator ≠ none → par.plaintext.value.Prime ∧ par.plaintext.value % (2 * par.degree) = 1) ∧
    (b.Lucky → par.plaintext.value.Prime → par.plaintext.value < 2 ^ 62 → par.plaintext.value % (2 * par.degree) = 1 → par.nttOperator ≠ none) := by
  obtain ⟨n, hw, -⟩ := build_inv hb h
  have h3 := hw.three_le
  have h16 := hw.le_16
  constructor
  · intro hop
    obtain ⟨op, hop⟩ := Option.ne_none_iff_exists'.1 hop
    obtain ⟨ω, ωi, m, g1, g2, -⟩ := hw.op_wf hop
    rw [← g2]
    refine ⟨g1.prime, ?_⟩
    have hn := hw.ntt
    unfold PlaintextModulus.nttOperator at hn
    rcases hw.plaintext with ⟨m, e1, e2, e3⟩ | ⟨-, e3⟩
    · obtain ⟨mw, mp, -⟩ := Modulus.WF_of_new e1
      rw [e3, hop, hw.degree] at hn
      by_contra hc
      have := NttOperator.new_unsupported (dbg := b.dbg) (rng := b.rng m.p) (m := m) (n := n) h3 (by omega) (fun hh => hc (by rw [g2, ← mp, hw.degree]; exact hh.1))
      simp [this] at hn
    · rw [e3, hop] at hn; simp at hn
  · intro hl hp hlt hmod hnone
    have hn := hw.ntt
    unfold PlaintextModulus.nttOperator at hn
    rcases hw.plaintext with ⟨m, e1, e2, e3⟩ | ⟨e2, -⟩
    · obtain ⟨mw, mp, -⟩ := Modulus.WF_of_new e1
      rw [e3, hnone, hw.degree] at hn
      rcases NttOperator.new_supported (dbg := b.dbg) (rng := b.rng m.p) mw h3 (by omega : n ≤ 62) (by rw [mp, ← hw.degree]; exact hmod) (by rw [mp]; exact hp)
        (by rw [mp]; exact fun i => hb _ i (by omega)) with ⟨-, op, ω, ωi, g, -⟩ | ⟨g, -⟩
      · simp [g] at hn
      · obtain ⟨i, hi, hs⟩ := hl par.plaintext.value hp (two_lt_of_ntt (n := n) (by rw [← hw.degree]; exact hmod) hp) hlt
        rw [mp] at g
        exact hs (g i hi)
    · omega

/-- C34: there is a primitive `2N`-th root of unity modulo `t`, fixed by the parameters, such that
* encoding at most `N` values below `t` as slots, by any of the encoders, at any level whose modulus is at least `t`, yields a plaintext
  whose message has these values in its slots and zero in the others, and which decodes to the values padded with zeroes;
* any plaintext that holds a message decodes to the slots of the message;
* a message is determined by its slots. -/
theorem C34_simd (hb : b.OK) (h : build b s = Res.ok par.toBfvParameters) (hop : par.nttOperator ≠ none) :
    ∃ ζ : ZMod par.plaintext.value, IsPrimitiveRoot ζ (2 * par.degree) ∧
      (∀ (v : List Nat) (level : Nat), v.length ≤ par.degree → (∀ x ∈ v, x < par.plaintext.value) → level < par.moduli.length → par.plaintext.value ≤ par.modulusAt level →
        ∃ m : par.Msg, (∀ i < par.degree, slotValue ζ m i = (v.getD i 0 : ZMod par.plaintext.value)) ∧
          (∀ vt, ∃ pt, Plaintext.tryEncodeU64 v ⟨.simd, level⟩ par vt = Res.ok pt ∧ pt.Holds par level m ∧ pt.encoding = some ⟨.simd, level⟩ ∧
            pt.decodeU64 none = Res.ok (padTo par.degree v)) ∧
          ∃ pt, Plaintext.tryEncodeBigUint v ⟨.simd, level⟩ par = Res.ok pt ∧ pt.Holds par level m ∧ pt.encoding = some ⟨.simd, level⟩ ∧
            pt.decodeBigUint none = Res.ok (padTo par.degree v)) ∧
      (∀ (pt : Plaintext) (level lv : Nat) (m : par.Msg), pt.Holds par level m → (pt.encoding = none ∨ pt.encoding = some ⟨.simd, lv⟩) →
        pt.decodeU64 (some ⟨.simd, lv⟩) = Res.ok (List.ofFn fun i : Fin par.degree => (slotValue ζ m i).val) ∧
        pt.decodeBigUint (some ⟨.simd, lv⟩) = Res.ok (List.ofFn fun i : Fin par.degree => (slotValue ζ m i).val)) ∧
      ∀ m m' : par.Msg, (∀ i < par.degree, slotValue ζ m i = slotValue ζ m' i) → m = m' := by
  obtain ⟨n, hw, -⟩ := build_inv hb h
  have ht := hw.t_pos
  have : NeZero par.plaintext.value := ⟨by omega⟩
  obtain ⟨ζ, hζ, hinj⟩ := Plaintext.slots_inj hw hop
  have hsm := Plaintext.small_of_op hw hop
  have h64 : ∀ m : par.Msg, ∀ x ∈ msgCoeffs m, x < 2 ^ 64 := fun m x hx => by have := msgCoeffs_lt m x hx; omega
  refine ⟨ζ, hζ.prim hop, fun v level hv hlt hlev hQ => ?_, fun pt level lv m hm he => ?_, hinj⟩
  · obtain ⟨l, hl⟩ := hw.exists_level hlev
    rw [← hw.modulusAt_eq hl] at hQ
    obtain ⟨m, -, hm⟩ := Plaintext.encodeU64_eq hw hζ (encoding := ⟨.simd, level⟩) hl hQ (fun _ => hop) true hv hlt (fun x hx => by have := hlt x hx; omega)
    refine ⟨m, hm, fun vt => ?_, ?_⟩
    · obtain ⟨m', e1, hm'⟩ := Plaintext.encodeU64_eq hw hζ (encoding := ⟨.simd, level⟩) hl hQ (fun _ => hop) vt hv hlt (fun x hx => by have := hlt x hx; omega)
      obtain rfl : m' = m := hinj _ _ fun i hi => (hm' i hi).trans (hm i hi).symm
      refine ⟨_, e1, Plaintext.holds_enc hw hl hQ _ _ _, rfl, ?_⟩
      rw [Plaintext.decodeU64_eq hw hζ (Plaintext.holds_enc hw hl hQ _ _ _) (Plaintext.resolveEncoding_ok (Or.inl ⟨rfl, Or.inl rfl⟩)) (fun _ => hop) (h64 _),
        Plaintext.decoded_chunk hw hm' hlt]
    · obtain ⟨m', e1, hm'⟩ := Plaintext.encodeBig_eq hw hζ (encoding := ⟨.simd, level⟩) hl hQ (fun _ => hop) hv hlt
      obtain rfl : m' = m := hinj _ _ fun i hi => (hm' i hi).trans (hm i hi).symm
      refine ⟨_, e1, Plaintext.holds_enc hw hl hQ _ _ _, rfl, ?_⟩
      rw [Plaintext.decodeBig_eq hw hζ (Plaintext.holds_enc hw hl hQ _ _ _) (Plaintext.resolveEncoding_ok (Or.inl ⟨rfl, Or.inl rfl⟩)) (fun _ => hop),
        Plaintext.decoded_chunk hw hm' hlt]
  · have he' : pt.resolveEncoding (some ⟨.simd, lv⟩) = Res.ok ⟨.simd, lv⟩ :=
      Plaintext.resolveEncoding_ok (by rcases he with he | he <;> [exact Or.inr ⟨he, rfl⟩; exact Or.inl ⟨he, Or.inr rfl⟩])
    rw [Plaintext.decodeU64_eq hw hζ hm he' (fun _ => hop) (h64 _), Plaintext.decodeBig_eq hw hζ hm he' (fun _ => hop)]
    have : (List.ofFn fun i : Fin par.degree => (slotValue ζ m i).val) = Plaintext.decoded par.toBfvParameters .simd ζ m := ofFn_eq_tab _ _ fun i => rfl
    rw [this]
    exact ⟨rfl, rfl⟩

/-- C34: the slots of a sum, a difference and a product of messages are the sums, differences and products of the slots, and the slots of
a constant are the constant. -/
theorem C34_slotwise {N t : Nat} {ζ : ZMod t} (hζ : ζ ^ N = -1) (hN : ∃ n ≥ 1, N = 2 ^ n) (m m' : Nega N (ZMod t)) (i : Nat) :
    slotValue ζ (m + m') i = slotValue ζ m i + slotValue ζ m' i ∧ slotValue ζ (m - m') i = slotValue ζ m i - slotValue ζ m' i ∧
    slotValue ζ (-m) i = -slotValue ζ m i ∧ slotValue ζ (m * m') i = slotValue ζ m i * slotValue ζ m' i ∧ ∀ a : ZMod t, slotValue ζ (const a : Nega N (ZMod t)) i = a := by
  obtain ⟨n, hn, hN⟩ := hN
  have hpos : 0 < N := by rw [hN]; positivity
  have hroot : (ζ ^ slotPower N i) ^ N = -1 := by
    rw [← slotPower_eq hn hN, ← pow_mul, mul_comm, pow_mul, hζ, Odd.neg_one_pow ⟨_, rfl⟩]
  have ev : ∀ f : Nega N (ZMod t), slotValue ζ f i = eval (RingHom.id _) _ hroot hpos f := fun f => slotValue_eq ζ f i
  simp only [ev, map_add, map_sub, map_neg, map_mul, true_and]
  intro a
  have : (const a : Nega N (ZMod t)) = C a := rfl
  rw [this]
  show evalFn _ _ _ = a
  unfold evalFn
  rw [Finset.sum_eq_single (⟨0, hpos⟩ : Fin N)]
  · rw [C_apply]; simp
  · intro j _ hj
    rw [C_apply, if_neg (fun h => hj (Fin.ext h))]; simp
  · simp

/-- C34: without the operator every slot encoding and decoding fails with `SimdUnavailable`. -/
theorem C34_unavailable (hop : par.nttOperator = none) (level : Nat) {v : List Nat} (hv : v.length ≤ par.degree) (vt : Bool) :
    Plaintext.tryEncodeU64 v ⟨.simd, level⟩ par vt = Res.err .simdUnavailable ∧
    Plaintext.tryEncodeBigUint v ⟨.simd, level⟩ par = Res.err .simdUnavailable ∧
    PlaintextVec.tryEncodeU64 v ⟨.simd, level⟩ par vt = Res.err .simdUnavailable ∧
    ∀ (pt : Plaintext) (values : List Nat), pt.par = par → pt.decodeSimdU64 values = Res.err .simdUnavailable := by
  have hw : ∀ F, PlaintextVec.tryEncodeWith v ⟨.simd, level⟩ par F = Res.err .simdUnavailable := fun F => by
    unfold PlaintextVec.tryEncodeWith
    rw [if_pos ⟨rfl, hop⟩]
  refine ⟨?_, ?_, hw _, fun pt values hp => ?_⟩
  · unfold Plaintext.tryEncodeU64 PlaintextVec.tryEncodeU64
    rw [if_neg (by omega), hw]; rfl
  · unfold Plaintext.tryEncodeBigUint PlaintextVec.tryEncodeBigUint
    rw [if_neg (by omega), hw]; rfl
  · unfold Plaintext.decodeSimdU64
    rw [hp, hop]

/-! ## C35: coefficients -/

/-- C35: values below `t` encoded as coefficients, by any of the encoders, at any level whose modulus is at least `t`, yield a plaintext that
holds the polynomial with these coefficients and decodes to the values padded with zeroes. -/
theorem C35_poly (hb : b.OK) (h : build b s = Res.ok par.toBfvParameters) {level : Nat} (hlev : level < par.moduli.length) (hQ : par.plaintext.value ≤ par.modulusAt level)
    {v : List Nat} (hv : v.length ≤ par.degree) (hlt : ∀ x ∈ v, x < par.plaintext.value) :
    ∃ m : par.Msg, (∀ j, coeff m j = (v.getD j 0 : ZMod par.plaintext.value)) ∧ msgCoeffs m = padTo par.degree v ∧
      (∃ pt, Plaintext.tryEncodeBigUint v ⟨.poly, level⟩ par = Res.ok pt ∧ pt.Holds par level m ∧ pt.encoding = some ⟨.poly, level⟩ ∧
        pt.decodeBigUint none = Res.ok (padTo par.degree v)) ∧
      ((∀ x ∈ v, x < 2 ^ 64) → ∀ vt, ∃ pt, Plaintext.tryEncodeU64 v ⟨.poly, level⟩ par vt = Res.ok pt ∧ pt.Holds par level m ∧ pt.encoding = some ⟨.poly, level⟩ ∧
        pt.decodeU64 none = Res.ok (padTo par.degree v)) := by
  obtain ⟨n, hw, -⟩ := build_inv hb h
  have ht := hw.t_pos
  have : NeZero par.plaintext.value := ⟨by omega⟩
  obtain ⟨ζ, hζ⟩ := PlaintextVec.exists_root hw
  obtain ⟨l, hl⟩ := hw.exists_level hlev
  rw [← hw.modulusAt_eq hl] at hQ
  have hinj : ∀ m m' : par.Msg, msgCoeffs m = msgCoeffs m' → m = m' := by
    intro m m' heq
    funext j
    have := congrArg (fun l => l.getD j 0) heq
    simp only [msgCoeffs_getD, coeff_val] at this
    exact ZMod.val_injective _ this
  obtain ⟨m, e1, hm⟩ := Plaintext.encodeBig_eq hw hζ (encoding := ⟨.poly, level⟩) hl hQ (fun h => by cases h) hv hlt
  refine ⟨m, fun j => ?_, hm, ⟨_, e1, Plaintext.holds_enc hw hl hQ _ _ _, rfl, ?_⟩, fun h64 vt => ?_⟩
  · have h2 := congrArg (fun l => l.getD j 0) (show msgCoeffs m = _ from hm)
    simp only [msgCoeffs_getD] at h2
    by_cases hj : j < par.degree
    · rw [padTo_eq_tab, NttOperator.tab_getD _ hj] at h2
      rw [← h2, ZMod.natCast_zmod_val]
    · rw [List.getD_eq_default _ _ (by omega), coeff, dif_neg hj]; simp
  · rw [Plaintext.decodeBig_eq hw hζ (Plaintext.holds_enc hw hl hQ _ _ _) (Plaintext.resolveEncoding_ok (Or.inl ⟨rfl, Or.inl rfl⟩)) (fun h => by cases h),
      Plaintext.decoded_chunk hw hm hlt]
  · obtain ⟨m', e2, hm'⟩ := Plaintext.encodeU64_eq hw hζ (encoding := ⟨.poly, level⟩) hl hQ (fun h => by cases h) vt hv hlt h64
    obtain rfl : m' = m := hinj _ _ ((show msgCoeffs m' = _ from hm').trans (show msgCoeffs m = _ from hm).symm)
    refine ⟨_, e2, Plaintext.holds_enc hw hl hQ _ _ _, rfl, ?_⟩
    have hm64 : ∀ x ∈ msgCoeffs m', x < 2 ^ 64 := by
      rw [show msgCoeffs m' = _ from hm']; exact padTo_lt (by norm_num) h64
    rw [Plaintext.decodeU64_eq hw hζ (Plaintext.holds_enc hw hl hQ _ _ _) (Plaintext.resolveEncoding_ok (Or.inl ⟨rfl, Or.inl rfl⟩)) (fun h => by cases h) hm64,
      Plaintext.decoded_chunk hw hm' hlt]

/-- C35: a plaintext that holds a message decodes to the coefficients of the message. -/
theorem C35_decode (hb : b.OK) (h : build b s = Res.ok par.toBfvParameters) {pt : Plaintext} {level lv : Nat} {m : par.Msg} (hm : pt.Holds par level m)
    (he : pt.encoding = none ∨ pt.encoding = some ⟨.poly, lv⟩) :
    pt.decodeBigUint (some ⟨.poly, lv⟩) = Res.ok (msgCoeffs m) ∧
    pt.decodeU64 (some ⟨.poly, lv⟩) = if ∀ x ∈ msgCoeffs m, x < 2 ^ 64 then Res.ok (msgCoeffs m) else Res.err .valueTooLargeForU64 := by
  obtain ⟨n, hw, -⟩ := build_inv hb h
  have ht := hw.t_pos
  have : NeZero par.plaintext.value := ⟨by omega⟩
  obtain ⟨ζ, hζ⟩ := PlaintextVec.exists_root hw
  have he' : pt.resolveEncoding (some ⟨.poly, lv⟩) = Res.ok ⟨.poly, lv⟩ :=
    Plaintext.resolveEncoding_ok (by rcases he with he | he <;> [exact Or.inr ⟨he, rfl⟩; exact Or.inl ⟨he, Or.inr rfl⟩])
  refine ⟨Plaintext.decodeBig_eq hw hζ hm he' (fun h => by cases h), ?_⟩
  split
  · rename_i h64
    exact Plaintext.decodeU64_eq hw hζ hm he' (fun h => by cases h) h64
  · rename_i h64
    push Not at h64
    have hs : par.plaintext.small = none := by
      rcases hw.plaintext with ⟨-, -, h2, -⟩ | ⟨-, h2⟩
      · obtain ⟨x, hx, h3⟩ := h64
        have := msgCoeffs_lt m x hx
        omega
      · exact h2
    unfold Plaintext.decodeU64
    rw [he', Res.ok_bind, hm.coefficients hw, Res.lift_some, Res.ok_bind, Plaintext.valuesU64_wrap_big hs h64]; rfl

/-- A list of integers padded with zeroes. -/
def padInts (n : Nat) (v : List Int) : List Int := (List.range n).map fun i => v.getD i 0

theorem mapM_centerBig {t : Nat} {l : List Nat} (hl : ∀ x ∈ l, -(2 ^ 63) ≤ (if x < t / 2 then (x : Int) else (x : Int) - t) ∧ (if x < t / 2 then (x : Int) else (x : Int) - t) < 2 ^ 63) :
    l.mapM (Plaintext.centerBig t) = some (l.map fun x => if x < t / 2 then (x : Int) else (x : Int) - t) := by
  induction l with
  | nil => rfl
  | cons a l ih =>
    rw [List.mapM_cons, ih fun x hx => hl x (List.mem_cons_of_mem _ hx)]
    have ha := hl a (by simp)
    have e : (if a ≥ t / 2 then (a : Int) - t else a) = (if a < t / 2 then (a : Int) else (a : Int) - t) := by split <;> split <;> omega
    unfold Plaintext.centerBig
    simp only [e]
    rw [check_eq ha]; rfl

theorem decodeI64_small (hw : ParWF b n par.toBfvParameters) {m : Modulus} (hs : par.plaintext.small = some m) {pt : Plaintext} (hp : pt.par = par) {e : Option Encoding} {l : List Nat}
    (hd : pt.decodeU64 e = Res.ok l) (hlt : ∀ x ∈ l, x < par.plaintext.value) :
    pt.decodeI64 e = Res.ok (l.map fun x => if x < par.plaintext.value / 2 then (x : Int) else (x : Int) - par.plaintext.value) := by
  obtain ⟨m', g1, g2, g3⟩ | ⟨-, g3⟩ := hw.plaintext
  swap
  · rw [g3] at hs; cases hs
  obtain ⟨mw, mp, -⟩ := Modulus.WF_of_new g1
  unfold Plaintext.decodeI64
  rw [hp, g3]
  simp only []
  rw [hd, Res.ok_bind, show m'.centerVec l = some (l.map fun x => if x < par.plaintext.value / 2 then (x : Int) else (x : Int) - par.plaintext.value) from
    mapM_eq_some_map fun x hx => by rw [Modulus.center_eq mw (by rw [mp]; exact hlt x hx), mp]]
  rfl

theorem decodeI64_large {pt : Plaintext} (hp : pt.par = par) (hs : par.plaintext.small = none) {e : Option Encoding} {l : List Nat} (hd : pt.decodeBigUint e = Res.ok l)
    (hl : ∀ x ∈ l, -(2 ^ 63) ≤ (if x < par.plaintext.value / 2 then (x : Int) else (x : Int) - par.plaintext.value) ∧
      (if x < par.plaintext.value / 2 then (x : Int) else (x : Int) - par.plaintext.value) < 2 ^ 63) :
    pt.decodeI64 e = Res.ok (l.map fun x => if x < par.plaintext.value / 2 then (x : Int) else (x : Int) - par.plaintext.value) := by
  unfold Plaintext.decodeI64
  rw [hp, hs]
  simp only []
  rw [hd, Res.ok_bind, mapM_centerBig hl]; rfl

theorem padTo_center {t N : Nat} (ht : 2 ≤ t) {v : List Int} (h : ∀ x ∈ v, -((t - t / 2 : Nat) : Int) ≤ x ∧ x < (t / 2 : Nat)) :
    (padTo N (v.map fun x => (x % (t : Int)).toNat)).map (fun x => if x < t / 2 then (x : Int) else (x : Int) - t) = padInts N v := by
  unfold padTo padInts
  rw [List.map_map]
  refine List.map_congr_left fun i _ => ?_
  simp only [Function.comp]
  by_cases hi : i < v.length
  · rw [List.getD_eq_getElem _ _ (by simpa using hi), List.getD_eq_getElem _ _ hi, List.getElem_map]
    obtain ⟨h1, h2⟩ := h _ (List.getElem_mem hi)
    generalize v[i] = x at h1 h2
    by_cases hx : 0 ≤ x
    · have e : x % (t : Int) = x := Int.emod_eq_of_lt hx (by omega)
      rw [e, if_pos (by omega)]; omega
    · have e : x % (t : Int) = x + t := by
        rw [← Int.add_emod_right, Int.emod_eq_of_lt (by omega) (by omega)]
      rw [e, if_neg (by omega)]; omega
  · rw [List.getD_eq_default _ _ (by simpa using hi), List.getD_eq_default _ _ (by simpa using hi), if_pos (by omega)]; rfl

/-- C35: signed values of 64 bits, encoded as coefficients, yield a plaintext that holds them modulo `t`; if they are in `[-⌈t/2⌉, ⌊t/2⌋)` the
signed decoder returns them, padded with zeroes.  The same holds for slots. -/
theorem C35_signed (hb : b.OK) (h : build b s = Res.ok par.toBfvParameters) {encoding : Encoding} (hlev : encoding.level < par.moduli.length)
    (hQ : par.plaintext.value ≤ par.modulusAt encoding.level) (hk : encoding.kind = .simd → par.nttOperator ≠ none) {v : List Int} (hv : v.length ≤ par.degree)
    (h64 : ∀ x ∈ v, -(2 ^ 63) ≤ x ∧ x < 2 ^ 63) :
    ∃ pt m, Plaintext.tryEncodeI64 v encoding par = Res.ok pt ∧ pt.Holds par encoding.level m ∧ pt.encoding = some encoding ∧
      (encoding.kind = .poly → ∀ j, coeff m j = ((v.getD j 0 : Int) : ZMod par.plaintext.value)) ∧
      ((∀ x ∈ v, -((par.plaintext.value - par.plaintext.value / 2 : Nat) : Int) ≤ x ∧ x < (par.plaintext.value / 2 : Nat)) →
        pt.decodeI64 none = Res.ok (padInts par.degree v)) := by
  obtain ⟨n, hw, -⟩ := build_inv hb h
  have ht := hw.t_pos
  have : NeZero par.plaintext.value := ⟨by omega⟩
  obtain ⟨ζ, hζ⟩ := PlaintextVec.exists_root hw
  obtain ⟨l, hl⟩ := hw.exists_level hlev
  rw [← hw.modulusAt_eq hl] at hQ
  have hwl : (v.map fun x => (x % (par.plaintext.value : Int)).toNat).length ≤ par.degree := by rw [List.length_map]; exact hv
  have hwlt : ∀ x ∈ v.map fun x => (x % (par.plaintext.value : Int)).toNat, x < par.plaintext.value := by
    intro x hx
    obtain ⟨y, -, rfl⟩ := List.mem_map.1 hx
    have h1 := Int.emod_nonneg y (show (par.plaintext.value : Int) ≠ 0 by omega)
    have h2 := Int.emod_lt_of_pos y (show (0 : Int) < par.plaintext.value by omega)
    omega
  have hpoly : ∀ m : par.Msg, PlaintextVec.ChunkMsg par.toBfvParameters encoding.kind ζ (v.map fun x => (x % (par.plaintext.value : Int)).toNat) m →
      encoding.kind = .poly → ∀ j, coeff m j = ((v.getD j 0 : Int) : ZMod par.plaintext.value) := by
    intro m hm he j
    rw [he] at hm
    have h2 := congrArg (fun l => l.getD j 0) (show msgCoeffs m = _ from hm)
    simp only [msgCoeffs_getD] at h2
    by_cases hj : j < par.degree
    · rw [padTo_eq_tab, NttOperator.tab_getD _ hj] at h2
      rw [← ZMod.natCast_zmod_val (coeff m j), h2]
      by_cases hi : j < v.length
      · rw [List.getD_eq_getElem _ _ (by simpa using hi), List.getD_eq_getElem _ _ hi, List.getElem_map]
        have h1 := Int.emod_nonneg v[j] (show (par.plaintext.value : Int) ≠ 0 by omega)
        rw [← Int.cast_natCast, Int.toNat_of_nonneg h1, ZMod.intCast_mod]
      · rw [List.getD_eq_default _ _ (by simpa using hi), List.getD_eq_default _ _ (by simpa using hi)]; simp
    · rw [List.getD_eq_default _ _ (by omega), coeff, dif_neg hj]; simp
  have hdec : ∀ m : par.Msg, PlaintextVec.ChunkMsg par.toBfvParameters encoding.kind ζ (v.map fun x => (x % (par.plaintext.value : Int)).toNat) m →
      ∀ vt, Plaintext.decodeBigUint { par, encoding := some encoding, polyNtt := enc l.ctx .ntt vt (ofNats l.ctx (msgCoeffs m)) } none =
        Res.ok (padTo par.degree (v.map fun x => (x % (par.plaintext.value : Int)).toNat)) := fun m hm vt => by
    rw [Plaintext.decodeBig_eq hw hζ (Plaintext.holds_enc hw hl hQ _ _ _) (Plaintext.resolveEncoding_ok (Or.inl ⟨rfl, Or.inl rfl⟩)) hk, Plaintext.decoded_chunk hw hm hwlt]
  rcases hw.plaintext with ⟨md, g1, g2, g3⟩ | ⟨g2, g3⟩
  · obtain ⟨mw, mp, -⟩ := Modulus.WF_of_new g1
    obtain ⟨m, e1, hm⟩ := Plaintext.encodeU64_eq hw hζ hl hQ hk false hwl hwlt (fun x hx => by have := hwlt x hx; omega)
    refine ⟨_, m, ?_, Plaintext.holds_enc hw hl hQ (some encoding) false _, rfl, hpoly m hm, fun hc => ?_⟩
    · unfold Plaintext.tryEncodeI64
      rw [g3]
      simp only []
      rw [show md.reduceVecI64 v = some (v.map fun x => (x % (par.plaintext.value : Int)).toNat) from
        mapM_eq_some_map fun x hx => by rw [Modulus.reduceI64_eq mw (h64 x hx).1 (h64 x hx).2, mp], Res.lift_some, Res.ok_bind]
      exact e1
    · have hd := Plaintext.decodeU64_eq hw hζ (Plaintext.holds_enc hw hl hQ (some encoding) false m) (Plaintext.resolveEncoding_ok (Or.inl ⟨rfl, Or.inl rfl⟩)) hk
        (fun x hx => by have := msgCoeffs_lt m x hx; omega)
      rw [Plaintext.decoded_chunk hw hm hwlt] at hd
      rw [decodeI64_small hw g3 rfl hd (padTo_lt (by omega) hwlt), padTo_center ht hc]
  · obtain ⟨m, e1, hm⟩ := Plaintext.encodeBig_eq hw hζ hl hQ hk hwl hwlt
    refine ⟨_, m, ?_, Plaintext.holds_enc hw hl hQ (some encoding) false _, rfl, hpoly m hm, fun hc => ?_⟩
    · unfold Plaintext.tryEncodeI64
      rw [g3]
      exact e1
    · have e := padTo_center (N := par.degree) ht hc
      rw [decodeI64_large rfl g3 (hdec m hm false), e]
      intro x hx
      have : (if x < par.plaintext.value / 2 then (x : Int) else (x : Int) - par.plaintext.value) ∈ padInts par.degree v := by
        rw [← e]; exact List.mem_map.2 ⟨x, hx, rfl⟩
      obtain ⟨i, -, hi⟩ := List.mem_map.1 this
      rw [← hi]
      by_cases hi : i < v.length
      · rw [List.getD_eq_getElem _ _ hi]; exact h64 _ (List.getElem_mem hi)
      · rw [List.getD_eq_default _ _ (by omega)]; norm_num

/-- C35, a limit of signed decoding: for a plaintext modulus of more than 64 bits, decoding a coefficient whose centered representative is
not a 64-bit integer is a panic, not an error. -/
theorem C35_signed_panics (hb : b.OK) (h : build b s = Res.ok par.toBfvParameters) (ht64 : 2 ^ 64 ≤ par.plaintext.value) {pt : Plaintext} {level lv : Nat} {m : par.Msg}
    (hm : pt.Holds par level m) (he : pt.encoding = none ∨ pt.encoding = some ⟨.poly, lv⟩) (hbig : ∃ x ∈ msgCoeffs m, 2 ^ 63 ≤ x ∧ x + 2 ^ 63 < par.plaintext.value) :
    pt.decodeI64 (some ⟨.poly, lv⟩) = Res.panic := by
  obtain ⟨n, hw, -⟩ := build_inv hb h
  have hs : par.plaintext.small = none := by
    rcases hw.plaintext with ⟨-, -, h2, -⟩ | ⟨-, h2⟩
    · omega
    · exact h2
  unfold Plaintext.decodeI64
  rw [hm.par_eq, hs]
  simp only []
  rw [(C35_decode hb h hm he).1, Res.ok_bind]
  have key : ∀ l : List Nat, (∃ x ∈ l, 2 ^ 63 ≤ x ∧ x + 2 ^ 63 < par.plaintext.value) → l.mapM (Plaintext.centerBig par.plaintext.value) = none := by
    intro l hl
    induction l with
    | nil => simp at hl
    | cons a l ih =>
      rw [List.mapM_cons]
      by_cases ha : 2 ^ 63 ≤ a ∧ a + 2 ^ 63 < par.plaintext.value
      · have : Plaintext.centerBig par.plaintext.value a = none := by
          unfold Plaintext.centerBig
          simp only []
          rw [show check (-(2 ^ 63) ≤ (if a ≥ par.plaintext.value / 2 then (a : Int) - par.plaintext.value else a) ∧
            (if a ≥ par.plaintext.value / 2 then (a : Int) - par.plaintext.value else a) < 2 ^ 63) = none from if_neg (by split <;> omega)]
          rfl
        rw [this]; rfl
      · have : l.mapM (Plaintext.centerBig par.plaintext.value) = none := by
          apply ih
          obtain ⟨x, hx, hx'⟩ := hl
          rcases List.mem_cons.1 hx with rfl | hx
          · exact absurd hx' ha
          · exact ⟨x, hx, hx'⟩
        rw [this]
        cases Plaintext.centerBig par.plaintext.value a <;> rfl
  rw [key _ hbig]; rfl

/-- C35: too many values, a level that does not exist, and a decoding that disagrees with the stored encoding are errors. -/
theorem C35_errors (hb : b.OK) (h : build b s = Res.ok par.toBfvParameters) :
    (∀ (v : List Nat) (e : Encoding) (vt : Bool), par.degree < v.length → Plaintext.tryEncodeU64 v e par vt = Res.err (.tooManyValues v.length par.degree) ∧
      Plaintext.tryEncodeBigUint v e par = Res.err (.tooManyValues v.length par.degree)) ∧
    (∀ (v : List Nat) (level : Nat) (vt : Bool), v.length ≤ par.degree → par.moduli.length ≤ level →
      Plaintext.tryEncodeU64 v ⟨.poly, level⟩ par vt = Res.err (.invalidLevel level 0 (par.moduli.length - 1)) ∧
      Plaintext.tryEncodeBigUint v ⟨.poly, level⟩ par = Res.err (.invalidLevel level 0 (par.moduli.length - 1))) ∧
    (∀ (pt : Plaintext) (e e' : Encoding), pt.encoding = some e → e' ≠ e →
      pt.decodeU64 (some e') = Res.err (.encodingMismatch e' e) ∧ pt.decodeBigUint (some e') = Res.err (.encodingMismatch e' e) ∧ pt.decodeI64 (some e') = Res.err (.encodingMismatch e' e)) ∧
    ∀ pt : Plaintext, pt.encoding = none → pt.decodeU64 none = Res.err .missingEncoding ∧ pt.decodeBigUint none = Res.err .missingEncoding ∧ pt.decodeI64 none = Res.err .missingEncoding := by
  obtain ⟨n, hw, -⟩ := build_inv hb h
  refine ⟨fun v e vt hv => ?_, fun v level vt hv hl => ?_, fun pt e e' he hne => ?_, fun pt he => ?_⟩
  · unfold Plaintext.tryEncodeU64 Plaintext.tryEncodeBigUint
    rw [if_pos hv, if_pos hv]; exact ⟨rfl, rfl⟩
  · have hctx : par.contextAtLevel level = Res.err (.invalidLevel level 0 (par.moduli.length - 1)) := by
      unfold BfvParameters.contextAtLevel BfvParameters.maxLevel
      have : 0 < par.moduli.length := List.length_pos_iff.2 hw.ne_nil
      rw [List.getElem?_eq_none (by rw [hw.length]; exact hl), hw.length, subU_eq (by omega)]; rfl
    have : ∀ F, PlaintextVec.tryEncodeWith v ⟨.poly, level⟩ par F = Res.err (.invalidLevel level 0 (par.moduli.length - 1)) := fun F => by
      unfold PlaintextVec.tryEncodeWith
      rw [if_neg (by simp), hctx]; rfl
    unfold Plaintext.tryEncodeU64 Plaintext.tryEncodeBigUint PlaintextVec.tryEncodeU64 PlaintextVec.tryEncodeBigUint
    rw [if_neg (by omega), if_neg (by omega), this, this]; exact ⟨rfl, rfl⟩
  · have : pt.resolveEncoding (some e') = Res.err (.encodingMismatch e' e) := by
      unfold Plaintext.resolveEncoding
      rw [he]
      simp only []
      rw [if_pos (fun h => hne h.symm)]
    have h1 : pt.decodeU64 (some e') = Res.err (.encodingMismatch e' e) := by unfold Plaintext.decodeU64; rw [this]; rfl
    have h2 : pt.decodeBigUint (some e') = Res.err (.encodingMismatch e' e) := by unfold Plaintext.decodeBigUint; rw [this]; rfl
    refine ⟨h1, h2, ?_⟩
    unfold Plaintext.decodeI64
    split
    · rw [h1]; rfl
    · rw [h2]; rfl
  · have : pt.resolveEncoding none = Res.err .missingEncoding := by
      unfold Plaintext.resolveEncoding
      rw [he]
    have h1 : pt.decodeU64 none = Res.err .missingEncoding := by unfold Plaintext.decodeU64; rw [this]; rfl
    have h2 : pt.decodeBigUint none = Res.err .missingEncoding := by unfold Plaintext.decodeBigUint; rw [this]; rfl
    refine ⟨h1, h2, ?_⟩
    unfold Plaintext.decodeI64
    split
    · rw [h1]; rfl
    · rw [h2]; rfl

/-- C35, a limit of the encoder: it does not reduce values modulo `t`.  At a level with at least two moduli and `t` below the first modulus `q`,
words encoded as coefficients decode to `(x mod q) mod t`. -/
theorem C35_unreduced (hb : b.OK) (h : build b s = Res.ok par.toBfvParameters) {level q : Nat} (hlev : level + 2 ≤ par.moduli.length) (hq : par.moduli.head? = some q)
    (ht62 : par.plaintext.value < 2 ^ 62) (htq : par.plaintext.value < q) {v : List Nat} (hv : v.length ≤ par.degree) (h64 : ∀ x ∈ v, x < 2 ^ 64) (vt : Bool) :
    ∃ pt, Plaintext.tryEncodeU64 v ⟨.poly, level⟩ par vt = Res.ok pt ∧
      pt.decodeU64 none = Res.ok (padTo par.degree (v.map fun x => x % q % par.plaintext.value)) := by
  obtain ⟨n, hw, -⟩ := build_inv hb h
  obtain ⟨l, hl⟩ := hw.exists_level (i := level) (by omega)
  obtain ⟨h1, h2, h3⟩ := hw.ctxWF hl
  obtain ⟨md, hs⟩ : ∃ md, par.plaintext.small = some md := by
    rcases hw.plaintext with ⟨md, -, -, h2⟩ | ⟨h2, -⟩
    · exact ⟨md, h2⟩
    · omega
  have hpos : 0 < par.degree := by rw [hw.degree]; positivity
  have henc : Plaintext.tryEncodeU64 v ⟨.poly, level⟩ par vt = Res.ok { par, encoding := some ⟨.poly, level⟩, polyNtt := enc l.ctx .ntt vt (ofNats l.ctx (padTo par.degree v)) } := by
    unfold Plaintext.tryEncodeU64 PlaintextVec.tryEncodeU64
    rw [if_neg (by omega), PlaintextVec.tryEncodeWith_eq (l := l) (P := fun k => enc l.ctx .ntt vt (ofNats l.ctx (padTo par.degree ((v.drop (k * par.degree)).take par.degree))))
      (by omega) hl (fun h => by cases h), Res.ok_bind]
    · have : 0 < PlaintextVec.count v.length par.degree := by unfold PlaintextVec.count; omega
      rw [List.getElem?_map, List.getElem?_range this, Option.map_some, Res.lift_some, Nat.zero_mul, List.drop_zero, List.take_of_length_le hv]
    · intro k _
      unfold PlaintextVec.encodeU64Chunk PlaintextVec.chunkCoefficients
      simp only []
      rw [copyPrefix_eq (by rw [List.length_take]; omega), Res.lift_some, Res.ok_bind, ← padTo_eq_tab, tryFromU64_short h1 (by rw [padTo_length, h3]), Res.math_ok, Res.ok_bind,
        intoNtt_enc h1, Res.lift_some]
      · rw [padTo_length, h2, List.length_take, Nat.min_eq_left (by omega), h3]
        intro hc
        have : 2 * par.degree ≤ (par.moduli.length - level) * par.degree := Nat.mul_le_mul_right _ (by omega)
        omega
      · exact padTo_lt (by norm_num) fun x hx => h64 x (List.mem_of_mem_drop (List.mem_of_mem_take hx))
  refine ⟨_, henc, ?_⟩
  unfold Plaintext.decodeU64
  rw [Plaintext.resolveEncoding_ok (enc := ⟨.poly, level⟩) (Or.inl ⟨rfl, Or.inl rfl⟩), Res.ok_bind, Plaintext.coefficients_fast hw rfl hl rfl hs hq htq, Res.lift_some, Res.ok_bind]
  show Res.ok _ = _
  obtain ⟨op, hop, rfl⟩ : ∃ op ∈ l.ctx.ops, op.p.p = q := by
    have hq' : l.ctx.moduli.head? = some q := by rw [h2, List.head?_take, if_neg (by omega), hq]
    have : q ∈ l.ctx.moduli := List.mem_of_mem_head? (by rw [hq']; rfl)
    rw [h1.level.moduli] at this
    simpa using this
  rw [pbRow_ofNats h1 hop, h3]
  congr 1
  unfold padTo tab
  rw [List.map_map]
  refine List.map_congr_left fun i hi => ?_
  have hi' := List.mem_range.1 hi
  simp only [Function.comp]
  rw [show ((List.range par.degree).map fun i => v.getD i 0).getD i 0 = v.getD i 0 from NttOperator.tab_getD _ hi']
  by_cases hi2 : i < v.length
  · rw [List.getD_eq_getElem _ _ hi2, List.getD_eq_getElem _ _ (by simpa using hi2), List.getElem_map]
  · rw [List.getD_eq_default _ _ (by simpa using hi2), List.getD_eq_default _ _ (by simpa using hi2)]; simp

/-- C35: the zero plaintext of a level holds zero. -/
theorem C35_zero (hb : b.OK) (h : build b s = Res.ok par.toBfvParameters) {e : Encoding} (hlev : e.level < par.moduli.length) :
    ∃ pt, Plaintext.zero e par = Res.ok pt ∧ pt.Holds par e.level 0 ∧ pt.encoding = some e := by
  obtain ⟨n, hw, -⟩ := build_inv hb h
  have ht := hw.t_pos
  obtain ⟨l, hl⟩ := hw.exists_level hlev
  obtain ⟨h1, h2, h3⟩ := hw.ctxWF hl
  have h1' := h1.neZero
  have hz : ∀ x ∈ msgCoeffs (0 : par.Msg), x = 0 := by
    intro x hx
    obtain ⟨j, rfl⟩ := List.mem_ofFn.1 hx
    rw [Nega.zero_apply, ZMod.val_zero]
  have he : ofNats l.ctx (msgCoeffs (0 : par.Msg)) = 0 := by
    funext j
    show (((msgCoeffs (0 : par.Msg)).getD j 0 : Nat) : ZMod l.ctx.modulus) = 0
    rw [List.getD_eq_getElem _ _ (by rw [length_msgCoeffs, ← h3]; exact j.isLt), hz _ (List.getElem_mem _)]; simp
  refine ⟨{ par, encoding := some e, polyNtt := Poly.zero .ntt l.ctx }, ?_, ?_, rfl⟩
  · unfold Plaintext.zero
    rw [ParWF.contextAtLevel_iff.2 ⟨l, hl, rfl⟩, Res.ok_bind]; rfl
  · refine Plaintext.holds_of_enc hw rfl hl (vt := false) (by rw [he]; exact zero_enc h1 .ntt) fun x hx => ?_
    rw [hz x hx]; exact NeZero.pos _

/-! ## C36: scaling -/

/-- C36: the polynomial that stands for a plaintext inside a ciphertext has the coefficients `⌊Q m / t⌋`, for the modulus `Q` of the level. -/
theorem C36_scaling (hb : b.OK) (h : build b s = Res.ok par.toBfvParameters) {pt : Plaintext} {level : Nat} {m : par.Msg} (hm : pt.Holds par level m)
    (hQ : par.plaintext.value ≤ par.modulusAt level) :
    ∃ p, pt.toPoly = some p ∧ p.Valid ∧ par.contextAtLevel level = Res.ok p.ctx ∧
      (do (← p.nttToPowerBasis).toBigUint) = some (List.ofFn fun j => par.modulusAt level * (m j).val / par.plaintext.value) := by
  obtain ⟨n, hw, -⟩ := build_inv hb h
  have ht := hw.t_pos
  have : NeZero par.plaintext.value := ⟨by omega⟩
  obtain ⟨l, hl, -⟩ := hm.enc hw
  obtain ⟨h1, h2, h3⟩ := hw.ctxWF hl
  have hmod := hw.modulusAt_eq hl
  have hQpos : 0 < l.ctx.modulus := h1.neZero.pos
  refine ⟨_, Plaintext.toPoly_eq hw hl (by rw [hmod]; exact hQ) hm, valid_enc h1 _, ParWF.contextAtLevel_iff.2 ⟨l, hl, rfl⟩, ?_⟩
  rw [nttToPowerBasis_enc h1, Option.bind_eq_bind, Option.bind_some, Plaintext.toBigUint_enc h1, Plaintext.vals_ofNats, hmod]
  · unfold msgCoeffs
    rw [List.map_ofFn]; rfl
  · rw [List.length_map, length_msgCoeffs, h3]
  · intro x hx
    obtain ⟨y, hy, rfl⟩ := List.mem_map.1 hx
    have := msgCoeffs_lt m y hy
    rw [Nat.div_lt_iff_lt_mul (by omega)]
    exact Nat.mul_lt_mul_of_pos_left this hQpos

/-! ## C54: vectors of plaintexts -/

/-- C54: any number of values below `t` is encoded into `max(1, ⌈len / N⌉)` plaintexts of the level; the `k`-th one decodes to the values from position `k N`, and the
concatenation of the decodings is the vector padded with zeroes. -/
theorem C54_vector (hb : b.OK) (h : build b s = Res.ok par.toBfvParameters) {encoding : Encoding} (hlev : encoding.level < par.moduli.length)
    (hQ : par.plaintext.value ≤ par.modulusAt encoding.level) (hk : encoding.kind = .simd → par.nttOperator ≠ none) {v : List Nat} (hlt : ∀ x ∈ v, x < par.plaintext.value)
    (h64 : ∀ x ∈ v, x < 2 ^ 64) (vt : Bool) :
    ∃ pts, PlaintextVec.tryEncodeU64 v encoding par vt = Res.ok pts ∧ pts.length = max ((v.length + par.degree - 1) / par.degree) 1 ∧
      (∀ (k : Nat) (pt : Plaintext), pts[k]? = some pt → (∃ m, pt.Holds par encoding.level m) ∧ pt.encoding = some encoding ∧
        pt.decodeU64 none = Res.ok (padTo par.degree ((v.drop (k * par.degree)).take par.degree))) ∧
      pts.mapM (fun pt => pt.decodeU64 none) = Res.ok ((List.range pts.length).map fun k => padTo par.degree ((v.drop (k * par.degree)).take par.degree)) ∧
      ((List.range pts.length).map fun k => padTo par.degree ((v.drop (k * par.degree)).take par.degree)).flatten = padTo (pts.length * par.degree) v := by
  obtain ⟨n, hw, -⟩ := build_inv hb h
  have ht := hw.t_pos
  have : NeZero par.plaintext.value := ⟨by omega⟩
  obtain ⟨ζ, hζ⟩ := PlaintextVec.exists_root hw
  obtain ⟨l, hl⟩ := hw.exists_level hlev
  rw [← hw.modulusAt_eq hl] at hQ
  obtain ⟨ms, e1, e2⟩ := PlaintextVec.encodeU64_msg hw hζ hl hQ hk vt hlt h64
  have hdec : ∀ k, Plaintext.decodeU64 { par, encoding := some encoding, polyNtt := enc l.ctx .ntt vt (ofNats l.ctx (msgCoeffs (ms k))) } none =
      Res.ok (padTo par.degree ((v.drop (k * par.degree)).take par.degree)) := by
    intro k
    have hsub : ∀ x ∈ (v.drop (k * par.degree)).take par.degree, x < par.plaintext.value := fun x hx => hlt x (List.mem_of_mem_drop (List.mem_of_mem_take hx))
    rw [Plaintext.decodeU64_eq hw hζ (Plaintext.holds_enc hw hl hQ _ _ _) (Plaintext.resolveEncoding_ok (Or.inl ⟨rfl, Or.inl rfl⟩)) hk, Plaintext.decoded_chunk hw (e2 k) hsub]
    cases hs : encoding.kind with
    | simd =>
      have := Plaintext.small_of_op hw (hk hs)
      intro x hx
      have := msgCoeffs_lt (ms k) x hx
      omega
    | poly =>
      have := e2 k
      rw [hs] at this
      rw [show msgCoeffs (ms k) = _ from this]
      exact padTo_lt (by norm_num) fun x hx => h64 x (List.mem_of_mem_drop (List.mem_of_mem_take hx))
  refine ⟨_, e1, ?_, ?_, ?_, ?_⟩
  · rw [List.length_map, List.length_range]; rfl
  · intro k pt hpt
    rw [List.getElem?_map] at hpt
    obtain ⟨k', hk', rfl⟩ := Option.map_eq_some_iff.1 hpt
    obtain ⟨hlt', rfl⟩ : k < _ ∧ k = k' := by
      rw [List.getElem?_eq_some_iff] at hk'
      obtain ⟨a, c⟩ := hk'
      exact ⟨a, by simpa using c⟩
    exact ⟨⟨ms k, Plaintext.holds_enc hw hl hQ _ _ _⟩, rfl, hdec k⟩
  · rw [List.length_map, List.length_range, List.mapM_map]
    exact PlaintextVec.mapM_ok fun k _ => hdec k
  · rw [List.length_map, List.length_range]
    have hN : 0 < par.degree := by rw [hw.degree]; positivity
    have : ∀ (M N : Nat), 0 < N → ((List.range M).map fun k => padTo N ((v.drop (k * N)).take N)).flatten = padTo (M * N) v := by
      intro M N hN
      induction M with
      | zero => simp [padTo]
      | succ M ih =>
        rw [List.range_succ, List.map_append, List.flatten_append, ih, Nat.succ_mul, padTo_eq_tab (M * N + N), tab_add, ← padTo_eq_tab]
        congr 1
        simp only [List.map_cons, List.map_nil, List.flatten_cons, List.flatten_nil, List.append_nil]
        rw [padTo_eq_tab]
        refine tab_congr fun i hi => ?_
        rw [List.getD_eq_getElem?_getD, List.getD_eq_getElem?_getD, List.getElem?_take, if_pos hi, List.getElem?_drop]
    exact this _ _ hN

/-! ## Concrete parameters -/

/-- The hypotheses are met by the parameters of degree 8 with plaintext modulus 17 and the moduli 97, 113, 193. -/
theorem exParams : ∃ par : Par, build luckyBuild exBuilder = Res.ok par.toBfvParameters ∧ par.degree = 8 ∧ par.plaintext.value = 17 ∧ par.moduli = [97, 113, 193] ∧
    par.nttOperator ≠ none ∧ par.modulusAt 0 = 2115473 ∧ par.modulusAt 1 = 10961 ∧ par.modulusAt 2 = 97 := by
  obtain ⟨par, h⟩ := exPar
  obtain ⟨-, e1, -, e3, e2 | e2⟩ := C31_sound luckyBuild_ok h
  swap
  · exact absurd e2.1 (by decide)
  have hm : par.moduli = [97, 113, 193] := e2.2
  have hd : par.degree = 8 := e1
  have ht : par.plaintext.value = 17 := e3
  refine ⟨{ toBfvParameters := par, addr := 0 }, h, hd, ht, hm, ?_, ?_, ?_, ?_⟩
  · exact (C34_available (par := { toBfvParameters := par, addr := 0 }) luckyBuild_ok h).2 luckyBuild_lucky (by show par.plaintext.value.Prime; rw [ht]; norm_num)
      (by show par.plaintext.value < _; rw [ht]; norm_num) (by show par.plaintext.value % (2 * par.degree) = 1; rw [ht, hd])
  all_goals
    unfold BfvParameters.modulusAt
    show (par.moduli.take (par.moduli.length - _)).prod = _
    rw [hm]; rfl

/-- Slots, coefficients, signed coefficients, the scaled polynomial and a vector of twelve values at these parameters. -/
example : ∃ par : Par, (∃ pt, Plaintext.tryEncodeU64 [1, 2, 3] ⟨.simd, 1⟩ par true = Res.ok pt ∧ pt.decodeU64 none = Res.ok [1, 2, 3, 0, 0, 0, 0, 0]) ∧
    (∃ pt m, Plaintext.tryEncodeU64 [1, 2, 16] ⟨.poly, 2⟩ par false = Res.ok pt ∧ pt.decodeU64 none = Res.ok [1, 2, 16, 0, 0, 0, 0, 0] ∧ pt.Holds par 2 m) ∧
    (∃ pt, Plaintext.tryEncodeI64 [1, -2, 7, -9] ⟨.poly, 0⟩ par = Res.ok pt ∧ pt.decodeI64 none = Res.ok [1, -2, 7, -9, 0, 0, 0, 0]) ∧
    (∃ pts, PlaintextVec.tryEncodeU64 [1, 2, 3, 4, 5, 6, 7, 8, 9, 10, 11, 12] ⟨.simd, 0⟩ par true = Res.ok pts ∧ pts.length = 2 ∧
      pts.mapM (fun pt => pt.decodeU64 none) = Res.ok [[1, 2, 3, 4, 5, 6, 7, 8], [9, 10, 11, 12, 0, 0, 0, 0]]) := by
  obtain ⟨par, h, hd, ht, hm, hop, h0, h1, h2⟩ := exParams
  refine ⟨par, ?_, ?_, ?_, ?_⟩
  · obtain ⟨ζ, -, hh, -⟩ := C34_simd luckyBuild_ok h hop
    obtain ⟨m, -, hh, -⟩ := hh [1, 2, 3] 1 (by rw [hd]; decide) (by rw [ht]; decide) (by rw [hm]; decide) (by rw [h1, ht]; decide)
    obtain ⟨pt, e1, -, -, e2⟩ := hh true
    exact ⟨pt, e1, by rw [e2, hd]; rfl⟩
  · obtain ⟨m, -, -, -, hh⟩ := C35_poly luckyBuild_ok h (level := 2) (by rw [hm]; decide) (by rw [h2, ht]; decide) (v := [1, 2, 16]) (by rw [hd]; decide) (by rw [ht]; decide)
    obtain ⟨pt, e1, e3, -, e2⟩ := hh (by decide) false
    exact ⟨pt, m, e1, by rw [e2, hd]; rfl, e3⟩
  · obtain ⟨pt, m, e1, -, -, -, e2⟩ := C35_signed luckyBuild_ok h (encoding := ⟨.poly, 0⟩) (by rw [hm]; decide) (by rw [h0, ht]; decide) (fun h => by cases h)
      (v := [1, -2, 7, -9]) (by rw [hd]; decide) (by decide)
    exact ⟨pt, e1, by rw [e2 (by rw [ht]; decide), hd]; rfl⟩
  · obtain ⟨pts, e1, e2, -, e3, -⟩ := C54_vector luckyBuild_ok h (encoding := ⟨.simd, 0⟩) (by rw [hm]; decide) (by rw [h0, ht]; decide) (fun _ => hop)
      (v := [1, 2, 3, 4, 5, 6, 7, 8, 9, 10, 11, 12]) (by rw [ht]; decide) (by decide) true
    have : pts.length = 2 := by rw [e2, hd]; rfl
    refine ⟨pts, e1, this, ?_⟩
    rw [e3, this, hd]; rfl

/-- C35, the limit is met: 100 encoded as a coefficient at these parameters decodes to `100 mod 97 mod 17 = 3`, not to `100 mod 17 = 15`. -/
theorem C35_not_reduced : ∃ (par : Par) (pt : Plaintext), build luckyBuild exBuilder = Res.ok par.toBfvParameters ∧ par.plaintext.value = 17 ∧
    Plaintext.tryEncodeU64 [100] ⟨.poly, 0⟩ par true = Res.ok pt ∧ pt.decodeU64 none = Res.ok [3, 0, 0, 0, 0, 0, 0, 0] := by
  obtain ⟨par, h, hd, ht, hm, hop, h0, h1, h2⟩ := exParams
  obtain ⟨pt, e1, e2⟩ := C35_unreduced luckyBuild_ok h (level := 0) (q := 97) (by rw [hm]; decide) (by rw [hm]; rfl) (by rw [ht]; norm_num) (by rw [ht]; norm_num) (v := [100])
    (by rw [hd]; decide) (by decide) true
  exact ⟨par, pt, h, ht, e1, by rw [e2, hd, ht]; rfl⟩

/-- A plaintext that holds a message has the scaled polynomial of C36. -/
example : ∃ (par : Par) (pt : Plaintext) (m : par.Msg) (p : Poly .ntt), pt.Holds par 1 m ∧ pt.toPoly = some p ∧ coeff m 2 = 16 := by
  obtain ⟨par, h, hd, ht, hm, hop, h0, h1, h2⟩ := exParams
  obtain ⟨m, hc, -, -, hh⟩ := C35_poly luckyBuild_ok h (level := 1) (by rw [hm]; decide) (by rw [h1, ht]; decide) (v := [1, 2, 16]) (by rw [hd]; decide) (by rw [ht]; decide)
  obtain ⟨pt, e1, e3, -, e2⟩ := hh (by decide) false
  obtain ⟨p, e4, -⟩ := C36_scaling luckyBuild_ok h e3 (by rw [h1, ht]; decide)
  exact ⟨par, pt, m, p, e3, e4, hc 2⟩

end Fhe.Props
