import Verif.Spec.Circuit
import Verif.Props.BfvEval
import Verif.Props.BfvMultiplicator
import Verif.Props.BfvRgsw
/-!
# Property C60: every computation on ciphertexts
-/
namespace Fhe.Props
open Nega Poly ParamsBuilder

variable {b : Build} {par : Par} {st : ParamsBuilder} {s : IntPoly par.degree} {sk : SecretKey} {i : Nat} {E : Circuit.Env} {D : Circuit.Data par}

/-- C60: every admissible computation, of any size and depth, runs without panic or error, and its result is a ciphertext of two parts that
encrypts what the computation should give on the messages, with noise at most the bound that is computed from the bounds on the inputs.
(No bound on the noise is needed for this.) -/
theorem C60_evaluate (hb : b.OK) (h : build b st = Res.ok par.toBfvParameters) (hcount : par.moduli.length ≤ 31) (hsum : par.moduli.sum ≤ 2 ^ 65) (hS : s.Bounded D.secret)
    (c : Circuit i) (hc : c.Admissible b E s D) :
    ∃ r v, c.eval E = Res.ok r ∧ r.Encrypts par s i (c.value D) v ∧ r.c.length = 2 ∧ v.Bounded (c.noise E D) := by
  obtain ⟨n, hw, -⟩ := build_inv hb h
  have htp : 0 < par.plaintext.value := by have := hw.t_pos; omega
  have hplain : ∀ (w : IntPoly par.degree) (Q : Nat) (m : par.Msg), (∀ j, w j = ((Q * (m j).val % par.plaintext.value : Nat) : Int)) → w.Bounded par.plaintext.value := by
    intro w Q m hw' j
    have : Q * (m j).val % par.plaintext.value < par.plaintext.value := Nat.mod_lt _ htp
    rw [hw' j, abs_of_nonneg (by positivity)]
    exact_mod_cast this.le
  induction c with
  | input i k =>
    obtain ⟨v, h1, h2, h3⟩ := hc
    exact ⟨_, v, rfl, h1, h2, h3⟩
  | add x y ihx ihy =>
    obtain ⟨r, v, e1, e2, e3, e4⟩ := ihx hc.1
    obtain ⟨r', v', f1, f2, f3, f4⟩ := ihy hc.2
    obtain ⟨o, g1, g2, g3, -⟩ := C38_add hb h e2 f2 (by rw [e3, f3])
    refine ⟨o, _, ?_, g2, by rw [g3, e3], e4.add f4⟩
    unfold Circuit.eval
    rw [e1, Res.ok_bind, f1, Res.ok_bind, g1, Res.lift_some]
  | sub x y ihx ihy =>
    obtain ⟨r, v, e1, e2, e3, e4⟩ := ihx hc.1
    obtain ⟨r', v', f1, f2, f3, f4⟩ := ihy hc.2
    obtain ⟨o, g1, g2, g3, -⟩ := C38_sub hb h e2 f2 (by rw [e3, f3])
    refine ⟨o, _, ?_, g2, by rw [g3, e3], e4.sub f4⟩
    unfold Circuit.eval
    rw [e1, Res.ok_bind, f1, Res.ok_bind, g1, Res.lift_some]
  | neg x ihx =>
    obtain ⟨r, v, e1, e2, e3, e4⟩ := ihx hc
    obtain ⟨o, g1, g2, g3, -⟩ := C38_neg hb h e2
    refine ⟨o, _, ?_, g2, by rw [g3, e3], e4.neg⟩
    unfold Circuit.eval
    rw [e1, Res.ok_bind, g1, Res.lift_some]
  | addPlain x k ihx =>
    obtain ⟨hx, hp, hQ⟩ := hc
    obtain ⟨r, v, e1, e2, e3, e4⟩ := ihx hx
    obtain ⟨w, hw', ⟨o, g1, g2, g3, -⟩, -⟩ := C38_plain hb h hQ e2 hp
    refine ⟨o, _, ?_, g2, by rw [g3, e3], e4.sub (hplain _ _ _ hw')⟩
    unfold Circuit.eval
    rw [e1, Res.ok_bind, g1, Res.lift_some]
  | subPlain x k ihx =>
    obtain ⟨hx, hp, hQ⟩ := hc
    obtain ⟨r, v, e1, e2, e3, e4⟩ := ihx hx
    obtain ⟨w, hw', -, ⟨o, g1, g2, g3, -⟩, -⟩ := C38_plain hb h hQ e2 hp
    refine ⟨o, _, ?_, g2, by rw [g3, e3], e4.add (hplain _ _ _ hw')⟩
    unfold Circuit.eval
    rw [e1, Res.ok_bind, g1, Res.lift_some]
  | plainSub k x ihx =>
    obtain ⟨hx, hp, hQ⟩ := hc
    obtain ⟨r, v, e1, e2, e3, e4⟩ := ihx hx
    obtain ⟨w, hw', -, -, ⟨o, g1, g2, g3, -⟩⟩ := C38_plain hb h hQ e2 hp
    refine ⟨o, _, ?_, g2, by rw [g3, e3], e4.neg.sub (hplain _ _ _ hw')⟩
    unfold Circuit.eval
    rw [e1, Res.ok_bind, g1, Res.lift_some]
  | mulPlain x k ihx =>
    obtain ⟨hx, hp⟩ := hc
    obtain ⟨r, v, e1, e2, e3, e4⟩ := ihx hx
    obtain ⟨o, P, g1, g2, g3, g4, -⟩ := C38_mul_plain hb h e2 hp
    have : NeZero par.plaintext.value := ⟨by omega⟩
    refine ⟨o, _, ?_, g3, by rw [g4, e3], e4.mul fun j => ?_⟩
    · unfold Circuit.eval
      rw [e1, Res.ok_bind, g1, Res.lift_some]
    · rw [g2, abs_of_nonneg (by positivity)]
      exact_mod_cast (ZMod.val_lt _).le
  | @mul i x y ihx ihy =>
    obtain ⟨hx, hy, j, hk⟩ := hc
    obtain ⟨r, v, e1, e2, e3, e4⟩ := ihx hx
    obtain ⟨r', v', f1, f2, f3, f4⟩ := ihy hy
    obtain ⟨o, w, g1, g2, g3, g4⟩ := C39_bound hb h hcount hsum e2 f2 (by rw [e3]; norm_num) hS e4 f4
    rw [e3, f3] at g3 g4
    obtain ⟨o', W, k1, k2, k3, k4⟩ := C41_relinearize hb h hk g2 g3
    refine ⟨o', _, ?_, k2, k3, ?_⟩
    · unfold Circuit.eval
      rw [e1, Res.ok_bind, f1, Res.ok_bind, g1, Res.lift_some, Res.ok_bind, k1]
    · have := g4.add ((k4 _ hS).C_mul (par.plaintext.value : Int))
      rw [Int.natAbs_natCast] at this
      exact this
  | @multiply i x y ihx ihy =>
    obtain ⟨hx, hy, ⟨j, hk⟩, hmp⟩ := hc
    obtain ⟨r, v, e1, e2, e3, e4⟩ := ihx hx
    obtain ⟨r', v', f1, f2, f3, f4⟩ := ihy hy
    obtain ⟨o, w, g1, g2, g3, -, g4, -⟩ := (C39_default hb h hcount hsum hk).2 _ hmp e2 f2 e3 f3 hS e4 f4
    refine ⟨o, w, ?_, g2, g3, g4⟩
    unfold Circuit.eval
    rw [e1, Res.ok_bind, f1, Res.ok_bind, g1]
  | external x k ihx =>
    obtain ⟨hx, hk⟩ := hc
    obtain ⟨r, v, e1, e2, e3, e4⟩ := ihx hx
    obtain ⟨o, w, g1, g2, g3, g4⟩ := C45_bound hb h hk e2 e3 e4
    refine ⟨o, w, ?_, g2, g3, g4⟩
    unfold Circuit.eval
    rw [e1, Res.ok_bind, g1, Res.lift_some]
  | rotateRows x ihx =>
    obtain ⟨hx, ⟨j, hk⟩, hB, hsup⟩ := hc
    obtain ⟨r, v, e1, e2, e3, e4⟩ := ihx hx
    obtain ⟨o, w, g1, g2, g3, g4, -⟩ := (C42_rotate hb h hk hS hB e2 e3 e4).1 hsup
    refine ⟨o, w, ?_, g2, g3, g4⟩
    unfold Circuit.eval
    rw [e1, Res.ok_bind, g1]
  | rotateColumns x steps ihx =>
    obtain ⟨hx, ⟨j, hk⟩, hB, hsup⟩ := hc
    obtain ⟨r, v, e1, e2, e3, e4⟩ := ihx hx
    obtain ⟨o, w, g1, g2, g3, g4, -⟩ := (C42_rotate hb h hk hS hB e2 e3 e4).2 _ hsup
    refine ⟨o, w, ?_, g2, g3, g4⟩
    unfold Circuit.eval
    rw [e1, Res.ok_bind, g1]
  | innerSum x ihx =>
    obtain ⟨hx, ⟨j, hk⟩, hB, hsup⟩ := hc
    obtain ⟨r, v, e1, e2, e3, e4⟩ := ihx hx
    obtain ⟨o, w, g1, g2, g3, g4, -⟩ := C43_inner_sum hb h hk hS hB e2 e3 e4 hsup
    refine ⟨o, w, ?_, g2, g3, g4⟩
    unfold Circuit.eval
    rw [e1, Res.ok_bind, g1]
  | @switchDown i x ihx =>
    obtain ⟨hx, hi⟩ := hc
    obtain ⟨r, v, e1, e2, e3, e4⟩ := ihx hx
    obtain ⟨o, w, q, g1, g2, g3, g4⟩ := C46_switch_down_bound hb h e2 hi hS e4
    obtain ⟨o', -, -, -, k1, -, k2, -⟩ := C46_switch_down hb h e2 hi
    obtain rfl : o = o' := Res.ok_inj.1 (g1.symm.trans k1)
    have hq : par.moduli.getD (par.moduli.length - 1 - i) 0 = q := by rw [List.getD_eq_getElem?_getD, g3]; rfl
    refine ⟨o, w, ?_, g2, by rw [k2, e3], ?_⟩
    · unfold Circuit.eval
      rw [e1, Res.ok_bind, g1]
    · unfold Circuit.noise
      rw [e3] at g4
      simp only [hq]
      exact g4

/-- C60: if the bound on the noise leaves room, then the result decrypts to what the computation should give on the messages. -/
theorem C60_decrypt (hb : b.OK) (h : build b st = Res.ok par.toBfvParameters) (hr : par.toBfvParameters.Reliable i) (hk : sk.IsKey par s) (hS : s.Bounded D.secret)
    (c : Circuit i) (hc : c.Admissible b E s D) (hroom : 2 ^ 62 * c.noise E D ≤ (2 ^ 61 - 1) * par.modulusAt i) :
    ∃ r pt, c.eval E = Res.ok r ∧ sk.tryDecrypt b r = Res.ok pt ∧ pt.Holds par i (c.value D) ∧ pt.encoding = none := by
  obtain ⟨r, v, e1, e2, -, e4⟩ := C60_evaluate hb h hr.count hr.sum hS c hc
  obtain ⟨pt, f1, f2, f3⟩ := C37_decrypt hb h hr hk e2 (small_of_bounded e4 hroom)
  exact ⟨r, pt, e1, f1, f2, f3⟩

/-! ## Slots -/

theorem zipWith_tab {α β γ : Type} (f : α → β → γ) (n : Nat) (x : Nat → α) (y : Nat → β) : List.zipWith f (tab n x) (tab n y) = tab n fun j => f (x j) (y j) := by
  unfold tab
  rw [List.zipWith_map, List.zipWith_self]

/-- C60: what a computation gives on slots is what it gives on polynomials: any plaintext that holds the polynomial decodes to the slots. -/
theorem C60_value_slots (hb : b.OK) (h : build b st = Res.ok par.toBfvParameters) (hop : par.nttOperator ≠ none) {ct pt rgsw : Nat → Nat → List Nat}
    (hct : ∀ i k, HasSlots par (D.msg i k) (ct i k)) (hpt : ∀ i k, HasSlots par (D.plain i k) (pt i k)) (hrgsw : ∀ i k, HasSlots par (D.rgsw i k) (rgsw i k)) (c : Circuit i) {p : Plaintext} {level : Nat}
    (e3 : p.Holds par level (c.value D)) (e4 : p.encoding = none) (lv : Nat) : p.decodeU64 (some ⟨.simd, lv⟩) = Res.ok (c.slots par.degree par.plaintext.value ct pt rgsw) := by
  obtain ⟨n, hw, -⟩ := build_inv hb h
  obtain ⟨ζ, hζ, -⟩ := Plaintext.slots_inj hw hop
  have hneg := hζ.neg_one hw hop
  have hsm := Plaintext.small_of_op hw hop
  have ht := hw.t_pos
  have : NeZero par.plaintext.value := ⟨by omega⟩
  have hn : 3 ≤ n := hw.three_le
  have hN := hw.degree
  have h64 : ∀ m : par.Msg, ∀ x ∈ msgCoeffs m, x < 2 ^ 64 := fun m x hx => by have := msgCoeffs_lt m x hx; omega
  have dec : ∀ {pt : Plaintext} {level lv : Nat} {m : par.Msg} {e : Option Encoding}, pt.Holds par level m → pt.resolveEncoding e = Res.ok ⟨.simd, lv⟩ →
      pt.decodeU64 e = Res.ok (tab par.degree fun i => (slotValue ζ m i).val) := by
    intro pt level lv m e hm he
    rw [Plaintext.decodeU64_eq hw hζ hm he (fun _ => hop) (h64 _)]
    rfl
  have has : ∀ {m : par.Msg} {x : List Nat}, HasSlots par m x → x = tab par.degree fun i => (slotValue ζ m i).val := by
    rintro m x ⟨pt, level, lv, h1, h2, h3⟩
    rw [dec h1 (Plaintext.resolveEncoding_ok (Or.inl ⟨h2, Or.inl rfl⟩)), Res.ok_inj] at h3
    exact h3.symm
  have hsw := fun m m' j => C34_slotwise hneg ⟨n, by omega, hN⟩ (m : par.Msg) m' j
  have vsub : ∀ x y : ZMod par.plaintext.value, (x - y).val = (x.val + par.plaintext.value - y.val) % par.plaintext.value := by
    intro x y
    have := y.val_lt
    rw [← ZMod.val_natCast, Nat.cast_sub (by omega), Nat.cast_add]; simp
  have vneg : ∀ x : ZMod par.plaintext.value, (-x).val = (par.plaintext.value - x.val) % par.plaintext.value := by
    intro x
    have := x.val_lt
    rw [← ZMod.val_natCast, Nat.cast_sub (by omega)]; simp
  have zadd : ∀ x y : par.Msg, List.zipWith (fun x y => (x + y) % par.plaintext.value) (tab par.degree fun j => (slotValue ζ x j).val) (tab par.degree fun j => (slotValue ζ y j).val) =
      tab par.degree fun j => (slotValue ζ (x + y) j).val := fun x y => by
    rw [zipWith_tab]; exact tab_congr fun j _ => by rw [(hsw x y j).1, ZMod.val_add]
  have zsub : ∀ x y : par.Msg, List.zipWith (fun x y => (x + par.plaintext.value - y) % par.plaintext.value) (tab par.degree fun j => (slotValue ζ x j).val)
      (tab par.degree fun j => (slotValue ζ y j).val) = tab par.degree fun j => (slotValue ζ (x - y) j).val := fun x y => by
    rw [zipWith_tab]; exact tab_congr fun j _ => by rw [(hsw x y j).2.1, vsub]
  have zmul : ∀ x y : par.Msg, List.zipWith (fun x y => x * y % par.plaintext.value) (tab par.degree fun j => (slotValue ζ x j).val) (tab par.degree fun j => (slotValue ζ y j).val) =
      tab par.degree fun j => (slotValue ζ (x * y) j).val := fun x y => by
    rw [zipWith_tab]; exact tab_congr fun j _ => by rw [(hsw x y j).2.2.2.1, ZMod.val_mul]
  rw [dec e3 (Plaintext.resolveEncoding_ok (Or.inr ⟨e4, rfl⟩)), Res.ok_inj]
  clear e3 e4
  symm
  induction c with
  | input i k => exact has (hct i k)
  | add x y ihx ihy => unfold Circuit.slots Circuit.value; rw [ihx, ihy, zadd]
  | sub x y ihx ihy => unfold Circuit.slots Circuit.value; rw [ihx, ihy, zsub]
  | neg x ihx =>
    unfold Circuit.slots Circuit.value
    rw [ihx, tab_map]
    exact tab_congr fun j _ => by rw [(hsw _ 0 j).2.2.1, vneg]
  | addPlain x k ihx => unfold Circuit.slots Circuit.value; rw [ihx, has (hpt _ k), zadd]
  | subPlain x k ihx => unfold Circuit.slots Circuit.value; rw [ihx, has (hpt _ k), zsub]
  | plainSub k x ihx => unfold Circuit.slots Circuit.value; rw [ihx, has (hpt _ k), zsub]
  | mulPlain x k ihx => unfold Circuit.slots Circuit.value; rw [ihx, has (hpt _ k), zmul]
  | mul x y ihx ihy => unfold Circuit.slots Circuit.value; rw [ihx, ihy, zmul]
  | multiply x y ihx ihy => unfold Circuit.slots Circuit.value; rw [ihx, ihy, zmul]
  | external x k ihx => unfold Circuit.slots Circuit.value; rw [ihx, has (hrgsw _ k), zmul]
  | rotateRows x ihx =>
    unfold Circuit.slots Circuit.value
    rw [ihx]
    refine List.map_congr_left fun i hi => ?_
    have hi' : i < par.degree := by simpa using hi
    have hlt : swapRows par.degree i < par.degree := Nat.mod_lt _ (by omega)
    rw [slot_subst hneg (by omega) hN _ _ i _ (slotPower_swap (by omega) hN (Nat.mod_eq_of_lt (by omega)) hi'), NttOperator.tab_getD _ hlt]
  | rotateColumns x steps ihx =>
    unfold Circuit.slots Circuit.value
    rw [ihx]
    refine List.map_congr_left fun i hi => ?_
    have hi' : i < par.degree := by simpa using hi
    have hlt : rotateColumns par.degree steps i < par.degree := rotateColumns_lt (by omega) hN
    rw [slot_subst hneg (by omega) hN _ _ i _ (slotPower_rotate (by omega) hN rfl i), NttOperator.tab_getD _ hlt]
  | innerSum x ihx =>
    unfold Circuit.slots Circuit.value
    rw [ihx]
    symm
    refine List.eq_replicate_iff.2 ⟨length_tab _ _, fun y hy => ?_⟩
    obtain ⟨c, hc, rfl⟩ := List.mem_map.1 hy
    have hc' : c < par.degree := by simpa using hc
    have key := slotValue_total hneg (by omega) hN (x.value D) hc'
    have htr := trace_eq hn hN (x.value D)
    simp only [] at key htr
    rw [htr] at key
    show (slotValue ζ (C _) c).val = _
    rw [key, ← cast_sum_tab, ZMod.val_natCast]
    rfl
  | switchDown x ihx => unfold Circuit.slots Circuit.value; exact ihx

/-- C60: with SIMD encoding, every admissible computation whose noise leaves room acts on the slots as it should: when the given ciphertexts,
plaintexts and RGSW ciphertexts hold the slots `ct`, `pt` and `rgsw`, the result decrypts to a plaintext that decodes to the slots computed
from these. -/
theorem C60_slots (hb : b.OK) (h : build b st = Res.ok par.toBfvParameters) (hr : par.toBfvParameters.Reliable i) (hop : par.nttOperator ≠ none) (hk : sk.IsKey par s) (hS : s.Bounded D.secret)
    {ct pt rgsw : Nat → Nat → List Nat} (hct : ∀ i k, HasSlots par (D.msg i k) (ct i k)) (hpt : ∀ i k, HasSlots par (D.plain i k) (pt i k))
    (hrgsw : ∀ i k, HasSlots par (D.rgsw i k) (rgsw i k)) (c : Circuit i) (hc : c.Admissible b E s D) (hroom : 2 ^ 62 * c.noise E D ≤ (2 ^ 61 - 1) * par.modulusAt i) :
    ∃ r p, c.eval E = Res.ok r ∧ sk.tryDecrypt b r = Res.ok p ∧ ∀ lv, p.decodeU64 (some ⟨.simd, lv⟩) = Res.ok (c.slots par.degree par.plaintext.value ct pt rgsw) := by
  obtain ⟨r, p, e1, e2, e3, e4⟩ := C60_decrypt hb h hr hk hS c hc hroom
  exact ⟨r, p, e1, e2, C60_value_slots hb h hop hct hpt hrgsw c e3 e4⟩

/-- At the parameters of `exCipher`: from encryptions of `m` and `m'` and an RGSW encryption of `m'`, the computation of `m m' - m' m' + m`
(with a multiplication, an external product and an addition of a plaintext) followed by the swap of the rows and by a switch to the next
level is admissible, leaves room, and decrypts to the right polynomial. -/
example : ∃ (par : Par) (sk : SecretKey) (s : IntPoly par.degree) (m m' : par.Msg) (E : Circuit.Env) (D : Circuit.Data par),
    msgCoeffs m = [1, 2, 16, 0, 0, 0, 0, 0] ∧ msgCoeffs m' = [5, 4, 3, 0, 0, 0, 0, 0] ∧
    let c : Circuit 1 := .switchDown (.rotateRows (.addPlain (.sub (.multiply (.input 0 0) (.input 0 1)) (.external (.input 0 1) 0)) 0))
    c.Admissible luckyBuild E s D ∧ 2 ^ 62 * c.noise E D ≤ (2 ^ 61 - 1) * par.modulusAt 1 ∧ c.value D = Nega.subst 15 (m * m' - m' * m' + m) ∧
    ∃ r pt, c.eval E = Res.ok r ∧ sk.tryDecrypt luckyBuild r = Res.ok pt ∧ pt.Holds par 1 (Nega.subst 15 (m * m' - m' * m' + m)) := by
  obtain ⟨par, sk, s, pt, pt', m, m', ct, ct', v, v', h, hd, ht, hm, hrel, hk, hs, e2, e2', em, em', f1, f1', f2, f2', f3, f3', f4, f4', f5, f6, h0, hvar⟩ := exCipher
  have hb := luckyBuild_ok
  have h1 : par.modulusAt 1 = 10961 := by unfold BfvParameters.modulusAt; rw [hm]; rfl
  have h64 : par.moduli.length ≤ 64 := by rw [hm]; decide
  obtain ⟨rk, a1, a2, a3⟩ := (C41_new (i := 0) (j := 0) hb h h64 hk exPrg_ok (List.replicate 32 3) (rngs := fun _ => exRng) (fun _ => exRng_ok)).1 (by rw [hm]; decide) (le_refl _) (by rw [hm]; decide)
  obtain ⟨mp, hmp⟩ := (C39_default hb h hrel.count hrel.sum a2).1 luckyBuild_lucky
  obtain ⟨bd, bd', ek, -, -, -, g4, g5, g6, g7, g8, g9, g10, g11⟩ := C50_build (i := 0) (j := 0) hb h h64 hk exPrg_ok (by rw [hm]; decide) (le_refl _)
    [.rows] (fun _ => List.replicate 32 3) (rngs := fun _ _ => exRng) (fun _ _ => exRng_ok)
  obtain ⟨rg, b1, b2, b3⟩ := C45_encrypt hb h hk exPrg_ok e2' (List.replicate 32 3) (List.replicate 32 4) (rngs0 := fun _ => exRng) (rngs1 := fun _ => exRng) (fun _ => exRng_ok) (fun _ => exRng_ok)
  obtain ⟨b4, b5⟩ := b3 (by rw [hm]; decide)
  let E : Circuit.Env := ⟨fun _ k => if k = 0 then ct else ct', fun _ _ => pt, fun _ _ => rg, fun _ => rk, fun _ => mp, fun _ => ek⟩
  let D : Circuit.Data par := ⟨fun _ k => if k = 0 then m else m', fun _ _ => 51, fun _ _ => m, fun _ _ => m', 2, 2 * par.variance, fun _ =>
    (2 * (par.degree * (par.moduli.take (par.moduli.length - 0)).sum * (2 * par.variance)) + (0 - 0) * (par.modulusAt 0 / par.modulusAt 0) * (1 + par.degree * 2)) / (2 * (par.modulusAt 0 / par.modulusAt 0))⟩
  let c : Circuit 1 := .switchDown (.rotateRows (.addPlain (.sub (.multiply (.input 0 0) (.input 0 1)) (.external (.input 0 1) 0)) 0))
  have hc : c.Admissible luckyBuild E s D :=
    ⟨⟨⟨⟨⟨⟨v, f2, f4, f3⟩, ⟨v', f2', f4', f3'⟩, ⟨0, a2⟩, hmp⟩, ⟨v', f2', f4', f3'⟩, b2⟩, e2, by rw [h0, ht]; decide⟩, ⟨0, g4⟩, g6 (by rw [hm]; decide) 2, g7.2 (by simp)⟩, by rw [hm]; decide⟩
  have hroom : 2 ^ 62 * c.noise E D ≤ (2 ^ 61 - 1) * par.modulusAt 1 := by
    simp only [c, E, D, Circuit.noise, Circuit.productNoise, KeySwitchingKey.errorBound, KeySwitchingKey.ratio]
    rw [a3, a2.level, a2.keyLevel, b4, b5, h0, h1, ht, hd, hm, hvar]
    decide
  have hrel1 : par.toBfvParameters.Reliable 1 := ⟨hrel.count, hrel.sum, by rw [h1, ht]; decide, hrel.first⟩
  have hval : c.value D = Nega.subst 15 (m * m' - m' * m' + m) := by
    show Nega.subst (2 * par.degree - 1) (m * m' - m' * m' + m) = _
    rw [show 2 * par.degree - 1 = 15 by omega]
  obtain ⟨r, pt, r1, r2, r3, -⟩ := C60_decrypt hb h hrel1 hk (D := D) hs c hc hroom
  exact ⟨par, sk, s, m, m', E, D, em, em', hc, hroom, hval, r, pt, r1, r2, hval ▸ r3⟩

/-- Every list of slots is that of a message: the slots of `exCipher`'s parameters. -/
example : ∃ par : Par, par.nttOperator ≠ none ∧ par.degree = 8 ∧ ∃ m : par.Msg, HasSlots par m [1, 2, 3, 4, 5, 6, 7, 16] := by
  obtain ⟨par, sk, s, pt, pt', m, m', ct, ct', v, v', h, hd, ht, hm, hrel, hk, hs, e2, e2', em, em', f1, f1', f2, f2', f3, f3', f4, f4', f5, f6, h0, hvar⟩ := exCipher
  have hop := (C34_available luckyBuild_ok h).2 luckyBuild_lucky (by rw [ht]; norm_num) (by rw [ht]; norm_num) (by rw [ht, hd])
  obtain ⟨_, _, h1, _⟩ := C34_simd luckyBuild_ok h hop
  obtain ⟨m, -, h2, -⟩ := h1 [1, 2, 3, 4, 5, 6, 7, 16] 0 (by rw [hd]; decide) (by rw [ht]; decide) (by rw [hm]; decide) (by rw [h0, ht]; decide)
  obtain ⟨pt, -, h3, h4, h5⟩ := h2 false
  exact ⟨par, hop, hd, m, pt, 0, 0, h3, h4, by rw [h5, hd]; rfl⟩

end Fhe.Props
