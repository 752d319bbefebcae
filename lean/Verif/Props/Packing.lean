import Verif.Lemmas.Packing
import Verif.Props.Capacity
/-!
# Property C92 for computations with rotations
-/
namespace Fhe.Props
open Nega Poly ParamsBuilder

variable {b : Build} {par : Par} {bits : Nat} {l : List BfvParameters}

/-- C92 with rotations: each of the sizes in the list.  With predefined parameters of that degree and a plaintext modulus of no more bits than
given, a relinearization key and an evaluation key for any requests can be generated, and every computation on fresh ciphertexts by additions,
subtractions, products, and the requested rotations and inner sums, that does not exceed the size, runs without panic or error and decrypts to
the same computation on the messages: for all messages and for all random choices. -/
theorem C92_packed (hb : b.OK) (hl : defaultParameters128 b bits = Res.ok l) (hpar : par.toBfvParameters ∈ l) {P : Packing} (hP : P ∈ packings) (hN : par.degree = P.degree) (hbits : bits ≤ P.bits)
    {g : Prg} (hg : g.OK) {seed seed' : Seed} (h32 : seed.length = 32) {rng rng' : Nat → Nat} {rngs : Nat → Nat → Nat} (h1 : IsStream rng) (h2 : IsStream rng') (h3 : ∀ i, IsStream (rngs i))
    (rs : List EvaluationRequest) (seeds : Nat → Seed) {rngs' : Nat → Nat → Nat → Nat} (h4 : ∀ x i, IsStream (rngs' x i)) :
    ∃ sk pk rk bd bd' ek, SecretKey.random par rng = some sk ∧ PublicKey.new g sk seed rng' = some pk ∧ RelinearizationKey.newLeveled b g sk 0 0 seed' rngs = Res.ok rk ∧
      EvaluationKeyBuilder.newLeveled b sk 0 0 = Res.ok bd ∧ bd.requests rs = some bd' ∧ bd'.build b g seeds rngs' = Res.ok ek ∧ (b.Lucky → ∃ mp, Multiplicator.default b rk = Res.ok mp) ∧
      (∀ (pt : Plaintext) (m : par.Msg) (r : EncryptRandom), pt.Holds par 0 m → r.OK → ∃ ct, pk.tryEncrypt pt r.u r.e1 r.e2 = Res.ok ct) ∧
      ∀ (E : Circuit.Env) (D : Circuit.Data par), E.rk 0 = rk → E.ek 0 = ek → Multiplicator.default b rk = Res.ok (E.mp 0) → (∀ k, (E.pt 0 k).Holds par 0 (D.plain 0 k)) →
        (∀ k, ∃ pt, pt.Holds par 0 (D.msg 0 k) ∧ Fresh g sk pk pt (E.ct 0 k)) → ∀ c : Circuit 0, c.Packed par.degree P.factorParts P.factorRotations rs →
          c.parts par.degree ≤ P.parts → c.rotations par.degree ≤ P.rotations → c.products ≤ P.products →
          ∃ r pt, c.eval E = Res.ok r ∧ sk.tryDecrypt b r = Res.ok pt ∧ pt.Holds par 0 (c.value D) ∧ pt.encoding = none := by
  obtain ⟨e, he, e1, e2, e3, e4⟩ := ((C31_defaults hb bits).1 l hl).2 _ hpar
  have h := C31_defaults_build hb hl _ hpar
  obtain ⟨n, hw, -⟩ := build_inv hb h
  obtain ⟨lv, hlv⟩ := AtLevel.ofLt hw (List.length_pos_of_ne_nil hw.ne_nil)
  have hQ0 : par.modulusAt 0 = e.2.prod := by unfold BfvParameters.modulusAt; rw [Nat.sub_zero, List.take_length, e2]
  have ht : par.plaintext.value ≤ 2 ^ P.bits := e4.2.2.1.le.trans (Nat.pow_le_pow_right (by norm_num) hbits)
  have hchk := packings_ok _ hP
  unfold packingCheck at hchk
  rw [List.all_eq_true] at hchk
  have hchk := hchk e (List.mem_filter.2 ⟨he, by rw [beq_iff_eq, ← hN, ← e1]⟩)
  simp only [Bool.and_eq_true, decide_eq_true_eq] at hchk
  obtain ⟨⟨⟨c1, c2⟩, c3⟩, c4⟩ := hchk
  have hlen9 := (table_facts he).2.2.1
  have hlen : 2 ≤ par.moduli.length := by rw [e2]; exact c4
  have hr := reliable_of_head hw he e2 (le_trans (Nat.mul_le_mul_left _ ht) c2)
  have hQ : par.plaintext.value ≤ par.modulusAt 0 := by have := hr.modulus; omega
  obtain ⟨sk, s, a1, a2, a3⟩ := C37_secret_key (par := par) hb h h1
  obtain ⟨pk, v, p1, p2, p3, p4, p5, -⟩ := C37_public_key hb h a2 hg h32 h2
  have hv : 2 * par.variance = 20 := by rw [e3]
  obtain ⟨rk, f1, f2, f3⟩ := (C41_new hb h (by rw [e2]; omega) a2 hg seed' h3 (i := 0) (j := 0)).1 (by omega) (le_refl _) (by omega)
  have hrkb : rk.ksk.errorBound par 20 20 ≤ par.degree * e.2.sum * 20 := by
    unfold KeySwitchingKey.errorBound KeySwitchingKey.ratio
    rw [f2.level, f2.keyLevel, f3, Nat.sub_zero, List.take_length, Nat.sub_self, Nat.zero_mul, Nat.zero_mul, Nat.add_zero, Nat.div_self hlv.pos, Nat.mul_one, Nat.mul_div_cancel_left _ (by norm_num), e2]
  obtain ⟨bd, bd', ek, k1, k2, k3, k4, -, k5, k6, k7, k8, k9, -⟩ := C50_build hb h (by rw [e2]; omega) a2 hg (i := 0) (j := 0) (by omega) (le_refl _) rs seeds h4
  have hekb : ek.ErrorAtMost par 20 20 (par.degree * e.2.sum * 20) := by
    have := k5 (by omega) 20
    rwa [hv, Nat.sub_zero, List.take_length, Nat.sub_self, Nat.zero_mul, Nat.zero_mul, Nat.add_zero, Nat.div_self hlv.pos, Nat.mul_one, Nat.mul_div_cancel_left _ (by norm_num), e2] at this
  refine ⟨sk, pk, rk, bd, bd', ek, a1, p1, f1, k1, k2, k3, (C39_default hb h (by rw [e2]; omega) hr.sum f2).1, fun pt m r g1 g2 => ?_, fun E D hrk hek hmp hpt hct c hc hd1 hd2 hd3 => ?_⟩
  · obtain ⟨ct, -, f1, -⟩ := fresh hb h a3 ⟨v, p2, p3, p5, p4⟩ hQ g1 g2
    exact ⟨ct, f1⟩
  rw [hv] at a3 f2 k4
  -- the same messages, with the bounds of fresh ciphertexts
  let D' : Circuit.Data par :=
    { D with noise := fun _ _ => par.plaintext.value * (800 * par.degree + 21), secret := 20, keyError := 20, galoisError := fun _ => par.degree * e.2.sum * 20 }
  have hct' : ∀ k, ∃ v, (E.ct 0 k).Encrypts par s 0 (D.msg 0 k) v ∧ (E.ct 0 k).c.length = 2 ∧ v.Bounded (par.plaintext.value * (800 * par.degree + 21)) := by
    intro k
    obtain ⟨pt, g1, ⟨r, g2, g3⟩ | ⟨sd, rg, g2, g3, g4⟩⟩ := hct k
    · obtain ⟨ct, v, f1, f2, f3, f4⟩ := fresh hb h (by rw [hv]; exact a3) ⟨v, p2, p3, p5, p4⟩ hQ g1 g2
      obtain rfl : ct = E.ct 0 k := Res.ok_inj.1 (f1.symm.trans g3)
      exact ⟨v, f2, f3, f4.mono (le_of_eq (by unfold freshNoise; simp only []; rw [hv]; ring))⟩
    · obtain ⟨ct, v, f1, f2, f3, f4, -⟩ := C37_encrypt hb h a2 hg hQ g1 g2 g3
      obtain rfl : ct = E.ct 0 k := Res.ok_inj.1 (f1.symm.trans g4)
      exact ⟨v, f2, f4, f3.mono (by rw [hv]; exact Nat.mul_le_mul_left _ (by omega))⟩
  have hadm : ∀ {i : Nat} (c : Circuit i), i = 0 → c.Packed par.degree P.factorParts P.factorRotations rs → c.Admissible b E s D' := by
    intro i c
    induction c with
    | input i k => rintro rfl -; exact hct' k
    | add x y ihx ihy => exact fun hi hc => ⟨ihx hi hc.1, ihy hi hc.2⟩
    | sub x y ihx ihy => exact fun hi hc => ⟨ihx hi hc.1, ihy hi hc.2⟩
    | neg x ihx => exact ihx
    | addPlain x k ihx => rintro rfl hc; exact ⟨ihx rfl hc, hpt k, hQ⟩
    | subPlain x k ihx => rintro rfl hc; exact ⟨ihx rfl hc, hpt k, hQ⟩
    | plainSub k x ihx => rintro rfl hc; exact ⟨ihx rfl hc, hpt k, hQ⟩
    | mulPlain x k ihx => rintro rfl hc; exact ⟨ihx rfl hc.2.2, hpt k⟩
    | mul x y ihx ihy =>
      rintro rfl ⟨-, -, -, -, q1, q2⟩
      exact ⟨ihx rfl q1, ihy rfl q2, 0, by rw [hrk]; exact f2⟩
    | multiply x y ihx ihy =>
      rintro rfl ⟨-, -, -, -, q1, q2⟩
      exact ⟨ihx rfl q1, ihy rfl q2, ⟨0, by rw [hrk]; exact f2⟩, by rw [hrk]; exact hmp⟩
    | rotateRows x ihx =>
      rintro rfl hc
      exact ⟨ihx rfl hc.2, ⟨0, by rw [hek]; exact k4⟩, by rw [hek]; exact hekb, by rw [hek]; exact k6.2 (.inl hc.1)⟩
    | rotateColumns x steps ihx =>
      rintro rfl ⟨q1, q2, q3, q4⟩
      exact ⟨ihx rfl q4, ⟨0, by rw [hek]; exact k4⟩, by rw [hek]; exact hekb, by rw [hek]; exact k8 steps q1 q2 q3⟩
    | innerSum x ihx =>
      rintro rfl hc
      exact ⟨ihx rfl hc.2, ⟨0, by rw [hek]; exact k4⟩, by rw [hek]; exact hekb, by rw [hek]; exact k9 hc.1⟩
    | _ => exact fun _ hc => hc.elim
  have hroom : 2 ^ 62 * c.noise E D' ≤ (2 ^ 61 - 1) * par.modulusAt 0 := by
    rw [hQ0]
    refine le_trans (Nat.mul_le_mul_left _ ?_) c1
    refine (pack_le (K := par.degree * e.2.sum * 20) c3 rfl rfl rfl (fun _ => le_refl _) (by rw [hrk]; exact hrkb) c rfl hc).trans ?_
    rw [hQ0, ← hN]
    refine Nat.add_le_add (Nat.mul_le_mul hd1 ((packNoise_le c3 hd3).trans (packNoise_mono ht _))) (Nat.mul_le_mul hd2 (Nat.mul_le_mul_right _ ht))
  have := C60_decrypt hb h hr a2 (D := D') a3 c (hadm c rfl hc) hroom
  rwa [value_congr (D := D') (D' := D) rfl rfl rfl] at this

theorem slots_packed {N t w r : Nat} {rs : List EvaluationRequest} {ct pt rgsw rgsw' : Nat → Nat → List Nat} {i : Nat} (c : Circuit i) (hc : c.Packed N w r rs) :
    c.slots N t ct pt rgsw = c.slots N t ct pt rgsw' := by
  induction c with
  | input => rfl
  | add a b iha ihb => simp only [Circuit.slots]; rw [iha hc.1, ihb hc.2]
  | sub a b iha ihb => simp only [Circuit.slots]; rw [iha hc.1, ihb hc.2]
  | neg a iha => simp only [Circuit.slots]; rw [iha hc]
  | addPlain a k iha => simp only [Circuit.slots]; rw [iha hc]
  | subPlain a k iha => simp only [Circuit.slots]; rw [iha hc]
  | plainSub k a iha => simp only [Circuit.slots]; rw [iha hc]
  | mulPlain a k iha => simp only [Circuit.slots]; rw [iha hc.2.2]
  | mul a b iha ihb => obtain ⟨-, -, -, -, q1, q2⟩ := hc; simp only [Circuit.slots]; rw [iha q1, ihb q2]
  | multiply a b iha ihb => obtain ⟨-, -, -, -, q1, q2⟩ := hc; simp only [Circuit.slots]; rw [iha q1, ihb q2]
  | rotateRows a iha => simp only [Circuit.slots]; rw [iha hc.2]
  | rotateColumns a s iha => simp only [Circuit.slots]; rw [iha hc.2.2.2]
  | innerSum a iha => simp only [Circuit.slots]; rw [iha hc.2]
  | _ => exact hc.elim

/-- C92 with rotations for vectors: the same for vectors of numbers below the plaintext modulus that are encoded in slots; the result decodes
to the same computation on the vectors, modulo the plaintext modulus. -/
theorem C92_packed_slots (hb : b.OK) (hlk : b.Lucky) (hl : defaultParameters128 b bits = Res.ok l) (hpar : par.toBfvParameters ∈ l) {P : Packing} (hP : P ∈ packings) (hN : par.degree = P.degree)
    (hbits : bits ≤ P.bits) {g : Prg} (hg : g.OK) {seed seed' : Seed} (h32 : seed.length = 32) {rng rng' : Nat → Nat} {rngs : Nat → Nat → Nat} (h1 : IsStream rng) (h2 : IsStream rng')
    (h3 : ∀ i, IsStream (rngs i)) (rs : List EvaluationRequest) (seeds : Nat → Seed) {rngs' : Nat → Nat → Nat → Nat} (h4 : ∀ x i, IsStream (rngs' x i)) {x y : Nat → List Nat}
    (hx : ∀ k, (x k).length ≤ par.degree ∧ ∀ a ∈ x k, a < par.plaintext.value) (hy : ∀ k, (y k).length ≤ par.degree ∧ ∀ a ∈ y k, a < par.plaintext.value) :
    ∃ (sk : SecretKey) (pk : PublicKey) (rk : RelinearizationKey) (bd bd' : EvaluationKeyBuilder) (ek : EvaluationKey) (mp : Multiplicator) (px py : Nat → Plaintext),
      SecretKey.random par rng = some sk ∧ PublicKey.new g sk seed rng' = some pk ∧ RelinearizationKey.newLeveled b g sk 0 0 seed' rngs = Res.ok rk ∧
      EvaluationKeyBuilder.newLeveled b sk 0 0 = Res.ok bd ∧ bd.requests rs = some bd' ∧ bd'.build b g seeds rngs' = Res.ok ek ∧ Multiplicator.default b rk = Res.ok mp ∧
      (∀ k, Plaintext.tryEncodeU64 (x k) ⟨.simd, 0⟩ par false = Res.ok (px k)) ∧ (∀ k, Plaintext.tryEncodeU64 (y k) ⟨.simd, 0⟩ par false = Res.ok (py k)) ∧
      (∀ (k : Nat) (r : EncryptRandom), r.OK → ∃ ct, pk.tryEncrypt (px k) r.u r.e1 r.e2 = Res.ok ct) ∧
      ∀ E : Circuit.Env, E.rk 0 = rk → E.ek 0 = ek → E.mp 0 = mp → (∀ k, E.pt 0 k = py k) → (∀ k, Fresh g sk pk (px k) (E.ct 0 k)) →
        ∀ c : Circuit 0, c.Packed par.degree P.factorParts P.factorRotations rs → c.parts par.degree ≤ P.parts → c.rotations par.degree ≤ P.rotations → c.products ≤ P.products →
          ∃ r p, c.eval E = Res.ok r ∧ sk.tryDecrypt b r = Res.ok p ∧
            p.decodeU64 (some ⟨.simd, 0⟩) = Res.ok (c.slots par.degree par.plaintext.value (fun _ k => padTo par.degree (x k)) (fun _ k => padTo par.degree (y k)) fun _ _ => []) := by
  obtain ⟨e, he, e1, e2, e3, e4⟩ := ((C31_defaults hb bits).1 l hl).2 _ hpar
  have h := C31_defaults_build hb hl _ hpar
  obtain ⟨n, hw, -⟩ := build_inv hb h
  have hlen := List.length_pos_of_ne_nil hw.ne_nil
  have hchk := packings_ok _ hP
  unfold packingCheck at hchk
  rw [List.all_eq_true] at hchk
  have hchk := hchk e (List.mem_filter.2 ⟨he, by rw [beq_iff_eq, ← hN, ← e1]⟩)
  simp only [Bool.and_eq_true, decide_eq_true_eq] at hchk
  obtain ⟨⟨⟨c1, c2⟩, c3⟩, c4⟩ := hchk
  have ht : par.plaintext.value ≤ 2 ^ P.bits := e4.2.2.1.le.trans (Nat.pow_le_pow_right (by norm_num) hbits)
  have hr := reliable_of_head hw he e2 (le_trans (Nat.mul_le_mul_left _ ht) c2)
  have hQ : par.plaintext.value ≤ par.modulusAt 0 := by have := hr.modulus; omega
  have hB : P.bits ≤ 62 := by
    have : ∀ e ∈ packings, e.bits ≤ 62 := by decide
    exact this _ hP
  have hop : par.nttOperator ≠ none := (C34_available hb h).2 hlk e4.1 (lt_of_lt_of_le e4.2.2.1 (Nat.pow_le_pow_right (by norm_num) (hbits.trans hB))) (by rw [e1]; exact e4.2.2.2)
  obtain ⟨ζ, -, z, -⟩ := C34_simd hb h hop
  obtain ⟨sk, pk, rk, bd, bd', ek, a1, a2, a3, a4, a5, a6, a7, a8, a9⟩ := C92_packed hb hl hpar hP hN hbits hg h32 (seed' := seed') h1 h2 h3 rs seeds h4
  obtain ⟨mp, a7⟩ := a7 hlk
  choose mx hx1 hx2 hx3 using fun k => z (x k) 0 (hx k).1 (hx k).2 hlen hQ
  choose px x1 x2 x3 x4 using fun k => hx2 k false
  choose my hy1 hy2 hy3 using fun k => z (y k) 0 (hy k).1 (hy k).2 hlen hQ
  choose py y1 y2 y3 y4 using fun k => hy2 k false
  refine ⟨sk, pk, rk, bd, bd', ek, mp, px, py, a1, a2, a3, a4, a5, a6, a7, x1, y1, fun k r hr => a8 _ _ r (x2 k) hr, fun E hrk hek hmp hpt hct c hc hd1 hd2 hd3 => ?_⟩
  let D : Circuit.Data par := ⟨fun _ => mx, fun _ _ => 0, fun _ => my, fun _ => mx, 0, 0, fun _ => 0⟩
  obtain ⟨r, p, f1, f2, f3, f4⟩ := a9 E D hrk hek (by rw [hmp]; exact a7) (fun k => by rw [hpt k]; exact y2 k) (fun k => ⟨px k, x2 k, hct k⟩) c hc hd1 hd2 hd3
  refine ⟨r, p, f1, f2, ?_⟩
  rw [C60_value_slots hb h hop (D := D) (ct := fun _ k => padTo par.degree (x k)) (pt := fun _ k => padTo par.degree (y k)) (rgsw := fun _ k => padTo par.degree (x k))
    (fun _ k => ⟨px k, 0, 0, x2 k, x3 k, x4 k⟩) (fun _ k => ⟨py k, 0, 0, y2 k, y3 k, y4 k⟩) (fun _ k => ⟨px k, 0, 0, x2 k, x3 k, x4 k⟩) c f3 f4 0, slots_packed c hc]

/-- The sizes are not empty promises: for all of them and for those of `C92_depth` there is a plaintext modulus of few enough bits. -/
example : (∀ e ∈ capacities, FitsSize e.1 17 65537 ∧ 17 ≤ e.2.1) ∧ ∀ P ∈ packings, FitsSize P.degree 17 65537 ∧ 17 ≤ P.bits := by
  have h : Nat.Prime 65537 := by norm_num
  have h1 : ∀ e ∈ capacities, (2 ^ 16 ≤ 65537 ∧ 65537 < 2 ^ 17 ∧ 65537 % (2 * e.1) = 1) ∧ 17 ≤ e.2.1 := by decide +kernel
  have h2 : ∀ P ∈ packings, (2 ^ 16 ≤ 65537 ∧ 65537 < 2 ^ 17 ∧ 65537 % (2 * P.degree) = 1) ∧ 17 ≤ P.bits := by decide +kernel
  exact ⟨fun e he => ⟨⟨h, (h1 e he).1⟩, (h1 e he).2⟩, fun P hP => ⟨⟨h, (h2 P hP).1⟩, (h2 P hP).2⟩⟩

/-- The scalar product of the first two inputs. -/
def exScalar : Circuit 0 := .innerSum (.mul (.input 0 0) (.input 0 1))

theorem zip_mod (t : Nat) (u v : List Nat) : (List.zipWith (fun x y => x * y % t) u v).sum % t = (List.zipWith (· * ·) u v).sum % t := by
  induction u generalizing v with
  | nil => rfl
  | cons a u ih =>
    cases v with
    | nil => rfl
    | cons c v => simp only [List.zipWith_cons_cons, List.sum_cons]; rw [Nat.mod_add_mod, Nat.add_mod, ih, ← Nat.add_mod]

theorem padTo_append {n : Nat} {v : List Nat} (h : v.length ≤ n) : padTo n v = v ++ List.replicate (n - v.length) 0 := by
  refine List.ext_getElem (by simp [padTo, h]) fun i h1 h2 => ?_
  simp only [padTo, List.getElem_map, List.getElem_range, List.getElem_append, List.getElem_replicate]
  split
  · rename_i hi; simp [hi]
  · rename_i hi; simp only [List.getD_eq_getElem?_getD]; rw [List.getElem?_eq_none (by omega)]; rfl

theorem zip_pad (n m : Nat) (u v : List Nat) : (List.zipWith (· * ·) (u ++ List.replicate n 0) (v ++ List.replicate m 0)).sum = (List.zipWith (· * ·) u v).sum := by
  induction u generalizing v m with
  | nil =>
    have : ∀ (n : Nat) (l : List Nat), (List.zipWith (· * ·) (List.replicate n 0) l).sum = 0 := by
      intro n
      induction n with
      | zero => intro l; rfl
      | succ n ih => intro l; cases l <;> simp [List.replicate_succ, ih]
    simp [this]
  | cons a u ih =>
    cases v with
    | nil =>
      have : ∀ (n : Nat) (l : List Nat), (List.zipWith (· * ·) l (List.replicate n 0)).sum = 0 := by
        intro n
        induction n with
        | zero => intro l; simp
        | succ n ih => intro l; cases l <;> simp [List.replicate_succ, ih]
      simp only [List.nil_append, List.zipWith_nil_right, List.sum_nil]
      exact this _ _
    | cons c v => simp only [List.cons_append, List.zipWith_cons_cons, List.sum_cons, ih]

/-- C92, the scalar product of two encrypted vectors: with predefined parameters, `ek.computes_inner_sum` of the relinearized product of two fresh
ciphertexts decrypts to the scalar product of the vectors in every slot, modulo the plaintext modulus, if that has at most 23 bits for degree
4096, 41 bits for degree 8192, or 46 bits for degree 16384: for all vectors and for all random choices. -/
theorem C92_scalar_product (hb : b.OK) (hlk : b.Lucky) (hl : defaultParameters128 b bits = Res.ok l) (hpar : par.toBfvParameters ∈ l)
    (hcase : par.degree = 4096 ∧ bits ≤ 23 ∨ par.degree = 8192 ∧ bits ≤ 41 ∨ par.degree = 16384 ∧ bits ≤ 46)
    {g : Prg} (hg : g.OK) {seed seed' : Seed} (h32 : seed.length = 32) {rng rng' : Nat → Nat} {rngs : Nat → Nat → Nat} (h1 : IsStream rng) (h2 : IsStream rng') (h3 : ∀ i, IsStream (rngs i))
    (seeds : Nat → Seed) {rngs' : Nat → Nat → Nat → Nat} (h4 : ∀ x i, IsStream (rngs' x i)) {x y : List Nat}
    (hx : x.length ≤ par.degree ∧ ∀ a ∈ x, a < par.plaintext.value) (hy : y.length ≤ par.degree ∧ ∀ a ∈ y, a < par.plaintext.value) {r r' : EncryptRandom} (hr : r.OK) (hr' : r'.OK) :
    ∃ sk pk rk bd bd' ek px py cx cy c c' r'' p, SecretKey.random par rng = some sk ∧ PublicKey.new g sk seed rng' = some pk ∧ RelinearizationKey.newLeveled b g sk 0 0 seed' rngs = Res.ok rk ∧
      EvaluationKeyBuilder.newLeveled b sk 0 0 = Res.ok bd ∧ bd.enableInnerSum = Res.ok bd' ∧ bd'.build b g seeds rngs' = Res.ok ek ∧
      Plaintext.tryEncodeU64 x ⟨.simd, 0⟩ par false = Res.ok px ∧ Plaintext.tryEncodeU64 y ⟨.simd, 0⟩ par false = Res.ok py ∧
      pk.tryEncrypt px r.u r.e1 r.e2 = Res.ok cx ∧ pk.tryEncrypt py r'.u r'.e1 r'.e2 = Res.ok cy ∧ cx.mul cy = some c ∧ rk.relinearizes c = Res.ok c' ∧ ek.computesInnerSum c' = Res.ok r'' ∧
      sk.tryDecrypt b r'' = Res.ok p ∧ p.decodeU64 (some ⟨.simd, 0⟩) = Res.ok (List.replicate par.degree ((List.zipWith (· * ·) x y).sum % par.plaintext.value)) := by
  obtain ⟨P, hP, hN, hbits, p1, p2, p3, p4, p5⟩ : ∃ P ∈ packings, par.degree = P.degree ∧ bits ≤ P.bits ∧ P.factorParts = 1 ∧ P.factorRotations = 0 ∧ par.degree = P.parts ∧ par.degree - 1 = P.rotations ∧
      1 ≤ P.products := by
    rcases hcase with ⟨e, hb⟩ | ⟨e, hb⟩ | ⟨e, hb⟩
    · exact ⟨⟨4096, 23, 1, 0, 1, 4096, 4095⟩, by decide, e, hb, rfl, rfl, e, by rw [e], le_refl _⟩
    · exact ⟨⟨8192, 41, 1, 0, 1, 8192, 8191⟩, by decide, e, hb, rfl, rfl, e, by rw [e], le_refl _⟩
    · exact ⟨⟨16384, 46, 1, 0, 4, 16384, 16383⟩, by decide, e, hb, rfl, rfl, e, by rw [e], by decide⟩
  obtain ⟨sk, pk, rk, bd, bd', ek, mp, px, py, a1, a2, a3, a4, a5, a6, a7, a8, -, a9, a10⟩ := C92_packed_slots hb hlk hl hpar hP hN hbits hg h32 (seed' := seed') h1 h2 h3
    [EvaluationRequest.innerSum] seeds h4 (x := fun k => if k = 0 then x else y) (y := fun _ => []) (fun k => by split <;> assumption) (fun k => ⟨Nat.zero_le _, by simp⟩)
  obtain ⟨cx, hcx⟩ := a9 0 r hr
  obtain ⟨cy, hcy⟩ := a9 1 r' hr'
  choose ct hct using fun k => a9 k r hr
  obtain ⟨c, p, f1, f2, f3⟩ := a10 { ct := fun _ k => if k = 0 then cx else if k = 1 then cy else ct k, pt := fun _ => py, rgsw := fun _ _ => ⟨rk.ksk, rk.ksk⟩, rk := fun _ => rk, mp := fun _ => mp, ek := fun _ => ek }
    rfl rfl rfl (fun _ => rfl) (fun k => .inl (by
      rcases k with _ | _ | k
      · exact ⟨r, hr, hcx⟩
      · exact ⟨r', hr', hcy⟩
      · exact ⟨r, hr, hct _⟩)) exScalar (by simp [exScalar, Circuit.Packed, Circuit.parts, Circuit.rotations, p1, p2]) (by simp [exScalar, Circuit.parts, p3])
      (by simp [exScalar, Circuit.rotations, p4]) (by simpa [exScalar, Circuit.products] using p5)
  simp only [exScalar, Circuit.eval, if_true, Res.ok_bind] at f1
  obtain ⟨c2, h5, h6⟩ := Res.bind_eq_ok.1 f1
  obtain ⟨c1, h5, h7⟩ := Res.bind_eq_ok.1 h5
  rw [if_neg (by decide : ¬ 1 = 0)] at h5
  cases hm : cx.mul cy with
  | none => rw [hm] at h5; cases h5
  | some c0 =>
    rw [hm, Res.lift_some] at h5
    obtain rfl : c0 = c1 := Res.ok_inj.1 h5
    obtain ⟨bd1, q1, q2⟩ : ∃ bd1, bd.enableInnerSum = Res.ok bd1 ∧ bd1 = bd' := ⟨_, rfl, Option.some.inj a5⟩
    subst q2
    refine ⟨sk, pk, rk, bd, bd1, ek, px 0, px 1, cx, cy, c0, c2, c, p, a1, a2, a3, a4, q1, a6, a8 0, a8 1, hcx, hcy, hm, h7, h6, f2, ?_⟩
    rw [f3]
    simp only [exScalar, Circuit.slots]
    rw [zip_mod]
    rw [if_pos trivial, if_neg (by decide), padTo_append hx.1, padTo_append hy.1, zip_pad]

/-- Predefined parameters of degree 8192 with 20 bits: the scalar product of two vectors of three numbers. -/
example : ∃ (l : List BfvParameters) (par : Par), defaultParameters128 luckyBuild 20 = Res.ok l ∧ par.toBfvParameters ∈ l ∧ par.degree = 8192 ∧
    ∃ (sk : SecretKey) (r'' : Ciphertext) (p : Plaintext), SecretKey.random par exRng = some sk ∧ sk.tryDecrypt luckyBuild r'' = Res.ok p ∧
      p.decodeU64 (some ⟨.simd, 0⟩) = Res.ok (List.replicate 8192 (32 % par.plaintext.value)) := by
  obtain ⟨l, -, par', e1, -, e2, e3, e4, -⟩ := default_20 luckyBuild_ok luckyBuild_lucky
  have hbig : 2 ^ 19 ≤ par'.plaintext.value := by
    obtain ⟨e, -, -, -, -, e5⟩ := ((C31_defaults luckyBuild_ok 20).1 l e1).2 _ (List.mem_of_getElem? e2)
    exact e5.2.1
  refine ⟨l, ⟨par', 0⟩, e1, List.mem_of_getElem? e2, e3, ?_⟩
  obtain ⟨sk, -, -, -, -, -, -, -, -, -, -, -, r'', p, a1, -, -, -, -, -, -, -, -, -, -, -, -, a2, a3⟩ := C92_scalar_product (par := ⟨par', 0⟩) luckyBuild_ok luckyBuild_lucky e1 (List.mem_of_getElem? e2)
    (.inr (.inl ⟨e3, by decide⟩)) exPrg_ok (seed := List.replicate 32 7) (seed' := List.replicate 32 9) (by simp) exRng_ok exRng_ok (fun _ => exRng_ok) (fun _ => List.replicate 32 3) (fun _ _ => exRng_ok)
    (x := [1, 2, 3]) (y := [4, 5, 6]) ⟨by rw [show (⟨par', 0⟩ : Par).degree = 8192 from e3]; decide, fun a ha => lt_of_lt_of_le (by simp at ha; omega) hbig⟩
    ⟨by rw [show (⟨par', 0⟩ : Par).degree = 8192 from e3]; decide, fun a ha => lt_of_lt_of_le (by simp at ha; omega) hbig⟩ exEncrypt_ok exEncrypt_ok
  exact ⟨sk, r'', p, a1, a2, by rw [a3, show (⟨par', 0⟩ : Par).degree = 8192 from e3]; rfl⟩

end Fhe.Props
