import Verif.Lemmas.Capacity
/-!
# Property C92: what the predefined parameters suffice for
-/
namespace Fhe.Props
open Nega Poly ParamsBuilder

variable {b : Build} {par : Par} {bits : Nat} {l : List BfvParameters}

theorem value_congr {D D' : Circuit.Data par} (h1 : D.msg = D'.msg) (h2 : D.plain = D'.plain) (h3 : D.rgsw = D'.rgsw) {i : Nat} (c : Circuit i) : c.value D = c.value D' := by
  induction c <;> simp_all [Circuit.value]

/-- With predefined parameters, decryption is reliable if the plaintext modulus is at most half of the first modulus. -/
theorem reliable_of_head {n : Nat} (hw : ParWF b n par.toBfvParameters) {e : Nat × List Nat} (he : e ∈ defaultTable) (e2 : par.moduli = e.2) (hhead : 2 * par.plaintext.value ≤ e.2.headD 0) :
    par.toBfvParameters.Reliable 0 := by
  obtain ⟨-, hne, hlen9, hsm⟩ := table_facts he
  obtain ⟨lv, hlv⟩ := AtLevel.ofLt hw (List.length_pos_of_ne_nil hw.ne_nil)
  have hQ0 : par.modulusAt 0 = e.2.prod := by unfold BfvParameters.modulusAt; rw [Nat.sub_zero, List.take_length, e2]
  refine ⟨by rw [e2]; omega, ?_, ?_, fun _ q hq => ?_⟩
  · rw [e2]
    calc e.2.sum ≤ e.2.length * 2 ^ 54 := by
          refine List.sum_le_card_nsmul _ _ fun q hq => ?_
          rcases hsm q hq with h | h <;> [(have : (2 : Nat) ^ 50 ≤ 2 ^ 54 := by norm_num); (subst h; norm_num)]
          omega
      _ ≤ 9 * 2 ^ 54 := Nat.mul_le_mul_right _ hlen9
      _ ≤ 2 ^ 65 := by norm_num
  · rw [hQ0]
    cases hm : e.2 with
    | nil => exact absurd hm hne
    | cons q m =>
      rw [hm] at hhead
      rw [List.prod_cons]
      refine hhead.trans (Nat.le_mul_of_pos_right _ ?_)
      have : 0 < e.2.prod := by rw [← hQ0]; exact hlv.pos
      rw [hm, List.prod_cons] at this
      exact Nat.pos_of_mul_pos_left this
  · rw [e2] at hq
    cases hm : e.2 with
    | nil => exact absurd hm hne
    | cons q' m => rw [hm] at hq hhead; cases hq; exact hhead

/-- C92: each of the sizes in the list.  With predefined parameters of that degree and a plaintext modulus of no more bits than given, keys can
be generated, and every arithmetic computation on fresh ciphertexts that has no more terms and no more depth than given, of whatever size and
shape, runs without panic or error and decrypts to the same computation on the messages: for all messages and for all random choices. -/
theorem C92_depth (hb : b.OK) (hl : defaultParameters128 b bits = Res.ok l) (hpar : par.toBfvParameters ∈ l) {B w d : Nat} (hcap : (par.degree, B, w, d) ∈ capacities) (hbits : bits ≤ B)
    {g : Prg} (hg : g.OK) {seed seed' : Seed} (h32 : seed.length = 32) {rng rng' : Nat → Nat} {rngs : Nat → Nat → Nat} (h1 : IsStream rng) (h2 : IsStream rng') (h3 : ∀ i, IsStream (rngs i)) :
    ∃ sk pk, SecretKey.random par rng = some sk ∧ PublicKey.new g sk seed rng' = some pk ∧ (d ≠ 0 → ∃ rk, RelinearizationKey.newLeveled b g sk 0 0 seed' rngs = Res.ok rk) ∧
      (∀ (pt : Plaintext) (m : par.Msg) (r : EncryptRandom), pt.Holds par 0 m → r.OK → ∃ ct, pk.tryEncrypt pt r.u r.e1 r.e2 = Res.ok ct) ∧
      ∀ (E : Circuit.Env) (D : Circuit.Data par), (d ≠ 0 → RelinearizationKey.newLeveled b g sk 0 0 seed' rngs = Res.ok (E.rk 0)) → (∀ k, (E.pt 0 k).Holds par 0 (D.plain 0 k)) →
        (∀ k, ∃ pt, pt.Holds par 0 (D.msg 0 k) ∧ Fresh g sk pk pt (E.ct 0 k)) → ∀ c : Circuit 0, c.Arithmetic w → c.depth ≤ d →
          ∃ r pt, c.eval E = Res.ok r ∧ sk.tryDecrypt b r = Res.ok pt ∧ pt.Holds par 0 (c.value D) ∧ pt.encoding = none := by
  obtain ⟨e, he, e1, e2, e3, e4⟩ := ((C31_defaults hb bits).1 l hl).2 _ hpar
  have h := C31_defaults_build hb hl _ hpar
  obtain ⟨n, hw, -⟩ := build_inv hb h
  obtain ⟨lv, hlv⟩ := AtLevel.ofLt hw (List.length_pos_of_ne_nil hw.ne_nil)
  have hQ0 : par.modulusAt 0 = e.2.prod := by unfold BfvParameters.modulusAt; rw [Nat.sub_zero, List.take_length, e2]
  have ht : par.plaintext.value ≤ 2 ^ B := e4.2.2.1.le.trans (Nat.pow_le_pow_right (by norm_num) hbits)
  have hchk := capacities_ok _ hcap
  unfold capacityCheck at hchk
  rw [List.all_eq_true] at hchk
  have hchk := hchk e (List.mem_filter.2 ⟨he, by simp [e1]⟩)
  simp only [Bool.and_eq_true, Bool.or_eq_true, decide_eq_true_eq, beq_iff_eq] at hchk
  obtain ⟨⟨⟨c1, c2⟩, c3⟩, c4⟩ := hchk
  have hlen9 := (table_facts he).2.2.1
  have hr := reliable_of_head hw he e2 (le_trans (Nat.mul_le_mul_left _ ht) c2)
  have hQ : par.plaintext.value ≤ par.modulusAt 0 := by have := hr.modulus; omega
  obtain ⟨sk, s, a1, a2, a3⟩ := C37_secret_key (par := par) hb h h1
  obtain ⟨pk, v, p1, p2, p3, p4, p5, -⟩ := C37_public_key hb h a2 hg h32 h2
  have hkey : d ≠ 0 → ∃ rk, RelinearizationKey.newLeveled b g sk 0 0 seed' rngs = Res.ok rk ∧ rk.IsFor par s 0 0 (2 * par.variance) ∧ rk.ksk.errorBound par 20 20 ≤ par.degree * e.2.sum * 20 := by
    intro hd
    have hlen : 2 ≤ par.moduli.length := by rw [e2]; exact c4.resolve_right hd
    obtain ⟨rk, f1, f2, f3⟩ := (C41_new hb h (by rw [e2]; omega) a2 hg seed' h3 (i := 0) (j := 0)).1 (by omega) (le_refl _) (by omega)
    refine ⟨rk, f1, f2, ?_⟩
    unfold KeySwitchingKey.errorBound KeySwitchingKey.ratio
    rw [f2.level, f2.keyLevel, f3, Nat.sub_zero, List.take_length, Nat.sub_self, Nat.zero_mul, Nat.zero_mul, Nat.add_zero, Nat.div_self hlv.pos, Nat.mul_one, Nat.mul_div_cancel_left _ (by norm_num), e2]
  refine ⟨sk, pk, a1, p1, fun hd => ⟨_, (hkey hd).choose_spec.1⟩, fun pt m r g1 g2 => ?_, fun E D hrk hpt hct c hc hdep => ?_⟩
  · obtain ⟨ct, -, f1, -⟩ := fresh hb h a3 ⟨v, p2, p3, p5, p4⟩ hQ g1 g2
    exact ⟨ct, f1⟩
  have hv : 2 * par.variance = 20 := by rw [e3]
  rw [hv] at a3 hkey
  -- the same messages, with the bounds of fresh ciphertexts
  let D' : Circuit.Data par := { D with noise := fun _ _ => par.plaintext.value * (800 * par.degree + 21), secret := 20, keyError := 20 }
  have hct' : ∀ k, ∃ v, (E.ct 0 k).Encrypts par s 0 (D.msg 0 k) v ∧ (E.ct 0 k).c.length = 2 ∧ v.Bounded (par.plaintext.value * (800 * par.degree + 21)) := by
    intro k
    obtain ⟨pt, g1, ⟨r, g2, g3⟩ | ⟨sd, rg, g2, g3, g4⟩⟩ := hct k
    · obtain ⟨ct, v, f1, f2, f3, f4⟩ := fresh hb h (by rw [hv]; exact a3) ⟨v, p2, p3, p5, p4⟩ hQ g1 g2
      obtain rfl : ct = E.ct 0 k := Res.ok_inj.1 (f1.symm.trans g3)
      exact ⟨v, f2, f3, f4.mono (le_of_eq (by unfold freshNoise; simp only []; rw [hv]; ring))⟩
    · obtain ⟨ct, v, f1, f2, f3, f4, -⟩ := C37_encrypt hb h a2 hg hQ g1 g2 g3
      obtain rfl : ct = E.ct 0 k := Res.ok_inj.1 (f1.symm.trans g4)
      exact ⟨v, f2, f4, f3.mono (by rw [hv]; exact Nat.mul_le_mul_left _ (by omega))⟩
  have hadm : ∀ {i : Nat} (c : Circuit i), i = 0 → Circuit.Arithmetic.go w c → c.depth ≤ d → c.Admissible b E s D' := by
    intro i c
    induction c with
    | input i k => rintro rfl - -; exact hct' k
    | add x y ihx ihy => exact fun hi hc hd => ⟨ihx hi hc.1 ((le_max_left _ _).trans hd), ihy hi hc.2 ((le_max_right _ _).trans hd)⟩
    | sub x y ihx ihy => exact fun hi hc hd => ⟨ihx hi hc.1 ((le_max_left _ _).trans hd), ihy hi hc.2 ((le_max_right _ _).trans hd)⟩
    | neg x ihx => exact ihx
    | addPlain x k ihx => rintro rfl hc hd; exact ⟨ihx rfl hc hd, hpt k, hQ⟩
    | subPlain x k ihx => rintro rfl hc hd; exact ⟨ihx rfl hc hd, hpt k, hQ⟩
    | plainSub k x ihx => rintro rfl hc hd; exact ⟨ihx rfl hc hd, hpt k, hQ⟩
    | mulPlain x k ihx => rintro rfl hc hd; exact ⟨ihx rfl hc.2 ((Nat.le_succ _).trans hd), hpt k⟩
    | mul x y ihx ihy =>
      rintro rfl hc hd
      have hd : max x.depth y.depth + 1 ≤ d := hd
      refine ⟨ihx rfl hc.2.2.1 (by omega), ihy rfl hc.2.2.2 (by omega), 0, ?_⟩
      have hd0 : d ≠ 0 := by omega
      obtain ⟨rk, f1, f2, -⟩ := hkey hd0
      obtain rfl : rk = E.rk 0 := Res.ok_inj.1 (f1.symm.trans (hrk hd0))
      exact f2
    | _ => exact fun _ hc => hc.elim
  have hroom : 2 ^ 62 * c.noise E D' ≤ (2 ^ 61 - 1) * par.modulusAt 0 := by
    rw [hQ0]
    refine le_trans (Nat.mul_le_mul_left _ ?_) c1
    by_cases hd : d = 0
    · subst hd
      refine (noise_le (K := (E.rk 0).ksk.errorBound par 20 20) c3 rfl rfl (fun _ => le_refl _) (le_refl _) c rfl hc.2).trans (Nat.mul_le_mul hc.1 ?_)
      rw [Nat.le_zero.1 hdep]
      exact Nat.mul_le_mul_right _ ht
    · obtain ⟨rk, f1, -, f2⟩ := hkey hd
      obtain rfl : rk = E.rk 0 := Res.ok_inj.1 (f1.symm.trans (hrk hd))
      refine (noise_le (K := par.degree * e.2.sum * 20) c3 rfl rfl (fun _ => le_refl _) f2 c rfl hc.2).trans (Nat.mul_le_mul hc.1 ?_)
      rw [hQ0]
      exact (levelNoise_le c3 hdep).trans (levelNoise_mono ht d)
  have := C60_decrypt hb h hr a2 (D := D') a3 c (hadm c rfl hc.2 hdep) hroom
  rwa [value_congr (D := D') (D' := D) rfl rfl rfl] at this

theorem slots_congr {N t w : Nat} {ct pt rgsw rgsw' : Nat → Nat → List Nat} {i : Nat} (c : Circuit i) (hc : Circuit.Arithmetic.go w c) : c.slots N t ct pt rgsw = c.slots N t ct pt rgsw' := by
  induction c with
  | input => rfl
  | add a b iha ihb => simp only [Circuit.slots]; rw [iha hc.1, ihb hc.2]
  | sub a b iha ihb => simp only [Circuit.slots]; rw [iha hc.1, ihb hc.2]
  | neg a iha => simp only [Circuit.slots]; rw [iha hc]
  | addPlain a k iha => simp only [Circuit.slots]; rw [iha hc]
  | subPlain a k iha => simp only [Circuit.slots]; rw [iha hc]
  | plainSub k a iha => simp only [Circuit.slots]; rw [iha hc]
  | mulPlain a k iha => simp only [Circuit.slots]; rw [iha hc.2]
  | mul a b iha ihb => simp only [Circuit.slots]; rw [iha hc.2.2.1, ihb hc.2.2.2]
  | _ => exact hc.elim

/-- C92 for vectors: the same for vectors of numbers below the plaintext modulus that are encoded in slots; the result decodes to the same
computation in each slot, modulo the plaintext modulus. -/
theorem C92_slots (hb : b.OK) (hlk : b.Lucky) (hl : defaultParameters128 b bits = Res.ok l) (hpar : par.toBfvParameters ∈ l) {B w d : Nat} (hcap : (par.degree, B, w, d) ∈ capacities)
    (hbits : bits ≤ B) {g : Prg} (hg : g.OK) {seed seed' : Seed} (h32 : seed.length = 32) {rng rng' : Nat → Nat} {rngs : Nat → Nat → Nat} (h1 : IsStream rng) (h2 : IsStream rng')
    (h3 : ∀ i, IsStream (rngs i)) {x y : Nat → List Nat} (hx : ∀ k, (x k).length ≤ par.degree ∧ ∀ a ∈ x k, a < par.plaintext.value) (hy : ∀ k, (y k).length ≤ par.degree ∧ ∀ a ∈ y k, a < par.plaintext.value) :
    ∃ (sk : SecretKey) (pk : PublicKey) (px py : Nat → Plaintext), SecretKey.random par rng = some sk ∧ PublicKey.new g sk seed rng' = some pk ∧ (∀ k, Plaintext.tryEncodeU64 (x k) ⟨.simd, 0⟩ par false = Res.ok (px k)) ∧
      (∀ k, Plaintext.tryEncodeU64 (y k) ⟨.simd, 0⟩ par false = Res.ok (py k)) ∧
      ∀ E : Circuit.Env, (d ≠ 0 → RelinearizationKey.newLeveled b g sk 0 0 seed' rngs = Res.ok (E.rk 0)) → (∀ k, E.pt 0 k = py k) → (∀ k, Fresh g sk pk (px k) (E.ct 0 k)) →
        ∀ c : Circuit 0, c.Arithmetic w → c.depth ≤ d → ∃ r p, c.eval E = Res.ok r ∧ sk.tryDecrypt b r = Res.ok p ∧
          p.decodeU64 (some ⟨.simd, 0⟩) = Res.ok (c.slots par.degree par.plaintext.value (fun _ k => padTo par.degree (x k)) (fun _ k => padTo par.degree (y k)) fun _ _ => []) := by
  obtain ⟨e, he, e1, e2, e3, e4⟩ := ((C31_defaults hb bits).1 l hl).2 _ hpar
  have h := C31_defaults_build hb hl _ hpar
  obtain ⟨n, hw, -⟩ := build_inv hb h
  have hlen := List.length_pos_of_ne_nil hw.ne_nil
  have hchk := capacities_ok _ hcap
  unfold capacityCheck at hchk
  rw [List.all_eq_true] at hchk
  have hchk := hchk e (List.mem_filter.2 ⟨he, by simp [e1]⟩)
  simp only [Bool.and_eq_true, Bool.or_eq_true, decide_eq_true_eq, beq_iff_eq] at hchk
  obtain ⟨⟨⟨c1, c2⟩, c3⟩, c4⟩ := hchk
  have ht : par.plaintext.value ≤ 2 ^ B := e4.2.2.1.le.trans (Nat.pow_le_pow_right (by norm_num) hbits)
  have hr := reliable_of_head hw he e2 (le_trans (Nat.mul_le_mul_left _ ht) c2)
  have hQ : par.plaintext.value ≤ par.modulusAt 0 := by have := hr.modulus; omega
  have hB : B ≤ 62 := by
    have : ∀ e ∈ capacities, e.2.1 ≤ 62 := by decide
    exact this _ hcap
  have hop : par.nttOperator ≠ none := (C34_available hb h).2 hlk e4.1 (lt_of_lt_of_le e4.2.2.1 (Nat.pow_le_pow_right (by norm_num) (hbits.trans hB))) (by rw [e1]; exact e4.2.2.2)
  obtain ⟨ζ, -, z, -⟩ := C34_simd hb h hop
  obtain ⟨sk, pk, a1, a2, -, -, a3⟩ := C92_depth hb hl hpar hcap hbits hg h32 (seed' := seed') h1 h2 h3
  choose mx hx1 hx2 hx3 using fun k => z (x k) 0 (hx k).1 (hx k).2 hlen hQ
  choose px x1 x2 x3 x4 using fun k => hx2 k false
  choose my hy1 hy2 hy3 using fun k => z (y k) 0 (hy k).1 (hy k).2 hlen hQ
  choose py y1 y2 y3 y4 using fun k => hy2 k false
  refine ⟨sk, pk, px, py, a1, a2, x1, y1, fun E hrk hpt hct c hc hd => ?_⟩
  let D : Circuit.Data par := ⟨fun _ => mx, fun _ _ => 0, fun _ => my, fun _ => mx, 0, 0, fun _ => 0⟩
  obtain ⟨r, p, f1, f2, f3, f4⟩ := a3 E D hrk (fun k => by rw [hpt k]; exact y2 k) (fun k => ⟨px k, x2 k, hct k⟩) c hc hd
  refine ⟨r, p, f1, f2, ?_⟩
  rw [C60_value_slots hb h hop (D := D) (ct := fun _ k => padTo par.degree (x k)) (pt := fun _ k => padTo par.degree (y k)) (rgsw := fun _ k => padTo par.degree (x k))
    (fun _ k => ⟨px k, 0, 0, x2 k, x3 k, x4 k⟩) (fun _ k => ⟨py k, 0, 0, y2 k, y3 k, y4 k⟩) (fun _ k => ⟨px k, 0, 0, x2 k, x3 k, x4 k⟩) c f3 f4 0, slots_congr c hc.2]

/-- The product of eight inputs, by three levels of products. -/
def exProduct : Circuit 0 :=
  .mul (.mul (.mul (.input 0 0) (.input 0 1)) (.mul (.input 0 2) (.input 0 3))) (.mul (.mul (.input 0 4) (.input 0 5)) (.mul (.input 0 6) (.input 0 7)))

/-- Predefined parameters of degree 8192 with 20 bits: eight encrypted messages are multiplied. -/
example : ∃ (l : List BfvParameters) (par : Par), defaultParameters128 luckyBuild 20 = Res.ok l ∧ par.toBfvParameters ∈ l ∧ par.degree = 8192 ∧ ∀ (E : Circuit.Env) (pt : Nat → Plaintext) (m : Nat → par.Msg),
    (∀ k, (pt k).Holds par 0 (m k)) → ∃ sk pk ct rk r p, SecretKey.random par exRng = some sk ∧ PublicKey.new exPrg sk (List.replicate 32 7) exRng = some pk ∧
      (∀ k, pk.tryEncrypt (pt k) exRng exRng exRng = Res.ok (ct k)) ∧ RelinearizationKey.newLeveled luckyBuild exPrg sk 0 0 (List.replicate 32 9) (fun _ => exRng) = Res.ok rk ∧
      exProduct.eval { E with ct := fun _ => ct, pt := fun _ => pt, rk := fun _ => rk } = Res.ok r ∧ sk.tryDecrypt luckyBuild r = Res.ok p ∧
      p.Holds par 0 (m 0 * m 1 * (m 2 * m 3) * (m 4 * m 5 * (m 6 * m 7))) := by
  obtain ⟨l, -, par', e1, -, e2, e3, -⟩ := default_20 luckyBuild_ok luckyBuild_lucky
  refine ⟨l, ⟨par', 0⟩, e1, List.mem_of_getElem? e2, e3, fun E pt m hpt => ?_⟩
  obtain ⟨sk, pk, a1, a2, a3, a4, a5⟩ := C92_depth (par := ⟨par', 0⟩) (B := 25) (w := 1) (d := 3) luckyBuild_ok e1 (List.mem_of_getElem? e2) (by rw [show (⟨par', 0⟩ : Par).degree = 8192 from e3]; decide) (by decide) exPrg_ok
    (seed := List.replicate 32 7) (seed' := List.replicate 32 9) (by simp) exRng_ok exRng_ok (fun _ => exRng_ok)
  obtain ⟨rk, a3⟩ := a3 (by decide)
  choose ct hct using fun k => a4 (pt k) (m k) exEncrypt (hpt k) exEncrypt_ok
  obtain ⟨r, p, f1, f2, f3, -⟩ := a5 { E with ct := fun _ => ct, pt := fun _ => pt, rk := fun _ => rk } ⟨fun _ => m, fun _ _ => 0, fun _ => m, fun _ => m, 0, 0, fun _ => 0⟩ (fun _ => a3) hpt
    (fun k => ⟨pt k, hpt k, .inl ⟨exEncrypt, exEncrypt_ok, hct k⟩⟩) exProduct ⟨by decide, by simp [exProduct, Circuit.Arithmetic.go, Circuit.terms]⟩ (by decide)
  exact ⟨sk, pk, ct, rk, r, p, a1, a2, hct, a3, f1, f2, f3⟩

end Fhe.Props
