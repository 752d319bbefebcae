import Verif.Props.BfvPlain
import Verif.Lemmas.BfvPublic
/-!
# Properties C37, C38, C46, C47, C48, C55, C59: encryption, decryption, linear operations, modulus switching, serialization

`Ciphertext.Encrypts par s ct level m v` (see `Spec/BfvCipher.lean`) says that `t · phase = Q · m + v` modulo `t Q`.
-/
namespace Fhe.Props
open Nega Poly ParamsBuilder Ciphertext

variable {b : Build} {par : Par} {st : ParamsBuilder} {s : IntPoly par.degree} {sk : SecretKey} {g : Prg} {i : Nat} {ct ct' : Ciphertext} {m m' : par.Msg} {v v' : IntPoly par.degree}

/-! ## C37: decryption inverts encryption -/

/-- C37: a random secret key exists for every stream, and its coefficients are at most twice the variance. -/
theorem C37_secret_key (hb : b.OK) (h : build b st = Res.ok par.toBfvParameters) {rng : Nat → Nat} (hr : IsStream rng) :
    ∃ sk s, SecretKey.random par rng = some sk ∧ sk.IsKey par s ∧ s.Bounded (2 * par.variance) := by
  obtain ⟨n, hw, -⟩ := build_inv hb h
  exact SecretKey.random_eq hw hr

/-- C37: any ciphertext whose noise is below `Q/2` (by a relative `2^-61`) decrypts to its message, whatever the number of its parts. -/
theorem C37_decrypt (hb : b.OK) (h : build b st = Res.ok par.toBfvParameters) (hr : par.toBfvParameters.Reliable i) (hk : sk.IsKey par s)
    (hct : ct.Encrypts par s i m v) (hv : v.Small (par.modulusAt i)) :
    ∃ pt, sk.tryDecrypt b ct = Res.ok pt ∧ pt.Holds par i m ∧ pt.encoding = none := by
  obtain ⟨n, hw, -⟩ := build_inv hb h
  obtain ⟨l, ha, hlt, hd⟩ := tryDecrypt_eq hw hr hk hct hv
  exact ⟨_, hd, Plaintext.holds_of_enc hw rfl ha.get rfl hlt, rfl⟩

/-- C37: secret-key encryption succeeds for every seed and stream, and yields a well-formed ciphertext of two parts that encrypts the
message with noise at most `t (2 variance + 1)`. -/
theorem C37_encrypt (hb : b.OK) (h : build b st = Res.ok par.toBfvParameters) (hk : sk.IsKey par s) (hg : g.OK) (hQ : par.plaintext.value ≤ par.modulusAt i)
    {pt : Plaintext} (hpt : pt.Holds par i m) {seed : Seed} (h32 : seed.length = 32) {rng : Nat → Nat} (hr : IsStream rng) :
    ∃ (ct : Ciphertext) (v : IntPoly par.degree), sk.tryEncrypt g pt seed rng = Res.ok ct ∧ ct.Encrypts par s i m v ∧
      v.Bounded (par.plaintext.value * (2 * par.variance + 1)) ∧ ct.c.length = 2 ∧ ct.seed = some seed ∧ ct.WellFormed g par := by
  obtain ⟨n, hw, -⟩ := build_inv hb h
  obtain ⟨l, hl, -⟩ := ParWF.contextAtLevel_iff.1 hpt.ctx
  have ha := AtLevel.ofGet hw hl
  obtain ⟨ct, e, h1, h2, h3, h4, h5, p, h6, h7⟩ := SecretKey.tryEncrypt_spec hw ha hk hg hQ hpt seed hr
  refine ⟨ct, _, h1, h3, ?_, h4, h5, Encrypts.wellFormed hw h3 fun seed' hs => ?_⟩
  · have := (h2.C_mul (par.plaintext.value : Int)).sub (scaleRest_bounded (par.modulusAt i) (by have := hw.t_pos; omega) m)
    refine this.mono ?_
    rw [Int.natAbs_natCast]; apply le_of_eq; ring
  · rw [h5] at hs
    obtain rfl : seed = seed' := by simpa using hs
    refine ⟨h32, fun last hl => ⟨p, ?_, ?_⟩⟩
    · have := (Encrypts.valid hw h3).2 last (List.mem_of_getLast? hl)
      rw [h3.level_eq, ha.contextAt, Res.ok_inj] at this
      rw [← this.2, h6]
    · rw [h7] at hl
      obtain rfl : p.allowVt = last := by simpa using hl
      exact beq_of_vt rfl

/-- C37: hence decryption inverts secret-key encryption whenever `2^62 t (2 variance + 1) ≤ (2^61 - 1) Q`. -/
theorem C37_roundtrip (hb : b.OK) (h : build b st = Res.ok par.toBfvParameters) (hrel : par.toBfvParameters.Reliable i) (hk : sk.IsKey par s) (hg : g.OK)
    (hroom : 2 ^ 62 * (par.plaintext.value * (2 * par.variance + 1)) ≤ (2 ^ 61 - 1) * par.modulusAt i)
    {pt : Plaintext} (hpt : pt.Holds par i m) {seed : Seed} (h32 : seed.length = 32) {rng : Nat → Nat} (hr : IsStream rng) :
    ∃ ct pt', sk.tryEncrypt g pt seed rng = Res.ok ct ∧ sk.tryDecrypt b ct = Res.ok pt' ∧ pt'.Holds par i m := by
  obtain ⟨ct, v, h1, h2, h3, -⟩ := C37_encrypt hb h hk hg (by have := hrel.modulus; omega) hpt h32 hr
  obtain ⟨pt', h4, h5, -⟩ := C37_decrypt hb h hrel hk h2 (small_of_bounded h3 hroom)
  exact ⟨ct, pt', h1, h4, h5⟩

/-- C37: the public key of a secret key is an encryption of zero at level zero, of two parts, with noise at most `2 t variance`. -/
theorem C37_public_key (hb : b.OK) (h : build b st = Res.ok par.toBfvParameters) (hk : sk.IsKey par s) (hg : g.OK) {seed : Seed} (h32 : seed.length = 32) {rng : Nat → Nat} (hr : IsStream rng) :
    ∃ (pk : PublicKey) (v : IntPoly par.degree), PublicKey.new g sk seed rng = some pk ∧ pk.par = par ∧ pk.c.Encrypts par s 0 0 v ∧ v.Bounded (par.plaintext.value * (2 * par.variance)) ∧
      pk.c.c.length = 2 ∧ pk.c.seed = some seed ∧ pk.c.WellFormed g par := by
  obtain ⟨n, hw, -⟩ := build_inv hb h
  have hpos := List.length_pos_of_ne_nil hw.ne_nil
  obtain ⟨pt, hz, hpt, -⟩ := C35_zero hb h (e := ⟨.poly, 0⟩) hpos
  have hQ : par.plaintext.value ≤ par.modulusAt 0 := by
    have := hw.moduli.lt
    unfold BfvParameters.modulusAt
    rw [Nat.sub_zero, List.take_length]; omega
  obtain ⟨pk, e, h1, h2, h3, h4, h5, h6, h7, -⟩ := PublicKey.new_eq hw hk hg hQ h32 hr ⟨pt, hz, hpt⟩
  exact ⟨pk, _, h1, h2, h4, by simpa using h3.C_mul (par.plaintext.value : Int), h5, h6, h7⟩

/-- C37: public-key encryption, at any level, with a key that encrypts zero with noise at most `V` (where `V ≥ t (1 + N S)`, and `S` bounds
the secret): succeeds for every three streams, with noise at most `t + t (B + N S B) + N B V`, where `B` is twice the variance. -/
theorem C37_public_encrypt (hb : b.OK) (h : build b st = Res.ok par.toBfvParameters) {pk : PublicKey} (hp : pk.par = par) {v0 : IntPoly par.degree} (hpk : pk.c.Encrypts par s 0 0 v0)
    (hlen : pk.c.c.length = 2) {S V : Nat} (hs : s.Bounded S) (hv0 : v0.Bounded V) (hV : par.plaintext.value * (1 + par.degree * S) ≤ V)
    (hQ : par.plaintext.value ≤ par.modulusAt i) {pt : Plaintext} (hpt : pt.Holds par i m)
    {rngU rng1 rng2 : Nat → Nat} (hU : IsStream rngU) (h1 : IsStream rng1) (h2 : IsStream rng2) :
    ∃ (ct : Ciphertext) (v : IntPoly par.degree), pk.tryEncrypt pt rngU rng1 rng2 = Res.ok ct ∧ ct.Encrypts par s i m v ∧ ct.c.length = 2 ∧ ct.seed = none ∧
      v.Bounded (par.degree * (2 * par.variance) * V + par.plaintext.value * (2 * par.variance + par.degree * S * (2 * par.variance)) + par.plaintext.value) := by
  obtain ⟨n, hw, -⟩ := build_inv hb h
  obtain ⟨l, hl, -⟩ := ParWF.contextAtLevel_iff.1 hpt.ctx
  have ha := AtLevel.ofGet hw hl
  obtain ⟨ct, v', u, e1, e2, g1, g2, g3, g4, g5, g6, g7, g8⟩ := PublicKey.tryEncrypt_eq hw hp hpk hlen (Nat.zero_le i) ha.lt hQ hpt hs hU h1 h2
  rw [mul_zero, zero_add] at g8
  refine ⟨ct, _, g1, g8, g2, g3, ?_⟩
  have hv' : v'.Bounded V := fun j => by
    have e := g4 V hv0 j
    have hG : geom (par.degree * S) 2 = 1 + par.degree * S := by simp [geom, Finset.sum_range_succ]
    rw [hG] at e
    obtain ⟨l0, ha0⟩ := AtLevel.ofLt (par := par) hw (i := 0) (List.length_pos_of_ne_nil hw.ne_nil)
    have hq : par.modulusAt i ≤ par.modulusAt 0 := by
      unfold BfvParameters.modulusAt
      rw [Nat.sub_zero, List.take_length]
      exact prod_take_le (fun x hx => by have := (hw.moduli.range x hx).1; omega) _
    have h0 : (0 : Int) < par.modulusAt 0 := by exact_mod_cast ha0.pos
    have hV' : (par.plaintext.value : Int) * (1 + par.degree * S : Nat) ≤ V := by exact_mod_cast hV
    have h3 : (par.modulusAt i : Int) * (V - par.plaintext.value * (1 + par.degree * S : Nat)) ≤ par.modulusAt 0 * (V - par.plaintext.value * (1 + par.degree * S : Nat)) :=
      mul_le_mul_of_nonneg_right (by exact_mod_cast hq) (by omega)
    have := le_of_mul_le_mul_left (e.trans h3) h0
    omega
  have := ((g5.mul hv').add ((g6.add (hs.mul g7)).C_mul (par.plaintext.value : Int))).sub (scaleRest_bounded (par.modulusAt i) (by have := hw.t_pos; omega) m)
  rwa [Int.natAbs_natCast] at this

/-- C37: at the level of the public key the noise of the key need not exceed that of switching: public-key encryption of a plaintext of
level 0 has noise at most `t + t (B + N S B) + N B V` for every bound `V` on the noise of the key. -/
theorem C37_public_encrypt_top (hb : b.OK) (h : build b st = Res.ok par.toBfvParameters) {pk : PublicKey} (hp : pk.par = par) {v0 : IntPoly par.degree} (hpk : pk.c.Encrypts par s 0 0 v0)
    (hlen : pk.c.c.length = 2) {S V : Nat} (hs : s.Bounded S) (hv0 : v0.Bounded V) (hQ : par.plaintext.value ≤ par.modulusAt 0) {pt : Plaintext} (hpt : pt.Holds par 0 m)
    {rngU rng1 rng2 : Nat → Nat} (hU : IsStream rngU) (h1 : IsStream rng1) (h2 : IsStream rng2) :
    ∃ (ct : Ciphertext) (v : IntPoly par.degree), pk.tryEncrypt pt rngU rng1 rng2 = Res.ok ct ∧ ct.Encrypts par s 0 m v ∧ ct.c.length = 2 ∧ ct.seed = none ∧
      v.Bounded (par.degree * (2 * par.variance) * V + par.plaintext.value * (2 * par.variance + par.degree * S * (2 * par.variance)) + par.plaintext.value) := by
  obtain ⟨n, hw, -⟩ := build_inv hb h
  obtain ⟨l, hl, -⟩ := ParWF.contextAtLevel_iff.1 hpt.ctx
  have ha := AtLevel.ofGet hw hl
  obtain ⟨ct, v', u, e1, e2, g1, g2, g3, g4, g5, g6, g7, g8⟩ := PublicKey.tryEncrypt_eq hw hp hpk hlen le_rfl ha.lt hQ hpt hs hU h1 h2
  rw [mul_zero, zero_add] at g8
  refine ⟨ct, _, g1, g8, g2, g3, ?_⟩
  have h0 : (0 : Int) < par.modulusAt 0 := by exact_mod_cast ha.pos
  have hv' : v'.Bounded V := fun j => by
    have := le_of_mul_le_mul_left (g4 V hv0 j) h0
    omega
  have := ((g5.mul hv').add ((g6.add (hs.mul g7)).C_mul (par.plaintext.value : Int))).sub (scaleRest_bounded (par.modulusAt 0) (by have := hw.t_pos; omega) m)
  rwa [Int.natAbs_natCast] at this

/-- C37: public-key encryption and decryption, with the public key made from the secret key. -/
theorem C37_public_roundtrip (hb : b.OK) (h : build b st = Res.ok par.toBfvParameters) (hrel : par.toBfvParameters.Reliable i) (hk : sk.IsKey par s) {S : Nat} (hs : s.Bounded S) (hg : g.OK)
    {seed : Seed} (h32 : seed.length = 32) {rng : Nat → Nat} (hr : IsStream rng) {pt : Plaintext} (hpt : pt.Holds par i m)
    {rngU rng1 rng2 : Nat → Nat} (hU : IsStream rngU) (h1 : IsStream rng1) (h2 : IsStream rng2)
    (hroom : 2 ^ 62 * (par.plaintext.value * (par.degree * (2 * par.variance) * (2 * par.variance + 1 + par.degree * S) + (2 * par.variance + par.degree * S * (2 * par.variance)) + 1)) ≤
      (2 ^ 61 - 1) * par.modulusAt i) :
    ∃ pk ct pt', PublicKey.new g sk seed rng = some pk ∧ pk.tryEncrypt pt rngU rng1 rng2 = Res.ok ct ∧ sk.tryDecrypt b ct = Res.ok pt' ∧ pt'.Holds par i m := by
  obtain ⟨pk, v0, e1, e2, e3, e4, e5, -⟩ := C37_public_key hb h hk hg h32 hr
  obtain ⟨ct, v, g1, g2, -, -, g3⟩ := C37_public_encrypt hb h e2 e3 e5 hs (V := par.plaintext.value * (2 * par.variance + 1 + par.degree * S))
    (e4.mono (Nat.mul_le_mul_left _ (by omega))) (Nat.mul_le_mul_left _ (by omega)) (by have := hrel.modulus; omega) hpt hU h1 h2
  obtain ⟨pt', h4, h5, -⟩ := C37_decrypt hb h hrel hk g2 (small_of_bounded g3 (le_trans (le_of_eq (by ring)) hroom))
  exact ⟨pk, ct, pt', e1, g1, h4, h5⟩

/-- C37, a limitation of the code: parameters with a word-sized plaintext modulus `t` that is at least the first ciphertext modulus `q₀`
are accepted, but under them every encryption of zero, however small its noise, decrypts to the constant `t mod q₀ ≠ 0` in all coefficients. -/
theorem C37_fast_path_wrong (hb : b.OK) (h : build b st = Res.ok par.toBfvParameters) (hcount : par.moduli.length ≤ 31) (hsum : par.moduli.sum ≤ 2 ^ 65) (hk : sk.IsKey par s)
    {q0 : Nat} (hq0 : par.moduli.head? = some q0) (hlt : q0 ≤ par.plaintext.value) (h62 : par.plaintext.value < 2 ^ 62) (hQ : par.plaintext.value ≤ par.modulusAt i)
    (hct : ct.Encrypts par s i 0 v) (hv : v.Small (par.modulusAt i)) :
    ∃ (pt : Plaintext) (m : par.Msg), sk.tryDecrypt b ct = Res.ok pt ∧ pt.Holds par i m ∧ ∀ j, (m j).val = par.plaintext.value % q0 ∧ m j ≠ 0 := by
  obtain ⟨n, hw, -⟩ := build_inv hb h
  exact tryDecrypt_wrong hw hcount hsum hk hq0 hlt h62 hQ hct hv

/-! ## C38: linear operations -/

/-- C38: addition adds messages and noises. -/
theorem C38_add (hb : b.OK) (h : build b st = Res.ok par.toBfvParameters) (h1 : ct.Encrypts par s i m v) (h2 : ct'.Encrypts par s i m' v') (hlen : ct.c.length = ct'.c.length) :
    ∃ r, ct.add ct' = some r ∧ r.Encrypts par s i (m + m') (v + v') ∧ r.c.length = ct.c.length ∧ r.seed = none := by
  obtain ⟨n, hw, -⟩ := build_inv hb h
  exact add_eq hw h1 h2 hlen

/-- C38: subtraction subtracts messages and noises. -/
theorem C38_sub (hb : b.OK) (h : build b st = Res.ok par.toBfvParameters) (h1 : ct.Encrypts par s i m v) (h2 : ct'.Encrypts par s i m' v') (hlen : ct.c.length = ct'.c.length) :
    ∃ r, ct.sub ct' = some r ∧ r.Encrypts par s i (m - m') (v - v') ∧ r.c.length = ct.c.length ∧ r.seed = none := by
  obtain ⟨n, hw, -⟩ := build_inv hb h
  exact sub_eq hw h1 h2 hlen

/-- C38: negation negates the message and the noise. -/
theorem C38_neg (hb : b.OK) (h : build b st = Res.ok par.toBfvParameters) (h1 : ct.Encrypts par s i m v) :
    ∃ r, ct.neg = some r ∧ r.Encrypts par s i (-m) (-v) ∧ r.c.length = ct.c.length ∧ r.seed = none := by
  obtain ⟨n, hw, -⟩ := build_inv hb h
  exact neg_eq hw h1

/-- C38: adding, subtracting or being subtracted from a plaintext does so to the message, and changes the noise by the remainder of
`Q m'` by `t`. -/
theorem C38_plain (hb : b.OK) (h : build b st = Res.ok par.toBfvParameters) (hQ : par.plaintext.value ≤ par.modulusAt i) (h1 : ct.Encrypts par s i m v) {pt : Plaintext} (hpt : pt.Holds par i m') :
    ∃ w : IntPoly par.degree, (∀ j, w j = ((par.modulusAt i * (m' j).val % par.plaintext.value : Nat) : Int)) ∧
      (∃ r, ct.addPlain pt = some r ∧ r.Encrypts par s i (m + m') (v - w) ∧ r.c.length = ct.c.length ∧ r.seed = none) ∧
      (∃ r, ct.subPlain pt = some r ∧ r.Encrypts par s i (m - m') (v + w) ∧ r.c.length = ct.c.length ∧ r.seed = none) ∧
      ∃ r, plainSub pt ct = some r ∧ r.Encrypts par s i (m' - m) (-v - w) ∧ r.c.length = ct.c.length ∧ r.seed = none := by
  obtain ⟨n, hw, -⟩ := build_inv hb h
  refine ⟨scaleRest (par.modulusAt i) m', fun j => rfl, addPlain_eq hw hQ h1 hpt, subPlain_eq hw hQ h1 hpt, ?_⟩
  obtain ⟨r, e1, e2, e3, -⟩ := subPlain_eq hw hQ h1 hpt
  obtain ⟨r', e4, e5, e6, e7⟩ := neg_eq hw e2
  rw [neg_sub] at e5
  refine ⟨r', ?_, by rw [show -v - scaleRest (par.modulusAt i) m' = -(v + scaleRest (par.modulusAt i) m') by ring]; exact e5, by rw [e6, e3], e7⟩
  unfold plainSub
  rw [e1, Option.bind_eq_bind, Option.bind_some, e4]

/-- C38: multiplication by a plaintext multiplies the message by it, and the noise by the polynomial of its representatives in `0..t`. -/
theorem C38_mul_plain (hb : b.OK) (h : build b st = Res.ok par.toBfvParameters) (h1 : ct.Encrypts par s i m v) {pt : Plaintext} (hpt : pt.Holds par i m') :
    ∃ (r : Ciphertext) (P : IntPoly par.degree), ct.mulPlain pt = some r ∧ (∀ j, P j = ((m' j).val : Int)) ∧ r.Encrypts par s i (m * m') (v * P) ∧ r.c.length = ct.c.length ∧ r.seed = none := by
  obtain ⟨n, hw, -⟩ := build_inv hb h
  obtain ⟨r, e1, e2, e3, e4⟩ := mulPlain_eq hw h1 hpt
  exact ⟨r, msgInt m', e1, fun j => rfl, e2, e3, e4⟩

/-- C38: the empty ciphertext is neutral for addition and subtraction, and times a plaintext it stays empty. -/
theorem C38_zero (hb : b.OK) (h : build b st = Res.ok par.toBfvParameters) (h1 : ct.Encrypts par s i m v) (pt : Plaintext) (hp : pt.par = par) :
    (Ciphertext.zero par).add ct = some ct ∧ ct.add (Ciphertext.zero par) = some ct ∧ ct.sub (Ciphertext.zero par) = some ct ∧
    (∃ r, (Ciphertext.zero par).sub ct = some r ∧ r.Encrypts par s i (-m) (-v)) ∧ (Ciphertext.zero par).mulPlain pt = some (Ciphertext.zero par) := by
  have hne : ct.c ≠ [] := ne_nil_of_two h1.parts
  obtain ⟨r, e1, e2, -⟩ := C38_neg hb h h1
  have hpe := h1.par_eq
  refine ⟨?_, ?_, ?_, ⟨r, ?_, e2⟩, ?_⟩ <;> simp [Ciphertext.zero, Ciphertext.add, Ciphertext.sub, Ciphertext.mulPlain, hpe, hp, ptrEq_self, check, hne, e1]

/-! ## C46: modulus switching -/

/-- C46: `switch_down` moves a ciphertext to the next level, keeps its message and number of parts, and divides the noise by the dropped
modulus `q`, up to the rounding errors: `q v' = v - t phase(δ)`, one `δ` with coefficients of at most `q/2` for each part. -/
theorem C46_switch_down (hb : b.OK) (h : build b st = Res.ok par.toBfvParameters) (h1 : ct.Encrypts par s i m v) (hi : i + 1 < par.moduli.length) :
    ∃ (r : Ciphertext) (v' : IntPoly par.degree) (q : Nat) (δ : List (IntPoly par.degree)), ct.switchDown = Res.ok r ∧ r.Encrypts par s (i + 1) m v' ∧ r.c.length = ct.c.length ∧ r.seed = none ∧
      par.moduli[par.moduli.length - 1 - i]? = some q ∧ δ.length = ct.c.length ∧ (∀ d ∈ δ, d.Bounded (q / 2)) ∧ C (q : Int) * v' = v - C (par.plaintext.value : Int) * phase s δ := by
  obtain ⟨n, hw, -⟩ := build_inv hb h
  exact switchDown_eq hw h1 hi

/-- C46: hence the noise bound after `switch_down`, with `S` a bound for the secret. -/
theorem C46_switch_down_bound (hb : b.OK) (h : build b st = Res.ok par.toBfvParameters) (h1 : ct.Encrypts par s i m v) (hi : i + 1 < par.moduli.length) {S V : Nat} (hs : s.Bounded S) (hv : v.Bounded V) :
    ∃ (r : Ciphertext) (v' : IntPoly par.degree) (q : Nat), ct.switchDown = Res.ok r ∧ r.Encrypts par s (i + 1) m v' ∧ par.moduli[par.moduli.length - 1 - i]? = some q ∧
      v'.Bounded ((V + par.plaintext.value * (q / 2 * geom (par.degree * S) ct.c.length)) / q) := by
  obtain ⟨n, hw, -⟩ := build_inv hb h
  obtain ⟨r, v', q, e1, e2, -, -, e3, e4⟩ := switchDown_bound hw h1 hi hs hv
  exact ⟨r, v', q, e1, e2, e3, e4⟩

/-- C46: at the last level `switch_down` fails. -/
theorem C46_last (hb : b.OK) (h : build b st = Res.ok par.toBfvParameters) (hp : ct.par = par) (hi : par.moduli.length ≤ ct.level + 1) : ct.switchDown = Res.err (.math .noMoreContext) := by
  obtain ⟨n, hw, -⟩ := build_inv hb h
  have := List.length_pos_of_ne_nil hw.ne_nil
  unfold Ciphertext.switchDown BfvParameters.maxLevel
  rw [hp, hw.length, subU_eq (by omega), Res.lift_some, Res.ok_bind, if_pos (by omega)]

/-- C46: `switch_to_level` reaches any level that is not above the current one, keeps message and number of parts, and
`Q_i |v'| ≤ Q_target V + (Q_i - Q_target) t (1 + N S + … + (N S)^(parts - 1))`. -/
theorem C46_switch_to_level (hb : b.OK) (h : build b st = Res.ok par.toBfvParameters) (h1 : ct.Encrypts par s i m v) {target : Nat} (h2 : i ≤ target) (h3 : target < par.moduli.length)
    {S V : Nat} (hs : s.Bounded S) (hv : v.Bounded V) :
    ∃ (r : Ciphertext) (v' : IntPoly par.degree), ct.switchToLevel target = Res.ok r ∧ r.Encrypts par s target m v' ∧ r.c.length = ct.c.length ∧
      ∀ j, (par.modulusAt i : Int) * |v' j| ≤
        par.modulusAt target * V + (par.modulusAt i - par.modulusAt target) * (par.plaintext.value * geom (par.degree * S) ct.c.length) := by
  obtain ⟨n, hw, -⟩ := build_inv hb h
  obtain ⟨r, v', e1, e2, e3, -, e4⟩ := switchLoop_eq hw hs (target - i) h1 (by omega)
  rw [show i + (target - i) = target by omega] at e2 e4
  refine ⟨r, v', ?_, e2, e3, fun j => by have := e4 V hv j; linarith⟩
  unfold switchToLevel BfvParameters.maxLevel
  rw [h1.par_eq, hw.length, subU_eq (by omega), Res.lift_some, Res.ok_bind, h1.level_eq, if_neg (by omega), if_neg (by omega), e1]

/-- C46: going up, or beyond the last level, is an error. -/
theorem C46_rejects (hb : b.OK) (h : build b st = Res.ok par.toBfvParameters) (hp : ct.par = par) {target : Nat} (ht : target < ct.level ∨ par.moduli.length ≤ target) :
    ct.switchToLevel target = Res.err (.invalidLevel target ct.level (par.moduli.length - 1)) := by
  obtain ⟨n, hw, -⟩ := build_inv hb h
  have := List.length_pos_of_ne_nil hw.ne_nil
  unfold switchToLevel BfvParameters.maxLevel
  rw [hp, hw.length, subU_eq (by omega), Res.lift_some, Res.ok_bind]
  by_cases h1 : target < ct.level
  · rw [if_pos h1]
  · rw [if_neg h1, if_pos (by omega)]

/-! ## C47: serialization of ciphertexts -/

/-- C47: a well-formed ciphertext, with or without a seed, is read back equal from its message. -/
theorem C47_roundtrip (hb : b.OK) (h : build b st = Res.ok par.toBfvParameters) (hct : ct.WellFormed g par) (h32 : par.moduli.length ≤ 2 ^ 32) :
    ∃ msg ct', ct.toMsg = some msg ∧ fromMsg g msg par = Res.ok ct' ∧ ct'.beq ct = true ∧ ct'.par = par := by
  obtain ⟨n, hw, -⟩ := build_inv hb h
  obtain ⟨msg, e1, e2, -⟩ := roundtrip_eq hw hct h32
  exact ⟨msg, _, e1, e2, allowVt_beq, hct.par_eq⟩

/-- C47: ciphertexts made by encryption, arithmetic and modulus switching are well-formed: those without a seed always are. -/
theorem C47_wellFormed (hb : b.OK) (h : build b st = Res.ok par.toBfvParameters) (hct : ct.Encrypts par s i m v) (hs : ct.seed = none) : ct.WellFormed g par := by
  obtain ⟨n, hw, -⟩ := build_inv hb h
  exact Encrypts.wellFormed hw hct fun seed hs' => by rw [hs] at hs'; cases hs'

/-- C47: messages with too few polynomials, an invalid level, a malformed polynomial or a seed of the wrong length are rejected. -/
theorem C47_rejects (hb : b.OK) (h : build b st = Res.ok par.toBfvParameters) (msg : CiphertextMsg) :
    ((msg.c = [] ∨ (msg.c.length = 1 ∧ msg.seed = [])) → fromMsg g msg par = Res.err (.invalidCiphertextCount msg.c.length (decide (msg.seed ≠ [])))) ∧
    (¬ (msg.c = [] ∨ (msg.c.length = 1 ∧ msg.seed = [])) → par.moduli.length ≤ msg.level → fromMsg g msg par = Res.err (.invalidLevel msg.level 0 (par.moduli.length - 1))) ∧
    (∀ ct, fromMsg g msg par = Res.ok ct → ∃ ctx, par.contextAtLevel msg.level = Res.ok ctx ∧
      List.Forall₂ (fun x p => fromBytes .ntt x ctx = some (.ok p)) msg.c ((ct.c.take msg.c.length).map Poly.disallowVt) ∧ (∀ x ∈ msg.c, ∀ p, fromBytes .ntt x ctx = some (.ok p) → p.ctx = ctx) ∧ (msg.seed = [] ∨ msg.seed.length = 32) ∧
      ct.par = par ∧ ct.level = msg.level ∧ ct.level < par.moduli.length ∧ 2 ≤ ct.c.length ∧ ct.c.length = msg.c.length + (if msg.seed = [] then 0 else 1) ∧
      (ct.seed = if msg.seed = [] then none else some msg.seed) ∧
      (msg.seed ≠ [] → ∃ p, g.poly .ntt ctx msg.seed = some p ∧ ct.c.getLast? = some p.allowVt)) := by
  obtain ⟨n, hw, -⟩ := build_inv hb h
  have hpos := List.length_pos_of_ne_nil hw.ne_nil
  have hmax : par.maxLevel = some (par.moduli.length - 1) := by unfold BfvParameters.maxLevel; rw [hw.length, subU_eq (by omega)]
  refine ⟨fun hc => ?_, fun hc hl => ?_, fun ct hct => ?_⟩
  · unfold fromMsg; rw [if_pos hc]
  · unfold fromMsg; rw [if_neg hc, hmax, Res.lift_some, Res.ok_bind, if_pos (by omega)]
  · unfold fromMsg at hct
    by_cases hc : msg.c = [] ∨ (msg.c.length = 1 ∧ msg.seed = [])
    · rw [if_pos hc] at hct; exact absurd hct Res.err_ne_ok
    rw [if_neg hc, hmax, Res.lift_some, Res.ok_bind] at hct
    by_cases hl : msg.level > par.moduli.length - 1
    · rw [if_pos hl] at hct; exact absurd hct Res.err_ne_ok
    rw [if_neg hl, Res.bind_eq_ok] at hct
    obtain ⟨ctx, h1, hct⟩ := hct
    rw [Res.bind_eq_ok] at hct
    obtain ⟨cs, h2, hct⟩ := hct
    rw [Res.mapM_eq_ok] at h2
    have h3 : List.Forall₂ (fun x p => fromBytes .ntt x ctx = some (.ok p)) msg.c cs := h2.imp fun x p hp => Res.math_eq_ok.1 hp
    have h3' : List.Forall₂ (fun x p => fromBytes .ntt x ctx = some (.ok p)) msg.c ((cs.map Poly.allowVt).map Poly.disallowVt) := by
      rw [List.map_map]
      refine List.forall₂_map_right_iff.2 (h3.imp fun x p hp => ?_)
      rw [hp, ← (by show ({ p with vt := false } : Poly .ntt) = p; rw [← (fromBytes_ctx hp).2] : p.allowVt.disallowVt = p)]
      rfl
    have hlen := h2.length_eq
    have hne : msg.c.length ≠ 0 := fun h0 => hc (.inl (List.length_eq_zero_iff.1 h0))
    refine ⟨ctx, h1, ?_⟩
    by_cases hs : msg.seed = []
    · rw [if_pos hs, Res.pure_eq, Res.ok_inj] at hct
      subst hct
      have h1' : msg.c.length ≠ 1 := fun h0 => hc (.inr ⟨h0, hs⟩)
      refine ⟨?_, fun x hx p hp => (fromBytes_ctx hp).1, .inl hs, rfl, rfl, by show msg.level < _; omega, ?_, ?_, ?_, fun h0 => absurd hs h0⟩
      · rw [List.take_of_length_le (by rw [List.length_map]; omega)]; exact h3'
      · rw [List.length_map]; omega
      · rw [List.length_map, if_pos hs]; omega
      · rw [if_pos hs]
    · rw [if_neg hs] at hct
      by_cases h32 : msg.seed.length ≠ 32
      · rw [if_pos h32] at hct; exact absurd hct Res.err_ne_ok
      rw [if_neg h32, Res.bind_eq_ok] at hct
      obtain ⟨p, h4, hct⟩ := hct
      rw [Res.lift_eq_ok] at h4
      rw [Res.pure_eq, Res.ok_inj] at hct
      subst hct
      refine ⟨?_, fun x hx p hp => (fromBytes_ctx hp).1, .inr (by omega), rfl, rfl, by show msg.level < _; omega, ?_, ?_, ?_, fun _ => ⟨p, h4, by simp⟩⟩
      · rw [List.map_append, List.take_left' (by rw [List.length_map]; omega)]; exact h3'
      · rw [List.length_map, List.length_append]; simp only [List.length_singleton]; omega
      · rw [List.length_map, List.length_append, if_neg hs]; simp only [List.length_singleton]; omega
      · rw [if_neg hs]

/-! ## C48: validation of operands -/

/-- C48: `validate_for` accepts exactly the ciphertexts of the same parameters, with at least two parts, all of the context of their level; it
answers with an error otherwise and never panics. -/
theorem C48_validate (hb : b.OK) (h : build b st = Res.ok par.toBfvParameters) (ct : Ciphertext) :
    (ct.validateFor par ≠ Res.panic) ∧
    (ct.validateFor par = Res.ok () ↔ ct.par.ptrEq par = true ∧ ct.level < par.moduli.length ∧ 2 ≤ ct.c.length ∧ ∀ p ∈ ct.c, par.contextAtLevel ct.level = Res.ok p.ctx) := by
  obtain ⟨n, hw, -⟩ := build_inv hb h
  have hpos := List.length_pos_of_ne_nil hw.ne_nil
  unfold validateFor
  by_cases hp : ct.par.ptrEq par = true
  · rw [if_neg (by simp [hp])]
    by_cases hl : ct.level < par.moduli.length
    · obtain ⟨l, ha⟩ := AtLevel.ofLt (par := par) hw hl
      rw [ha.contextAt, Res.ok_bind]
      unfold validateContext
      simp only [hp, hl, true_and, Res.ok_inj]
      by_cases h2 : ct.c.length < 2
      · rw [if_pos h2]
        exact ⟨Res.noPanic_err _, fun h => absurd h Res.err_ne_ok, fun h => absurd h.1 (by omega)⟩
      · rw [if_neg h2, if_neg (by simp)]
        by_cases hc : (ct.c.any fun p => p.ctx ≠ l.ctx) = true
        · rw [if_pos hc]
          refine ⟨Res.noPanic_err _, fun h => absurd h Res.err_ne_ok, fun h => ?_⟩
          obtain ⟨p, hp, hne⟩ := List.any_eq_true.1 hc
          exact absurd (h.2 p hp).symm (by simpa using hne)
        · rw [if_neg hc]
          refine ⟨Res.noPanic_ok _, fun _ => ⟨by omega, fun p hp => ?_⟩, fun _ => rfl⟩
          by_contra hne
          exact hc (List.any_eq_true.2 ⟨p, hp, by simpa using fun e => hne e.symm⟩)
    · have : par.contextAtLevel ct.level = Res.err (.invalidLevel ct.level 0 (par.moduli.length - 1)) := by
        unfold BfvParameters.contextAtLevel BfvParameters.maxLevel
        rw [List.getElem?_eq_none (by rw [hw.length]; omega), hw.length, subU_eq (by omega)]
        rfl
      rw [this, Res.err_bind]
      exact ⟨Res.noPanic_err _, fun h => absurd h Res.err_ne_ok, fun h => absurd h.2.1 hl⟩
  · rw [if_pos (by simpa using hp)]
    exact ⟨Res.noPanic_err _, fun h => absurd h Res.err_ne_ok, fun h => absurd h.1 hp⟩

/-- C48: what `validate_for` rejects, decryption rejects with the same error; and every ciphertext of valid polynomials that it accepts
decrypts to some message, however large its noise, without a panic. -/
theorem C48_decrypt (hb : b.OK) (h : build b st = Res.ok par.toBfvParameters) (hcount : par.moduli.length ≤ 31) (hsum : par.moduli.sum ≤ 2 ^ 65) (hk : sk.IsKey par s) (ct : Ciphertext) :
    (∀ e, ct.validateFor par = Res.err e → sk.tryDecrypt b ct = Res.err e) ∧
    (ct.par = par → ct.validateFor par = Res.ok () → (∀ p ∈ ct.c, p.Valid) → par.plaintext.value ≤ par.modulusAt ct.level →
      ∃ pt m, sk.tryDecrypt b ct = Res.ok pt ∧ pt.Holds par ct.level m) := by
  obtain ⟨n, hw, -⟩ := build_inv hb h
  refine ⟨fun e he => ?_, fun hp hv hval hQ => ?_⟩
  · unfold SecretKey.tryDecrypt
    rw [hk.par_eq, he, Res.err_bind]
  · obtain ⟨-, h2, h3, h4⟩ := ((C48_validate hb h ct).2).1 hv
    exact tryDecrypt_total hw hcount hsum hk hp h2 hQ h3 fun p hp => ⟨hval p hp, h4 p hp⟩

/-- C48: the operators on ciphertexts and plaintexts panic when the operands are of different parameters, levels or (for two
ciphertexts) numbers of parts. -/
theorem C48_mismatch (ct ct' : Ciphertext) (pt : Plaintext) :
    (ct.par.ptrEq ct'.par = false → ct.add ct' = none ∧ ct.sub ct' = none) ∧
    (ct.c ≠ [] → ct'.c ≠ [] → (ct.level ≠ ct'.level ∨ ct.c.length ≠ ct'.c.length) → ct.add ct' = none ∧ ct.sub ct' = none) ∧
    (ct.par.ptrEq pt.par = false → ct.addPlain pt = none ∧ ct.subPlain pt = none ∧ plainSub pt ct = none ∧ ct.mulPlain pt = none) ∧
    (ct.c ≠ [] → pt.level ≠ some ct.level → ct.addPlain pt = none ∧ ct.subPlain pt = none ∧ plainSub pt ct = none ∧ ct.mulPlain pt = none) := by
  refine ⟨fun h => ?_, fun h1 h2 h3 => ?_, fun h => ?_, fun h1 h2 => ?_⟩
  · simp [Ciphertext.add, Ciphertext.sub, check, h]
  · unfold Ciphertext.add Ciphertext.sub
    cases ct.par.ptrEq ct'.par
    · simp [check]
    · rcases h3 with h3 | h3
      · simp [check, h1, h2, h3]
      · by_cases hl : ct.level = ct'.level <;> simp [check, h1, h2, h3, hl]
  · have e : ct.subPlain pt = none := by simp [Ciphertext.subPlain, check, h]
    exact ⟨by simp [Ciphertext.addPlain, check, h], e, by simp [Ciphertext.plainSub, e], by simp [Ciphertext.mulPlain, check, h]⟩
  · obtain ⟨p, ps, hc⟩ := List.exists_cons_of_ne_nil h1
    have key : ∀ {α : Type} (f : Unit → Option α), ((pt.level).bind fun x => (check (ct.level = x)).bind f) = none := by
      intro α f
      cases hl : pt.level with
      | none => rfl
      | some x =>
        rw [Option.bind_some]
        have : ct.level ≠ x := fun e => h2 (by rw [hl, e])
        simp [check, this]
    have e : ct.subPlain pt = none := by
      unfold Ciphertext.subPlain
      cases ct.par.ptrEq pt.par
      · simp [check]
      · rw [hc]; simp only [Option.bind_eq_bind, key]; simp [check]
    refine ⟨?_, e, by simp [Ciphertext.plainSub, e], ?_⟩
    · unfold Ciphertext.addPlain
      cases ct.par.ptrEq pt.par
      · simp [check]
      · rw [hc]; simp only [Option.bind_eq_bind, key]; simp [check]
    · unfold Ciphertext.mulPlain
      cases ct.par.ptrEq pt.par
      · simp [check]
      · rw [if_neg h1]; simp only [Option.bind_eq_bind, key]; simp [check]

/-! ## C55: serialization of secret and public keys -/

/-- C55: secret keys are read back from their message, and only messages with `N` coefficients are accepted. -/
theorem C55_secret_key (sk : SecretKey) (par : Par) (msg : List Int) :
    (sk.par = par → sk.coeffs.length = par.degree → SecretKey.fromMsg sk.toMsg par = Res.ok sk) ∧
    (msg.length ≠ par.degree → SecretKey.fromMsg msg par = Res.err (.invalidSecretKeyCount msg.length par.degree)) ∧
    ∀ sk, SecretKey.fromMsg msg par = Res.ok sk → sk.par = par ∧ sk.coeffs = msg ∧ msg.length = par.degree := by
  refine ⟨fun h1 h2 => ?_, fun h => by unfold SecretKey.fromMsg; rw [if_pos h], fun sk h => ?_⟩
  · unfold SecretKey.fromMsg SecretKey.toMsg; rw [if_neg (by simp [h2]), ← h1]
  · unfold SecretKey.fromMsg at h
    by_cases hl : msg.length ≠ par.degree
    · rw [if_pos hl] at h; exact absurd h Res.err_ne_ok
    · rw [if_neg hl, Res.ok_inj] at h; subst h; exact ⟨rfl, rfl, by omega⟩

/-- C55: a public key is read back from its message; a message without ciphertext, or whose ciphertext is not at level zero, is rejected. -/
theorem C55_public_key (hb : b.OK) (h : build b st = Res.ok par.toBfvParameters) (h32 : par.moduli.length ≤ 2 ^ 32) :
    (∀ pk : PublicKey, pk.par = par → pk.c.WellFormed g par → pk.c.level = 0 → ∃ msg pk', pk.toMsg = some msg ∧ PublicKey.fromMsg g msg par = Res.ok pk' ∧ pk'.par = par ∧ pk'.c.beq pk.c = true) ∧
    PublicKey.fromMsg g none par = Res.err .missingField ∧
    (∀ msg ct, Ciphertext.fromMsg g msg par = Res.ok ct → ct.level ≠ 0 → PublicKey.fromMsg g (some msg) par = Res.err (.invalidPublicKeyLevel ct.level 0)) ∧
    ∀ msg e, Ciphertext.fromMsg g msg par = Res.err e → PublicKey.fromMsg g (some msg) par = Res.err e := by
  obtain ⟨n, hw, -⟩ := build_inv hb h
  refine ⟨fun pk hp hwf h0 => ?_, rfl, fun msg ct hct hl => ?_, fun msg e he => ?_⟩
  · obtain ⟨msg, e1, e2, -⟩ := roundtrip_eq hw hwf h32
    refine ⟨some msg, ⟨par, { pk.c with c := pk.c.c.map Poly.disallowVt }⟩, ?_, ?_, rfl, ?_⟩
    · unfold PublicKey.toMsg; rw [e1]; rfl
    · unfold PublicKey.fromMsg
      simp only []
      rw [e2, Res.ok_bind, if_neg (by simp [h0])]
      congr 3
      rw [List.map_map]; rfl
    · unfold Ciphertext.beq
      simp only [decide_true, Bool.true_and, List.length_map, Bool.and_true, List.all_eq_true]
      rintro ⟨x, y⟩ hxy
      obtain ⟨k, hk, e⟩ := List.getElem_of_mem hxy
      rw [List.getElem_zip, List.getElem_map] at e
      simp only [Prod.mk.injEq] at e
      rw [← e.1, ← e.2]
      exact beq_of_vt rfl
  · unfold PublicKey.fromMsg; simp only []; rw [hct, Res.ok_bind, if_pos hl]
  · unfold PublicKey.fromMsg; simp only []; rw [he, Res.err_bind]

/-! ## C59: the noise meter -/

/-- C59: for a ciphertext that decrypts, `measure_noise` returns the exact bit length of the largest coefficient of the noise, that is of the
polynomial `w` with `phase = ⌊Q m / t⌋ + w`; in terms of `v`, `t w = v + (Q m mod t)`. -/
theorem C59_measure_noise (hb : b.OK) (h : build b st = Res.ok par.toBfvParameters) (hr : par.toBfvParameters.Reliable i) (hk : sk.IsKey par s)
    (hct : ct.Encrypts par s i m v) (hv : v.Small (par.modulusAt i)) :
    ∃ (k : Nat) (w : IntPoly par.degree), sk.measureNoise b ct = Res.ok k ∧
      (∀ j, (par.plaintext.value : Int) * w j = v j + ((par.modulusAt i * (m j).val % par.plaintext.value : Nat) : Int)) ∧ ∀ B, k ≤ B ↔ ∀ j, |w j| < 2 ^ B := by
  obtain ⟨n, hw, -⟩ := build_inv hb h
  obtain ⟨k, w, e1, e2, e3⟩ := measureNoise_eq hw hr hk hct hv
  refine ⟨k, w, e1, fun j => ?_, e3⟩
  have := congrFun e2 j
  rwa [C_mul_apply, Nega.add_apply] at this

/-! ## Concrete cases -/

/-- A generator and a stream that satisfy the assumptions. -/
def exPrg : Prg where
  expand seed ctx := ctx.moduli.map fun q => List.ofFn fun j : Fin ctx.degree => (seed.sum + 31 * j.val) % q
  derive seed i := List.replicate 32 ((seed.sum + i) % 256)

theorem exPrg_ok : exPrg.OK := by
  intro seed ctx hq
  refine ⟨List.length_map _, fun i q row h1 h2 => ?_⟩
  unfold exPrg at h2
  simp only [List.getElem?_map, h1, Option.map_some, Option.some.injEq] at h2
  subst h2
  refine ⟨List.length_ofFn, fun x hx => ?_⟩
  rw [List.mem_ofFn'] at hx
  obtain ⟨j, rfl⟩ := hx
  exact Nat.mod_lt _ (hq q (List.mem_of_getElem? h1))

def exRng : Nat → Nat := fun i => (i * 0x9E3779B97F4A7C15) % 2 ^ 64

theorem exRng_ok : IsStream exRng := fun _ => Nat.mod_lt _ (by norm_num)

/-- The parameters of `exParams`, with a secret key, a public key, and two encryptions of non-zero messages that satisfy all the
hypotheses above. -/
theorem exCipher : ∃ (par : Par) (sk : SecretKey) (s : IntPoly par.degree) (pt pt' : Plaintext) (m m' : par.Msg) (ct ct' : Ciphertext) (v v' : IntPoly par.degree),
    build luckyBuild exBuilder = Res.ok par.toBfvParameters ∧ par.degree = 8 ∧ par.plaintext.value = 17 ∧ par.moduli = [97, 113, 193] ∧ par.toBfvParameters.Reliable 0 ∧
    sk.IsKey par s ∧ s.Bounded 2 ∧ pt.Holds par 0 m ∧ pt'.Holds par 0 m' ∧ msgCoeffs m = [1, 2, 16, 0, 0, 0, 0, 0] ∧ msgCoeffs m' = [5, 4, 3, 0, 0, 0, 0, 0] ∧
    sk.tryEncrypt exPrg pt (List.replicate 32 7) exRng = Res.ok ct ∧ sk.tryEncrypt exPrg pt' (List.replicate 32 9) exRng = Res.ok ct' ∧
    ct.Encrypts par s 0 m v ∧ ct'.Encrypts par s 0 m' v' ∧ v.Bounded 51 ∧ v'.Bounded 51 ∧ ct.c.length = 2 ∧ ct'.c.length = 2 ∧ v.Small (par.modulusAt 0) ∧
    ct.WellFormed exPrg par ∧ par.modulusAt 0 = 2115473 ∧ par.variance = 1 := by
  obtain ⟨par, h, hd, ht, hm, -, h0, h1, h2⟩ := exParams
  have hvar : par.variance = 1 := (C31_sound luckyBuild_ok h).2.2.1
  obtain ⟨sk, s, -, hk, hs⟩ := C37_secret_key luckyBuild_ok h exRng_ok
  rw [hvar] at hs
  have hrel : par.toBfvParameters.Reliable 0 := ⟨by rw [hm]; decide, by rw [hm]; decide, by rw [h0, ht]; decide, fun _ q hq => by rw [hm] at hq; rw [ht]; simp at hq; omega⟩
  obtain ⟨m, -, e1, ⟨pt, -, e2, -⟩, -⟩ := C35_poly luckyBuild_ok h (level := 0) (by rw [hm]; decide) (by rw [h0, ht]; decide) (v := [1, 2, 16]) (by rw [hd]; decide) (by rw [ht]; decide)
  obtain ⟨m', -, e1', ⟨pt', -, e2', -⟩, -⟩ := C35_poly luckyBuild_ok h (level := 0) (by rw [hm]; decide) (by rw [h0, ht]; decide) (v := [5, 4, 3]) (by rw [hd]; decide) (by rw [ht]; decide)
  obtain ⟨ct, v, f1, f2, f3, f4, f5, f6⟩ := C37_encrypt luckyBuild_ok h hk exPrg_ok (by rw [h0, ht]; decide) e2 (seed := List.replicate 32 7) rfl exRng_ok
  obtain ⟨ct', v', f1', f2', f3', f4', -⟩ := C37_encrypt luckyBuild_ok h hk exPrg_ok (by rw [h0, ht]; decide) e2' (seed := List.replicate 32 9) rfl exRng_ok
  rw [ht, hvar] at f3 f3'
  exact ⟨par, sk, s, pt, pt', m, m', ct, ct', v, v', h, hd, ht, hm, hrel, hk, hs, e2, e2', by rw [e1, hd]; rfl, by rw [e1', hd]; rfl, f1, f1', f2, f2', f3, f3', f4, f4',
    small_of_bounded f3 (by rw [h0]; norm_num), f6, h0, hvar⟩

/-- Secret-key and public-key encryption at these parameters decrypt, a product with a plaintext minus another ciphertext does, and so
does a ciphertext two levels down. -/
example : ∃ (par : Par) (sk : SecretKey) (m m' : par.Msg) (ct ct' : Ciphertext), msgCoeffs m = [1, 2, 16, 0, 0, 0, 0, 0] ∧ msgCoeffs m' = [5, 4, 3, 0, 0, 0, 0, 0] ∧
    (∃ pt, sk.tryDecrypt luckyBuild ct = Res.ok pt ∧ pt.Holds par 0 m) ∧
    (∃ pk pt ct pt', PublicKey.new exPrg sk (List.replicate 32 1) exRng = some pk ∧ pk.tryEncrypt pt exRng exRng exRng = Res.ok ct ∧ sk.tryDecrypt luckyBuild ct = Res.ok pt' ∧ pt'.Holds par 0 m) ∧
    (∃ r pt, ct.sub ct' = some r ∧ sk.tryDecrypt luckyBuild r = Res.ok pt ∧ pt.Holds par 0 (m - m')) ∧
    (∃ pt r pt', ct.mulPlain pt = some r ∧ sk.tryDecrypt luckyBuild r = Res.ok pt' ∧ pt'.Holds par 0 (m * m')) ∧
    (∃ r pt, ct.switchDown = Res.ok r ∧ sk.tryDecrypt luckyBuild r = Res.ok pt ∧ pt.Holds par 1 m) ∧
    (∃ msg ct', ct.toMsg = some msg ∧ fromMsg exPrg msg par = Res.ok ct' ∧ ct'.beq ct = true ∧ ct'.par = par) ∧
    ∃ k, sk.measureNoise luckyBuild ct = Res.ok k ∧ k ≤ 3 := by
  obtain ⟨par, sk, s, pt, pt', m, m', ct, ct', v, v', h, hd, ht, hm, hrel, hk, hs, e2, e2', em, em', f1, f1', f2, f2', f3, f3', f4, f4', f5, f6, h0, hvar⟩ := exCipher
  have hb := luckyBuild_ok
  refine ⟨par, sk, m, m', ct, ct', em, em', ?_, ?_, ?_, ?_, ?_, C47_roundtrip hb h f6 (by rw [hm]; decide), ?_⟩
  · obtain ⟨pt, e1, e2, -⟩ := C37_decrypt hb h hrel hk f2 f5
    exact ⟨pt, e1, e2⟩
  · obtain ⟨pk, ct, pt', e⟩ := C37_public_roundtrip hb h hrel hk hs exPrg_ok (seed := List.replicate 32 1) rfl exRng_ok e2 exRng_ok exRng_ok exRng_ok (by rw [h0, ht, hvar, hd]; norm_num)
    exact ⟨pk, pt, ct, pt', e⟩
  · obtain ⟨r, e1, e2, -⟩ := C38_sub hb h f2 f2' (by rw [f4, f4'])
    obtain ⟨pt, e3, e4, -⟩ := C37_decrypt hb h hrel hk e2 (small_of_bounded (f3.sub f3') (by rw [h0]; norm_num))
    exact ⟨r, pt, e1, e3, e4⟩
  · obtain ⟨r, P, e1, hP, e2, -⟩ := C38_mul_plain hb h f2 e2'
    have hPb : P.Bounded 16 := fun j => by
      have : (m' j).val < par.plaintext.value := @ZMod.val_lt _ ⟨by rw [ht]; decide⟩ _
      rw [hP, Nat.abs_cast]; exact_mod_cast (by omega : (m' j).val ≤ 16)
    obtain ⟨pt, e3, e4, -⟩ := C37_decrypt hb h hrel hk e2 (small_of_bounded (f3.mul hPb) (by rw [h0, hd]; norm_num))
    exact ⟨_, r, pt, e1, e3, e4⟩
  · have h1 : par.modulusAt 1 = 10961 := by unfold BfvParameters.modulusAt; rw [hm]; rfl
    obtain ⟨r, v', q, e1, e2, hq, e3⟩ := C46_switch_down_bound hb h f2 (by rw [hm]; decide) hs f3
    obtain rfl : 193 = q := by rw [hm] at hq; simpa using hq
    have hrel1 : par.toBfvParameters.Reliable 1 := ⟨hrel.count, hrel.sum, by rw [h1, ht]; decide, hrel.first⟩
    obtain ⟨pt, e4, e5, -⟩ := C37_decrypt hb h hrel1 hk e2 (small_of_bounded e3 (by rw [h1, ht, hd, f4]; decide))
    exact ⟨r, pt, e1, e4, e5⟩
  · obtain ⟨k, w, e1, e2, e3⟩ := C59_measure_noise hb h hrel hk f2 f5
    refine ⟨k, e1, (e3 3).2 fun j => ?_⟩
    have := e2 j
    have hj := f3 j
    have hr : (par.modulusAt 0 * (m j).val % par.plaintext.value) < par.plaintext.value := Nat.mod_lt _ (by omega)
    generalize par.modulusAt 0 * (m j).val % par.plaintext.value = x at this hr
    rw [ht] at this hr
    rw [abs_le] at hj
    rw [abs_lt]
    constructor <;> norm_num at hj ⊢ <;> push_cast at this <;> omega

/-- Parameters that `build` accepts and under which zero does not decrypt to zero: degree 8, plaintext modulus 19, moduli 17 and 97. -/
def exBad : ParamsBuilder := { degree := 8, plaintext := 19, variance := 1, moduli := [17, 97] }

example : ∃ (par : Par) (sk : SecretKey) (pt : Plaintext) (ct : Ciphertext) (pt' : Plaintext) (m : par.Msg), build luckyBuild exBad = Res.ok par.toBfvParameters ∧
    pt.Holds par 0 0 ∧ sk.tryEncrypt exPrg pt (List.replicate 32 7) exRng = Res.ok ct ∧ sk.tryDecrypt luckyBuild ct = Res.ok pt' ∧ pt'.Holds par 0 m ∧ ∀ j, (m j).val = 2 := by
  have hvalid : ValidParams exBad.degree exBad.variance exBad.plaintext exBad.moduli := by
    constructor
    · exact ⟨3, by norm_num, by norm_num, rfl⟩
    · decide
    · exact Or.inl (by decide)
    · decide
    · decide
    · simp only [exBad, List.mem_cons, List.not_mem_nil, or_false, forall_eq_or_imp, forall_eq]; norm_num
    · decide
    · decide
    · decide
  obtain ⟨par0, h⟩ : ∃ par, build luckyBuild exBad = Res.ok par := by
    refine C31_complete luckyBuild_ok luckyBuild_lucky rfl hvalid (by decide) fun l hl => ?_
    by_contra hc
    push Not at hc
    exact enough_primes (n := 3) (by norm_num) (moduli := exBad.moduli) (by decide) (by decide) (l := l) (by omega) fun p h1 h2 => hc p h1 h2
  obtain ⟨-, e1, e4, e3, e2 | e2⟩ := C31_sound luckyBuild_ok h
  swap
  · exact absurd e2.1 (by decide)
  obtain ⟨par, rfl⟩ : ∃ par : Par, par.toBfvParameters = par0 := ⟨⟨par0, 0⟩, rfl⟩
  have hm : par.moduli = [17, 97] := e2.2
  have hd : par.degree = 8 := e1
  have ht : par.plaintext.value = 19 := e3
  have hvar : par.variance = 1 := e4
  have h0 : par.modulusAt 0 = 1649 := by unfold BfvParameters.modulusAt; rw [hm]; rfl
  obtain ⟨sk, s, -, hk, hs⟩ := C37_secret_key luckyBuild_ok h exRng_ok
  obtain ⟨pt, -, hpt, -⟩ := C35_zero luckyBuild_ok h (e := ⟨.poly, 0⟩) (by rw [hm]; decide)
  obtain ⟨ct, v, f1, f2, f3, -⟩ := C37_encrypt luckyBuild_ok h hk exPrg_ok (by rw [h0, ht]; decide) hpt (seed := List.replicate 32 7) rfl exRng_ok
  rw [ht, hvar] at f3
  obtain ⟨pt', m, g1, g2, g3⟩ := C37_fast_path_wrong luckyBuild_ok h (by rw [hm]; decide) (by rw [hm]; decide) hk (q0 := 17) (by rw [hm]; rfl) (by rw [ht]; decide) (by rw [ht]; decide)
    (by rw [h0, ht]; decide) f2 (small_of_bounded f3 (by rw [h0]; norm_num))
  exact ⟨par, sk, pt, ct, pt', m, h, hpt, f1, g1, g2, fun j => by rw [(g3 j).1, ht]⟩

end Fhe.Props
