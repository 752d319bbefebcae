import Verif.Props.BfvSer
import Verif.Lemmas.BfvWire
/-!
# Property C62: the bytes on the wire

`to_bytes` and `from_bytes`, down to the protobuf encoding.  `IsBytes` says that a list consists of bytes.
-/
namespace Fhe.Props
open Nega Poly ParamsBuilder Wire

variable {b : Build} {par : Par} {st : ParamsBuilder} {s : IntPoly par.degree} {sk : SecretKey} {g : Prg} {i j : Nat}

/-! ## Polynomials -/

/-- C62: the bytes written for a polynomial are read back as the same polynomial, without the permission for variable-time computations. -/
theorem C62_poly {c : Context} {moduli : List Nat} {degree : Nat} {r : Rep} (hb : b.OK) (hc : Context.new b moduli degree = some (.ok c)) (hd : degree ≤ 2 ^ 31) (hm : moduli.length ≤ 2 ^ 29)
    {p : Poly r} {f : c.Elem} (hp : Represents c p f) :
    ∃ bytes, p.toBytes = some bytes ∧ IsBytes bytes ∧ Poly.fromBytes r bytes c = some (.ok { p with vt := false }) := by
  obtain ⟨n, hdeg, hw, hmod⟩ := Context.new_inv hb hc
  have hn : n ≤ 31 := (Nat.pow_le_pow_iff_right (by norm_num)).1 (hdeg ▸ hd)
  obtain ⟨bytes, h1, h2, -, h3⟩ := toBytes_enc (r := r) (vt := p.vt) hw hn (by
    rw [hmod, hw.level.degree, ← hdeg]
    exact (Nat.mul_le_mul hm (Nat.mul_le_mul_left 8 hd)).trans (by norm_num)) f
  have hpe := (represents_iff hw).1 hp
  refine ⟨bytes, by rw [hpe]; exact h1, h2, ?_⟩
  rw [h3]
  conv_rhs => rw [hpe]
  rfl

/-- C62: any bytes are read as a polynomial or refused, without a panic; what is accepted is of the given context and, except in the power basis
(see `C28_unchecked`), has reduced coefficients. -/
theorem C62_poly_any {c : Context} {moduli : List Nat} {degree : Nat} (hb : b.OK) (hc : Context.new b moduli degree = some (.ok c)) {bytes : List Nat} (hbytes : IsBytes bytes) (r : Rep) :
    Poly.fromBytes r bytes c ≠ none ∧ ∀ p, Poly.fromBytes r bytes c = some (.ok p) → p.ctx = c ∧ p.vt = false ∧ (r ≠ .powerBasis → p.Valid) := by
  obtain ⟨n, -, hw, -⟩ := Context.new_inv hb hc
  rcases Poly.fromBytes_total hw hbytes r with ⟨e, he⟩ | ⟨p, he, h1, h2, -, h3⟩
  · rw [he]; exact ⟨by simp, fun p h => by simp at h⟩
  · rw [he]
    refine ⟨by simp, fun q h => ?_⟩
    obtain rfl : p = q := by simpa using h
    exact ⟨h1, h2, h3⟩

/-! ## Ciphertexts -/

/-- C62: the bytes written for a well-formed ciphertext are read back as an equal ciphertext. -/
theorem C62_ciphertext (hb : b.OK) (h : build b st = Res.ok par.toBfvParameters) (h32 : par.moduli.length ≤ 2 ^ 32) {ct : Ciphertext} (hct : ct.WellFormed g par) :
    ∃ bytes ct', ct.toBytes = some bytes ∧ ((∀ seed, ct.seed = some seed → IsBytes seed) → IsBytes bytes) ∧ Ciphertext.fromBytes g bytes par = Res.ok ct' ∧ ct'.beq ct = true ∧ ct'.par = par := by
  obtain ⟨n, hw, -⟩ := build_inv hb h
  obtain ⟨msg, e1, e2, e3, -, e4, e5⟩ := Ciphertext.roundtrip_eq hw hct h32
  refine ⟨msg.encode, _, by unfold Ciphertext.toBytes; rw [e1]; rfl, fun hs => ?_, ?_, Ciphertext.allowVt_beq, hct.par_eq⟩
  · refine CiphertextMsg.isBytes_encode e4 ?_
    rw [e5]
    cases hseed : ct.seed with
    | none => exact fun _ h => by cases h
    | some seed => exact hs seed hseed
  · unfold Ciphertext.fromBytes CiphertextMsg.decode
    rw [CiphertextMsg.codec e3 (partSize_lt' hw h32)]
    exact e2

/-- C62: any bytes are read as a ciphertext or refused, without a panic, and what is accepted is well formed. -/
theorem C62_ciphertext_any (hb : b.OK) (h : build b st = Res.ok par.toBfvParameters) (hg : g.OK) {bytes : List Nat} (hbytes : IsBytes bytes) :
    Ciphertext.fromBytes g bytes par ≠ Res.panic ∧ ∀ ct, Ciphertext.fromBytes g bytes par = Res.ok ct → ct.WellFormed g par := by
  unfold Ciphertext.fromBytes
  cases hm : CiphertextMsg.decode bytes with
  | none => exact ⟨Res.noPanic_err _, fun _ h => absurd h Res.err_ne_ok⟩
  | some m => exact C47_total hb h hg (m := m) (CiphertextMsg.decode_spec hm hbytes (by simp [CiphertextMsg.empty]))

/-! ## Secret keys -/

/-- C62: the bytes written for a secret key are read back as the same key. -/
theorem C62_secret_key (hb : b.OK) (h : build b st = Res.ok par.toBfvParameters) (hp : sk.par = par) (hl : sk.coeffs.length = par.degree) (hr : ∀ x ∈ sk.coeffs, -2 ^ 63 ≤ x ∧ x < 2 ^ 63) :
    IsBytes sk.toBytes ∧ SecretKey.fromBytes sk.toBytes par = Res.ok sk := by
  obtain ⟨n, hw, -⟩ := build_inv hb h
  refine ⟨sk.isBytes, ?_⟩
  unfold SecretKey.fromBytes SecretKey.toBytes SecretKey.toMsg
  rw [SecretKey.codec hr (by rw [hl]; have := degree_le hw; omega)]
  exact (C55_secret_key sk par []).1 hp hl

/-- C62: any bytes are read as a secret key or refused, and what is accepted has as many coefficients as the degree, all of 64 bits. -/
theorem C62_secret_key_any (par : Par) {bytes : List Nat} (hbytes : IsBytes bytes) :
    SecretKey.fromBytes bytes par ≠ Res.panic ∧ ∀ sk, SecretKey.fromBytes bytes par = Res.ok sk → sk.par = par ∧ sk.coeffs.length = par.degree ∧ ∀ x ∈ sk.coeffs, -2 ^ 63 ≤ x ∧ x < 2 ^ 63 := by
  unfold SecretKey.fromBytes
  cases hm : SecretKey.decodeMsg bytes with
  | none => exact ⟨Res.noPanic_err _, fun _ h => absurd h Res.err_ne_ok⟩
  | some m =>
    simp only []
    refine ⟨?_, fun sk h => ?_⟩
    · unfold SecretKey.fromMsg
      split
      · exact Res.noPanic_err _
      · exact Res.noPanic_ok _
    · obtain ⟨h1, h2, h3⟩ := (C55_secret_key sk par m).2.2 sk h
      exact ⟨h1, by rw [h2, h3], by rw [h2]; exact SecretKey.decode_spec hm hbytes⟩

/-! ## Public keys -/

/-- C62: the bytes written for a public key are read back as an equal key. -/
theorem C62_public_key (hb : b.OK) (h : build b st = Res.ok par.toBfvParameters) (hm : par.moduli.length ≤ 1024) {pk : PublicKey} (hp : pk.par = par) (hwf : pk.c.WellFormed g par) (h0 : pk.c.level = 0)
    (h2 : pk.c.c.length = 2) :
    ∃ bytes pk', pk.toBytes = some bytes ∧ ((∀ seed, pk.c.seed = some seed → IsBytes seed) → IsBytes bytes) ∧ PublicKey.fromBytes g bytes par = Res.ok pk' ∧ pk'.par = par ∧ pk'.c.beq pk.c = true := by
  obtain ⟨n, hw, -⟩ := build_inv hb h
  have h32 : par.moduli.length ≤ 2 ^ 32 := by omega
  obtain ⟨msg, e1, e2, e3, e6, e4, e5⟩ := Ciphertext.roundtrip_eq hw hwf h32
  obtain ⟨msg', pk', f1, f2, f3⟩ := (C55_public_key (g := g) hb h h32).1 pk hp hwf h0
  have hmsg : msg' = some msg := by unfold PublicKey.toMsg at f1; rw [e1] at f1; exact (Option.some_inj.1 f1).symm
  subst hmsg
  have hB := partSize_lt hw (by omega)
  have hl : msg.encode.length < 2 ^ 64 := by
    refine lt_of_le_of_lt (CiphertextMsg.length_encode e3 (by omega) le_partSize) (lt_of_le_of_lt (Nat.mul_le_mul (show _ ≤ 4 by omega) (show _ ≤ 2 ^ 30 + 20 by omega)) (by norm_num))
  refine ⟨Wire.encode (PublicKey.toFields (some msg)), pk', by unfold PublicKey.toBytes; rw [f1]; rfl, fun hs => ?_, ?_, f3⟩
  · refine Wire.isBytes_encode fun f hf p hp => ?_
    simp only [PublicKey.toFields, Option.toList_some, List.map_singleton, List.mem_singleton] at hf
    subst hf; cases hp
    refine CiphertextMsg.isBytes_encode e4 ?_
    rw [e5]
    cases hseed : pk.c.seed with
    | none => exact fun _ h => by cases h
    | some seed => exact hs seed hseed
  · unfold PublicKey.fromBytes
    rw [PublicKey.codec e3 (by omega) hl]
    exact f2

/-- C62: any bytes are read as a public key or refused, without a panic, and what is accepted is well formed and of level zero. -/
theorem C62_public_key_any (hb : b.OK) (h : build b st = Res.ok par.toBfvParameters) (hg : g.OK) {bytes : List Nat} (hbytes : IsBytes bytes) :
    PublicKey.fromBytes g bytes par ≠ Res.panic ∧ ∀ pk, PublicKey.fromBytes g bytes par = Res.ok pk → pk.par = par ∧ pk.c.WellFormed g par ∧ pk.c.level = 0 := by
  unfold PublicKey.fromBytes
  cases hm : Wire.decode PublicKey.mergeMsg none maxDepth bytes with
  | none => exact ⟨Res.noPanic_err _, fun _ h => absurd h Res.err_ne_ok⟩
  | some m => exact C55_public_key_total hb h hg (m := m) (PublicKey.decode_spec hm hbytes)

/-! ## Relinearization keys -/

/-- C62: the bytes written for a relinearization key are read back as an equal key, which relinearizes for the same secret keys. -/
theorem C62_relin (hb : b.OK) (h : build b st = Res.ok par.toBfvParameters) (hm : par.moduli.length ≤ 1024) {k : RelinearizationKey} (hk : k.ksk.WellFormed g par) :
    ∃ bytes k', k.toBytes = some bytes ∧ ((∀ seed, k.ksk.seed = some seed → IsBytes seed) → IsBytes bytes) ∧ RelinearizationKey.fromBytes g bytes par = Res.ok k' ∧ k'.ksk.beq k.ksk = true ∧
      k'.ksk.par = par ∧ k'.ksk.WellFormed g par ∧ ∀ (s : IntPoly par.degree) (i j e : Nat), k.IsFor par s i j e → k'.IsFor par s i j e := by
  obtain ⟨n, hw, -⟩ := build_inv hb h
  have h32 : par.moduli.length ≤ 2 ^ 32 := by omega
  obtain ⟨msg, e1, -, e3, e4, e5, e6⟩ := KeySwitchingKey.roundtrip_eq hw hk h32
  obtain ⟨msg', k', f1, f2, f3⟩ := C55_relin_roundtrip hb h h32 hk
  have hmsg : msg' = some msg := by unfold RelinearizationKey.toMsg at f1; rw [e1] at f1; exact (Option.some_inj.1 f1).symm
  subst hmsg
  have hB := partSize_lt hw (by omega)
  have hl := KeySwitchingKey.encode_lt hw hk (by omega) e3 e4
  refine ⟨Wire.encode (RelinearizationKey.toFields (some msg)), k', by unfold RelinearizationKey.toBytes; rw [f1]; rfl, fun hs => ?_, ?_, f3⟩
  · refine Wire.isBytes_encode fun f hf p hp => ?_
    simp only [RelinearizationKey.toFields, Option.toList_some, List.map_singleton, List.mem_singleton] at hf
    subst hf; cases hp
    refine KeySwitchingKeyMsg.isBytes_encode e5 ?_
    rw [e6]
    cases hseed : k.ksk.seed with
    | none => exact fun _ h => by cases h
    | some seed => exact hs seed hseed
  · unfold RelinearizationKey.fromBytes
    rw [RelinearizationKey.codec e3 (by omega) (by omega)]
    exact f2

/-- C62: any bytes are read as a relinearization key or refused, without a panic, and what is accepted is well formed. -/
theorem C62_relin_any (hb : b.OK) (h : build b st = Res.ok par.toBfvParameters) (hg : g.OK) {bytes : List Nat} (hbytes : IsBytes bytes) :
    RelinearizationKey.fromBytes g bytes par ≠ Res.panic ∧ ∀ k, RelinearizationKey.fromBytes g bytes par = Res.ok k → k.ksk.WellFormed g par := by
  unfold RelinearizationKey.fromBytes
  cases hm : Wire.decode RelinearizationKey.mergeMsg none maxDepth bytes with
  | none => exact ⟨Res.noPanic_err _, fun _ h => absurd h Res.err_ne_ok⟩
  | some m => exact C55_relin_total hb h hg (m := m) fun x hx => ⟨(RelinearizationKey.decode_spec hm hbytes x hx).1, (RelinearizationKey.decode_spec hm hbytes x hx).2⟩

/-! ## Evaluation keys -/

/-- The message of a well-formed evaluation key is read back from its encoding. -/
theorem evaluation_codec (hb : b.OK) (h : build b st = Res.ok par.toBfvParameters) (hm : par.moduli.length ≤ 1024) {k : EvaluationKey} (hk : k.WellFormed b g par) :
    ∃ msg, k.toMsg = some msg ∧ Wire.decode EvaluationKey.mergeMsg ⟨[], 0, 0⟩ maxDepth (Wire.encode (EvaluationKey.toFields msg)) = some msg ∧
      ∀ x ∈ msg.gk, ∃ y ∈ k.gk, ∃ z, x.2 = some z ∧ (∀ p ∈ z.c0 ++ z.c1, IsBytes p) ∧ z.seed = y.2.ksk.seed.getD [] := by
  obtain ⟨n, hw, -⟩ := build_inv hb h
  have h32 : par.moduli.length ≤ 2 ^ 32 := by omega
  obtain ⟨msg, gk', e1, -, -, -, e5, e6, e7, e8⟩ := EvaluationKey.roundtrip_eq hw hk h32
  have hB := partSize_lt hw (by omega)
  have hlen := EvaluationKey.length_le hw hk
  -- the size of the inner messages
  have hksk : ∀ x ∈ msg.gk, ∃ y ∈ k.gk, ∃ z, x.2 = some z ∧ x.1 < 2 ^ 32 ∧ z.Fits par.partSize ∧ z.encode.length < 2 ^ 42 ∧ (∀ p ∈ z.c0 ++ z.c1, IsBytes p) ∧ z.seed = y.2.ksk.seed.getD [] := by
    intro x hx
    obtain ⟨y, hy, z, z1, z2, z3, z4, z5, z6⟩ := e6 x hx
    have hwf := (hk.gk y.1 y.2 (lookup_of_mem hk.nodup hy)).1
    exact ⟨y, hy, z, z1, z2, z3, KeySwitchingKey.encode_lt hw hwf.ksk (by omega) z3 z4, z5, z6⟩
  have hgk : ∀ x ∈ msg.gk, (Wire.encode (GaloisKey.toFields x)).length < 2 ^ 44 := by
    rintro ⟨ex, o⟩ hx
    obtain ⟨y, hy, z, rfl, z2, z3, z4, -⟩ := hksk _ hx
    simp only at z2
    have := length_encode_le (fs := GaloisKey.toFields (ex, some z)) (B := 2 ^ 42) (fun f hf => by
      simp only [GaloisKey.toFields, Option.toList_some, List.map_singleton, List.mem_append, List.mem_singleton] at hf
      rcases hf with rfl | hf
      · exact ok_len (by decide) (by decide) (by omega)
      · rw [mem_scalar hf]; exact ok_varint (by decide) (by decide) (by omega)) fun f hf p hp => by
      simp only [GaloisKey.toFields, Option.toList_some, List.map_singleton, List.mem_append, List.mem_singleton] at hf
      rcases hf with rfl | hf
      · cases hp; omega
      · rw [mem_scalar hf] at hp; cases hp
    have h1 := length_scalar 2 ex
    have h2 : (GaloisKey.toFields (ex, some z)).length ≤ 2 := by
      simp only [GaloisKey.toFields, Option.toList_some, List.map_singleton, List.length_append, List.length_singleton]; omega
    exact lt_of_le_of_lt (this.trans (Nat.mul_le_mul_right _ h2)) (by norm_num)
  have hall : (Wire.encode (EvaluationKey.toFields msg)).length < 2 ^ 64 := by
    have := length_encode_le (fs := EvaluationKey.toFields msg) (B := 2 ^ 44) (fun f hf => by
      simp only [EvaluationKey.toFields, List.mem_append] at hf
      rcases hf with (hf | hf) | hf
      · obtain ⟨x, hx, rfl⟩ := List.mem_map.1 hf
        exact ok_len (by decide) (by decide) ((hgk x hx).trans (by norm_num))
      · rw [mem_scalar hf]; exact ok_varint (by decide) (by decide) (by omega)
      · rw [mem_scalar hf]; exact ok_varint (by decide) (by decide) (by omega)) fun f hf p hp => by
      simp only [EvaluationKey.toFields, List.mem_append] at hf
      rcases hf with (hf | hf) | hf
      · obtain ⟨x, hx, rfl⟩ := List.mem_map.1 hf
        cases hp; exact le_of_lt (hgk x hx)
      · rw [mem_scalar hf] at hp; cases hp
      · rw [mem_scalar hf] at hp; cases hp
    have h1 := length_scalar 3 msg.ciphertextLevel
    have h2 := length_scalar 4 msg.keyLevel
    have h3 : (EvaluationKey.toFields msg).length ≤ 2 ^ 17 + 2 := by
      simp only [EvaluationKey.toFields, List.length_append, List.length_map]; omega
    exact lt_of_le_of_lt (this.trans (Nat.mul_le_mul_right _ h3)) (by norm_num)
  refine ⟨msg, e1, EvaluationKey.codec (B := par.partSize) (by omega) (fun x hx => by
      obtain ⟨y, hy, z, z1, z2, z3, -⟩ := hksk x hx
      exact ⟨z, z1, z3, z2⟩) e7 e8 hall, fun x hx => ?_⟩
  obtain ⟨y, hy, z, z1, -, -, -, z5, z6⟩ := hksk x hx
  exact ⟨y, hy, z, z1, z5, z6⟩

/-- C62: the bytes written for an evaluation key are read back as a key with the same levels and tables and with equal Galois keys, which is an
evaluation key for the same secret keys. -/
theorem C62_evaluation (hb : b.OK) (h : build b st = Res.ok par.toBfvParameters) (hm : par.moduli.length ≤ 1024) {k : EvaluationKey} (hk : k.WellFormed b g par) :
    ∃ bytes k', k.toBytes = some bytes ∧ ((∀ x ∈ k.gk, ∀ seed, x.2.ksk.seed = some seed → IsBytes seed) → IsBytes bytes) ∧ EvaluationKey.fromBytes b g bytes par = Res.ok k' ∧ k'.par = par ∧
      k'.ciphertextLevel = k.ciphertextLevel ∧ k'.keyLevel = k.keyLevel ∧ k'.rot = k.rot ∧ k'.monomials = k.monomials ∧
      (∀ x, (k'.gk.lookup x = none ∧ k.gk.lookup x = none) ∨ ∃ gk gk', k.gk.lookup x = some gk ∧ k'.gk.lookup x = some gk' ∧ gk'.element = gk.element ∧ gk'.ksk.beq gk.ksk = true) ∧
      k'.WellFormed b g par ∧ ∀ (s : IntPoly par.degree) (i j e : Nat), k.IsFor par s i j e → k'.IsFor par s i j e := by
  have h32 : par.moduli.length ≤ 2 ^ 32 := by omega
  obtain ⟨msg, e1, hcodec, hksk⟩ := evaluation_codec hb h hm hk
  obtain ⟨msg', k', f1, f2, f3⟩ := C55_evaluation_roundtrip hb h h32 hk
  rw [e1, Option.some_inj] at f1
  subst f1
  refine ⟨_, k', by unfold EvaluationKey.toBytes; rw [e1]; rfl, fun hs => ?_, ?_, f3⟩
  · refine Wire.isBytes_encode fun f hf p hp => ?_
    simp only [EvaluationKey.toFields, List.mem_append] at hf
    rcases hf with (hf | hf) | hf
    · obtain ⟨⟨ex, o⟩, hx, rfl⟩ := List.mem_map.1 hf
      cases hp
      obtain ⟨y, hy, z, rfl, z5, z6⟩ := hksk _ hx
      refine Wire.isBytes_encode fun f hf p hp => ?_
      simp only [GaloisKey.toFields, Option.toList_some, List.map_singleton, List.mem_append, List.mem_singleton] at hf
      rcases hf with rfl | hf
      · cases hp
        refine KeySwitchingKeyMsg.isBytes_encode z5 ?_
        rw [z6]
        cases hseed : y.2.ksk.seed with
        | none => exact fun _ h => by cases h
        | some seed => exact hs y hy seed hseed
      · rw [mem_scalar hf] at hp; cases hp
    · rw [mem_scalar hf] at hp; cases hp
    · rw [mem_scalar hf] at hp; cases hp
  · unfold EvaluationKey.fromBytes
    rw [hcodec]
    exact f2

/-- C62: any bytes are read as an evaluation key or refused, without a panic, and what is accepted is well formed. -/
theorem C62_evaluation_any (hb : b.OK) (h : build b st = Res.ok par.toBfvParameters) (hg : g.OK) {bytes : List Nat} (hbytes : IsBytes bytes) :
    EvaluationKey.fromBytes b g bytes par ≠ Res.panic ∧ ∀ k, EvaluationKey.fromBytes b g bytes par = Res.ok k → k.WellFormed b g par := by
  unfold EvaluationKey.fromBytes
  cases hm : Wire.decode EvaluationKey.mergeMsg ⟨[], 0, 0⟩ maxDepth bytes with
  | none => exact ⟨Res.noPanic_err _, fun _ h => absurd h Res.err_ne_ok⟩
  | some m =>
    obtain ⟨h1, h2⟩ := EvaluationKey.decode_spec hm hbytes
    obtain ⟨h3, h4⟩ := C55_evaluation_total hb h hg (m := m) (fun x hx k hk => ⟨(h1 x hx k hk).1, (h1 x hx k hk).2⟩) h2
    exact ⟨h3, fun k hk => (h4 k hk).1⟩

/-! ## RGSW ciphertexts -/

/-- C62: the bytes written for an RGSW ciphertext are read back as an equal one, which encrypts the same message. -/
theorem C62_rgsw (hb : b.OK) (h : build b st = Res.ok par.toBfvParameters) (hm : par.moduli.length ≤ 1024) {r : RgswCiphertext} (hr : r.WellFormed g par) :
    ∃ bytes r', r.toBytes = some bytes ∧ ((∀ seed, r.ksk0.seed = some seed ∨ r.ksk1.seed = some seed → IsBytes seed) → IsBytes bytes) ∧ RgswCiphertext.fromBytes g bytes par = Res.ok r' ∧
      r'.ksk0.beq r.ksk0 = true ∧ r'.ksk1.beq r.ksk1 = true ∧ r'.WellFormed g par ∧
      ∀ (s : IntPoly par.degree) (i : Nat) (m : par.Msg) (e : Nat), r.Encrypts par s i m e → r'.Encrypts par s i m e := by
  obtain ⟨n, hw, -⟩ := build_inv hb h
  have h32 : par.moduli.length ≤ 2 ^ 32 := by omega
  obtain ⟨msg, e1, -, m0, m1, rfl, ⟨a1, a2, a3, a4⟩, b1, b2, b3, b4⟩ := RgswCiphertext.roundtrip_eq hw hr h32
  obtain ⟨msg', r', f1, f2, f3⟩ := C55_rgsw_roundtrip hb h h32 hr
  rw [e1, Option.some_inj] at f1
  subst f1
  have hB := partSize_lt hw (by omega)
  have l0 := KeySwitchingKey.encode_lt hw hr.fst (by omega) a1 a2
  have l1 := KeySwitchingKey.encode_lt hw hr.snd (by omega) b1 b2
  have hall : (Wire.encode (RgswCiphertext.toFields ⟨some m0, some m1⟩)).length < 2 ^ 64 := by
    refine lt_of_le_of_lt (length_encode_le (B := 2 ^ 42) (fun f hf => ?_) fun f hf p hp => ?_) (lt_of_le_of_lt (Nat.mul_le_mul_right _ (show _ ≤ 2 by simp [RgswCiphertext.toFields])) (by norm_num))
    · simp only [RgswCiphertext.toFields, Option.toList_some, List.map_singleton, List.mem_append, List.mem_singleton] at hf
      rcases hf with rfl | rfl
      · exact ok_len (by decide) (by decide) (by omega)
      · exact ok_len (by decide) (by decide) (by omega)
    · simp only [RgswCiphertext.toFields, Option.toList_some, List.map_singleton, List.mem_append, List.mem_singleton] at hf
      rcases hf with rfl | rfl <;> cases hp <;> omega
  refine ⟨_, r', by unfold RgswCiphertext.toBytes; rw [e1]; rfl, fun hs => ?_, ?_, f3⟩
  · refine Wire.isBytes_encode fun f hf p hp => ?_
    simp only [RgswCiphertext.toFields, Option.toList_some, List.map_singleton, List.mem_append, List.mem_singleton] at hf
    rcases hf with rfl | rfl
    · cases hp
      refine KeySwitchingKeyMsg.isBytes_encode a3 ?_
      rw [a4]
      cases hseed : r.ksk0.seed with
      | none => exact fun _ h => by cases h
      | some seed => exact hs seed (.inl hseed)
    · cases hp
      refine KeySwitchingKeyMsg.isBytes_encode b3 ?_
      rw [b4]
      cases hseed : r.ksk1.seed with
      | none => exact fun _ h => by cases h
      | some seed => exact hs seed (.inr hseed)
  · unfold RgswCiphertext.fromBytes
    rw [RgswCiphertext.codec a1 b1 (by omega) hall]
    exact f2

/-- C62: any bytes are read as an RGSW ciphertext or refused, without a panic, and what is accepted is well formed. -/
theorem C62_rgsw_any (hb : b.OK) (h : build b st = Res.ok par.toBfvParameters) (hg : g.OK) {bytes : List Nat} (hbytes : IsBytes bytes) :
    RgswCiphertext.fromBytes g bytes par ≠ Res.panic ∧ ∀ r, RgswCiphertext.fromBytes g bytes par = Res.ok r → r.WellFormed g par := by
  unfold RgswCiphertext.fromBytes
  cases hm : Wire.decode RgswCiphertext.mergeMsg ⟨none, none⟩ maxDepth bytes with
  | none => exact ⟨Res.noPanic_err _, fun _ h => absurd h Res.err_ne_ok⟩
  | some m => exact C55_rgsw_total hb h hg (m := m) fun x hx => ⟨(RgswCiphertext.decode_spec hm hbytes x hx).1, (RgswCiphertext.decode_spec hm hbytes x hx).2⟩

/-! ## Parameters -/

/-- C62: the bytes written for built parameters (fewer than `2^64`, as they must be to exist) are read back as the same parameters. -/
theorem C62_parameters (hb : b.OK) {par : BfvParameters} (h : build b st = Res.ok par) (hl : par.toBytes.length < 2 ^ 64) : IsBytes par.toBytes ∧ BfvParameters.fromBytes b par.toBytes = Res.ok par := by
  obtain ⟨n, hw, -⟩ := build_inv hb h
  have hq : ∀ q ∈ par.moduli, q < 2 ^ 64 := fun q hq => by have := hw.moduli.range q hq; omega
  constructor
  · refine Wire.isBytes_encode fun f hf p hp => ?_
    simp only [ParamsMsg.toFields, List.mem_append] at hf
    rcases hf with ((hf | hf) | hf) | hf
    · rw [mem_scalar hf] at hp; cases hp
    · rw [mem_packed hf] at hp; cases hp; exact isBytes_varints _
    · split at hf
      · simp at hf
      · rw [List.mem_singleton.1 hf] at hp; cases hp
      · rename_i bytes hbig
        rw [List.mem_singleton.1 hf] at hp; cases hp
        unfold BfvParameters.toMsg at hbig
        simp only at hbig
        split at hbig
        · simp at hbig
        · simp only [Option.some.injEq, PlaintextMsg.big.injEq] at hbig
          rw [← hbig]
          exact fun x hx => Nat.digits_lt_base (by norm_num) hx
    · rw [mem_scalar hf] at hp; cases hp
  · unfold BfvParameters.fromBytes BfvParameters.toBytes
    rw [ParamsMsg.codec (m := par.toMsg) (Nat.mod_lt _ (by norm_num)) hq (Nat.mod_lt _ (by norm_num)) (fun v hv => ?_) hl]
    · exact C32_roundtrip hb h
    · unfold BfvParameters.toMsg at hv
      simp only at hv
      split at hv
      · rename_i m hm
        simp only [Option.some.injEq, PlaintextMsg.word.injEq] at hv
        subst hv
        rcases hw.plaintext with ⟨m', h1, h2, h3⟩ | ⟨h2, h3⟩
        · obtain ⟨m'', g1, g2, -⟩ := Modulus.new_eq_ok (cfg := b.cfg) h2
          rw [h1] at g1
          rw [h3, Option.some_inj] at hm
          obtain rfl : m' = m'' := by simpa using g1
          rw [← hm, g2]; omega
        · rw [h3] at hm; cases hm
      · simp at hv

/-- C62: what is read as parameters from any bytes are valid parameters with the encoded degree, moduli, variance and plaintext modulus; and
unless more than 31 moduli are encoded, reading does not panic (when the random stream yields the roots it looks for). -/
theorem C62_parameters_any (hb : b.OK) (bytes : List Nat) :
    (∀ par, BfvParameters.fromBytes b bytes = Res.ok par → ValidParams par.degree par.variance par.plaintext.value par.moduli ∧
      ∃ m, Wire.decode ParamsMsg.merge ⟨0, [], none, 0⟩ maxDepth bytes = some m ∧ par.degree = m.degree ∧ par.moduli = m.moduli ∧ par.variance = m.variance ∧
        (m.plaintext = some (.word par.plaintext.value) ∨ ∃ p, m.plaintext = some (.big p) ∧ Nat.ofDigits 256 p = par.plaintext.value)) ∧
    (b.Lucky → (∀ m, Wire.decode ParamsMsg.merge ⟨0, [], none, 0⟩ maxDepth bytes = some m → m.moduli.length ≤ 31) → BfvParameters.fromBytes b bytes ≠ Res.panic) := by
  unfold BfvParameters.fromBytes
  cases hm : Wire.decode ParamsMsg.merge ⟨0, [], none, 0⟩ maxDepth bytes with
  | none => exact ⟨fun _ h => absurd h Res.err_ne_ok, fun _ _ => Res.noPanic_err _⟩
  | some m =>
    simp only [BfvParameters.fromMsg]
    cases hpt : m.plaintext with
    | none => exact ⟨fun _ h => absurd h Res.err_ne_ok, fun _ _ => Res.noPanic_err _⟩
    | some pt =>
      simp only []
      refine ⟨fun par h => ?_, fun hl h31 => C31_no_panic hb hl _ (h31 m rfl) (by simp [ParamsBuilder.setVariance, ParamsBuilder.setModuli, ParamsBuilder.setPlaintext, ParamsBuilder.setDegree])⟩
      obtain ⟨h1, h2, h3, h4, h5⟩ := C31_sound hb h
      refine ⟨h1, m, rfl, h2, ?_, h3, ?_⟩
      · rcases h5 with h5 | ⟨h5, h6⟩
        · exact h5.2
        · have h7 : m.moduli = [] := h5
          have h8 : List.Forall₂ (fun size p => 10 ≤ size ∧ size ≤ 62 ∧ FitsSize m.degree size p) [] par.moduli := h6
          rw [h7, List.forall₂_nil_left_iff.1 h8]
      · cases pt with
        | word v => exact .inl (by rw [hpt, h4]; rfl)
        | big p => exact .inr ⟨p, hpt, h4.symm⟩

/-! ## Extensions and empty messages -/

/-- C62: fields with numbers that the format does not use may follow; they are ignored. -/
theorem C62_unknown_fields (b : Build) (g : Prg) (par : Par) (bytes : List Nat) {fs : List Field} (hf : ∀ f ∈ fs, 7 ≤ f.1 ∧ f.1 < 2 ^ 29 ∧ match f.2 with | .varint n => n < 2 ^ 64 | .len p => p.length < 2 ^ 64 | _ => False) :
    (∀ ct, Ciphertext.fromBytes g bytes par = Res.ok ct → Ciphertext.fromBytes g (bytes ++ Wire.encode fs) par = Res.ok ct) ∧
    (∀ sk, SecretKey.fromBytes bytes par = Res.ok sk → SecretKey.fromBytes (bytes ++ Wire.encode fs) par = Res.ok sk) ∧
    (∀ pk, PublicKey.fromBytes g bytes par = Res.ok pk → PublicKey.fromBytes g (bytes ++ Wire.encode fs) par = Res.ok pk) ∧
    (∀ k, RelinearizationKey.fromBytes g bytes par = Res.ok k → RelinearizationKey.fromBytes g (bytes ++ Wire.encode fs) par = Res.ok k) ∧
    (∀ k, EvaluationKey.fromBytes b g bytes par = Res.ok k → EvaluationKey.fromBytes b g (bytes ++ Wire.encode fs) par = Res.ok k) ∧
    (∀ r, RgswCiphertext.fromBytes g bytes par = Res.ok r → RgswCiphertext.fromBytes g (bytes ++ Wire.encode fs) par = Res.ok r) ∧
    (∀ p, BfvParameters.fromBytes b bytes = Res.ok p → BfvParameters.fromBytes b (bytes ++ Wire.encode fs) = Res.ok p) := by
  have hok : ∀ f ∈ fs, Field.OK f := fun f h => ⟨by have := (hf f h).1; omega, (hf f h).2⟩
  have h7 : ∀ f ∈ fs, 7 ≤ f.1 := fun f h => (hf f h).1
  refine ⟨fun x h => ?_, fun x h => ?_, fun x h => ?_, fun x h => ?_, fun x h => ?_, fun x h => ?_, fun x h => ?_⟩
  · unfold Ciphertext.fromBytes CiphertextMsg.decode at h ⊢
    cases hm : Wire.decode CiphertextMsg.merge .empty maxDepth bytes with
    | none => rw [hm] at h; exact absurd h Res.err_ne_ok
    | some m =>
      rw [hm] at h
      rw [decode_ignore hm hok fun f hf m => by
        obtain ⟨k, hk⟩ := Nat.exists_eq_add_of_le' (h7 f hf)
        obtain ⟨t, v⟩ := f
        simp only at hk
        subst hk
        cases v <;> simp [CiphertextMsg.merge]]
      exact h
  · unfold SecretKey.fromBytes SecretKey.decodeMsg at h ⊢
    cases hm : Wire.decode SecretKey.mergeMsg [] maxDepth bytes with
    | none => rw [hm] at h; exact absurd h Res.err_ne_ok
    | some m =>
      rw [hm] at h
      rw [decode_ignore hm hok fun f hf m => by
        obtain ⟨k, hk⟩ := Nat.exists_eq_add_of_le' (h7 f hf)
        obtain ⟨t, v⟩ := f
        simp only at hk
        subst hk
        cases v <;> simp [SecretKey.mergeMsg]]
      exact h
  · unfold PublicKey.fromBytes at h ⊢
    cases hm : Wire.decode PublicKey.mergeMsg none maxDepth bytes with
    | none => rw [hm] at h; exact absurd h Res.err_ne_ok
    | some m =>
      rw [hm] at h
      rw [decode_ignore hm hok fun f hf m => by
        obtain ⟨k, hk⟩ := Nat.exists_eq_add_of_le' (h7 f hf)
        obtain ⟨t, v⟩ := f
        simp only at hk
        subst hk
        cases v <;> simp [PublicKey.mergeMsg]]
      exact h
  · unfold RelinearizationKey.fromBytes at h ⊢
    cases hm : Wire.decode RelinearizationKey.mergeMsg none maxDepth bytes with
    | none => rw [hm] at h; exact absurd h Res.err_ne_ok
    | some m =>
      rw [hm] at h
      rw [decode_ignore hm hok fun f hf m => by
        obtain ⟨k, hk⟩ := Nat.exists_eq_add_of_le' (h7 f hf)
        obtain ⟨t, v⟩ := f
        simp only at hk
        subst hk
        cases v <;> simp [RelinearizationKey.mergeMsg]]
      exact h
  · unfold EvaluationKey.fromBytes at h ⊢
    cases hm : Wire.decode EvaluationKey.mergeMsg ⟨[], 0, 0⟩ maxDepth bytes with
    | none => rw [hm] at h; exact absurd h Res.err_ne_ok
    | some m =>
      rw [hm] at h
      rw [decode_ignore hm hok fun f hf m => by
        obtain ⟨k, hk⟩ := Nat.exists_eq_add_of_le' (h7 f hf)
        obtain ⟨t, v⟩ := f
        simp only at hk
        subst hk
        cases v <;> simp [EvaluationKey.mergeMsg]]
      exact h
  · unfold RgswCiphertext.fromBytes at h ⊢
    cases hm : Wire.decode RgswCiphertext.mergeMsg ⟨none, none⟩ maxDepth bytes with
    | none => rw [hm] at h; exact absurd h Res.err_ne_ok
    | some m =>
      rw [hm] at h
      rw [decode_ignore hm hok fun f hf m => by
        obtain ⟨k, hk⟩ := Nat.exists_eq_add_of_le' (h7 f hf)
        obtain ⟨t, v⟩ := f
        simp only at hk
        subst hk
        cases v <;> simp [RgswCiphertext.mergeMsg]]
      exact h
  · unfold BfvParameters.fromBytes at h ⊢
    cases hm : Wire.decode ParamsMsg.merge ⟨0, [], none, 0⟩ maxDepth bytes with
    | none => rw [hm] at h; exact absurd h Res.err_ne_ok
    | some m =>
      rw [hm] at h
      rw [decode_ignore hm hok fun f hf m => by
        obtain ⟨k, hk⟩ := Nat.exists_eq_add_of_le' (h7 f hf)
        obtain ⟨t, v⟩ := f
        simp only at hk
        subst hk
        cases v <;> simp [ParamsMsg.merge]]
      exact h

/-- C62: the empty message: it is no ciphertext, key or parameter set, but it is an evaluation key without any Galois key. -/
theorem C62_empty (hb : b.OK) (h : build b st = Res.ok par.toBfvParameters) :
    Ciphertext.fromBytes g [] par = Res.err (.invalidCiphertextCount 0 false) ∧ SecretKey.fromBytes [] par = Res.err (.invalidSecretKeyCount 0 par.degree) ∧
    PublicKey.fromBytes g [] par = Res.err .missingField ∧ RelinearizationKey.fromBytes g [] par = Res.err .missingField ∧ RgswCiphertext.fromBytes g [] par = Res.err .missingField ∧
    BfvParameters.fromBytes b [] = Res.err .missingField ∧ ∃ k, EvaluationKey.fromBytes b g [] par = Res.ok k ∧ k.gk = [] ∧ k.ciphertextLevel = 0 ∧ k.keyLevel = 0 := by
  obtain ⟨n, hw, -⟩ := build_inv hb h
  have hpos := List.length_pos_of_ne_nil hw.ne_nil
  have hN : 0 < par.degree := by rw [hw.degree]; positivity
  refine ⟨rfl, ?_, rfl, rfl, rfl, rfl, ?_⟩
  · show SecretKey.fromMsg [] par = _
    unfold SecretKey.fromMsg
    rw [if_pos (by simp only [List.length_nil]; omega)]; rfl
  · obtain ⟨l, ha⟩ := AtLevel.ofLt (par := par) (i := 0) hw hpos
    obtain ⟨ms, f1, -⟩ := EvaluationKey.makeMonomials_eq hw ha
    obtain ⟨rot, f2⟩ : ∃ rot, EvaluationKey.constructRot b par = some rot := ⟨_, EvaluationKey.constructRot_eq hw⟩
    refine ⟨⟨par, 0, 0, [], rot, ms⟩, ?_, rfl, rfl, rfl⟩
    show EvaluationKey.fromMsg b g ⟨[], 0, 0⟩ par = _
    unfold EvaluationKey.fromMsg
    show (Res.ok [] >>= _) = _
    rw [Res.ok_bind, ha.contextAt, Res.ok_bind, f1, Res.ok_bind, f2, Res.lift_some, Res.ok_bind]; rfl

/-! ## Witnesses -/

/-- The bytes of the parameters with degree 8, moduli 97, 113, 193, plaintext modulus 17 and variance 1, and the same followed by a field that
is not known. -/
example : ∃ par, build luckyBuild exBuilder = Res.ok par ∧ par.toBytes = [8, 8, 18, 4, 97, 113, 193, 1, 24, 17, 32, 1] ∧
    BfvParameters.fromBytes luckyBuild [8, 8, 18, 4, 97, 113, 193, 1, 24, 17, 32, 1] = Res.ok par ∧
    BfvParameters.fromBytes luckyBuild [8, 8, 18, 4, 97, 113, 193, 1, 24, 17, 32, 1, 58, 2, 200, 201] = Res.ok par := by
  obtain ⟨par, h⟩ := exPar
  obtain ⟨-, e1, e3, e4, e2 | e2⟩ := C31_sound luckyBuild_ok h
  swap
  · exact absurd e2.1 (by decide)
  have hm : par.moduli = [97, 113, 193] := e2.2
  have hd : par.degree = 8 := e1
  have hv : par.variance = 1 := e3
  have ht : par.plaintext.value = 17 := e4
  obtain ⟨n, hw, -⟩ := build_inv luckyBuild_ok h
  have hbytes : par.toBytes = [8, 8, 18, 4, 97, 113, 193, 1, 24, 17, 32, 1] := by
    have hsmall : par.toMsg = ⟨8, [97, 113, 193], some (.word 17), 1⟩ := by
      unfold BfvParameters.toMsg
      rcases hw.plaintext with ⟨m, h1, h2, h3⟩ | ⟨h2, h3⟩
      · obtain ⟨m', g1, g2, -⟩ := Modulus.new_eq_ok (cfg := luckyBuild.cfg) h2
        rw [h1] at g1
        obtain rfl : m = m' := by simpa using g1
        simp only [h3, hd, hm, hv, g2, ht]; rfl
      · omega
    unfold BfvParameters.toBytes
    rw [hsmall]
    simp [ParamsMsg.toFields, Wire.encode, Wire.encodeField, Wire.scalar, Wire.packed, Wire.varint]
  have hr := (C62_parameters luckyBuild_ok h (by rw [hbytes]; decide)).2
  rw [hbytes] at hr
  refine ⟨par, h, hbytes, hr, ?_⟩
  have := (C62_unknown_fields luckyBuild exPrg ⟨par, 0⟩ _ (fs := [(7, .len [200, 201])]) (by simp)).2.2.2.2.2.2 _ hr
  simpa [Wire.encode, Wire.encodeField, Wire.varint] using this

example : ∃ (par : Par) (sk : SecretKey) (s : IntPoly par.degree), sk.IsKey par s ∧ SecretKey.fromBytes sk.toBytes par = Res.ok sk ∧
    (∃ ct bytes ct', ct.toBytes = some bytes ∧ Ciphertext.fromBytes exPrg bytes par = Res.ok ct' ∧ ct'.beq ct = true) ∧
    (∃ k bytes k', RelinearizationKey.newLeveled luckyBuild exPrg sk 1 0 (List.replicate 32 3) (fun _ => exRng) = Res.ok k ∧ k.toBytes = some bytes ∧ IsBytes bytes ∧
      RelinearizationKey.fromBytes exPrg bytes par = Res.ok k') ∧
    (∃ bd bd' k k' bytes, EvaluationKeyBuilder.newLeveled luckyBuild sk 0 0 = Res.ok bd ∧ bd.requests [.columns 3, .innerSum] = some bd' ∧
      bd'.build luckyBuild exPrg (fun _ => List.replicate 32 3) (fun _ _ => exRng) = Res.ok k ∧ k.toBytes = some bytes ∧ EvaluationKey.fromBytes luckyBuild exPrg bytes par = Res.ok k') ∧
    (∃ pt r r' bytes, sk.tryEncryptRgsw luckyBuild exPrg pt (List.replicate 32 3) (List.replicate 32 4) (fun _ => exRng) (fun _ => exRng) = Res.ok r ∧ r.toBytes = some bytes ∧
      RgswCiphertext.fromBytes exPrg bytes par = Res.ok r') := by
  obtain ⟨par, sk, s, pt, pt', m, m', ct, ct', v, v', h, hd, ht, hm, hrel, hk, hs, e2, e2', em, em', f1, f1', f2, f2', f3, f3', f4, f4', f5, f6, h0, hvar⟩ := exCipher
  have hb := luckyBuild_ok
  have h64 : par.moduli.length ≤ 64 := by rw [hm]; decide
  have h32 : par.moduli.length ≤ 2 ^ 32 := by rw [hm]; decide
  have h10 : par.moduli.length ≤ 1024 := by rw [hm]; decide
  refine ⟨par, sk, s, hk, ?_, ?_, ?_, ?_, ?_⟩
  · exact (C62_secret_key hb h hk.par_eq hk.length hk.word).2
  · obtain ⟨bytes, ct'', k1, -, k2, k3, -⟩ := C62_ciphertext hb h h32 f6
    exact ⟨ct, bytes, ct'', k1, k2, k3⟩
  · obtain ⟨k, g1, g2⟩ := C55_relin_generated (i := 1) (j := 0) hb h h64 hk exPrg_ok (seed := List.replicate 32 3) rfl (rngs := fun _ => exRng) (fun _ => exRng_ok) (by rw [hm]; decide) (by omega) (by rw [hm]; decide)
    obtain ⟨bytes, k', k1, k2, k3, -⟩ := C62_relin hb h h10 g2
    refine ⟨k, bytes, k', g1, k1, k2 fun seed hseed => ?_, k3⟩
    obtain ⟨n, hw, -⟩ := build_inv hb h
    obtain ⟨k0, g3, -, g4, -⟩ := RelinearizationKey.newLeveled_eq (i := 1) (j := 0) hw h64 hk exPrg_ok (by rw [hm]; decide) (by omega) (by rw [hm]; decide) (List.replicate 32 3) (rngs := fun _ => exRng)
      fun _ => exRng_ok
    rw [g1, Res.ok_inj] at g3
    subst g3
    rw [g4, Option.some_inj] at hseed
    subst hseed
    unfold IsBytes
    decide
  · obtain ⟨bd, bd', k, g1, g2, g3, g4⟩ := C55_evaluation_generated (i := 0) (j := 0) hb h h64 hk exPrg_ok (by rw [hm]; decide) (by omega) [.columns 3, .innerSum] (seeds := fun _ => List.replicate 32 3) (fun _ => rfl)
      (rngs := fun _ _ => exRng) (fun _ _ => exRng_ok)
    obtain ⟨bytes, k', k1, -, k2, -⟩ := C62_evaluation hb h h10 g4
    exact ⟨bd, bd', k, k', bytes, g1, g2, g3, k1, k2⟩
  · obtain ⟨r, g1, g2⟩ := C55_rgsw_generated hb h hk exPrg_ok e2 (seed0 := List.replicate 32 3) (seed1 := List.replicate 32 4) rfl rfl (rngs0 := fun _ => exRng) (rngs1 := fun _ => exRng) (fun _ => exRng_ok) (fun _ => exRng_ok)
    obtain ⟨bytes, k', k1, -, k2, -⟩ := C62_rgsw hb h h10 g2
    exact ⟨pt, r, k', bytes, g1, k1, k2⟩

end Fhe.Props
