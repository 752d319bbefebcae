import Verif.Lemmas.PermissionKeys
import Verif.Props.Agree
import Verif.Props.BfvNew
/-!
# Permission to compute in variable time

Every polynomial says whether it may be computed with in variable time.  What is fresh or was read permits it, what depends on a plaintext or on a key that
does not permit it does not, and results permit it exactly if what they are computed from does.
-/
namespace Fhe.Props
open Nega ParamsBuilder Ciphertext

variable {b : Build} {st : ParamsBuilder} {par : Par} {x y r : Ciphertext} {g : Prg} {pt : Plaintext}

/-- C87: encryptions permit variable time in both parts; public keys, with which small secret polynomials are multiplied, do not; and neither do the plaintexts
that decryption returns. -/
theorem C87_fresh {sk : SecretKey} {pk : PublicKey} {seed : Seed} {rng r0 r1 r2 : Nat → Nat} :
    (sk.tryEncrypt g pt seed rng = Res.ok r → r.flags = [true, true]) ∧ (pk.tryEncrypt pt r0 r1 r2 = Res.ok r → r.flags = [true, true]) ∧
    (PublicKey.new g sk seed rng = some pk → pk.c.flags = [false, false]) ∧ (sk.tryDecrypt b x = Res.ok pt → pt.polyNtt.vt = false) :=
  ⟨SecretKey.tryEncrypt_flags, PublicKey.tryEncrypt_flags, PublicKey.new_flags, SecretKey.tryDecrypt_vt⟩

/-- C87: the keys for computing with ciphertexts permit variable time when they are generated. -/
theorem C87_keys {sk : SecretKey} {i j e : Nat} {seed seed' : Seed} {rngs rngs' : Nat → Nat → Nat} {k : RelinearizationKey} {gk : GaloisKey} {ek : EvaluationKey} {w : RgswCiphertext}
    {s : EvaluationKeyBuilder} {seeds : Nat → Seed} {rs : Nat → Nat → Nat → Nat} :
    (RelinearizationKey.newLeveled b g sk i j seed rngs = Res.ok k → k.ksk.permits = true) ∧ (GaloisKey.new b g sk e i j seed rngs = Res.ok gk → gk.ksk.permits = true) ∧
    (s.build b g seeds rs = Res.ok ek → ek.Permits) ∧ (sk.tryEncryptRgsw b g pt seed seed' rngs rngs' = Res.ok w → w.ksk0.permits = true ∧ w.ksk1.permits = true) :=
  ⟨RelinearizationKey.newLeveled_permits, GaloisKey.new_permits, EvaluationKey.build_permits, SecretKey.tryEncryptRgsw_permits⟩

/-- C87: what is read from bytes permits variable time, except for public keys. -/
theorem C87_read {bytes : List Nat} {pk : PublicKey} {k : RelinearizationKey} {ek : EvaluationKey} {w : RgswCiphertext} :
    (Ciphertext.fromBytes g bytes par = Res.ok r → r.permits = true) ∧ (PublicKey.fromBytes g bytes par = Res.ok pk → ∀ f ∈ pk.c.flags, f = false) ∧
    (RelinearizationKey.fromBytes g bytes par = Res.ok k → k.ksk.permits = true) ∧ (EvaluationKey.fromBytes b g bytes par = Res.ok ek → ek.Permits) ∧
    (RgswCiphertext.fromBytes g bytes par = Res.ok w → w.ksk0.permits = true ∧ w.ksk1.permits = true) :=
  ⟨Ciphertext.fromBytes_permits, PublicKey.fromBytes_flags, RelinearizationKey.fromBytes_permits, EvaluationKey.fromBytes_permits, RgswCiphertext.fromBytes_permits⟩

/-- C87: a part of a sum or difference permits variable time exactly if the parts it is computed from do; negation and modulus switching change nothing. -/
theorem C87_linear {i : Nat} : (x.neg = some r → r.flags = x.flags) ∧ (x.switchDown = Res.ok r → r.flags = x.flags) ∧ (x.switchToLevel i = Res.ok r → r.flags = x.flags) ∧
    (x.c ≠ [] → y.c ≠ [] → x.add y = some r → r.flags = List.zipWith (· && ·) x.flags y.flags) ∧ (x.c ≠ [] → y.c ≠ [] → x.sub y = some r → r.flags = List.zipWith (· && ·) x.flags y.flags) ∧
    (x.c = [] → x.add y = some r → r.flags = y.flags) ∧ (x.c = [] → x.sub y = some r → r.flags = y.flags) ∧ (y.c = [] → x.add y = some r → r.flags = x.flags) ∧
    (y.c = [] → x.sub y = some r → r.flags = x.flags) := by
  have hn : x.c = [] → x.flags = [] := fun e => by rw [flags, e]; rfl
  have hn' : y.c = [] → y.flags = [] := fun e => by rw [flags, e]; rfl
  refine ⟨neg_flags, switchDown_flags, switchToLevel_flags, fun h1 h2 h => ?_, fun h1 h2 h => ?_, fun h1 h => ?_, fun h1 h => ?_, fun h1 h => ?_, fun h1 h => ?_⟩
  · rw [add_flags h, if_neg h1, if_neg h2]
  · rw [sub_flags h, if_neg h1, if_neg h2]
  · rw [add_flags h, if_pos h1]
  · rw [sub_flags h, if_pos h1]
  · rw [add_flags h, if_pos h1]
    split
    · rename_i h2; rw [hn h2, hn' h1]
    · rfl
  · rw [sub_flags h, if_pos h1]
    split
    · rename_i h2; rw [hn h2, hn' h1]
    · rfl

/-- C87: adding or subtracting a plaintext, whatever it permits, takes the permission from the first part and leaves it to the others; a product with a plaintext
permits variable time where the part and the plaintext do. -/
theorem C87_plain : (x.addPlain pt = some r → r.flags = false :: x.flags.tail) ∧ (x.subPlain pt = some r → r.flags = false :: x.flags.tail) ∧
    (plainSub pt x = some r → r.flags = false :: x.flags.tail) ∧ (x.mulPlain pt = some r → r.flags = x.flags.map (· && pt.polyNtt.vt)) :=
  ⟨addPlain_flags, subPlain_flags, plainSub_flags, mulPlain_flags⟩

/-- C87: all the parts of a product permit variable time if all the parts of both factors do, and none does otherwise — if the factors differ. -/
theorem C87_mul (hx : x.c ≠ []) (hne : y.beq x = false) (h : x.mul y = some r) : r.flags = List.replicate (x.c.length + y.c.length - 1) (x.permits && y.permits) := by
  rw [mul_flags h hx, hne]
  rfl

/-- C87: of equal factors only the first is asked. -/
theorem C87_mul_equal (hx : x.c ≠ []) (he : y.beq x = true) (h : x.mul y = some r) : r.flags = List.replicate (x.c.length + x.c.length - 1) x.permits := by
  rw [mul_flags h hx, he]
  rfl

/-- C87: so there are factors, one of which forbids variable time, with a product that permits it; and in the other order it does not. -/
theorem C87_square (hb : b.OK) (h : build b st = Res.ok par.toBfvParameters) (hcount : par.moduli.length ≤ 31) (hsum : par.moduli.sum ≤ 2 ^ 65) (hx : x.Usable par) (hs : x.seed = none) (hp : x.permits = true) :
    ∃ y u v, Ciphertext.new (x.c.map Poly.disallowVt) par = Res.ok y ∧ y.permits = false ∧ x.mul y = some u ∧ u.permits = true ∧ y.mul x = some v ∧ v.permits = false := by
  have h2 := hx.parts
  have hne : x.c ≠ [] := fun e => by rw [e] at h2; simp at h2
  let y : Ciphertext := { x with c := x.c.map Poly.disallowVt }
  have hy : y.Usable par := ⟨hx.par_eq, hx.level, by simpa [y] using h2, fun p hp => by
    obtain ⟨q, hq, rfl⟩ := List.mem_map.1 hp
    have hv := (hx.valid q hq).1
    exact ⟨⟨hv.notLazy, hv.rows, hv.columns, hv.reduced, hv.shoup⟩, (hx.valid q hq).2⟩⟩
  have hnew : Ciphertext.new (x.c.map Poly.disallowVt) par = Res.ok y :=
    ((C48_new hb h _).2.1 y).2 ⟨hy.parts, hy.par_eq, rfl, hs, hy.level, fun p hp => (hy.valid p hp).2⟩
  have hyf : y.flags = List.replicate x.c.length false := flags_disallow x
  have rep : ∀ (n : Nat) (f : Bool), 0 < n → (List.replicate n f).all id = f := fun n f hn => by
    cases n with
    | zero => omega
    | succ n => cases f <;> simp
  have hyp : y.permits = false := by rw [permits, hyf, rep _ _ (by omega)]
  have hbeq : y.beq x = true ∧ x.beq y = true := by
    have e1 : ∀ l : List (Poly .ntt), ((l.map Poly.disallowVt).zip l).all (fun z => z.1.beq z.2) = true ∧ (l.zip (l.map Poly.disallowVt)).all (fun z => z.1.beq z.2) = true := by
      intro l
      induction l with
      | nil => exact ⟨rfl, rfl⟩
      | cons p l ih =>
        simp only [List.map_cons, List.zip_cons_cons, List.all_cons, Bool.and_eq_true]
        exact ⟨⟨beq_of_vt rfl, ih.1⟩, ⟨beq_of_vt rfl, ih.2⟩⟩
    constructor
    · simp [Ciphertext.beq, y, (e1 x.c).1]
    · simp [Ciphertext.beq, y, (e1 x.c).2]
  obtain ⟨u, v, hu, hv, -⟩ := C68_mul hb h hcount hsum hx hy rfl
  refine ⟨y, u, v, hnew, hyp, hu, ?_, hv, ?_⟩
  · rw [permits, C87_mul_equal hne hbeq.1 hu, hp, rep _ _ (by omega)]
  · have hyne : y.c ≠ [] := fun e => hne (List.map_eq_nil_iff.1 e)
    have hyl : y.c.length = x.c.length := List.length_map _
    rw [permits, C87_mul_equal hyne hbeq.2 hv, hyp, rep _ _ (by omega)]

/-- C87: both polynomials that key switching returns permit variable time exactly if the given polynomial and every polynomial of the key do; so a relinearized part
does if it did before, and the third part and the whole key do. -/
theorem C87_relinearize {k : RelinearizationKey} {p : Poly .powerBasis} {q : Poly .ntt × Poly .ntt} {f0 f1 f2 : Bool} :
    (k.ksk.keySwitch p = Res.ok q → q.1.vt = (p.vt && k.ksk.permits) ∧ q.2.vt = (p.vt && k.ksk.permits)) ∧
    (k.relinearizes x = Res.ok r → x.flags = [f0, f1, f2] → r.flags = [f0 && f2 && k.ksk.permits, f1 && f2 && k.ksk.permits]) := by
  refine ⟨KeySwitchingKey.keySwitch_vt, fun h hx => ?_⟩
  obtain ⟨g0, g1, g2, e1, e2⟩ := RelinearizationKey.relinearizes_flags h
  rw [hx] at e1
  simp only [List.cons.injEq, and_true] at e1
  obtain ⟨rfl, rfl, rfl⟩ := e1
  rw [e2, Bool.and_assoc, Bool.and_assoc]

/-- C87: with an evaluation key that was generated or read, rotations and inner sums permit variable time in the first part if both parts of the ciphertext do, and in
the second if the second does; so do all the results of an expansion, unless only one is asked for, which is the ciphertext itself. -/
theorem C87_evaluation {k : EvaluationKey} (hk : k.Permits) {f0 f1 : Bool} (hx : x.flags = [f0, f1]) {i size : Nat} {rs : List Ciphertext} :
    (k.rotatesRows x = Res.ok r → r.flags = [f0 && f1, f1]) ∧ (k.rotatesColumnsBy x i = Res.ok r → r.flags = [f0 && f1, f1]) ∧ (k.computesInnerSum x = Res.ok r → r.flags = [f0 && f1, f1]) ∧
    (k.expands x size = Res.ok rs → (size = 1 → rs = [x]) ∧ (1 < size → ∀ r ∈ rs, r.flags = [f0 && f1, f1])) :=
  ⟨EvaluationKey.rotatesRows_flags hk hx, EvaluationKey.rotatesColumnsBy_flags hk hx, EvaluationKey.computesInnerSum_flags hk hx, EvaluationKey.expands_flags hk hx⟩

/-- C87: the external product with an RGSW ciphertext permits variable time, in both parts, exactly if the ciphertext and all of the RGSW ciphertext do. -/
theorem C87_rgsw {w : RgswCiphertext} (h : x.mulRgsw w = some r) : r.flags = List.replicate 2 (x.permits && w.ksk0.permits && w.ksk1.permits) := by
  obtain ⟨f0, f1, e1, e2⟩ := mulRgsw_flags h
  rw [e2, permits, e1]
  cases f0 <;> cases f1 <;> cases w.ksk0.permits <;> cases w.ksk1.permits <;> rfl

/-- C87: the parts of what a multiplicator returns permit variable time exactly if the parts that they are computed from, and the relinearization key if there is one, do. -/
theorem C87_multiplicator {mp : Multiplicator} {f0 f1 h0 h1 : Bool} (hx : x.flags = [f0, f1]) (hy : y.flags = [h0, h1]) (h : mp.multiply x y = Res.ok r) :
    (mp.rk = none → r.flags = [f0 && h0, f0 && f1 && h0 && h1, f1 && h1]) ∧ ∀ k, mp.rk = some k → r.flags = List.replicate 2 (x.permits && y.permits && k.ksk.permits) := by
  obtain ⟨f0', f1', h0', h1', e1, e2, e3⟩ := Multiplicator.multiply_flags h
  rw [hx] at e1
  rw [hy] at e2
  simp only [List.cons.injEq, and_true] at e1 e2
  obtain ⟨rfl, rfl⟩ := e1
  obtain ⟨rfl, rfl⟩ := e2
  refine ⟨fun hn => ?_, fun k hk => ?_⟩
  · rw [e3, hn]
    cases f0 <;> cases f1 <;> cases h0 <;> cases h1 <;> rfl
  · rw [e3, hk, permits, permits, hx, hy]
    cases f0 <;> cases f1 <;> cases h0 <;> cases h1 <;> cases hkk : k.ksk.permits <;> simp [hkk]

/-- C87: a part of a dot product permits variable time only if every plaintext and that part of every ciphertext do; and if all parts and plaintexts do, then so does
the result. -/
theorem C87_dot {cts : List Ciphertext} {pts : List Plaintext} (h : dotProductScalar cts pts = Res.ok r) :
    (∀ i : Nat, r.flags[i]? = some true → ∀ z ∈ cts.zip pts, z.1.flags[i]? = some true ∧ z.2.polyNtt.vt = true) ∧
    ((∀ z ∈ cts.zip pts, z.1.permits = true ∧ z.2.polyNtt.vt = true) → r.permits = true) := by
  refine ⟨(dotProductScalar_flags h).1, fun hall => (dotProductScalar_flags h).2 ?_⟩
  rw [List.all_eq_true]
  intro z hz
  rw [(hall z hz).1, (hall z hz).2]
  rfl

/-- A product of fresh ciphertexts, relinearized, permits variable time; one that forbids it makes the product forbid it. -/
example : ∃ (par : Par) (x y z r t v : Ciphertext) (k : RelinearizationKey), build luckyBuild exBuilder = Res.ok par.toBfvParameters ∧ x.flags = [true, true] ∧ y.flags = [true, true] ∧ z.flags = [false, true] ∧
    x.mul y = some r ∧ r.flags = [true, true, true] ∧ k.relinearizes r = Res.ok t ∧ t.flags = [true, true] ∧ z.mul t = some v ∧ v.flags = [false, false, false] := by
  obtain ⟨par, sk, s, pt, pt', m, m', ct, ct', v, v', h, hd, ht, hm, hrel, hk, hs, e2, e2', em, em', f1, f1', f2, f2', f3, f3', f4, f4', f5, f6, h0, hvar⟩ := exCipher
  have hb := luckyBuild_ok
  obtain ⟨n, hw, -⟩ := build_inv hb h
  obtain ⟨k, g1, g2, -⟩ := (C41_new (i := 0) (j := 0) hb h (by rw [hm]; decide) hk exPrg_ok (List.replicate 32 3) (rngs := fun _ => exRng) (fun _ => exRng_ok)).1 (by rw [hm]; decide) (le_refl _) (by rw [hm]; decide)
  obtain ⟨r, v'', r1, r2, r3, -⟩ := C39_bound hb h hrel.count hrel.sum f2 f2' (by rw [f4]; norm_num) hs f3 f3'
  rw [f4, f4'] at r3
  obtain ⟨t, W, k1, k2, k3, -⟩ := C41_relinearize hb h g2 r2 r3
  obtain ⟨w, -, ⟨z, z1, z2, z3, -⟩, -⟩ := C38_plain hb h (by rw [h0, ht]; decide) f2 e2'
  have hx : ct.flags = [true, true] := C87_fresh (b := luckyBuild) (x := ct) (pk := ⟨par, ct⟩) (r0 := exRng) (r1 := exRng) (r2 := exRng) |>.1 f1
  have hy : ct'.flags = [true, true] := C87_fresh (b := luckyBuild) (x := ct) (pk := ⟨par, ct⟩) (r0 := exRng) (r1 := exRng) (r2 := exRng) |>.1 f1'
  have hz : z.flags = [false, true] := by rw [C87_plain.1 z1, hx]; rfl
  have hne : ∀ {q : Ciphertext}, q.c.length = 2 → q.c ≠ [] := fun hq e => by rw [e] at hq; cases hq
  have hr : r.flags = [true, true, true] := by
    rw [mul_flags r1 (hne f4), f4, f4', permits, permits, hx, hy]
    split <;> rfl
  have hkp : k.ksk.permits = true := RelinearizationKey.newLeveled_permits g1
  have ht' : t.flags = [true, true] := by rw [(C87_relinearize (p := Poly.zero .powerBasis k.ksk.ctxKsk) (q := (Poly.zero .ntt k.ksk.ctxKsk, Poly.zero .ntt k.ksk.ctxKsk))).2 k1 hr, hkp]; rfl
  rw [f4] at z3
  obtain ⟨v, -, hv, -⟩ := C68_mul hb h hrel.count hrel.sum (z2.usable hw) (k2.usable hw) (by rw [z2.level_eq, k2.level_eq])
  refine ⟨par, ct, ct', z, r, t, v, k, h, hx, hy, hz, r1, hr, k1, ht', hv, ?_⟩
  rw [mul_flags hv (hne z3), z3, k3, permits, permits, hz, ht']
  split <;> rfl

end Fhe.Props
