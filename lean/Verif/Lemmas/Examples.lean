import Verif.Model.Examples
import Verif.Spec.Examples
import Verif.Props.Voting
import Verif.Props.BfvEval
import Verif.Props.BfvMul
import Verif.Props.BfvKeys
/-!
# Lemmas for the introductory examples
-/
namespace Fhe.Props
open Nega Poly ParamsBuilder Ciphertext

variable {b : Build} {par : Par} {st : ParamsBuilder} {s : IntPoly par.degree}

/-- What the slots of a plaintext are: a root under which encoding, decoding, sums, products and traces are what they are on vectors. -/
theorem slot_tools (hb : b.OK) (h : build b st = Res.ok par.toBfvParameters) (hop : par.nttOperator ≠ none) (hQ : par.plaintext.value ≤ par.modulusAt 0) :
    ∃ ζ : ZMod par.plaintext.value,
      (∀ v : List Nat, v.length ≤ par.degree → (∀ x ∈ v, x < par.plaintext.value) → ∃ (m : par.Msg) (pt : Plaintext),
        (∀ i < par.degree, slotValue ζ m i = (v.getD i 0 : ZMod par.plaintext.value)) ∧ Plaintext.tryEncodeU64 v ⟨.simd, 0⟩ par false = Res.ok pt ∧ pt.Holds par 0 m) ∧
      (∀ (pt : Plaintext) (level : Nat) (m : par.Msg), pt.Holds par level m → pt.encoding = none →
        pt.decodeU64 (some ⟨.simd, 0⟩) = Res.ok (List.ofFn fun i : Fin par.degree => (slotValue ζ m i).val)) ∧
      (∀ (m m' : par.Msg) (i : Nat), slotValue ζ (m + m') i = slotValue ζ m i + slotValue ζ m' i) ∧
      (∀ (m m' : par.Msg) (i : Nat), slotValue ζ (m * m') i = slotValue ζ m i * slotValue ζ m' i) ∧
      ∀ (m : par.Msg) (i : Nat), i < par.degree → slotValue ζ (const (par.degree * coeff m 0) : par.Msg) i = ∑ c ∈ Finset.range par.degree, slotValue ζ m c := by
  obtain ⟨n, hw, -⟩ := build_inv hb h
  have hlen : 0 < par.moduli.length := List.length_pos_of_ne_nil hw.ne_nil
  have hN : par.degree = 2 ^ n := hw.degree
  have hn : 3 ≤ n := hw.three_le
  obtain ⟨hp, hmod⟩ := (C34_available hb h).1 hop
  have : Fact par.plaintext.value.Prime := ⟨hp⟩
  obtain ⟨ζ, hζ, h1, h2, -⟩ := C34_simd hb h hop
  have hneg : ζ ^ par.degree = -1 := by
    have hsq : (ζ ^ par.degree) ^ 2 = 1 := by rw [← pow_mul, mul_comm]; exact hζ.pow_eq_one
    rcases mul_self_eq_one_iff.1 ((sq _).symm.trans hsq) with e | e
    · have hpos : 0 < par.degree := by rw [hN]; positivity
      have := Nat.le_of_dvd hpos (hζ.dvd_of_pow_eq_one _ e)
      omega
    · exact e
  have hsl := fun m m' i => C34_slotwise hneg ⟨n, by omega, hN⟩ m m' i
  refine ⟨ζ, fun v hv hx => ?_, fun pt level m hm he => (h2 pt level 0 m hm (Or.inl he)).1, fun m m' i => (hsl m m' i).1, fun m m' i => (hsl m m' i).2.2.2.1, fun m i hi => ?_⟩
  · obtain ⟨m, e1, e2, -⟩ := h1 v 0 hv hx hlen hQ
    obtain ⟨pt, e3, e4, -⟩ := e2 false
    exact ⟨m, pt, e1, e3, e4⟩
  · have := slotValue_total hneg (by omega : 2 ≤ n) hN m hi
    simp only [] at this
    rw [trace_eq hn hN m] at this
    exact this

/-- An encryption of a plaintext with a public key. -/
theorem fresh (hb : b.OK) (h : build b st = Res.ok par.toBfvParameters) (hs : s.Bounded (2 * par.variance)) {pk : PublicKey}
    (hpk : ∃ v : IntPoly par.degree, pk.par = par ∧ pk.c.Encrypts par s 0 0 v ∧ pk.c.c.length = 2 ∧ v.Bounded (par.plaintext.value * (2 * par.variance)))
    (hQ : par.plaintext.value ≤ par.modulusAt 0) {pt : Plaintext} {m : par.Msg} (hpt : pt.Holds par 0 m) {r : EncryptRandom} (hr : EncryptRandom.OK r) :
    ∃ (ct : Ciphertext) (v : IntPoly par.degree), pk.tryEncrypt pt r.u r.e1 r.e2 = Res.ok ct ∧ ct.Encrypts par s 0 m v ∧ ct.c.length = 2 ∧ v.Bounded (freshNoise par) := by
  obtain ⟨v0, p1, p2, p3, p4⟩ := hpk
  obtain ⟨ct, v, f1, f2, f3, -, f5⟩ := C37_public_encrypt_top hb h p1 p2 p3 hs p4 hQ hpt hr.1 hr.2.1 hr.2.2
  exact ⟨ct, v, f1, f2, f3, f5.mono (le_of_eq (by unfold freshNoise; ring))⟩

/-- A number, encoded as a constant. -/
theorem encode_const (hb : b.OK) (h : build b st = Res.ok par.toBfvParameters) (hQ : par.plaintext.value ≤ par.modulusAt 0) {x : Nat} (hx : x < par.plaintext.value) (h64 : x < 2 ^ 64) :
    ∃ pt, Plaintext.tryEncodeU64 [x] ⟨.poly, 0⟩ par false = Res.ok pt ∧ pt.Holds par 0 (C (x : ZMod par.plaintext.value)) := by
  obtain ⟨n, hw, -⟩ := build_inv hb h
  have hlen : 0 < par.moduli.length := List.length_pos_of_ne_nil hw.ne_nil
  have hpos : 0 < par.degree := by rw [hw.degree]; positivity
  obtain ⟨m, g1, -, -, g2⟩ := C35_poly hb h (level := 0) hlen hQ (v := [x]) (by simp; omega) (by simpa using hx)
  obtain ⟨pt, g3, g4, -⟩ := g2 (by simp; omega) false
  refine ⟨pt, g3, ?_⟩
  have : m = C (x : ZMod par.plaintext.value) := by
    ext j
    have e := g1 j
    rw [coeff_of_lt m j.isLt] at e
    rw [show (m j) = _ from e, Nega.C_apply]
    rcases j with ⟨_ | j, hj⟩ <;> simp
  rw [← this]; exact g4

theorem slotValue_C {N t : Nat} (hpos : 0 < N) (ζ x : ZMod t) (i : Nat) : slotValue ζ (C x : Nega N (ZMod t)) i = x := by
  unfold slotValue
  rw [Finset.sum_eq_single ⟨0, hpos⟩]
  · simp [Nega.C_apply]
  · rintro ⟨j, hj⟩ - hne
    have : j ≠ 0 := fun e => hne (by subst e; rfl)
    rw [Nega.C_apply, if_neg (by simpa using this), zero_mul]
  · simp

/-- The same number in all slots is a constant. -/
theorem encode_slots (hb : b.OK) (h : build b st = Res.ok par.toBfvParameters) (hop : par.nttOperator ≠ none) (hQ : par.plaintext.value ≤ par.modulusAt 0) {x : Nat} (hx : x < par.plaintext.value) :
    ∃ pt, Plaintext.tryEncodeU64 (List.replicate par.degree x) ⟨.simd, 0⟩ par false = Res.ok pt ∧ pt.Holds par 0 (C (x : ZMod par.plaintext.value)) := by
  obtain ⟨n, hw, -⟩ := build_inv hb h
  have hlen : 0 < par.moduli.length := List.length_pos_of_ne_nil hw.ne_nil
  have hpos : 0 < par.degree := by rw [hw.degree]; positivity
  obtain ⟨ζ, -, h1, -, h3⟩ := C34_simd hb h hop
  obtain ⟨m, e1, e2, -⟩ := h1 (List.replicate par.degree x) 0 (by simp) (fun y hy => by rw [List.eq_of_mem_replicate hy]; exact hx) hlen hQ
  obtain ⟨pt, e3, e4, -⟩ := e2 false
  refine ⟨pt, e3, ?_⟩
  rwa [h3 m (C (x : ZMod par.plaintext.value)) fun i hi => ?_] at e4
  rw [e1 i hi, List.getD_eq_getElem _ _ (by simpa using hi), List.getElem_replicate]
  exact (slotValue_C hpos ζ _ i).symm

/-- The first number of a decrypted constant. -/
theorem decode_const (hb : b.OK) (h : build b st = Res.ok par.toBfvParameters) (h64 : par.plaintext.value < 2 ^ 64) {pt : Plaintext} {m : par.Msg} (hm : pt.Holds par 0 m) (he : pt.encoding = none)
    {x : Nat} (hx : coeff m 0 = (x : ZMod par.plaintext.value)) : ∃ v, pt.decodeU64 (some ⟨.poly, 0⟩) = Res.ok v ∧ v[0]? = some (x % par.plaintext.value) := by
  obtain ⟨n, hw, -⟩ := build_inv hb h
  have hpos : 0 < par.degree := by rw [hw.degree]; positivity
  have : NeZero par.plaintext.value := ⟨by have := hw.t_pos; omega⟩
  have hdec := (C35_decode hb h hm (Or.inl he) (lv := 0)).2
  rw [if_pos fun x hx => lt_trans (msgCoeffs_lt _ x hx) h64] at hdec
  refine ⟨_, hdec, ?_⟩
  rw [List.getElem?_eq_getElem (by rw [length_msgCoeffs]; exact hpos)]
  simp only [msgCoeffs, List.getElem_ofFn]
  rw [coeff_of_lt _ hpos] at hx
  rw [hx, ZMod.val_natCast]

/-- A sum of ciphertexts, from the empty ciphertext. -/
theorem fold_sum (hb : b.OK) (h : build b st = Res.ok par.toBfvParameters) {α : Type} {F : Ciphertext → α → Res Ciphertext} {V : Nat} {l : List α} {ms : List par.Msg} (hne : l ≠ [])
    (hl : List.Forall₂ (fun a m => ∃ ct w, (∀ acc : Ciphertext, F acc a = lift (acc.add ct)) ∧ ct.Encrypts par s 0 m w ∧ ct.c.length = 2 ∧ w.Bounded V) l ms) :
    ∃ r w, l.foldlM F (Ciphertext.zero par) = Res.ok r ∧ r.Encrypts par s 0 ms.sum w ∧ r.c.length = 2 ∧ w.Bounded (l.length * V) := by
  have key : ∀ {l : List α} {ms : List par.Msg},
      List.Forall₂ (fun a m => ∃ ct w, (∀ acc : Ciphertext, F acc a = lift (acc.add ct)) ∧ ct.Encrypts par s 0 m w ∧ ct.c.length = 2 ∧ w.Bounded V) l ms →
      ∀ (acc : Ciphertext) (m : par.Msg) (v : IntPoly par.degree) (B : Nat), acc.Encrypts par s 0 m v → acc.c.length = 2 → v.Bounded B →
      ∃ r w, l.foldlM F acc = Res.ok r ∧ r.Encrypts par s 0 (m + ms.sum) w ∧ r.c.length = 2 ∧ w.Bounded (B + l.length * V) := by
    intro l ms hl
    induction hl with
    | nil => intro acc m v B h1 h2 h3; exact ⟨acc, v, rfl, by simpa using h1, h2, by simpa using h3⟩
    | cons ha _ ih =>
      intro acc m v B h1 h2 h3
      obtain ⟨ct, w, e0, e1, e2, e3⟩ := ha
      obtain ⟨r, g1, g2, g3, -⟩ := C38_add hb h h1 e1 (by rw [h2, e2])
      obtain ⟨r', w', k1, k2, k3, k4⟩ := ih r _ _ (B + V) g2 (by rw [g3, h2]) (h3.add e3)
      refine ⟨r', w', ?_, ?_, k3, k4.mono ?_⟩
      · rw [List.foldlM_cons, e0, g1, Res.lift_some, Res.ok_bind]; exact k1
      · rw [List.sum_cons, ← _root_.add_assoc]; exact k2
      · rw [List.length_cons, Nat.succ_mul]; omega
  cases hl with
  | nil => exact absurd rfl hne
  | cons ha hl =>
    obtain ⟨ct, w, e0, e1, e2, e3⟩ := ha
    obtain ⟨r', w', k1, k2, k3, k4⟩ := key hl ct _ _ _ e1 e2 e3
    refine ⟨r', w', ?_, ?_, k3, k4.mono ?_⟩
    · have hz : (Ciphertext.zero par).add ct = some ct := by simp [Ciphertext.zero, Ciphertext.add, e1.par_eq, ptrEq_self, check]
      rw [List.foldlM_cons, e0, hz, Res.lift_some, Res.ok_bind]; exact k1
    · rw [List.sum_cons]; exact k2
    · rw [List.length_cons]; exact le_of_eq (by ring)

/-- The encryptions of a list of numbers. -/
theorem encryptEach_eq (hb : b.OK) (h : build b st = Res.ok par.toBfvParameters) (hs : s.Bounded (2 * par.variance)) {pk : PublicKey}
    (hpk : ∃ v : IntPoly par.degree, pk.par = par ∧ pk.c.Encrypts par s 0 0 v ∧ pk.c.c.length = 2 ∧ v.Bounded (par.plaintext.value * (2 * par.variance)))
    (hQ : par.plaintext.value ≤ par.modulusAt 0) (h64 : par.plaintext.value < 2 ^ 64) {values : List Nat} (hv : ∀ x ∈ values, x < par.plaintext.value) {r : Nat → EncryptRandom}
    (hr : ∀ k, EncryptRandom.OK (r k)) :
    ∃ cts, encryptEach pk par values r = Res.ok cts ∧
      List.Forall₂ (fun ct x => ∃ w, ct.Encrypts par s 0 (C (x : ZMod par.plaintext.value)) w ∧ ct.c.length = 2 ∧ w.Bounded (freshNoise par)) cts values := by
  have key : ∀ k : Fin values.length, ∃ (ct : Ciphertext) (w : IntPoly par.degree), encodeEncrypt pk par [values[k]] .poly (r k) = Res.ok ct ∧
      ct.Encrypts par s 0 (C (values[k] : ZMod par.plaintext.value)) w ∧ ct.c.length = 2 ∧ w.Bounded (freshNoise par) := by
    intro k
    have hx := hv _ (List.getElem_mem k.isLt)
    obtain ⟨pt, e1, e2⟩ := encode_const hb h hQ hx (by omega)
    obtain ⟨ct, w, f1, f2, f3, f4⟩ := fresh hb h hs hpk hQ e2 (hr k)
    exact ⟨ct, w, by unfold encodeEncrypt; rw [show ((values[k] : Nat)) = values[k.val] from rfl, e1, Res.ok_bind, f1], f2, f3, f4⟩
  choose ct w q1 q2 q3 q4 using key
  refine ⟨List.ofFn ct, ?_, ?_⟩
  · unfold encryptEach
    conv_lhs => rw [← List.ofFn_get values]
    exact mapM_zipIdx_ofFn q1
  · rw [List.forall₂_iff_get]
    refine ⟨by simp, fun i h1 h2 => ?_⟩
    simp only [List.get_eq_getElem, List.getElem_ofFn]
    exact ⟨w ⟨i, h2⟩, q2 ⟨i, h2⟩, q3 ⟨i, h2⟩, q4 ⟨i, h2⟩⟩

/-- Pairs of elements of two lists. -/
theorem forall₂_zip {α β γ δ ε : Type} {R : α → γ → Prop} {R' : β → δ → Prop} {R'' : α × β → ε → Prop} {f : γ → δ → ε} {l : List α} {l' : List γ} {k : List β} {k' : List δ}
    (h : List.Forall₂ R l l') (hk : List.Forall₂ R' k k') (hR : ∀ a b c d, R a c → R' b d → R'' (a, b) (f c d)) : List.Forall₂ R'' (l.zip k) (List.zipWith f l' k') := by
  induction h generalizing k k' with
  | nil => simp
  | cons ha _ ih =>
    cases hk with
    | nil => simp
    | cons hb hk => exact List.Forall₂.cons (hR _ _ _ _ ha hb) (ih hk)

/-- A list of related elements, from the list itself. -/
theorem forall₂_self {α : Type} {p : α → Prop} : ∀ {l : List α}, (∀ x ∈ l, p x) → List.Forall₂ (fun a b => a = b ∧ p a) l l
  | [], _ => .nil
  | a :: l, h => .cons ⟨rfl, h a (by simp)⟩ (forall₂_self fun x hx => h x (by simp [hx]))

/-- The sum of constants. -/
theorem sum_const {t N : Nat} (l l' : List Nat) :
    (List.zipWith (fun x y : Nat => (C (x : ZMod t) * C (y : ZMod t) : Nega N (ZMod t))) l l').sum = C (((List.zipWith (· * ·) l l').sum : Nat) : ZMod t) := by
  induction l generalizing l' with
  | nil => simp
  | cons a l ih =>
    cases l' with
    | nil => simp
    | cons a' l' => simp only [List.zipWith_cons_cons, List.sum_cons, ih, Nat.cast_add, Nat.cast_mul, map_add, map_mul]

/-- The sum of products of slots. -/
theorem sum_slots {t : Nat} (l l' : List Nat) {N : Nat} (h : l.length ≤ N) :
    ∑ c ∈ Finset.range N, ((l.getD c 0 : ZMod t) * (l'.getD c 0 : ZMod t)) = (((List.zipWith (· * ·) l l').sum : Nat) : ZMod t) := by
  induction l generalizing l' N with
  | nil => simp
  | cons a l ih =>
    obtain ⟨N, rfl⟩ : ∃ k, N = k + 1 := ⟨N - 1, by simp only [List.length_cons] at h; omega⟩
    cases l' with
    | nil => simp
    | cons a' l' =>
      rw [Finset.sum_range_succ', List.zipWith_cons_cons, List.sum_cons, Nat.cast_add, ← ih l' (by simpa using h)]
      simp [add_comm]

/-- Decryption at the first level. -/
theorem decrypt_room (hb : b.OK) (h : build b st = Res.ok par.toBfvParameters) (hr : par.toBfvParameters.Reliable 0) {sk : SecretKey} (hk : sk.IsKey par s) {ct : Ciphertext} {m : par.Msg}
    {v : IntPoly par.degree} {V : Nat} (hct : ct.Encrypts par s 0 m v) (hv : v.Bounded V) (hroom : Room par V) : ∃ pt, sk.tryDecrypt b ct = Res.ok pt ∧ pt.Holds par 0 m ∧ pt.encoding = none := by
  refine C37_decrypt hb h hr hk hct fun j => ?_
  have h1 := hv j
  unfold Room at hroom
  norm_num at hroom
  have : (4611686018427387904 : Int) * (V : Int) ≤ 2305843009213693951 * (par.modulusAt 0 : Int) := by exact_mod_cast hroom
  norm_num
  linarith

/-- Decryption of a constant. -/
theorem decryptDecode_poly (hb : b.OK) (h : build b st = Res.ok par.toBfvParameters) (hr : par.toBfvParameters.Reliable 0) (h64 : par.plaintext.value < 2 ^ 64) {sk : SecretKey} (hk : sk.IsKey par s)
    {ct : Ciphertext} {m : par.Msg} {v : IntPoly par.degree} {V : Nat} (hct : ct.Encrypts par s 0 m v) (hv : v.Bounded V) (hroom : Room par V) {x : Nat} (hx : coeff m 0 = (x : ZMod par.plaintext.value)) :
    ∃ l, BfvOps.decryptDecode b sk ct .poly = Res.ok l ∧ l[0]? = some (x % par.plaintext.value) := by
  obtain ⟨pt, e1, e2, e3⟩ := decrypt_room hb h hr hk hct hv hroom
  obtain ⟨l, f1, f2⟩ := decode_const hb h h64 e2 e3 hx
  exact ⟨l, by unfold BfvOps.decryptDecode; rw [e1, Res.ok_bind, f1], f2⟩

theorem coeff_C {t : Nat} (hpos : 0 < par.degree) (a : ZMod t) : coeff (C a : Nega par.degree (ZMod t)) 0 = a := by rw [coeff_of_lt _ hpos, Nega.C_apply]; simp

/-- A product with a constant. -/
theorem mul_const (hb : b.OK) (h : build b st = Res.ok par.toBfvParameters) {ct : Ciphertext} {m : par.Msg} {v : IntPoly par.degree} {V : Nat} (h1 : ct.Encrypts par s 0 m v) (h2 : ct.c.length = 2)
    (hv : v.Bounded V) {x : Nat} (hx : x < par.plaintext.value) {pt : Plaintext} (hpt : pt.Holds par 0 (C (x : ZMod par.plaintext.value))) :
    ∃ r w, ct.mulPlain pt = some r ∧ r.Encrypts par s 0 (m * C (x : ZMod par.plaintext.value)) w ∧ r.c.length = 2 ∧ w.Bounded (x * V) := by
  obtain ⟨r, P, e1, e2, e3, e4, -⟩ := C38_mul_plain hb h h1 hpt
  refine ⟨r, _, e1, e3, e4.trans h2, ?_⟩
  have : P = C (x : Int) := by
    ext j
    rw [e2 j, Nega.C_apply, Nega.C_apply]
    split
    · rw [ZMod.val_natCast, Nat.mod_eq_of_lt hx]
    · simp
  rw [this, mul_comm]
  have := hv.C_mul (x : Int)
  rwa [Int.natAbs_natCast] at this

/-- A product with any plaintext. -/
theorem mul_any (hb : b.OK) (h : build b st = Res.ok par.toBfvParameters) {ct : Ciphertext} {m m' : par.Msg} {v : IntPoly par.degree} {V : Nat} (h1 : ct.Encrypts par s 0 m v) (h2 : ct.c.length = 2)
    (hv : v.Bounded V) {pt : Plaintext} (hpt : pt.Holds par 0 m') :
    ∃ r w, ct.mulPlain pt = some r ∧ r.Encrypts par s 0 (m * m') w ∧ r.c.length = 2 ∧ w.Bounded (par.degree * V * par.plaintext.value) := by
  obtain ⟨n, hw, -⟩ := build_inv hb h
  have : NeZero par.plaintext.value := ⟨by have := hw.t_pos; omega⟩
  obtain ⟨r, P, e1, e2, e3, e4, -⟩ := C38_mul_plain hb h h1 hpt
  refine ⟨r, _, e1, e3, e4.trans h2, hv.mul (fun j => ?_)⟩
  rw [e2 j, abs_of_nonneg (Int.natCast_nonneg _)]
  exact_mod_cast (ZMod.val_lt _).le

/-- A relinearized product. -/
theorem mul_relin (hb : b.OK) (h : build b st = Res.ok par.toBfvParameters) (hcount : par.moduli.length ≤ 31) (hsum : par.moduli.sum ≤ 2 ^ 65) (hs : s.Bounded (2 * par.variance)) {rk : RelinearizationKey}
    (hk : rk.IsFor par s 0 0 (2 * par.variance)) (hd : rk.ksk.digitSum = par.moduli.sum) {ct ct' : Ciphertext} {m m' : par.Msg} {v v' : IntPoly par.degree} {V : Nat}
    (h1 : ct.Encrypts par s 0 m v) (h2 : ct'.Encrypts par s 0 m' v') (l1 : ct.c.length = 2) (l2 : ct'.c.length = 2) (hv : v.Bounded V) (hv' : v'.Bounded V) :
    ∃ p r w, ct.mul ct' = some p ∧ rk.relinearizes p = Res.ok r ∧ r.Encrypts par s 0 (m * m') w ∧ r.c.length = 2 ∧ w.Bounded (mulNoise par 0 (2 * par.variance) 2 2 V V + switchNoise par) := by
  obtain ⟨p, w, e1, e2, e3, e4⟩ := C39_bound hb h hcount hsum h1 h2 (by rw [l1]; norm_num) hs hv hv'
  obtain ⟨r, W, g1, g2, g3, g4⟩ := C41_relinearize hb h hk e2 (by rw [e3, l1, l2])
  rw [l1, l2] at e4
  have g5 := (g4 _ hs).C_mul (par.plaintext.value : Int)
  rw [Int.natAbs_natCast] at g5
  refine ⟨p, r, _, e1, g1, g2, g3, e4.add (g5.mono (Nat.mul_le_mul_left _ ?_))⟩
  obtain ⟨n, hw, -⟩ := build_inv hb h
  obtain ⟨l, hl⟩ := AtLevel.ofLt hw (List.length_pos_of_ne_nil hw.ne_nil)
  unfold KeySwitchingKey.errorBound KeySwitchingKey.ratio
  rw [hd, hk.level, hk.keyLevel, Nat.sub_self, Nat.zero_mul, Nat.zero_mul, Nat.add_zero, Nat.div_self hl.pos, Nat.mul_one, Nat.mul_div_cancel_left _ (by norm_num)]

end Fhe.Props
