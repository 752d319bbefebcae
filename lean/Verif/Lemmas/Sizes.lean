import Verif.Spec.Sizes
import Verif.Lemmas.BfvWire
/-! The sizes of the messages. -/
namespace Fhe
open NttOperator Nega

theorem map_of_forall₂ {α β γ : Type} {F : β → γ} {G : α → γ} {l : List α} {l' : List β} (h : List.Forall₂ (fun x y => F y = G x) l l') : l'.map F = l.map G := by
  induction h with
  | nil => rfl
  | cons h _ ih => rw [List.map_cons, List.map_cons, ih, h]

namespace Wire

theorem length_varint : ∀ n, (varint n).length = Sizes.number n := by
  intro n
  induction n using Nat.strong_induction_on with
  | _ n ih =>
    rw [varint]
    unfold Sizes.number
    split
    · rename_i h
      by_cases h0 : n = 0
      · subst h0; simp
      · have : n.log2 < 7 := (Nat.log2_lt h0).2 (by omega)
        simp; omega
    · rename_i h
      rw [List.length_cons, ih (n / 128) (by omega)]
      unfold Sizes.number
      have e : (n / 128).log2 = n.log2 - 7 := by
        have h2 : n / 128 = n >>> 7 := by rw [Nat.shiftRight_eq_div_pow]
        rw [Nat.log2_eq_log_two, Nat.log2_eq_log_two, show 128 = 2 ^ 7 by norm_num, Nat.log_div_base_pow]
      have : 7 ≤ n.log2 := (Nat.le_log2 (by omega)).2 (by omega)
      omega

theorem length_encode_append (a b : List Field) : (encode (a ++ b)).length = (encode a).length + (encode b).length := by
  unfold encode; rw [List.flatMap_append, List.length_append]

theorem number_key {t w : Nat} (ht : t < 16) (hw : w < 8) : Sizes.number (t * 8 + w) = 1 := by
  unfold Sizes.number
  by_cases h0 : t * 8 + w = 0
  · rw [h0]; simp
  · have : (t * 8 + w).log2 < 7 := (Nat.log2_lt h0).2 (by omega)
    omega

theorem size_scalar {t : Nat} (ht : t < 16) (n : Nat) : (encode (scalar t n)).length = Sizes.numberField n := by
  unfold scalar Sizes.numberField
  split
  · rfl
  · have : Sizes.number (t * 8) = 1 := number_key ht (w := 0) (by omega)
    simp only [encode, encodeField, List.flatMap_cons, List.flatMap_nil, List.append_nil, List.length_append, length_varint]
    omega

theorem length_len {t : Nat} (ht : t < 16) (p : List Nat) : (encode [(t, .len p)]).length = Sizes.bytesField p.length := by
  unfold Sizes.bytesField
  have := number_key ht (w := 2) (by omega)
  simp only [encode, encodeField, List.flatMap_cons, List.flatMap_nil, List.append_nil, List.length_append, length_varint]
  omega

theorem size_bytesField {t : Nat} (ht : t < 16) {p : List Nat} (hp : p ≠ []) : (encode (bytesField t p)).length = Sizes.bytesField p.length := by
  unfold bytesField; rw [if_neg hp]; exact length_len ht p

theorem size_bytesField_nil {t : Nat} : (encode (bytesField t [])).length = 0 := rfl

theorem length_lens {t : Nat} (ht : t < 16) (l : List (List Nat)) : (encode (l.map fun p => (t, .len p))).length = (l.map fun p => Sizes.bytesField p.length).sum := by
  induction l with
  | nil => rfl
  | cons p l ih =>
    rw [List.map_cons, List.map_cons, List.sum_cons, ← ih, ← length_len ht p, ← length_encode_append]; rfl

theorem length_repeatedBytes {t : Nat} (ht : t < 16) (l : List (List Nat)) : (encode (repeatedBytes t l)).length = (l.map fun p => Sizes.bytesField p.length).sum := length_lens ht l

theorem length_repeatedBytes_const {t k : Nat} (ht : t < 16) {l : List (List Nat)} (h : ∀ p ∈ l, p.length = k) :
    (encode (repeatedBytes t l)).length = l.length * Sizes.bytesField k := by
  rw [length_repeatedBytes ht, List.map_congr_left fun p hp => by rw [h p hp], List.map_const', List.sum_replicate, smul_eq_mul]

end Wire

theorem log2_pred {q : Nat} (hp : q.Prime) (h2 : q ≠ 2) : (q - 1).log2 = q.log2 := by
  have h3 := hp.two_le
  refine le_antisymm ?_ ?_
  · rw [Nat.log2_eq_log_two, Nat.log2_eq_log_two]; exact Nat.log_mono_right (by omega)
  · refine (Nat.le_log2 (by omega)).2 ?_
    have h4 : 2 ^ q.log2 ≤ q := (Nat.le_log2 (by omega)).1 le_rfl
    rcases h4.lt_or_eq with h5 | h5
    · omega
    · exfalso
      have h6 : q.log2 ≠ 0 := by
        intro h0; rw [h0] at h5; omega
      have h7 : 2 ∣ q := by rw [← h5]; exact dvd_pow_self 2 h6
      exact h2 ((hp.eq_one_or_self_of_dvd 2 h7).resolve_left (by norm_num)).symm

theorem ceilLog2_eq_bits {q : Nat} (hp : q.Prime) (h2 : q ≠ 2) : RnsScaler.ceilLog2 q = Sizes.bits q := by
  unfold RnsScaler.ceilLog2 Sizes.bits
  rw [if_neg (by have := hp.two_le; omega), log2_pred hp h2]

theorem Modulus.nbits_eq {m : Modulus} (h : m.WF) (hp : m.p.Prime) (h2 : m.p ≠ 2) : m.nbits = Sizes.bits m.p := by
  have hlt := h.lt
  have h3 := hp.two_le
  have hn : m.nbits = bitLen (m.p - 1) := by
    have : bitLen (m.p - 1) ≤ 62 := bitLen_le_iff.2 (by omega)
    unfold nbits lz64; omega
  rw [hn]
  unfold bitLen Sizes.bits
  rw [if_neg (by omega), log2_pred hp h2]

theorem Context.WF.ne_two {b : Build} {c : Context} {n : Nat} (h : c.WF b n) {q : Nat} (hq : q ∈ c.moduli) : q ≠ 2 := by
  intro h2
  have h7 := h.supported.ntt q hq
  rw [h2] at h7
  have : 2 ^ 3 ≤ 2 ^ n := Nat.pow_le_pow_right (by norm_num) h.level.three_le
  rw [Nat.mod_eq_of_lt (by omega)] at h7
  omega

namespace Poly
open NttOperator
variable {b : Build} {c : Context} {n : Nat} {r : Rep} {vt : Bool}

theorem size_enc (h : c.WF b n) (hn : n ≤ 31) (f : c.Elem) : ∃ bytes, (enc c r vt f).toBytes = some bytes ∧ bytes.length = Sizes.poly c.moduli c.degree := by
  have := h.neZero
  have hN := h.level.degree
  have hNle : c.degree ≤ 2 ^ 31 := by rw [hN]; exact Nat.pow_le_pow_right (by norm_num) hn
  have h8 : 8 ∣ c.degree := by rw [hN]; exact (pow_dvd_pow 2 h.level.three_le : 2 ^ 3 ∣ 2 ^ n)
  have hpos : 0 < c.degree := by rw [hN]; positivity
  have hser : ∀ op ∈ c.ops, ∃ by', op.p.serializeVec (encRow .powerBasis f op) = some by' ∧ by'.length = Sizes.bits op.p.p * c.degree / 8 := by
    intro op hop
    obtain ⟨ω, ωi, hw⟩ := h.level.ops op hop
    obtain ⟨l, e⟩ := encRow_reduced hw hN (h.dvd hop) .powerBasis f
    obtain ⟨by', h1, h2, h3, h4, h5⟩ := Modulus.serialize_eq hw.modulus e (by rw [l]; exact h8) (by rw [l]; omega)
    rw [l] at h2
    refine ⟨by', h1, ?_⟩
    unfold Modulus.serializationLength at h2
    rw [check_eq (by omega)] at h2
    have h6 : op.p.p ≠ 2 := h.ne_two (by rw [h.level.moduli]; exact List.mem_map_of_mem hop)
    rw [← Modulus.nbits_eq hw.modulus hw.prime h6]
    exact (Option.some_inj.1 h2).symm
  obtain ⟨bytes, hb1, hb2⟩ := mapM_exists _ hser
  have hlen : bytes.flatten.length = (c.moduli.map fun q => Sizes.bits q * c.degree / 8).sum := by
    rw [h.level.moduli, List.map_map]
    clear hb1 hser
    generalize c.ops = ops at hb2
    induction hb2 with
    | nil => simp
    | cons h1 _ ih => rw [List.flatten_cons, List.length_append, List.map_cons, List.sum_cons, ih, h1]; rfl
  have hmapM : ((c.ops.map fun op => encRow .powerBasis f op).zip c.q).mapM (fun x => x.2.serializeVec x.1) = some bytes := by
    rw [h.level.q, zip_map_same, List.mapM_map]
    exact hb1
  have hrq : (enc c r vt f).toRq = some ⟨r.toProto, c.degree, bytes.flatten, false⟩ := by
    unfold toRq
    rw [show (enc c r vt f).hasLazy = false from rfl, check_eq rfl, toPowerBasis_enc h]
    simp only [Option.bind_eq_bind, Option.bind_some]
    rw [show (enc c .powerBasis vt f).coeffs = c.ops.map fun op => encRow .powerBasis f op from rfl, show (enc c r vt f).ctx = c from rfl, hmapM,
      Option.bind_some, Nat.mod_eq_of_lt (by omega)]
    rfl
  refine ⟨RqMsg.encode ⟨r.toProto, c.degree, bytes.flatten, false⟩, by unfold toBytes; rw [hrq]; rfl, ?_⟩
  have hne : bytes.flatten ≠ [] := by
    intro h0
    rw [h0, List.length_nil] at hlen
    obtain ⟨op, hop⟩ := List.exists_mem_of_ne_nil _ h.level.ne_nil
    have h1 : Sizes.bits op.p.p * c.degree / 8 ≤ (c.moduli.map fun q => Sizes.bits q * c.degree / 8).sum :=
      List.le_sum_of_mem (List.mem_map.2 ⟨op.p.p, by rw [h.level.moduli]; exact List.mem_map_of_mem hop, rfl⟩)
    have h2 : 1 ≤ Sizes.bits op.p.p * c.degree / 8 := by
      rw [Nat.le_div_iff_mul_le (by norm_num)]
      have h3 : 8 ≤ c.degree := Nat.le_of_dvd hpos h8
      have h4 : 1 ≤ Sizes.bits op.p.p := by unfold Sizes.bits; omega
      calc 1 * 8 ≤ 1 * c.degree := by omega
        _ ≤ _ := Nat.mul_le_mul_right _ h4
    omega
  unfold RqMsg.encode RqMsg.toFields Sizes.poly
  simp only [Wire.length_encode_append]
  rw [Wire.size_scalar (by norm_num), Wire.size_scalar (by norm_num), Wire.size_bytesField (by norm_num) hne, hlen, Wire.size_scalar (by norm_num)]
  have : Sizes.numberField (Wire.ofI32 r.toProto) = Sizes.numberField 1 := by cases r <;> decide
  rw [this]
  rfl

theorem size_at {par : Par} {i : Nat} {l : ContextLevel} (ha : AtLevel b n par i l) (hn : n ≤ 16) {p : Poly r} (hc : p.ctx = l.ctx) (hv : p.Valid) :
    ∃ bytes, p.toBytes = some bytes ∧ bytes.length = Sizes.polyAt par.toBfvParameters i := by
  obtain ⟨f, hf, -⟩ := exists_encI ha.wf ha.deg hc hv
  obtain ⟨bytes, h1, h2⟩ := size_enc (r := r) (vt := p.vt) ha.wf (by omega) (ofInt l.ctx f)
  refine ⟨bytes, by rw [hf]; exact h1, ?_⟩
  rw [h2, ha.deg, ha.moduli]
  rfl

theorem size_list {par : Par} {i : Nat} {l : ContextLevel} (ha : AtLevel b n par i l) (hn : n ≤ 16) {ps : List (Poly r)} (h : ∀ p ∈ ps, p.ctx = l.ctx ∧ p.Valid) :
    ∃ ms, ps.mapM Poly.toBytes = some ms ∧ ms.length = ps.length ∧ ∀ x ∈ ms, x.length = Sizes.polyAt par.toBfvParameters i := by
  obtain ⟨ms, h1, h2⟩ := mapM_exists (f := Poly.toBytes) (l := ps) (fun _ x => x.length = Sizes.polyAt par.toBfvParameters i) fun p hp => size_at ha hn (h p hp).1 (h p hp).2
  refine ⟨ms, h1, h2.length_eq.symm, fun x hx => ?_⟩
  obtain ⟨p, -, h⟩ := Ciphertext.mem_forall₂ h2 hx
  exact h

end Poly

variable {b : Build} {n : Nat} {par : Par} {g : Prg}

theorem Ciphertext.size_eq (hw : ParWF b n par.toBfvParameters) (h32 : par.moduli.length ≤ 2 ^ 32) {ct : Ciphertext} (h : ct.WellFormed g par) :
    ∃ msg, ct.toMsg = some msg ∧ msg.encode.length = Sizes.ciphertext par.toBfvParameters ct.level ct.c.length ct.seed.isSome := by
  obtain ⟨l, ha⟩ := AtLevel.ofLt (par := par) hw h.level
  have hctx : ∀ p ∈ ct.c, p.ctx = l.ctx ∧ p.Valid := fun p hp => by
    have := (h.valid p hp).2
    rw [ha.contextAt, Res.ok_inj] at this
    exact ⟨this.symm, (h.valid p hp).1⟩
  have hlev : ct.level % 2 ^ 32 = ct.level := Nat.mod_eq_of_lt (by have := h.level; omega)
  have hne : ct.c ≠ [] := ne_nil_of_two h.parts
  have hp := h.parts
  obtain ⟨last, hlast⟩ : ∃ last, ct.c.getLast? = some last := ⟨_, List.getLast?_eq_some_getLast hne⟩
  obtain ⟨rest, hr1, hr2, hr3⟩ := Poly.size_list ha hw.le_16 (ps := ct.c.dropLast) fun p hp => hctx p (List.dropLast_subset _ hp)
  rw [List.length_dropLast] at hr2
  unfold toMsg
  rw [hlast]
  simp only []
  rw [hr1]
  cases hseed : ct.seed with
  | none =>
    obtain ⟨x, hx1, hx2⟩ := Poly.size_at ha hw.le_16 (hctx last (List.mem_of_getLast? hlast)).1 (hctx last (List.mem_of_getLast? hlast)).2
    rw [hx1]
    refine ⟨_, rfl, ?_⟩
    unfold CiphertextMsg.encode CiphertextMsg.toFields Sizes.ciphertext
    simp only [Wire.length_encode_append]
    rw [Wire.length_repeatedBytes_const (k := Sizes.polyAt par.toBfvParameters ct.level) (by norm_num) (by
      intro p hp
      rcases List.mem_append.1 hp with hp | hp
      · exact hr3 p hp
      · rw [List.mem_singleton.1 hp, hx2]), Wire.size_bytesField_nil, Wire.size_scalar (by norm_num), hlev, List.length_append, List.length_singleton, hr2,
      Nat.sub_add_cancel (by omega)]
    simp
  | some seed =>
    have hs := (h.seed seed hseed).1
    refine ⟨_, rfl, ?_⟩
    unfold CiphertextMsg.encode CiphertextMsg.toFields Sizes.ciphertext
    simp only [Wire.length_encode_append]
    rw [Wire.length_repeatedBytes_const (k := Sizes.polyAt par.toBfvParameters ct.level) (by norm_num) hr3, Wire.size_bytesField (by norm_num) (by rintro rfl; simp at hs),
      Wire.size_scalar (by norm_num), hlev, hr2, hs]
    simp

theorem KeySwitchingKey.size_eq (hw : ParWF b n par.toBfvParameters) (h32 : par.moduli.length ≤ 2 ^ 32) {k : KeySwitchingKey} (h : k.WellFormed g par) :
    ∃ msg, k.toMsg = some msg ∧ msg.encode.length = Sizes.keySwitchingKey par.toBfvParameters k.ciphertextLevel k.kskLevel k.logBase k.c0.length k.seed.isSome := by
  obtain ⟨l, ha, hl⟩ := AtLevel.ofContext hw h.ctx
  obtain ⟨l', ha', hl'⟩ := AtLevel.ofContext hw h.ctxKsk
  obtain ⟨m0, a1, a2, a3⟩ := Poly.size_list ha' hw.le_16 (ps := k.c0) fun p hp => ⟨by rw [hl']; exact (h.valid p (by simp [hp])).2, (h.valid p (by simp [hp])).1⟩
  obtain ⟨m1, b1, b2, b3⟩ := Poly.size_list ha' hw.le_16 (ps := k.c1) fun p hp => ⟨by rw [hl']; exact (h.valid p (by simp [hp])).2, (h.valid p (by simp [hp])).1⟩
  have d1 : k.ciphertextLevel % 2 ^ 32 = k.ciphertextLevel := Nat.mod_eq_of_lt (by have := ha.lt; omega)
  have d2 : k.kskLevel % 2 ^ 32 = k.kskLevel := Nat.mod_eq_of_lt (by have := ha'.lt; omega)
  have d3 : k.logBase % 2 ^ 32 = k.logBase := Nat.mod_eq_of_lt h.base
  unfold toMsg
  rw [a1]
  cases hseed : k.seed with
  | none =>
    simp only []
    rw [b1]
    refine ⟨_, rfl, ?_⟩
    unfold KeySwitchingKeyMsg.encode KeySwitchingKeyMsg.toFields Sizes.keySwitchingKey
    simp only [Wire.length_encode_append, Option.getD_none]
    rw [Wire.length_repeatedBytes_const (by norm_num) a3, Wire.length_repeatedBytes_const (by norm_num) b3, Wire.size_bytesField_nil, Wire.size_scalar (by norm_num), Wire.size_scalar (by norm_num),
      Wire.size_scalar (by norm_num), d1, d2, d3, a2, b2, h.count1]
    simp; ring
  | some seed =>
    have hs := (h.seed seed hseed).1
    refine ⟨_, rfl, ?_⟩
    unfold KeySwitchingKeyMsg.encode KeySwitchingKeyMsg.toFields Sizes.keySwitchingKey
    simp only [Wire.length_encode_append, Option.getD_some]
    rw [Wire.length_repeatedBytes_const (by norm_num) a3, Wire.size_bytesField (by norm_num) (by rintro rfl; simp at hs), Wire.size_scalar (by norm_num), Wire.size_scalar (by norm_num),
      Wire.size_scalar (by norm_num), d1, d2, d3, a2, hs]
    simp [Wire.repeatedBytes, Wire.encode]

theorem KeySwitchingKey.new_shape {sk : SecretKey} (hp : sk.par = par) {src : Poly .powerBasis} {i j : Nat} {seed : Seed} {rngs : Nat → Nat → Nat} {k : KeySwitchingKey}
    (h : new b g sk src i j seed rngs = Res.ok k) : k.ciphertextLevel = i ∧ k.kskLevel = j ∧ k.seed = some seed ∧ ∀ ctx, par.contextAtLevel j = Res.ok ctx →
      k.logBase = if ctx.moduli.length = 1 then RnsScaler.ceilLog2 (ctx.moduli.headD 0) / 2 else 0 := by
  unfold new at h
  rw [hp] at h
  simp only [] at h
  rw [Res.bind_eq_ok] at h
  obtain ⟨ctx, h1, h⟩ := h
  rw [Res.bind_eq_ok] at h
  obtain ⟨ctx', -, h⟩ := h
  split at h
  · exact absurd h Res.err_ne_ok
  · split at h
    · rename_i hone
      rw [Res.bind_eq_ok] at h
      obtain ⟨q, hq, h⟩ := h
      rw [Res.lift_eq_ok] at hq
      rw [Res.bind_eq_ok] at h
      obtain ⟨log, hlog, h⟩ := h
      rw [Res.lift_eq_ok] at hlog
      simp only [Res.bind_eq_ok] at h
      obtain ⟨_, -, _, -, _, -, h⟩ := h
      rw [Res.pure_eq, Res.ok_inj] at h
      subst h
      refine ⟨rfl, rfl, rfl, fun c hc => ?_⟩
      rw [h1, Res.ok_inj] at hc
      subst hc
      have hq' : ctx.moduli.headD 0 = q := by rw [List.headD_eq_head?_getD, hq]; rfl
      rw [if_pos hone, hq']
      unfold logModulus check at hlog
      split at hlog
      · simp at hlog; rw [← hlog]
      · simp at hlog
    · rename_i hone
      simp only [Res.bind_eq_ok] at h
      obtain ⟨_, -, _, -, h⟩ := h
      rw [Res.pure_eq, Res.ok_inj] at h
      subst h
      refine ⟨rfl, rfl, rfl, fun c hc => ?_⟩
      rw [h1, Res.ok_inj] at hc
      subst hc
      rw [if_neg hone]

theorem KeySwitchingKey.generated_size (hw : ParWF b n par.toBfvParameters) {sk : SecretKey} (hp : sk.par = par) {src : Poly .powerBasis} {i j : Nat} {seed : Seed} {rngs : Nat → Nat → Nat} {k : KeySwitchingKey}
    (h : new b g sk src i j seed rngs = Res.ok k) (hk : k.WellFormed g par) :
    Sizes.keySwitchingKey par.toBfvParameters k.ciphertextLevel k.kskLevel k.logBase k.c0.length k.seed.isSome = Sizes.generatedKey par.toBfvParameters i j := by
  obtain ⟨h1, h2, h3, h4⟩ := new_shape hp h
  obtain ⟨l, ha, hl⟩ := AtLevel.ofContext hw hk.ctx
  obtain ⟨l', ha', hl'⟩ := AtLevel.ofContext hw hk.ctxKsk
  have hc := hk.count
  rw [h1] at ha
  rw [h2] at ha'
  have h5 := h4 l'.ctx ha'.contextAt
  have hm := ha'.moduli
  unfold Sizes.generatedKey Sizes.digitBits Sizes.pairs
  rw [h1, h2, h3, ← hm]
  have hlen : k.ctxCiphertext.moduli.length = par.moduli.length - i := by rw [← hl, ha.length]
  match hq : l'.ctx.moduli with
  | [] =>
    rw [hq, if_neg (by simp)] at h5
    have : k.c0.length = par.moduli.length - i := by
      rcases hc with ⟨-, e⟩ | ⟨h0, -⟩
      · rw [e, hlen]
      · exact absurd h5 h0
    simp only [h5, this, Option.isSome_some]
  | [q] =>
    have hmem : q ∈ l'.ctx.moduli := by rw [hq]; simp
    have hb := ceilLog2_eq_bits (ha'.wf.supported.prime q hmem) (ha'.wf.ne_two hmem)
    rw [hq, if_pos (by simp), List.headD_cons, hb] at h5
    have hpos : Sizes.bits q / 2 ≠ 0 := by
      have h6 : 3 ≤ q := by
        have := (ha'.wf.supported.prime q hmem).two_le
        have := ha'.wf.ne_two hmem
        omega
      have : 1 ≤ q.log2 := (Nat.le_log2 (by omega)).2 (by omega)
      unfold Sizes.bits; omega
    have : k.c0.length = (Sizes.bits q + Sizes.bits q / 2 - 1) / (Sizes.bits q / 2) := by
      rcases hc with ⟨h0, -⟩ | ⟨-, q', -, e1, e2⟩
      · rw [h5] at h0; exact absurd h0 hpos
      · rw [← hl', hq] at e1
        obtain rfl : q = q' := by simpa using e1
        rw [e2, h5, hb]
    simp only [h5, this, Option.isSome_some]
  | q :: q' :: qs =>
    rw [hq, if_neg (by simp)] at h5
    have : k.c0.length = par.moduli.length - i := by
      rcases hc with ⟨-, e⟩ | ⟨h0, -⟩
      · rw [e, hlen]
      · exact absurd h5 h0
    simp only [h5, this, Option.isSome_some]

theorem RelinearizationKey.new_inv {sk : SecretKey} {i j : Nat} {seed : Seed} {rngs : Nat → Nat → Nat} {k : RelinearizationKey} (h : newLeveled b g sk i j seed rngs = Res.ok k) :
    ∃ src, KeySwitchingKey.new b g sk src i j seed rngs = Res.ok k.ksk := by
  unfold newLeveled at h
  rw [Res.bind_eq_ok] at h
  obtain ⟨ctx, -, h⟩ := h
  rw [Res.bind_eq_ok] at h
  obtain ⟨ctx', -, h⟩ := h
  split at h
  · exact absurd h Res.err_ne_ok
  · simp only [Res.bind_eq_ok] at h
    obtain ⟨_, -, _, -, _, -, _, -, src, -, k', h, h'⟩ := h
    rw [Res.pure_eq, Res.ok_inj] at h'
    subst h'
    exact ⟨_, h⟩

theorem GaloisKey.new_inv {sk : SecretKey} {x i j : Nat} {seed : Seed} {rngs : Nat → Nat → Nat} {k : GaloisKey} (h : new b g sk x i j seed rngs = Res.ok k) :
    ∃ src, KeySwitchingKey.new b g sk src i j seed rngs = Res.ok k.ksk := by
  unfold new at h
  simp only [Res.bind_eq_ok] at h
  obtain ⟨_, -, _, -, _, -, _, -, _, -, _, -, src, -, k', h, h'⟩ := h
  rw [Res.pure_eq, Res.ok_inj] at h'
  subst h'
  exact ⟨_, h⟩

theorem EvaluationKeyBuilder.build_ksk {bd : EvaluationKeyBuilder} {seeds : Nat → Seed} {rngs : Nat → Nat → Nat → Nat} {k : EvaluationKey} (h : bd.build b g seeds rngs = Res.ok k)
    {x : Nat × GaloisKey} (hx : x ∈ k.gk) : GaloisKey.new b g bd.sk x.1 bd.ciphertextLevel bd.keyLevel (seeds x.1) (rngs x.1) = Res.ok x.2 := by
  unfold build at h
  simp only [Res.bind_eq_ok] at h
  obtain ⟨set, -, ctx, -, mons, -, gk, hgk, h'⟩ := h
  rw [Res.pure_eq, Res.ok_inj] at h'
  subst h'
  rw [Res.mapM_eq_ok] at hgk
  obtain ⟨y, -, hy⟩ := Ciphertext.mem_forall₂ hgk hx
  rw [Res.bind_eq_ok] at hy
  obtain ⟨k', h1, h2⟩ := hy
  rw [Res.pure_eq, Res.ok_inj] at h2
  subst h2
  exact h1

theorem SecretKey.rgsw_inv {sk : SecretKey} {pt : Plaintext} {s0 s1 : Seed} {r0 r1 : Nat → Nat → Nat} {r : RgswCiphertext} (h : sk.tryEncryptRgsw b g pt s0 s1 r0 r1 = Res.ok r) :
    ∃ i src0 src1, pt.level = some i ∧ KeySwitchingKey.new b g sk src0 i i s0 r0 = Res.ok r.ksk0 ∧ KeySwitchingKey.new b g sk src1 i i s1 r1 = Res.ok r.ksk1 := by
  unfold tryEncryptRgsw at h
  simp only [Res.bind_eq_ok] at h
  obtain ⟨_, -, i, hi, _, -, m0, -, _, -, _, -, m1, -, k0, h0, k1, h1, h'⟩ := h
  rw [Res.pure_eq, Res.ok_inj] at h'
  subst h'
  rw [Res.lift_eq_ok] at hi
  exact ⟨i, m0, m1, hi, h0, h1⟩

theorem cbdPairLoop_zero {rng : Nat → Nat} : ∀ {k pos : Nat}, (∀ i, pos ≤ i → rng i = 0) → (cbdPairLoop 32 rng k pos).1 = List.replicate k 0
  | 0, _, _ => rfl
  | k + 1, pos, h => by
    have ih := cbdPairLoop_zero (k := k) (pos := pos + 2) fun i hi => h i (by omega)
    unfold cbdPairLoop
    rw [h pos le_rfl, h (pos + 1) (by omega)]
    simp only []
    rw [List.replicate_succ, ← ih]
    rfl

theorem GaloisKey.size_eq (hw : ParWF b n par.toBfvParameters) (h32 : par.moduli.length ≤ 2 ^ 32) {k : GaloisKey} (h : k.WellFormed g par) :
    ∃ msg, k.toMsg = some msg ∧ (Wire.encode (GaloisKey.toFields msg)).length =
      Sizes.galoisKey (Sizes.keySwitchingKey par.toBfvParameters k.ksk.ciphertextLevel k.ksk.kskLevel k.ksk.logBase k.ksk.c0.length k.ksk.seed.isSome) k.element.exponent := by
  obtain ⟨m, h1, h2⟩ := KeySwitchingKey.size_eq hw h32 h.ksk
  unfold toMsg
  rw [h1]
  refine ⟨_, rfl, ?_⟩
  have hx : k.element.exponent % 2 ^ 32 = k.element.exponent := by
    have h3 := h.range.2
    have h4 : par.degree ≤ 2 ^ 16 := degree_le hw
    exact Nat.mod_eq_of_lt (by omega)
  unfold toFields Sizes.galoisKey
  simp only [Wire.length_encode_append, Option.toList_some, List.map_singleton]
  rw [Wire.length_len (by norm_num), Wire.size_scalar (by norm_num), hx, h2]

theorem zigzag_small {x : Int} (h : -64 ≤ x ∧ x < 64) : Sizes.number (Wire.zigzag x) = 1 := by
  unfold Sizes.number
  by_cases h0 : Wire.zigzag x = 0
  · rw [h0]; simp
  · have : (Wire.zigzag x).log2 < 7 := (Nat.log2_lt h0).2 (by unfold Wire.zigzag; split <;> omega)
    omega

theorem zigzag_number {x : Int} (h : -2 ^ 13 ≤ x ∧ x < 2 ^ 13) : Sizes.number (Wire.zigzag x) = if -64 ≤ x ∧ x < 64 then 1 else 2 := by
  split
  · rename_i h'; exact zigzag_small h'
  · rename_i h'
    unfold Sizes.number
    have h0 : 128 ≤ Wire.zigzag x := by unfold Wire.zigzag; split <;> omega
    have h1 : (Wire.zigzag x).log2 < 14 := (Nat.log2_lt (by omega)).2 (by unfold Wire.zigzag; split <;> omega)
    have h2 : 7 ≤ (Wire.zigzag x).log2 := (Nat.le_log2 (by omega)).2 (by omega)
    omega

theorem sum_number {l : List Int} (h : ∀ x ∈ l, -64 ≤ x ∧ x ≤ 64) : (l.map fun x => Sizes.number (Wire.zigzag x)).sum = l.length + l.count 64 := by
  induction l with
  | nil => rfl
  | cons a l ih =>
    have h1 := h a (by simp)
    rw [List.map_cons, List.sum_cons, ih fun x hx => h x (List.mem_cons_of_mem _ hx), List.length_cons, List.count_cons, zigzag_number (by omega)]
    by_cases ha : a = 64
    · subst ha; simp; omega
    · rw [if_pos (by omega)]; simp [ha]; omega

theorem SecretKey.size_eq (sk : SecretKey) (h0 : sk.coeffs ≠ []) : sk.toBytes.length = Sizes.bytesField (sk.coeffs.map fun x => Sizes.number (Wire.zigzag x)).sum := by
  unfold toBytes encodeMsg toMsg Wire.packed
  rw [if_neg (by simpa using h0), Wire.length_len (by norm_num), List.length_flatMap, List.map_map]
  simp only [Function.comp_def, Wire.length_varint]

theorem exists_bounded {N : Nat} (F : IntPoly N) : ∃ B, F.Bounded B := by
  refine ⟨∑ j, (F j).natAbs, fun j => ?_⟩
  rw [← Int.natCast_natAbs]
  exact_mod_cast Finset.single_le_sum (f := fun j => (F j).natAbs) (fun _ _ => Nat.zero_le _) (Finset.mem_univ j)

end Fhe
