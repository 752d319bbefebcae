import Verif.Lemmas.RqDot
import Verif.Props.Util
import Verif.Lemmas.Wire
/-! Serialization of polynomials. -/
namespace Fhe
open NttOperator Nega

theorem Modulus.serialize_eq {m : Modulus} (h : m.WF) {a : List Nat} (ha : ∀ x ∈ a, x < m.p) (h8 : 8 ∣ a.length) (hl : a.length < 2 ^ 57) :
    ∃ b, m.serializeVec a = some b ∧ m.serializationLength a.length = some b.length ∧ m.deserializeVec b = some a ∧ b.length ≤ 8 * a.length ∧ ∀ x ∈ b, x < 2 ^ 8 := by
  obtain ⟨m', h1, h2, -⟩ := Modulus.new_eq_ok (cfg := true) (p := m.p) ⟨h.two_le, h.lt⟩
  obtain ⟨b, h3, h4, h5, h6, h7⟩ := Props.C13_serialize h1 ha h8 hl
  have e : m'.nbits = m.nbits := by unfold Modulus.nbits; rw [h2]
  unfold Modulus.serializeVec Modulus.serializationLength Modulus.deserializeVec at *
  rw [e] at h3 h4 h5
  refine ⟨b, h3, h4, h5, ?_, h7⟩
  have : bitLen (m.p - 1) ≤ 62 := bitLen_le_iff.2 (by have := h.lt; omega)
  have := Nat.mul_le_mul_left a.length this
  omega

theorem mapM_exists {α β : Type} {f : α → Panics β} {l : List α} (P : α → β → Prop) (h : ∀ x ∈ l, ∃ y, f x = some y ∧ P x y) :
    ∃ g : List β, l.mapM f = some g ∧ List.Forall₂ P l g := by
  induction l with
  | nil => exact ⟨[], rfl, .nil⟩
  | cons a l ih =>
    obtain ⟨y, h1, h2⟩ := h a (by simp)
    obtain ⟨g, h3, h4⟩ := ih fun x hx => h x (by simp [hx])
    exact ⟨y :: g, by rw [List.mapM_cons, h1, h3]; rfl, .cons h2 h4⟩

theorem RqMsg.codec {m : RqMsg} (hr : 0 ≤ m.representation ∧ m.representation < 4) (hd : m.degree < 2 ^ 32) (hb : IsBytes m.coefficients) (hl : m.coefficients.length ≤ 2 ^ 63) :
    IsBytes m.encode ∧ m.encode.length ≤ m.coefficients.length + 80 ∧ decode m.encode = some m := by
  obtain ⟨rep, degree, coefficients, vt⟩ := m
  simp only at hr hd hb hl
  have hrep : Wire.ofI32 rep < 2 ^ 32 ∧ Wire.asI32 (Wire.ofI32 rep) = rep ∧ (Wire.ofI32 rep = 0 → rep = 0) := by
    obtain ⟨k, rfl⟩ : ∃ k : Nat, rep = k := ⟨rep.toNat, by omega⟩
    unfold Wire.ofI32 Wire.asI32
    have : (((k : Int) % 2 ^ 64).toNat) = k := by omega
    rw [this]
    refine ⟨by omega, ?_, by omega⟩
    rw [if_pos (by omega)]; omega
  refine ⟨Wire.isBytes_encode ?_, ?_, Wire.decode_encode _ ?_ ?_⟩
  · intro f hf p hp
    simp only [toFields, Wire.scalar, Wire.bytesField, List.mem_append] at hf
    rcases hf with ((hf | hf) | hf) | hf <;> split at hf <;> simp at hf <;> subst hf <;> simp at hp
    subst hp; exact hb
  · have h1 : ∀ t n, t < 5 → n < 2 ^ 32 → (Wire.encode (Wire.scalar t n)).length ≤ 20 := by
      intro t n ht hn
      unfold Wire.scalar
      split
      · simp [Wire.encode]
      · have := Wire.length_varint_le (n := t * 8) (by omega)
        have := Wire.length_varint_le (n := n) (by omega)
        simp only [Wire.encode, Wire.encodeField, List.flatMap_cons, List.flatMap_nil, List.append_nil, List.length_append]
        omega
    have h2 : (Wire.encode (Wire.bytesField 3 coefficients)).length ≤ 20 + coefficients.length := by
      unfold Wire.bytesField
      split
      · simp [Wire.encode]
      · have := Wire.length_varint_le (n := 3 * 8 + 2) (by omega)
        have := Wire.length_varint_le (n := coefficients.length) (by omega)
        simp only [Wire.encode, Wire.encodeField, List.flatMap_cons, List.flatMap_nil, List.append_nil, List.length_append]
        omega
    have e1 := h1 1 _ (by omega) hrep.1
    have e2 := h1 2 _ (by omega) hd
    have e3 := h1 4 vt.toNat (by omega) (by cases vt <;> decide)
    simp only [encode, toFields, Wire.encode, List.flatMap_append, List.length_append] at *
    omega
  · intro f hf
    simp only [toFields, Wire.scalar, Wire.bytesField, List.mem_append] at hf
    rcases hf with ((hf | hf) | hf) | hf <;> split at hf <;> simp at hf <;> subst hf <;> refine ⟨by simp, by simp, ?_⟩ <;> simp only
    · omega
    · omega
    · omega
    · cases vt <;> decide
  · simp only [toFields, List.foldlM_append, Option.bind_eq_bind]
    have e1 : (Wire.scalar 1 (Wire.ofI32 rep)).foldlM merge ⟨0, 0, [], false⟩ = some ⟨rep, 0, [], false⟩ := by
      unfold Wire.scalar
      split
      · rename_i h0; rw [hrep.2.2 h0]; rfl
      · simp [merge, hrep.2.1]
    have e2 : (Wire.scalar 2 degree).foldlM merge ⟨rep, 0, [], false⟩ = some ⟨rep, degree, [], false⟩ := by
      unfold Wire.scalar
      split
      · rename_i h0; rw [h0]; rfl
      · rw [List.foldlM_cons, merge, Wire.asU32, Nat.mod_eq_of_lt hd]; rfl
    have e3 : (Wire.bytesField 3 coefficients).foldlM merge ⟨rep, degree, [], false⟩ = some ⟨rep, degree, coefficients, false⟩ := by
      unfold Wire.bytesField
      split
      · rename_i h0; rw [h0]; rfl
      · simp [merge]
    have e4 : (Wire.scalar 4 vt.toNat).foldlM merge ⟨rep, degree, coefficients, false⟩ = some ⟨rep, degree, coefficients, vt⟩ := by cases vt <;> rfl
    rw [e1, Option.bind_some, e2, Option.bind_some, e3, Option.bind_some, e4]

/-- The fields of a decoded message are of their types. -/
theorem RqMsg.decode_spec {bytes : List Nat} {m : RqMsg} (h : decode bytes = some m) (hb : IsBytes bytes) : IsBytes m.coefficients ∧ m.degree < 2 ^ 32 := by
  refine Wire.decode_ind (P := fun m => IsBytes m.coefficients ∧ m.degree < 2 ^ 32) h hb ⟨by simp [IsBytes], by decide⟩ ?_
  intro m f m' hm hp h1 h2
  unfold merge at hm
  split at hm <;> try cases hm
  · exact hp
  · exact ⟨hp.1, Nat.mod_lt _ (by decide)⟩
  · exact ⟨h2 _ rfl, hp.2⟩
  · exact hp
  · split at hm <;> cases hm
    exact hp

namespace Poly
variable {b : Build} {c : Context} {n : Nat} {r : Rep} {vt vt' : Bool}

theorem parseRows_eq {N : Nat} (ops : List NttOperator) (rows : NttOperator → List Nat) (bytes : List (List Nat)) (pre : List Nat)
    (h : List.Forall₂ (fun op by' => op.p.serializationLength N = some by'.length ∧ op.p.deserializeVec by' = some (rows op)) ops bytes) :
    parseRows N (pre ++ bytes.flatten) (ops.map (·.p)) pre.length = some (ops.map rows).flatten := by
  induction h generalizing pre with
  | nil => rfl
  | @cons op by' ops bytes h1 h2 ih =>
    rw [List.map_cons, parseRows, h1.1]
    simp only [Option.bind_eq_bind, Option.bind_some]
    rw [check_eq (by simp), Option.bind_some, List.drop_left' rfl, List.flatten_cons, List.take_left' rfl, h1.2, Option.bind_some]
    have := ih (pre ++ by')
    rw [List.length_append, List.append_assoc] at this
    rw [this, Option.bind_some]
    rfl

theorem lens_eq {N : Nat} (ops : List NttOperator) (rows : NttOperator → List Nat) (bytes : List (List Nat))
    (h : List.Forall₂ (fun op by' => op.p.serializationLength N = some by'.length ∧ op.p.deserializeVec by' = some (rows op)) ops bytes) :
    (ops.mapM fun op => op.p.serializationLength N) = some (bytes.map List.length) := by
  induction h with
  | nil => rfl
  | cons h1 _ ih => rw [List.mapM_cons, h1.1, ih]; rfl

theorem toRq_parse (h : c.WF b n) (hn : n ≤ 31) (f : c.Elem) :
    ∃ msg : RqMsg, (enc c r vt f).toRq = some msg ∧ msg.representation = r.toProto ∧ msg.degree = c.degree ∧ msg.allowVariableTime = false ∧
      IsBytes msg.coefficients ∧ msg.coefficients.length ≤ c.moduli.length * (8 * c.degree) ∧ parseProto msg c = some (.ok (r, (enc c .powerBasis false f).toU64)) := by
  have := h.neZero
  have hN := h.level.degree
  have hNle : c.degree ≤ 2 ^ 31 := by rw [hN]; exact Nat.pow_le_pow_right (by norm_num) hn
  have h8 : 8 ∣ c.degree := by rw [hN]; exact (pow_dvd_pow 2 h.level.three_le : 2 ^ 3 ∣ 2 ^ n)
  have hpos : 0 < c.degree := by rw [hN]; positivity
  have hser : ∀ op ∈ c.ops, ∃ by', op.p.serializeVec (encRow .powerBasis f op) = some by' ∧
      (op.p.serializationLength c.degree = some by'.length ∧ op.p.deserializeVec by' = some (encRow .powerBasis f op)) ∧ by'.length ≤ 8 * c.degree ∧ IsBytes by' := by
    intro op hop
    obtain ⟨ω, ωi, hw⟩ := h.level.ops op hop
    obtain ⟨l, e⟩ := encRow_reduced hw hN (h.dvd hop) .powerBasis f
    obtain ⟨by', h1, h2, h3, h4, h5⟩ := Modulus.serialize_eq hw.modulus e (by rw [l]; exact h8) (by rw [l]; omega)
    rw [l] at h2 h4
    exact ⟨by', h1, ⟨h2, h3⟩, h4, h5⟩
  obtain ⟨bytes, hb1, hb2'⟩ := mapM_exists _ hser
  have hb2 := hb2'.imp fun _ _ h => h.1
  have hbytes : IsBytes bytes.flatten := by
    clear hb1 hser hb2
    generalize c.ops = ops at hb2'
    induction hb2' with
    | nil => intro x hx; simp at hx
    | cons h1 _ ih => exact h1.2.2.append ih
  have hlen : bytes.flatten.length ≤ c.ops.length * (8 * c.degree) := by
    clear hb1 hser hb2 hbytes
    generalize c.ops = ops at hb2'
    induction hb2' with
    | nil => simp
    | cons h1 _ ih =>
      rw [List.flatten_cons, List.length_append, List.length_cons, Nat.succ_mul]
      have := h1.2.1
      omega
  have hmapM : ((c.ops.map fun op => encRow .powerBasis f op).zip c.q).mapM (fun x => x.2.serializeVec x.1) = some bytes := by
    rw [h.level.q, zip_map_same, List.mapM_map]
    exact hb1
  refine ⟨⟨r.toProto, c.degree, bytes.flatten, false⟩, ?_, rfl, rfl, rfl, hbytes, by rw [h.level.moduli, List.length_map]; exact hlen, ?_⟩
  · unfold toRq
    rw [show (enc c r vt f).hasLazy = false from rfl, check_eq rfl, toPowerBasis_enc h]
    simp only [Option.bind_eq_bind, Option.bind_some]
    rw [show (enc c .powerBasis vt f).coeffs = c.ops.map fun op => encRow .powerBasis f op from rfl, show (enc c r vt f).ctx = c from rfl, hmapM,
      Option.bind_some, Nat.mod_eq_of_lt (by omega)]
    rfl
  · have hlens : c.q.mapM (fun qi => qi.serializationLength c.degree) = some (bytes.map List.length) := by
      rw [h.level.q, List.mapM_map]
      exact lens_eq c.ops _ bytes hb2
    have hpr := parseRows_eq (N := c.degree) c.ops (fun op => encRow .powerBasis f op) bytes [] hb2
    rw [← h.level.q] at hpr
    simp only [List.nil_append, List.length_nil] at hpr
    unfold parseProto
    have hdeg : ¬ (c.degree % 8 ≠ 0 ∨ c.degree < 8) := by omega
    cases r <;>
    · simp only [Rep.toProto, Option.bind_eq_bind]
      norm_num
      simp only [if_neg hdeg, hlens, Option.bind_some, hpr]
      rfl

theorem toRq_enc (h : c.WF b n) (hn : n ≤ 31) (f : c.Elem) :
    ∃ msg : RqMsg, (enc c r vt f).toRq = some msg ∧ msg.representation = r.toProto ∧ msg.degree = c.degree ∧ msg.allowVariableTime = false ∧
      IsBytes msg.coefficients ∧ msg.coefficients.length ≤ c.moduli.length * (8 * c.degree) ∧ ∀ vt', fromRq r msg c vt' = some (.ok (enc c r vt' f)) := by
  obtain ⟨msg, h1, h2, h3, h4, h5, h6, hparse⟩ := toRq_parse (r := r) (vt := vt) h hn f
  refine ⟨msg, h1, h2, h3, h4, h5, h6, fun vt' => ?_⟩
  unfold fromRq
  rw [hparse]
  simp only [Option.bind_eq_bind, Option.bind_some, ne_eq, not_true_eq_false, if_false]
  rw [tryFromU64_rows h, Option.bind_some]
  simp only
  rw [ofPowerBasis_enc h]
  rfl

/-- Bytes of a polynomial are read back. -/
theorem toBytes_enc (h : c.WF b n) (hn : n ≤ 31) (hL : c.moduli.length * (8 * c.degree) ≤ 2 ^ 63) (f : c.Elem) :
    ∃ bytes, (enc c r vt f).toBytes = some bytes ∧ IsBytes bytes ∧ bytes.length ≤ c.moduli.length * (8 * c.degree) + 80 ∧ fromBytes r bytes c = some (.ok (enc c r false f)) := by
  obtain ⟨m, h1, h2, h3, h4, h5, h6, h7⟩ := toRq_enc (r := r) (vt := vt) h hn f
  have hd : m.degree < 2 ^ 32 := by
    rw [h3, h.level.degree]; exact lt_of_le_of_lt (Nat.pow_le_pow_right (by norm_num) hn) (by norm_num)
  have hr : 0 ≤ m.representation ∧ m.representation < 4 := by rw [h2]; cases r <;> decide
  obtain ⟨k1, k2, k3⟩ := RqMsg.codec hr hd h5 (le_trans h6 hL)
  refine ⟨m.encode, by unfold toBytes; rw [h1]; rfl, k1, by omega, ?_⟩
  unfold fromBytes
  rw [k3]
  exact h7 false

end Poly
end Fhe
