import Verif.Lemmas.Pir
import Verif.Props.Defaults
import Verif.Props.Util
import Verif.Lemmas.BfvExample
/-!
# Property C63: private information retrieval with MulPIR

The example `mulpir.rs`: a client retrieves an element of the database of a server without telling which.
-/
namespace Fhe.Props
open Nega Poly ParamsBuilder Ciphertext Pir

variable {b : Build} {st : ParamsBuilder} {g : Prg} {egcd : Nat → Nat → Nat × Int}

/-- C63: for every database, every index and all random choices, every step of the exchange succeeds, and the response that the server computes
from the bytes of the keys and the bytes of the query is a ciphertext at the last level that encrypts, under the key of the client, a message
that contains the element asked for.  The noise has a bound that depends only on the parameters and the dimensions. -/
theorem C63_response (hb : b.OK) {par : Par} (h : build b st = Res.ok par.toBfvParameters) (hg : g.OK) (he : EgcdContract egcd) (hodd : par.plaintext.value % 2 = 1) (hcount : par.moduli.length ≤ 31)
    (hsum : par.moduli.sum ≤ 2 ^ 65) (hlev : 3 ≤ par.moduli.length) {database : List (List Nat)} {size : Nat} (hf : Fits par database size) {dim1 dim2 : Nat}
    (hd1 : dim1 = dimension1 par database.length size) (hd2 : dim2 = dimension2 par database.length size) (hN : dim1 + dim2 ≤ par.degree) {index : Nat} (hi : index < database.length) {r : Random} (hr : r.OK) :
    ∃ (encoded : List Plaintext) (sk : SecretKey) (s : IntPoly par.degree) (ek ek' : EvaluationKey) (rk rk' : RelinearizationKey) (ekBytes rkBytes question response : List Nat) (ct : Ciphertext) (m : par.Msg)
      (w : IntPoly par.degree),
      encodeDatabase database par 1 = Res.ok (encoded, dim1, dim2) ∧
      SecretKey.random par r.secret = some sk ∧ sk.IsKey par s ∧
      evaluationKey b g sk dim1 dim2 r = Res.ok ek ∧ ek.toBytes = some ekBytes ∧ EvaluationKey.fromBytes b g ekBytes par = Res.ok ek' ∧
      RelinearizationKey.newLeveled b g sk 1 1 r.relinSeed r.relin = Res.ok rk ∧ rk.toBytes = some rkBytes ∧ RelinearizationKey.fromBytes g rkBytes par = Res.ok rk' ∧
      query g egcd sk par size index dim1 dim2 r = Res.ok question ∧
      MulPir.response g ek' rk' par encoded dim1 dim2 question = Res.ok response ∧
      Ciphertext.fromBytes g response par = Res.ok ct ∧ ct.Encrypts par s (par.moduli.length - 1) m w ∧
      Contains par m (index % perRow par size * size) database[index] ∧ w.Bounded (mulPirNoise par dim1 dim2) := by
  subst hd1 hd2
  obtain ⟨n, hw, -⟩ := build_inv hb h
  obtain ⟨encoded, sk, s, ek, ek', rk, rk', ekBytes, rkBytes, question, response, ct, m, w, e1, s1, s2, k1, k2, k3, l1, l2, l3, q1, r1, r2, r3, -, r5, r6⟩ :=
    mulPir_eq hb h hg he hodd hcount hsum hlev hf hN hi hr
  obtain ⟨-, -, -, -, t4⟩ := r5.bytes_eq hw hf hi
  exact ⟨encoded, sk, s, ek, ek', rk, rk', ekBytes, rkBytes, question, response, ct, m, w, e1, s1, s2, k1, k2, k3, l1, l2, l3, q1, r1, r2, r3, t4, r6⟩

/-- C63: if the bound on the noise leaves room at the last level, the program retrieves the element asked for. -/
theorem C63_mulpir (hb : b.OK) {par : Par} (h : build b st = Res.ok par.toBfvParameters) (hg : g.OK) (he : EgcdContract egcd) (hodd : par.plaintext.value % 2 = 1) (hcount : par.moduli.length ≤ 31)
    (hsum : par.moduli.sum ≤ 2 ^ 65) (hlev : 3 ≤ par.moduli.length) {database : List (List Nat)} {size : Nat} (hf : Fits par database size)
    (hN : dimension1 par database.length size + dimension2 par database.length size ≤ par.degree) (hlast : 2 * par.plaintext.value ≤ par.modulusAt (par.moduli.length - 1))
    (hroom : 2 ^ 62 * mulPirNoise par (dimension1 par database.length size) (dimension2 par database.length size) ≤ (2 ^ 61 - 1) * par.modulusAt (par.moduli.length - 1))
    {index : Nat} (hi : index < database.length) {r : Random} (hr : r.OK) :
    MulPir.main b g egcd st par.addr database index r = Res.ok database[index] := by
  obtain ⟨encoded, sk, s, ek, ek', rk, rk', ekBytes, rkBytes, question, response, ct, m, w, e1, s1, s2, k1, k2, k3, l1, l2, l3, q1, r1, r2, r3, -, r5, r6⟩ :=
    mulPir_eq hb h hg he hodd hcount hsum hlev hf hN hi hr
  have hans := mulPir_answer_eq hb h s2 hcount hsum hf hlast hi r2 r3 r5 (fun j => by
    have := r6 j
    zify at hroom this
    have h61 : ((2 : Int) ^ 61 - 1) = ((2 ^ 61 - 1 : Nat) : Int) := by norm_num
    push_cast [h61] at hroom ⊢
    omega)
  unfold MulPir.main
  have hsize : database[index].length = size := (hf.elements _ (List.getElem_mem hi)).1
  rw [List.getElem?_eq_getElem hi, Res.lift_some, Res.ok_bind]
  simp only []
  rw [h, Res.ok_bind, hsize]
  rw [show (⟨par.toBfvParameters, par.addr⟩ : Par) = par from rfl]
  rw [e1, Res.ok_bind]
  simp only []
  rw [s1, Res.lift_some, Res.ok_bind, k1, Res.ok_bind, l1, Res.ok_bind, k2, Res.lift_some, Res.ok_bind, l2, Res.lift_some, Res.ok_bind, k3, Res.ok_bind, l3, Res.ok_bind, q1, Res.ok_bind, r1, Res.ok_bind, hans,
    Res.ok_bind, check_eq rfl, Res.lift_some, Res.ok_bind]
  rfl

/-- C63: the database of the program has `count` elements of `size` bytes, and different elements of at least four bytes at different indices. -/
theorem C63_generated (count size : Nat) :
    (generateDatabase count size).length = count ∧ (∀ e ∈ generateDatabase count size, e.length = size ∧ IsBytes e) ∧ (4 ≤ size → count ≤ 2 ^ 32 → (generateDatabase count size).Nodup) := by
  refine ⟨by simp [generateDatabase], fun e he => ?_, fun h4 hc => ?_⟩
  · simp only [generateDatabase, List.mem_map] at he
    obtain ⟨i, -, rfl⟩ := he
    refine ⟨by simp, fun x hx => ?_⟩
    obtain ⟨k, -, rfl⟩ := List.mem_map.1 hx
    split
    · exact Nat.mod_lt _ (by decide)
    · decide
  · refine List.Nodup.map_on (fun i hi j hj hij => ?_) List.nodup_range
    rw [List.mem_range] at hi hj
    have key : ∀ k < 4, i % 2 ^ 32 / 2 ^ (8 * k) % 2 ^ 8 = j % 2 ^ 32 / 2 ^ (8 * k) % 2 ^ 8 := fun k hk => by
      have := List.map_inj_left.1 hij k (List.mem_range.2 (by omega))
      rwa [if_pos hk, if_pos hk] at this
    have h0 := key 0 (by decide)
    have h1 := key 1 (by decide)
    have h2 := key 2 (by decide)
    have h3 := key 3 (by decide)
    omega

/-- The parameters of the program, except that the moduli are those the library recommends for the degree. -/
def mulPirParams : ParamsBuilder :=
  ({} : ParamsBuilder).setDegree 8192 |>.setPlaintext 1785857 |>.setModuli [0x7fffffd8001, 0x7fffffc8001, 0xfffffffc001, 0xffffff6c001, 0xfffffebc001]

theorem mulPirParams_build (hb : b.OK) (hl : b.Lucky) : ∃ par, build b mulPirParams = Res.ok par := by
  have hmem : ((8192, [0x7fffffd8001, 0x7fffffc8001, 0xfffffffc001, 0xffffff6c001, 0xfffffebc001]) : Nat × List Nat) ∈ defaultTable := by decide
  obtain ⟨hnd, hpr⟩ := C31_table.2 _ hmem
  refine C31_complete hb hl rfl ⟨⟨13, by decide, by decide, by decide⟩, by decide, Or.inl ⟨by decide, by decide⟩, hnd, by decide, fun q hq => (hpr q hq).1, by decide, by decide, by decide +kernel⟩ (by decide)
    (fun l hl => exists_bigPrime hmem l hl)

/-- C63: with the degree and the plaintext modulus of the program and the moduli that the library recommends for this degree, the program retrieves
the element asked for, for every size of elements that fits a plaintext, every database of up to `2 ^ 24` rows, every index and all random choices. -/
theorem C63_program (hb : b.OK) (hl : b.Lucky) (hg : g.OK) (he : EgcdContract egcd) (addr : Nat) {database : List (List Nat)} {size : Nat} (hpos : 1 ≤ size) (hmax : size ≤ 20480)
    (hd : ∀ e ∈ database, e.length = size ∧ IsBytes e) (hrows : database.length ≤ 2 ^ 24 * (20480 / size)) {index : Nat} (hi : index < database.length) {r : Random} (hr : r.OK) :
    MulPir.main b g egcd mulPirParams addr database index r = Res.ok database[index] := by
  obtain ⟨par0, h⟩ := mulPirParams_build hb hl
  obtain ⟨-, e1, e2, e3, e4⟩ := C31_sound hb h
  replace e4 : par0.moduli = [0x7fffffd8001, 0x7fffffc8001, 0xfffffffc001, 0xffffff6c001, 0xfffffebc001] := (e4.resolve_right fun h => by simp [mulPirParams, setModuli] at h).2
  replace e1 : par0.degree = 8192 := e1
  replace e2 : par0.variance = 10 := e2
  replace e3 : par0.plaintext.value = 1785857 := e3
  obtain ⟨par, hpar0, rfl⟩ : ∃ par : Par, par.toBfvParameters = par0 ∧ par.addr = addr := ⟨⟨par0, addr⟩, rfl, rfl⟩
  subst hpar0
  have hQ0 : par.modulusAt 0 = 0x7fffffd8001 * 0x7fffffc8001 * 0xfffffffc001 * 0xffffff6c001 * 0xfffffebc001 := by unfold BfvParameters.modulusAt; rw [e4]; decide
  have hQ1 : par.modulusAt 1 = 0x7fffffd8001 * 0x7fffffc8001 * 0xfffffffc001 * 0xffffff6c001 := by unfold BfvParameters.modulusAt; rw [e4]; decide
  have hQ4 : par.modulusAt (par.moduli.length - 1) = 0x7fffffd8001 := by unfold BfvParameters.modulusAt; rw [e4]; decide
  have hbits : Nat.log2 par.plaintext.value = 20 := by rw [e3]; decide
  have hper : perRow par size = 20480 / size := by
    unfold perRow
    rw [hbits, e1, Nat.mul_comm size 8, ← Nat.div_div_eq_div_mul]
  have hf : Fits par database size := ⟨by rw [e3]; decide, by rw [e4]; decide, by rw [e3, hQ1]; decide, hpos, by rw [hbits, e1]; omega, List.ne_nil_of_length_pos (by omega), hd⟩
  have hper0 := hf.per_pos
  have hdims : dimension1 par database.length size ≤ 4096 ∧ dimension2 par database.length size ≤ 4096 := by
    refine dims_le ?_ (by have := hf.rows_pos; exact this)
    unfold rowCount
    rw [← Nat.lt_succ_iff, Nat.div_lt_iff_lt_mul hper0, Nat.succ_mul, hper]
    rw [hper] at hper0
    have : 4096 * 4096 * (20480 / size) = 2 ^ 24 * (20480 / size) := by norm_num
    omega
  refine C63_mulpir hb h hg he (by rw [e3]) (by rw [e4]; decide) (by rw [e4]; decide) (by rw [e4]; decide) hf (by rw [e1]; omega) (by rw [hQ4, e3]; decide) ?_ hi hr
  refine le_trans (Nat.mul_le_mul_left _ (mulPirNoise_mono par hdims.1 hdims.2)) ?_
  unfold mulPirNoise switchedNoise mulPirSum mulNoise mulHeight columnNoise expandedNoise switchError
  simp only []
  rw [hQ4, hQ1, hQ0, e1, e2, e3, e4]
  decide +kernel

/-- Retrieval of the last of a thousand elements of 256 bytes. -/
example : MulPir.main luckyBuild exPrg (fun a p => (Nat.gcd a p, Nat.gcdA a p % p)) mulPirParams 0 (generateDatabase 1000 256) 999
    ⟨exRng, fun _ => List.replicate 32 7, fun _ _ => exRng, List.replicate 32 7, fun _ => exRng, List.replicate 32 7, exRng⟩ = Res.ok (0xe7 :: 0x03 :: List.replicate 254 0) := by
  obtain ⟨h1, h2, -⟩ := C63_generated 1000 256
  rw [C63_program luckyBuild_ok luckyBuild_lucky exPrg_ok egcdContract_exists 0 (by decide) (by decide) h2 (by rw [h1]; decide) (by rw [h1]; decide)
    ⟨exRng_ok, fun _ => by simp, fun _ _ => exRng_ok, by simp, fun _ => exRng_ok, by simp, exRng_ok⟩]
  refine congrArg _ ?_
  simp only [generateDatabase, List.getElem_map, List.getElem_range]
  decide +kernel

end Fhe.Props
