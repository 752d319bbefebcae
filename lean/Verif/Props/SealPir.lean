import Verif.Lemmas.SealPir
import Verif.Props.Pir
/-!
# Property C64: private information retrieval with SealPIR

The example `sealpir.rs`: the server reads the ciphertexts of the columns as plaintexts and selects among them, so that the client decrypts twice.
-/
namespace Fhe.Props
open Nega Poly ParamsBuilder Ciphertext Pir

variable {b : Build} {st : ParamsBuilder} {g : Prg} {egcd : Nat → Nat → Nat × Int}

/-- C64: every step up to the responses succeeds; their number depends only on the parameters, and each is a ciphertext at the last level with a bounded noise. -/
theorem C64_response (hb : b.OK) {par : Par} (h : build b st = Res.ok par.toBfvParameters) (hg : g.OK) (he : EgcdContract egcd) (hodd : par.plaintext.value % 2 = 1) (hcount : par.moduli.length ≤ 31)
    (hlev : 3 ≤ par.moduli.length) {database : List (List Nat)} {size : Nat} (hf : Fits par database size) {dim1 dim2 : Nat}
    (hd1 : dim1 = dimension1 par database.length size) (hd2 : dim2 = dimension2 par database.length size) (hN : dim1 + dim2 ≤ par.degree) {index : Nat} (hi : index < database.length) {r : Random} (hr : r.OK) :
    ∃ (encoded : List Plaintext) (sk : SecretKey) (s : IntPoly par.degree) (ek ek' : EvaluationKey) (ekBytes question : List Nat) (responses : List (List Nat)),
      encodeDatabase database par 1 = Res.ok (encoded, dim1, dim2) ∧
      SecretKey.random par r.secret = some sk ∧ sk.IsKey par s ∧
      evaluationKey b g sk dim1 dim2 r = Res.ok ek ∧ ek.toBytes = some ekBytes ∧ EvaluationKey.fromBytes b g ekBytes par = Res.ok ek' ∧
      query g egcd sk par size index dim1 dim2 r = Res.ok question ∧
      SealPir.response g ek' par encoded dim1 dim2 question = Res.ok responses ∧ responses.length = foldCount par ∧
      ∀ bytes ∈ responses, ∃ ct m w, Ciphertext.fromBytes g bytes par = Res.ok ct ∧ ct.Encrypts par s (par.moduli.length - 1) m w ∧ w.Bounded (sealPirOuter par dim1 dim2) := by
  obtain ⟨encoded, sk, s, ek, ek', ekBytes, question, response, rs, ms, w, inner, m, x, p0, p1, w0, w1, v0, v1, e1, s1, s2, k1, k2, k3, q1, r1, r2, -⟩ := sealPir_eq hb h hg he hodd hcount hlev hf hd1 hd2 hN hi hr
  refine ⟨encoded, sk, s, ek, ek', ekBytes, question, _, e1, s1, s2, k1, k2, k3, q1, r1, by simp, fun bytes hbytes => ?_⟩
  obtain ⟨k, hk, rfl⟩ := List.mem_map.1 hbytes
  obtain ⟨a1, a2, a3⟩ := r2 k (List.mem_range.1 hk)
  exact ⟨rs k, ms k, w k, a1, a2, a3⟩

/-- C64: for parameters with three moduli, if the bounds on the noise leave room at the last level, the program retrieves the element asked for. -/
theorem C64_sealpir (hb : b.OK) {par : Par} (h : build b st = Res.ok par.toBfvParameters) (hg : g.OK) (he : EgcdContract egcd) (hodd : par.plaintext.value % 2 = 1)
    (hsum : par.moduli.sum ≤ 2 ^ 65) (hlev : par.moduli.length = 3) {database : List (List Nat)} {size : Nat} (hf : Fits par database size) {dim1 dim2 : Nat}
    (hd1 : dim1 = dimension1 par database.length size) (hd2 : dim2 = dimension2 par database.length size) (hN : dim1 + dim2 ≤ par.degree) (hlast : 2 * par.plaintext.value ≤ par.modulusAt 2)
    (hroom : 2 ^ 62 * sealPirInner par dim1 dim2 ≤ (2 ^ 61 - 1) * par.modulusAt 2) (hroom' : 2 ^ 62 * sealPirOuter par dim1 dim2 ≤ (2 ^ 61 - 1) * par.modulusAt 2)
    {index : Nat} (hi : index < database.length) {r : Random} (hr : r.OK) :
    SealPir.main b g egcd st par.addr database index r = Res.ok database[index] := by
  obtain ⟨encoded, sk, s, ek, ek', ekBytes, question, response, rs, ms, w, inner, m, x, p0, p1, w0, w1, v0, v1, e1, s1, s2, k1, k2, k3, q1, r1, r2, r3, r4, r5, r6, r7, r8, r9, r10, r11, r12, r13, r14⟩ :=
    sealPir_eq hb h hg he hodd (by omega) (by omega) hf hd1 hd2 hN hi hr
  have hsmall : ∀ {V : Nat} {x : IntPoly par.degree}, 2 ^ 62 * V ≤ (2 ^ 61 - 1) * par.modulusAt 2 → x.Bounded V → x.Small (par.modulusAt 2) := fun hroom hx j => by
    have := hx j
    zify at hroom this
    have h61 : ((2 : Int) ^ 61 - 1) = ((2 ^ 61 - 1 : Nat) : Int) := by norm_num
    push_cast [h61] at hroom ⊢
    omega
  have h2 : par.moduli.length - 1 = 2 := by omega
  rw [h2] at r2 r3
  have hans := sealPir_answer_eq hb h s2 hsum hlev hf hlast hi (fun k hk => ⟨(r2 k hk).1, (r2 k hk).2.1, hsmall hroom' (r2 k hk).2.2⟩) r3 (hsmall hroom r4) r5 r6 r7 r8 r9 r10 r11 r12 r13 r14
  unfold SealPir.main
  have hsize : database[index].length = size := (hf.elements _ (List.getElem_mem hi)).1
  rw [List.getElem?_eq_getElem hi, Res.lift_some, Res.ok_bind]
  simp only []
  rw [h, Res.ok_bind, hsize]
  rw [show (⟨par.toBfvParameters, par.addr⟩ : Par) = par from rfl]
  rw [e1, Res.ok_bind]
  simp only []
  rw [s1, Res.lift_some, Res.ok_bind, k1, Res.ok_bind, k2, Res.lift_some, Res.ok_bind, k3, Res.ok_bind, q1, Res.ok_bind, r1, Res.ok_bind, hans, Res.ok_bind, check_eq rfl, Res.lift_some, Res.ok_bind]
  rfl

/-- C64: the client reads the ciphertext at level 2 whatever the parameters, so the program never succeeds with another number of moduli than three. -/
theorem C64_three_moduli (hb : b.OK) {par0 : BfvParameters} (h : build b st = Res.ok par0) (hlev : par0.moduli.length ≠ 3) (addr : Nat) (database : List (List Nat)) (index : Nat) (r : Random) (x : List Nat) :
    SealPir.main b g egcd st addr database index r ≠ Res.ok x := by
  obtain ⟨par, hpar0, rfl⟩ : ∃ par : Par, par.toBfvParameters = par0 ∧ par.addr = addr := ⟨⟨par0, addr⟩, rfl, rfl⟩
  subst hpar0
  obtain ⟨n, hw, -⟩ := build_inv hb h
  have hN : 0 < par.degree := by rw [hw.degree]; positivity
  have hans : ∀ sk size responses y, SealPir.answer b g sk par size index responses ≠ Res.ok y := by
    intro sk size responses y hy
    unfold SealPir.answer at hy
    simp only [Res.bind_eq_ok] at hy
    obtain ⟨_, _, _, _, _, _, n0, _, n1, _, _, _, a, _, poly0, hp0, _, _, _, _, ctx, hctx, p0, hp, _⟩ := hy
    obtain ⟨l, hl, rfl⟩ := ParWF.contextAtLevel_iff.1 hctx
    have ha := AtLevel.ofGet hw hl
    have hlen : poly0.length = par.degree := by
      cases hw : SealPir.polyWords par a with
      | none => rw [hw] at hp0; exact absurd hp0 Res.panic_ne_ok
      | some z =>
        rw [hw] at hp0
        obtain rfl := Res.ok_inj.1 hp0
        unfold SealPir.polyWords at hw
        simp only [Option.bind_eq_bind, Option.bind_eq_some_iff] at hw
        obtain ⟨bits, _, words, _, _, hchk, hz⟩ := hw
        obtain rfl := Option.some_inj.1 hz
        have : words.length ≥ par.degree := by
          unfold check at hchk
          by_contra hc
          rw [if_neg hc] at hchk
          cases hchk
        rw [List.length_take]
        omega
    have hq : l.ctx.q.length = par.moduli.length - 2 := by
      rw [ha.wf.level.q, List.length_map, ← List.length_map (f := (·.p.p)), ← ha.wf.level.moduli, ha.moduli, List.length_take]
      omega
    have hne : poly0.length ≠ l.ctx.q.length * l.ctx.degree := by
      rw [hlen, hq, ha.deg]
      intro heq
      have : par.moduli.length - 2 = 1 := Nat.eq_of_mul_eq_mul_right hN (by rw [Nat.one_mul]; exact heq.symm)
      omega
    unfold tryFromU64Ntt fromShapeVec at hp
    rw [if_neg hne] at hp
    exact absurd hp Res.err_ne_ok
  intro hx
  unfold SealPir.main at hx
  simp only [Res.bind_eq_ok] at hx
  obtain ⟨_, _, p, hp, _, _, sk, _, _, _, _, _, _, _, _, _, resp, _, y, hy, _⟩ := hx
  obtain rfl := Res.ok_inj.1 (h.symm.trans hp)
  exact hans _ _ _ _ hy

/-- The plaintext modulus of the program, with a degree and three moduli of the tables of the library. -/
def sealPirParams : ParamsBuilder :=
  ({} : ParamsBuilder).setDegree 8192 |>.setPlaintext 2056193 |>.setModuli [0x1fffffff68001, 0x1fffffff50001, 0x1ffffffee8001]

theorem sealPirParams_build (hb : b.OK) (hl : b.Lucky) : ∃ par, build b sealPirParams = Res.ok par := by
  have hmem : ((16384, [0xfffffffd8001, 0xfffffffa0001, 0xfffffff00001, 0x1fffffff68001, 0x1fffffff50001, 0x1ffffffee8001, 0x1ffffffea0001, 0x1ffffffe88001, 0x1ffffffe48001]) : Nat × List Nat) ∈ defaultTable := by decide
  obtain ⟨-, hpr⟩ := C31_table.2 _ hmem
  refine C31_complete hb hl rfl ⟨⟨13, by decide, by decide, by decide⟩, by decide, Or.inl ⟨by decide, by decide⟩, by decide, by decide, fun q hq => (hpr q ?_).1, by decide, by decide, by decide +kernel⟩ (by decide)
    fun l hl => ?_
  · have : ∀ q ∈ [0x1fffffff68001, 0x1fffffff50001, 0x1ffffffee8001], q ∈ [0xfffffffd8001, 0xfffffffa0001, 0xfffffff00001, 0x1fffffff68001, 0x1fffffff50001, 0x1ffffffee8001, 0x1ffffffea0001, 0x1ffffffe88001, 0x1ffffffe48001] := by decide
    exact this q hq
  · by_contra hno
    refine enough_primes (n := 13) (by decide) (moduli := [0x1fffffff68001, 0x1fffffff50001, 0x1ffffffee8001]) (by decide) (by decide) (l := l) (Nat.lt_succ_of_le hl) fun p hp hpm => ?_
    by_contra hpl
    exact hno ⟨p, hp, hpm, hpl⟩

/-- C64: with these parameters the program retrieves the element asked for, for every size of elements that fits a plaintext, every database of up to
`2 ^ 22` rows, every index and all random choices. -/
theorem C64_program (hb : b.OK) (hl : b.Lucky) (hg : g.OK) (he : EgcdContract egcd) (addr : Nat) {database : List (List Nat)} {size : Nat} (hpos : 1 ≤ size) (hmax : size ≤ 20480)
    (hd : ∀ e ∈ database, e.length = size ∧ IsBytes e) (hrows : database.length ≤ 2 ^ 22 * (20480 / size)) {index : Nat} (hi : index < database.length) {r : Random} (hr : r.OK) :
    SealPir.main b g egcd sealPirParams addr database index r = Res.ok database[index] := by
  obtain ⟨par0, h⟩ := sealPirParams_build hb hl
  obtain ⟨-, e1, e2, e3, e4⟩ := C31_sound hb h
  replace e4 : par0.moduli = [0x1fffffff68001, 0x1fffffff50001, 0x1ffffffee8001] := (e4.resolve_right fun h => by simp [sealPirParams, setModuli] at h).2
  replace e1 : par0.degree = 8192 := e1
  replace e2 : par0.variance = 10 := e2
  replace e3 : par0.plaintext.value = 2056193 := e3
  obtain ⟨par, hpar0, rfl⟩ : ∃ par : Par, par.toBfvParameters = par0 ∧ par.addr = addr := ⟨⟨par0, addr⟩, rfl, rfl⟩
  subst hpar0
  have hQ0 : par.modulusAt 0 = 0x1fffffff68001 * 0x1fffffff50001 * 0x1ffffffee8001 := by unfold BfvParameters.modulusAt; rw [e4]; decide
  have hQ1 : par.modulusAt 1 = 0x1fffffff68001 * 0x1fffffff50001 := by unfold BfvParameters.modulusAt; rw [e4]; decide
  have hQ2 : par.modulusAt 2 = 0x1fffffff68001 := by unfold BfvParameters.modulusAt; rw [e4]; decide
  have hQ2' : par.modulusAt (par.moduli.length - 1) = 0x1fffffff68001 := by unfold BfvParameters.modulusAt; rw [e4]; decide
  have hbits : Nat.log2 par.plaintext.value = 20 := by rw [e3]; decide
  have hper : perRow par size = 20480 / size := by
    unfold perRow
    rw [hbits, e1, Nat.mul_comm size 8, ← Nat.div_div_eq_div_mul]
  have hf : Fits par database size := ⟨by rw [e3]; decide, by rw [e4]; decide, by rw [e3, hQ1]; decide, hpos, by rw [hbits, e1]; omega, List.ne_nil_of_length_pos (by omega), hd⟩
  have hper0 := hf.per_pos
  obtain ⟨hd1, hd2⟩ : dimension1 par database.length size ≤ 2048 ∧ dimension2 par database.length size ≤ 2048 := by
    refine dims_le ?_ hf.rows_pos
    unfold rowCount
    rw [← Nat.lt_succ_iff, Nat.div_lt_iff_lt_mul hper0, Nat.succ_mul, hper]
    rw [hper] at hper0
    have : 2048 * 2048 * (20480 / size) = 2 ^ 22 * (20480 / size) := by norm_num
    omega
  have hl : RnsScaler.ceilLog2 (dimension1 par database.length size + dimension2 par database.length size) ≤ 12 := le_trans (ceilLog2_mono (c := 4096) (by omega)) (by decide)
  have hroom : 2 ^ 62 * switchedNoise par (columnNoise par 12 2048) ≤ (2 ^ 61 - 1) * par.modulusAt 2 := by
    unfold switchedNoise columnNoise expandedNoise switchError
    simp only []
    rw [hQ2', hQ2, hQ1, hQ0, e1, e2, e3, e4]
    decide +kernel
  refine C64_sealpir hb h hg he (by rw [e3]) (by rw [e4]; decide) (by rw [e4]; rfl) hf rfl rfl (by rw [e1]; omega) (by rw [hQ2, e3]; decide) ?_ ?_ hi hr
  · exact le_trans (Nat.mul_le_mul_left _ (switchedNoise_mono par (columnNoise_mono par hd1 hl))) hroom
  · exact le_trans (Nat.mul_le_mul_left _ (switchedNoise_mono par (columnNoise_mono par hd2 hl))) hroom

/-- Retrieval of the last of a thousand elements of 256 bytes. -/
example : SealPir.main luckyBuild exPrg (fun a p => (Nat.gcd a p, Nat.gcdA a p % p)) sealPirParams 0 (generateDatabase 1000 256) 999
    ⟨exRng, fun _ => List.replicate 32 7, fun _ _ => exRng, List.replicate 32 7, fun _ => exRng, List.replicate 32 7, exRng⟩ = Res.ok (0xe7 :: 0x03 :: List.replicate 254 0) := by
  obtain ⟨h1, h2, -⟩ := C63_generated 1000 256
  rw [C64_program luckyBuild_ok luckyBuild_lucky exPrg_ok egcdContract_exists 0 (by decide) (by decide) h2 (by rw [h1]; decide) (by rw [h1]; decide)
    ⟨exRng_ok, fun _ => by simp, fun _ _ => exRng_ok, by simp, fun _ => exRng_ok, by simp, exRng_ok⟩]
  refine congrArg _ ?_
  simp only [generateDatabase, List.getElem_map, List.getElem_range]
  decide +kernel

/-- The parameters of MulPIR above have five moduli. -/
example (addr : Nat) (database : List (List Nat)) (index : Nat) (r : Random) (x : List Nat) : SealPir.main luckyBuild g egcd mulPirParams addr database index r ≠ Res.ok x := by
  obtain ⟨par, h⟩ := mulPirParams_build luckyBuild_ok luckyBuild_lucky
  obtain ⟨-, -, -, -, e4⟩ := C31_sound luckyBuild_ok h
  replace e4 : par.moduli = [0x7fffffd8001, 0x7fffffc8001, 0xfffffffc001, 0xffffff6c001, 0xfffffebc001] := (e4.resolve_right fun h => by simp [mulPirParams, setModuli] at h).2
  exact C64_three_moduli luckyBuild_ok h (by rw [e4]; decide) addr database index r x

end Fhe.Props
