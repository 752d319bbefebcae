import Verif.Lemmas.OtherModuli
import Verif.Props.BfvCipher
/-!
# Bytes written for other moduli

The bytes of a polynomial do not tell the moduli; the reader only compares the number of bytes.
-/
namespace Fhe.Props
open Nega Poly ParamsBuilder

variable {b : Build} {r : Rep} {c c' : Context} {moduli moduli' : List Nat} {N : Nat}

/-- C89: bytes of a polynomial written for the same degree and other moduli, each with as many bits, are accepted, as the polynomial with the same residues modulo the other moduli.  In the
power basis the residues are taken as they are, even if they are not below the modulus. -/
theorem C89_poly (hb : b.OK) (hc' : Context.new b moduli' N = some (.ok c')) (hc : Context.new b moduli N = some (.ok c)) (hbits : moduli'.map Sizes.bits = moduli.map Sizes.bits) (hN : N ≤ 2 ^ 31)
    (hL : moduli'.length * (8 * N) ≤ 2 ^ 63) {p : Poly r} {f : c'.Elem} (hp : Represents c' p f) :
    ∃ bytes q, p.toBytes = some bytes ∧ Poly.fromBytes r bytes c = some (.ok q) ∧ q.ctx = c ∧ q.vt = false ∧ (r ≠ .powerBasis → Reread c' c p q) ∧ (r = .powerBasis → q.coeffs = p.coeffs) := by
  obtain ⟨n', hd', hw', hm'⟩ := Context.new_inv hb hc'
  obtain ⟨n, hd, hw, hm⟩ := Context.new_inv hb hc
  have hD' : c'.degree = N := by rw [hw'.level.degree, hd']
  have hD : c.degree = N := by rw [hw.level.degree, hd]
  have hn : n' ≤ 31 := by rw [hd'] at hN; exact (Nat.pow_le_pow_iff_right (by norm_num)).1 hN
  obtain ⟨bytes, e1, e2, e3⟩ := Poly.fromBytes_sizes (r := r) (vt := p.vt) hw hw' hn (by rw [hm', hD']; exact hL) (by rw [hm, hm']; exact hbits) (by rw [hD, hD']) f
  have he := (represents_iff hw').1 hp
  rw [← he] at e1
  by_cases hr : r = .powerBasis
  · refine ⟨bytes, _, e1, e2 hr, rfl, rfl, fun h => absurd hr h, fun _ => ?_⟩
    subst hr
    rw [he]
    rfl
  · obtain ⟨g, g1, g2⟩ := e3 hr
    refine ⟨bytes, _, e1, g1, rfl, rfl, fun _ => ?_, fun h => absurd h hr⟩
    rw [he]
    exact g2 false

/-- C89: bytes of a polynomial, of any degree, whose moduli together have another number of bits are refused. -/
theorem C89_poly_refused {N' : Nat} (hb : b.OK) (hc' : Context.new b moduli' N' = some (.ok c')) (hc : Context.new b moduli N = some (.ok c))
    (hbits : (moduli'.map Sizes.bits).sum ≠ (moduli.map Sizes.bits).sum) (hN : N' ≤ 2 ^ 31) (hL : moduli'.length * (8 * N') ≤ 2 ^ 63) {p : Poly r} {f : c'.Elem} (hp : Represents c' p f) :
    ∃ bytes, p.toBytes = some bytes ∧ Poly.fromBytes r bytes c = some (.error (.serialization 3)) := by
  obtain ⟨n', hd', hw', hm'⟩ := Context.new_inv hb hc'
  obtain ⟨n, hd, hw, hm⟩ := Context.new_inv hb hc
  have hD' : c'.degree = N' := by rw [hw'.level.degree, hd']
  have hn : n' ≤ 31 := by rw [hd'] at hN; exact (Nat.pow_le_pow_iff_right (by norm_num)).1 hN
  obtain ⟨bytes, e1, e2⟩ := Poly.fromBytes_bits (r := r) (vt := p.vt) hw hw' hn (by rw [hm', hD']; exact hL) (by rw [hm, hm']; exact hbits) f
  rw [← (represents_iff hw').1 hp] at e1
  exact ⟨bytes, e1, e2⟩

variable {st st' : ParamsBuilder} {par par' : Par} {g : Prg} {ct : Ciphertext}

/-- C89: the same for ciphertexts at any level: the moduli left at the level decide. -/
theorem C89_ciphertext (hb : b.OK) (h' : build b st' = Res.ok par'.toBfvParameters) (h : build b st = Res.ok par.toBfvParameters) (hm : par'.moduli.length = par.moduli.length) (hd : par'.degree = par.degree)
    (h32 : par.moduli.length ≤ 2 ^ 32) (hg : g.OK) (hct : ct.WellFormed g par') :
    ∃ c c' bytes, par'.contextAtLevel ct.level = Res.ok c' ∧ par.contextAtLevel ct.level = Res.ok c ∧ ct.toBytes = some bytes ∧
      ((par'.moduli.take (par.moduli.length - ct.level)).map Sizes.bits = (par.moduli.take (par.moduli.length - ct.level)).map Sizes.bits →
        ∃ ps last, Ciphertext.fromBytes g bytes par = Res.ok { par, seed := ct.seed, c := ps ++ last, level := ct.level } ∧
        List.Forall₂ (fun p q => Reread c' c p q ∧ q.vt = true) (if ct.seed = none then ct.c else ct.c.dropLast) ps ∧
        (match ct.seed with | none => last = [] | some seed => ∃ p, g.poly .ntt c seed = some p ∧ last = [p.allowVt])) ∧
      (((par'.moduli.take (par.moduli.length - ct.level)).map Sizes.bits).sum ≠ ((par.moduli.take (par.moduli.length - ct.level)).map Sizes.bits).sum →
        Ciphertext.fromBytes g bytes par = Res.err (.math (.serialization 3))) := by
  obtain ⟨n, hw, -⟩ := build_inv hb h
  obtain ⟨n', hw', -⟩ := build_inv hb h'
  obtain ⟨p, hp⟩ := List.exists_mem_of_ne_nil ct.c (by intro h0; have := hct.parts; rw [h0] at this; simp at this)
  obtain ⟨l', ha', -⟩ := AtLevel.ofContext hw' (hct.valid p hp).2
  obtain ⟨l, ha⟩ := AtLevel.ofLt hw (i := ct.level) (by rw [← hm]; exact ha'.lt)
  obtain ⟨bytes, e1, e2, e3⟩ := Ciphertext.fromBytes_moduli hw hw' hg hm hd h32 hct ha ha'
  rw [ha.moduli, ha'.moduli, hm] at e2 e3
  exact ⟨l.ctx, l'.ctx, bytes, ha'.contextAt, ha.contextAt, e1, e2, e3⟩

/-- Three pairs of moduli for degree 8. -/
def exPairs (i : Fin 3) : List Nat := [[97, 193], [113, 241], [97, 113]].getD i []

theorem exPairs_par (i : Fin 3) : ∃ par : Par, build luckyBuild { degree := 8, plaintext := 17, variance := 1, moduli := exPairs i } = Res.ok par.toBfvParameters ∧ par.degree = 8 ∧ par.moduli = exPairs i ∧
    par.plaintext.value = 17 ∧ par.modulusAt 0 = (exPairs i).prod := by
  have hprime : ∀ i : Fin 3, ∀ q ∈ exPairs i, q.Prime := by
    intro i q hq
    have : q = 97 ∨ q = 193 ∨ q = 113 ∨ q = 241 := by
      fin_cases i <;> simp [exPairs] at hq <;> omega
    rcases this with rfl | rfl | rfl | rfl <;> norm_num
  have hlen : ∀ i : Fin 3, (exPairs i).length = 2 := by decide
  have hsize : ∀ i : Fin 3, ∀ q ∈ exPairs i, q < 2 ^ 61 := by decide
  replace hlen := hlen i
  replace hsize := hsize i
  have hv : ValidParams 8 1 17 (exPairs i) :=
    { pow_two := ⟨3, by norm_num, by norm_num, rfl⟩, variance_range := by decide, plaintext := Or.inl (by decide), nodup := by clear hlen hsize; revert i; decide, range := by clear hlen hsize; revert i; decide, prime := hprime i,
      ntt := by clear hlen hsize; revert i; decide, lt := by clear hlen hsize; revert i; decide,
      coprime := by clear hlen hsize; revert i; decide }
  obtain ⟨par, h⟩ : ∃ par, build luckyBuild { degree := 8, plaintext := 17, variance := 1, moduli := exPairs i } = Res.ok par := by
    refine C31_complete luckyBuild_ok luckyBuild_lucky rfl hv (by show (exPairs i).length ≤ 31; omega) fun l hl => ?_
    by_contra hc
    push Not at hc
    exact enough_primes (n := 3) (by norm_num) (moduli := exPairs i) (by omega) hsize (l := l) (by have hl' : l.length ≤ (exPairs i).length := hl; omega) fun p h1 h2 => hc p h1 h2
  obtain ⟨-, e1, -, e3, e2 | e2⟩ := C31_sound luckyBuild_ok h
  swap
  · exact absurd e2.1 (by intro h0; have h0' : exPairs i = [] := h0; rw [h0'] at hlen; simp at hlen)
  have hm : par.moduli = exPairs i := e2.2
  refine ⟨{ toBfvParameters := par, addr := 0 }, h, e1, hm, e3, ?_⟩
  unfold BfvParameters.modulusAt
  show (par.moduli.take (par.moduli.length - 0)).prod = _
  rw [hm, Nat.sub_zero, List.take_length]

/-- A ciphertext encrypted with the moduli 97 and 193 is accepted by a program that works with 113 and 241, and refused with 97 and 113. -/
example : ∃ (par par1 par2 : Par) (ct : Ciphertext) (bytes : List Nat), par.moduli = [97, 193] ∧ par1.moduli = [113, 241] ∧ par2.moduli = [97, 113] ∧ ct.toBytes = some bytes ∧ ct.par = par ∧
    (∃ p s q c c', ct.c = [p, s] ∧ Ciphertext.fromBytes exPrg bytes par1 = Res.ok { par := par1, seed := ct.seed, c := q, level := 0 } ∧ q.length = 2 ∧ Reread c' c p (q.headD p)) ∧
    Ciphertext.fromBytes exPrg bytes par2 = Res.err (.math (.serialization 3)) := by
  have hb := luckyBuild_ok
  obtain ⟨par, h, hd, hm, ht, h0⟩ := exPairs_par 0
  obtain ⟨par1, h1, hd1, hm1, -⟩ := exPairs_par 1
  obtain ⟨par2, h2, hd2, hm2, -⟩ := exPairs_par 2
  replace h0 : par.modulusAt 0 = 18721 := h0
  obtain ⟨sk, s, -, hk, hs⟩ := C37_secret_key hb h exRng_ok
  obtain ⟨m, -, e1, ⟨pt, -, e2, -⟩, -⟩ := C35_poly hb h (level := 0) (by rw [hm]; decide) (by rw [h0, ht]; decide) (v := [1, 2, 16]) (by rw [hd]; decide) (by rw [ht]; decide)
  obtain ⟨ct, v, f1, f2, f3, f4, f5, f6⟩ := C37_encrypt hb h hk exPrg_ok (by rw [h0, ht]; decide) e2 (seed := List.replicate 32 7) rfl exRng_ok
  obtain ⟨c, c', bytes, -, -, a1, a2, -⟩ := C89_ciphertext hb h h1 (by rw [hm, hm1]; decide) (by rw [hd, hd1]) (by rw [hm1]; decide) exPrg_ok f6
  obtain ⟨_, _, bytes', -, -, b1, -, b2⟩ := C89_ciphertext hb h h2 (by rw [hm, hm2]; decide) (by rw [hd, hd2]) (by rw [hm2]; decide) exPrg_ok f6
  obtain rfl : bytes = bytes' := by rw [a1] at b1; exact Option.some.inj b1
  rw [hm, hm1, f2.level_eq] at a2
  rw [hm, hm2, f2.level_eq] at b2
  obtain ⟨ps, last, g1, g2, g3⟩ := a2 (by decide)
  refine ⟨par, par1, par2, ct, bytes, hm, hm1, hm2, a1, f2.par_eq, ?_, b2 (by decide)⟩
  have hs' : ct.seed ≠ none := by rw [f5]; simp
  match hc : ct.c, f4 with
  | [p, s], _ =>
    rw [if_neg hs', hc] at g2
    cases g2 with
    | cons a1 a2 =>
      cases a2
      rw [f5] at g1 g3
      obtain ⟨w, -, rfl⟩ := g3
      refine ⟨p, s, _, c, c', rfl, by rw [f5]; exact g1, rfl, ?_⟩
      exact a1.1

end Fhe.Props
