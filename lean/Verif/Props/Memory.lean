import Verif.Lemmas.MemoryValue
import Verif.Lemmas.NttNew
import Verif.Props.Ntt
import Verif.Props.Scaler
import Verif.Props.RqCtx
import Verif.Props.RqMore
import Verif.Props.Robust
/-!
# Memory accesses that are not checked (C84)

`Memory.Outcome` has three values: a call returns, panics, or its behaviour is undefined because it accessed memory outside of its operands.
-/
namespace Fhe.Props
open Fhe.Memory (Outcome Array2 matrix)
open Fhe.Spec (RightShape Made MadeContext)

variable {b : Build}

/-- A function that transforms `op.size` values in place, given the address of the first one: it returns exactly if the values are in the
allocation, changes them alone, and computes what the function `g` on vectors computes. -/
def TransformsAt (f : NttOperator → List Nat → Nat → Outcome (List Nat)) (g : NttOperator → List Nat → Release.Timed (List Nat)) (op : NttOperator) : Prop :=
  ∀ (mem : List Nat) (ptr : Nat),
    (ptr + op.size ≤ mem.length → ∃ a, (g op ((mem.drop ptr).take op.size)).result = some a ∧ a.length = op.size ∧
      f op mem ptr = .returned (mem.take ptr ++ a ++ mem.drop (ptr + op.size))) ∧
    (mem.length < ptr + op.size → f op mem ptr = .undefined)

private theorem transformsAt {f : NttOperator → List Nat → Nat → Outcome (List Nat)} {g : NttOperator → List Nat → Release.Timed (List Nat)} {op : NttOperator}
    (h : Memory.Transforms f g op) : TransformsAt f g op := by
  intro mem ptr
  have h := h mem ptr
  constructor
  · intro hl
    rw [if_pos hl] at h
    obtain ⟨a, e1, e2, e3⟩ := h
    exact ⟨a, e1, e2, by rw [e3, Memory.putBack, e2]⟩
  · intro hl
    rwa [if_neg (by omega)] at h

/-- The three transforms in variable time, which take a pointer, for every operator that the constructor makes. -/
theorem C84_transforms {dbg : Bool} {rng : Nat → Nat} {q : Nat} {cfg : Bool} {m : Modulus} (hm : Modulus.new cfg q = some (.ok m)) (hr : ∀ i, rng i < m.p) {size : Nat} {op : NttOperator}
    (h : NttOperator.new dbg rng m size = some (some op)) :
    op.size = size ∧ TransformsAt Memory.forwardVt Release.forwardVt op ∧ TransformsAt Memory.backwardVt Release.backwardVt op ∧ TransformsAt Memory.forwardVtLazy Release.forwardVtLazy op := by
  obtain ⟨n, ω, ωi, hw, -, rfl⟩ := NttOperator.WF_of_new (Modulus.WF_of_new hm).1 hr h
  exact ⟨hw.size, transformsAt (Memory.forwardVt_mem hw), transformsAt (Memory.backwardVt_mem hw), transformsAt (Memory.forwardVtLazy_mem hw)⟩

/-- `RnsScaler::scale` in a release build: undefined behaviour exactly if values are asked for and there are too few moduli for the values asked for or
for the residues given; otherwise it returns what the code without these accesses returns. -/
theorem C84_scale {cfg cfg' : Bool} {ms ms' : List Nat} {src dst : RnsContext} (hs : RnsContext.new cfg ms = some (.ok src)) (hd : RnsContext.new cfg' ms' = some (.ok dst))
    {f : ScalingFactor} {s : RnsScaler} (h : RnsScaler.new src dst f = some s) (rests : List Nat) (size start : Nat) :
    (Memory.scale s rests size start = .undefined ↔ size ≠ 0 ∧ (ms'.length < start + size ∨ ms.length < rests.length)) ∧
    (Memory.scale s rests size start ≠ .undefined → ∃ out, Memory.scale s rests size start = .returned out ∧ out.length = size ∧ (Release.rnsScale s rests size start).result = some out) := by
  obtain ⟨hs, es, -⟩ := RnsContext.WF_of_new hs
  obtain ⟨hd, ed, -⟩ := RnsContext.WF_of_new hd
  have h := Memory.scale_eq (Memory.tables_of_new hs hd h) rests size start
  rw [es, ed] at h
  split at h
  · rename_i hc
    obtain ⟨out, e1, e2, e3⟩ := h
    refine ⟨⟨fun h => ?_, fun h => ?_⟩, fun _ => ⟨out, e1, e2, e3⟩⟩
    · rw [e1] at h; cases h
    · omega
  · rename_i hc
    exact ⟨⟨fun _ => by omega, fun _ => h⟩, fun hne => absurd h hne⟩

/-- Every polynomial that a program makes has one row for each modulus, of the length of the degree. -/
theorem C84_shapes (hb : b.OK) {r : Rep} {p : Poly r} (h : Made b p) : RightShape p := (Memory.made_shape hb h).1

/-- The transforms of such polynomials, in both modes: they return, and the memory then holds the polynomial that the code on vectors computes. -/
theorem C84_polynomials (hb : b.OK) {r : Rep} {p : Poly r} (h : Made b p) :
    (∃ x, (Release.nttForward p).result = some x ∧ RightShape x ∧ Memory.nttForward p.ctx.ops p.vt (matrix p) = .returned (matrix x)) ∧
    (∃ x, (Release.nttBackward p).result = some x ∧ RightShape x ∧ Memory.nttBackward p.ctx.ops p.vt (matrix p) = .returned (matrix x)) := by
  obtain ⟨hp, n, hw⟩ := Memory.made_shape hb h
  obtain ⟨x, e1, e2, -, e3⟩ := Memory.forward_matrix hw hp
  obtain ⟨y, e4, e5, -, e6⟩ := Memory.backward_matrix hw hp
  exact ⟨⟨x, e1, e2, e3⟩, ⟨y, e4, e5, e6⟩⟩

/-- The constant polynomial with lazy coefficients: it never reads outside; a wrong number of values is a panic.  If the checked arithmetic has a
result, the memory holds it. -/
theorem C84_constant (hb : b.OK) {c : Context} (h : MadeContext b c) (v : List Nat) :
    (v.length = c.degree → ∃ mem, Memory.lazyConstant v c = .returned (Array2.standard c.q.length c.degree mem) ∧ mem.length = c.q.length * c.degree ∧
      ∀ x, Poly.constantNttLazyVt v c = some x → RightShape x ∧ Memory.lazyConstant v c = .returned (matrix x)) ∧
    (v.length ≠ c.degree → Memory.lazyConstant v c = .panicked) := by
  obtain ⟨n, hw⟩ := Memory.made_context hb h
  have := Memory.lazyConstant_eq hw v
  split at this
  · rename_i hc
    obtain ⟨mem, e1, e2⟩ := this
    refine ⟨fun _ => ⟨mem, e1, e2, fun x hx => ?_⟩, fun h => absurd hc h⟩
    obtain ⟨e3, -, e4⟩ := Memory.lazyConstant_gives hw hx hc
    exact ⟨e3, e4⟩
  · rename_i hc; exact ⟨fun h => absurd h hc, fun _ => this⟩

/-- Scaling a polynomial calls `RnsScaler::scale` and the transforms within their limits, for every factor and both representations: it returns, and
the memory then holds the polynomial that the code on vectors computes. -/
theorem C84_scale_polynomials (hb : b.OK) {src dst : Context} (hs : MadeContext b src) (hd : MadeContext b dst) {f : ScalingFactor} {s : Scaler}
    (h : Scaler.new src dst f = some (.ok s)) {r : Rep} {p : Poly r} (hp : Made b p) (hc : p.ctx = src) :
    ∃ x, (Release.scale s p).result = some (.ok x) ∧ RightShape x ∧ x.ctx = dst ∧ x.vt = p.vt ∧ Memory.polyScale r s p.vt (matrix p) = .returned (matrix x) := by
  obtain ⟨n, hs⟩ := Memory.made_context hb hs
  obtain ⟨m, hd⟩ := Memory.made_context hb hd
  subst hc
  exact Memory.polyScale_matrix hs hd h (C84_shapes hb hp)

/-- The constructor of polynomials from a matrix rejects matrices with another number of rows or columns, however they are stored; nothing is
accessed. -/
theorem C84_wrong_shape (a : Array2) (c : Context) (vt : Bool) (h : a.rows ≠ c.q.length ∨ a.cols ≠ c.degree) :
    Memory.convertAndTransform a c vt = .returned (.error (.invalidCoefficientShape a.rows a.cols c.q.length c.degree)) := by
  unfold Memory.convertAndTransform Memory.tryFromArray2
  rw [if_pos h]; rfl

/-- A matrix that a program has laid out in memory in another way: the constructor of polynomials accepts it.  Then the transform in variable time
accesses memory outside of the matrix; the other transform panics.  The same values in the usual layout are transformed. -/
theorem C84_layout (hb : b.OK) {c : Context} (h : MadeContext b c) {v : List Nat} (hv : v.length = c.q.length * c.degree) :
    let a := Array2.standard c.q.length c.degree v
    a.Sound ∧ a.reverseColumns.Sound ∧ (∀ i < c.q.length, ∀ j < c.degree, a.reverseColumns.entry i j = a.entry i (c.degree - 1 - j)) ∧
    Memory.tryFromArray2 a.reverseColumns c = .ok a.reverseColumns ∧
    Memory.convertAndTransform a.reverseColumns c true = .undefined ∧ Memory.convertAndTransform a.reverseColumns c false = .panicked ∧
    ∀ vt, ∃ mem, Memory.convertAndTransform a c vt = .returned (.ok (Array2.standard c.q.length c.degree mem)) ∧ mem.length = v.length := by
  obtain ⟨n, hw⟩ := Memory.made_context hb h
  have h8 : 2 ≤ c.degree := by
    rw [hw.level.degree]
    calc 2 = 2 ^ 1 := rfl
      _ ≤ 2 ^ n := Nat.pow_le_pow_right (by omega) (by have := hw.level.three_le; omega)
  have hne : c.ops ≠ [] := hw.level.ne_nil
  have hrev : (Array2.standard c.q.length c.degree v).reverseColumns = ⟨v, (c.degree - 1 : Nat), c.q.length, c.degree, c.degree, -1⟩ := by
    simp [Array2.standard, Array2.reverseColumns]
  have hpos : ∀ i j, (Array2.standard c.q.length c.degree v).pos i j = ((i * c.degree + j : Nat) : Int) := by
    intro i j; simp [Array2.pos, Array2.standard]
  have hposr : ∀ i, ∀ j < c.degree, (Array2.standard c.q.length c.degree v).reverseColumns.pos i j = ((i * c.degree + (c.degree - 1 - j) : Nat) : Int) := by
    intro i j hj
    rw [hrev]
    simp only [Array2.pos]
    push_cast [Nat.sub_sub, Nat.cast_sub (show 1 + j ≤ c.degree by omega), Nat.cast_sub (show 1 ≤ c.degree by omega)]
    ring
  have hin : ∀ i < c.q.length, ∀ j < c.degree, i * c.degree + j < v.length := by
    intro i hi j hj
    rw [hv]
    calc i * c.degree + j < i * c.degree + c.degree := by omega
      _ = (i + 1) * c.degree := by ring
      _ ≤ _ := Nat.mul_le_mul_right _ hi
  have hinj : ∀ i j i' j', j < c.degree → j' < c.degree → i * c.degree + j = i' * c.degree + j' → i = i' ∧ j = j' := by
    intro i j i' j' hj hj' e
    have e1 : (i * c.degree + j) / c.degree = (i' * c.degree + j') / c.degree := by rw [e]
    rw [Nat.add_comm, Nat.add_mul_div_right _ _ (by omega), Nat.div_eq_of_lt hj, Nat.add_comm (i' * _), Nat.add_mul_div_right _ _ (by omega), Nat.div_eq_of_lt hj'] at e1
    have e1 : i = i' := by omega
    subst e1
    exact ⟨rfl, by omega⟩
  have htry : Memory.tryFromArray2 (Array2.standard c.q.length c.degree v).reverseColumns c = .ok (Array2.standard c.q.length c.degree v).reverseColumns := by
    rw [hrev]; unfold Memory.tryFromArray2; rw [if_neg (by simp)]
  have hops : (0 : Nat) + c.ops.length = c.q.length := by rw [Memory.q_length hw, Nat.zero_add]
  refine ⟨⟨fun i hi j hj => ?_, fun i hi j hj i' hi' j' hj' e => ?_⟩, ⟨fun i hi j hj => ?_, fun i hi j hj i' hi' j' hj' e => ?_⟩, fun i hi j hj => ?_, htry, ?_, ?_, fun vt => ?_⟩
  · have := hin i hi j hj
    rw [hpos]
    exact ⟨by omega, by show ((_ : Nat) : Int) < (v.length : Nat); omega⟩
  · rw [hpos, hpos] at e
    exact hinj i j i' j' hj hj' (by exact_mod_cast e)
  · have := hin i hi (c.degree - 1 - j) (by omega)
    rw [hposr i j hj]
    exact ⟨by omega, by show ((_ : Nat) : Int) < (v.length : Nat); omega⟩
  · have hj : j < c.degree := hj
    have hj' : j' < c.degree := hj'
    rw [hposr _ _ hj, hposr _ _ hj'] at e
    obtain ⟨e1, e2⟩ := hinj i (c.degree - 1 - j) i' (c.degree - 1 - j') (by omega) (by omega) (by exact_mod_cast e)
    exact ⟨e1, by omega⟩
  · unfold Array2.entry
    rw [hposr i j hj, hpos, if_pos ⟨hi, hj, by omega⟩, if_pos ⟨hi, show c.degree - 1 - j < c.degree by omega, by omega⟩]
    rfl
  · unfold Memory.convertAndTransform
    rw [htry]
    simp only [Memory.nttForward, if_true]
    rw [hrev, Memory.rowsVt_reversed h8 c.ops (Memory.forward_all hw) 0 v hv (-1) hops hne]
    rfl
  · unfold Memory.convertAndTransform
    rw [htry]
    simp only [Memory.nttForward]
    rw [if_neg (by simp), hrev]
    cases ho : c.ops with
    | nil => exact absurd ho hne
    | cons op ops =>
      rw [ho, List.length_cons] at hops
      unfold Memory.rowsCt
      rw [if_pos (show 0 < c.q.length by omega), if_neg (by simp; omega)]
      rfl
  · have hR : Memory.RowMajor (Array2.standard c.q.length c.degree v) := ⟨rfl, rfl, rfl, by simp [Array2.standard, hv]⟩
    have ht : Memory.tryFromArray2 (Array2.standard c.q.length c.degree v) c = .ok (Array2.standard c.q.length c.degree v) := by
      unfold Memory.tryFromArray2; rw [if_neg (by simp [Array2.standard])]
    unfold Memory.convertAndTransform Memory.nttForward
    rw [ht]
    cases vt
    · obtain ⟨mem, e1, e2⟩ := Memory.rowsCt_shape c.ops 0 _ hR (Memory.forward_all_ct hw)
      refine ⟨mem, ?_, e2⟩
      simp only [if_neg Bool.false_ne_true]
      rw [e1]; rfl
    · obtain ⟨mem, e1, e2⟩ := Memory.rowsVt_shape c.ops 0 _ hR (Memory.forward_all hw)
      refine ⟨mem, ?_, e2⟩
      simp only [if_true]
      rw [e1]; rfl

/-- `dot_product` of polynomials: never undefined, for any operands; and if the model with checks has a result, an error or a polynomial, this is what
is returned. -/
theorem C84_dot (p q : List (Poly .ntt)) :
    Memory.dotProduct p q ≠ .undefined ∧ ∀ r, Poly.dotProduct p q = some r → Memory.dotProduct p q = .returned r :=
  ⟨Memory.dotProduct_ne p q, Memory.dotProduct_gives p q⟩

/-- The multiplication of vectors inside of `dot_product_scalar`: undefined behaviour exactly if an operand is shorter than the accumulator. -/
theorem C84_fma (out x y : List Nat) :
    (Memory.fmaUnchecked out x y = .undefined ↔ x.length < out.length ∨ y.length < out.length) ∧
    (¬ (x.length < out.length ∨ y.length < out.length) → Memory.fmaUnchecked out x y = .returned (List.zipWith (fun o (ab : Nat × Nat) => (o + ab.1 * ab.2 % 2 ^ 128) % 2 ^ 128) out (x.zip y))) := by
  rw [Memory.fmaUnchecked_eq]
  constructor
  · constructor
    · intro h
      by_contra hc
      rw [if_pos (by omega)] at h
      cases h
    · intro h
      rw [if_neg (by omega)]
  · intro h
    rw [if_pos (by omega)]
    rfl

/-- `dot_product_scalar` on ciphertexts and plaintexts whose rows are as long as the degree, as those of all objects are that a program
makes or reads; of any parameters, any numbers of parts and also if they do not fit together.  If the model with checks has a result, an error or a
ciphertext, this is what is returned. -/
theorem C84_dot_scalar {cts : List Ciphertext} {pts : List Plaintext} (hpar : ∀ ct ∈ cts, ∃ b st, Build.OK b ∧ ParamsBuilder.build b st = Res.ok ct.par.toBfvParameters)
    (hc : ∀ ct ∈ cts, ∀ p ∈ ct.c, ∀ row ∈ p.coeffs, row.length = p.ctx.degree) (hp : ∀ pt ∈ pts, ∀ row ∈ pt.polyNtt.coeffs, row.length = pt.polyNtt.ctx.degree) :
    (Memory.dotProductScalar cts pts).run ≠ .undefined ∧ ∀ r, (dotProductScalar cts pts).run = some r → (Memory.dotProductScalar cts pts).run = .returned r :=
  ⟨Memory.dotProductScalar_never (fun ct hct => by
    obtain ⟨b, st, hb, h⟩ := hpar ct hct
    obtain ⟨n, hw, -⟩ := ParamsBuilder.build_inv hb h
    exact ⟨b, n, hw⟩) hc hp, Memory.dotProductScalar_gives cts pts⟩

/-- On usable ciphertexts and on plaintexts, in any numbers and at any levels, the code with unchecked accesses returns exactly what the model with
checks returns. -/
theorem C84_dot_usable {st : ParamsBuilder} {par : Par} (hb : b.OK) (h : ParamsBuilder.build b st = Res.ok par.toBfvParameters) {cts : List Ciphertext} {pts : List Plaintext}
    (hct : ∀ ct ∈ cts, ct.Usable par) (hpt : ∀ pt ∈ pts, ∃ i m, pt.Holds par i m) :
    ∃ r, (dotProductScalar cts pts).run = some r ∧ (Memory.dotProductScalar cts pts).run = .returned r := by
  rcases hr : (dotProductScalar cts pts).run with _ | r
  · exact absurd hr (C67_dot hb h hct hpt).1
  · exact ⟨r, rfl, Memory.dotProductScalar_gives cts pts r hr⟩

/-! ## Concrete cases -/

/-- `C84_transforms`: eight values that start at position 1 of nine are transformed, with one value less the behaviour is undefined. -/
example : ∃ m op, Modulus.new true 17 = some (.ok m) ∧ NttOperator.new true (fun _ => 3) m 8 = some (some op) ∧
    (∃ a, Memory.forwardVt op [16, 1, 2, 3, 4, 5, 6, 7, 8] 1 = .returned (16 :: a)) ∧ Memory.forwardVt op [16, 1, 2, 3, 4, 5, 6, 7] 1 = .undefined := by
  obtain ⟨m, op, hm, h⟩ := witnessNtt true true
  obtain ⟨-, hp, -⟩ := Modulus.WF_of_new hm
  obtain ⟨hs, h1, -⟩ := C84_transforms hm (fun _ => by rw [hp]; norm_num) h
  obtain ⟨a, -, -, e⟩ := (h1 [16, 1, 2, 3, 4, 5, 6, 7, 8] 1).1 (by simp [hs])
  exact ⟨m, op, hm, h, ⟨_, e⟩, (h1 _ _).2 (by simp [hs])⟩

/-- `C84_scale`: from three moduli to three moduli.  Three residues are scaled; with a starting index of 1, or with four residues, the behaviour is
undefined. -/
example : ∃ src dst f sc, RnsContext.new true [4, 15, 1153] = some (.ok src) ∧ RnsContext.new true [7, 13, 907] = some (.ok dst) ∧
    ScalingFactor.new 3 7 = some f ∧ RnsScaler.new src dst f = some sc ∧
    (∃ out, Memory.scale sc [3, 14, 1152] 3 0 = .returned out) ∧ Memory.scale sc [3, 14, 1152] 3 1 = .undefined ∧ Memory.scale sc [3, 14, 1152, 0] 3 0 = .undefined := by
  obtain ⟨src, hs⟩ := witnessRns
  obtain ⟨dst, ht, -⟩ := C19_new_ok (cfg := true) (l := [7, 13, 907]) (by decide) (by decide) (by decide)
  obtain ⟨f, sc, hf, hsc, -⟩ := C21_scale hs ht (by decide) (n := 3) (d := 7) (by decide) (C21_room (by decide) (by decide))
  have hh := C84_scale hs ht hsc
  refine ⟨src, dst, f, sc, hs, ht, hf, hsc, ?_, (hh _ _ _).1.2 (by simp), (hh _ _ _).1.2 (by simp)⟩
  obtain ⟨out, e, -⟩ := (hh [3, 14, 1152] 3 0).2 (by rw [Ne, (hh _ _ _).1]; simp)
  exact ⟨out, e⟩

/-- `C84_layout` and `C84_polynomials` for the context of the moduli 97 and 193 with degree 16. -/
example : ∃ c, MadeContext exBuild c ∧ c.q.length = 2 ∧ c.degree = 16 ∧
    Memory.convertAndTransform (Array2.standard 2 16 (List.range 32)).reverseColumns c true = .undefined := by
  obtain ⟨c, hc⟩ := exContext
  obtain ⟨n, e, hw, hm⟩ := Context.new_inv exBuild_ok hc
  have hq : c.q.length = 2 := by rw [← Memory.moduli_length hw, hm]; rfl
  have hd : c.degree = 16 := by rw [hw.level.degree, ← e]
  have := (C84_layout exBuild_ok (MadeContext.new hc) (v := List.range 32) (by rw [hq, hd]; rfl)).2.2.2.2.1
  rw [hq, hd] at this
  exact ⟨c, .new hc, hq, hd, this⟩
example : ∃ (c : Context) (p x : Poly .powerBasis), MadeContext exBuild c ∧ Made exBuild p ∧ p.vt = true ∧
    Memory.nttForward p.ctx.ops true (matrix p) = .returned (matrix x) := by
  obtain ⟨c, hc⟩ := exContext
  have hp : Made exBuild (Poly.zero .powerBasis c).allowVt := .allowVt (.zero (.new hc))
  obtain ⟨⟨x, -, -, e⟩, -⟩ := C84_polynomials exBuild_ok hp
  exact ⟨c, _, x, .new hc, hp, rfl, e⟩

/-- `C84_dot_scalar`: two encryptions and two plaintexts. -/
example : ∃ (ct : Ciphertext) (pt pt' : Plaintext), ct.c.length = 2 ∧ pt ≠ pt' ∧ (Memory.dotProductScalar [ct, ct] [pt, pt']).run ≠ .undefined := by
  obtain ⟨par, sk, s, pt, pt', m, m', ct, ct', v, v', h, hd, -, -, -, -, -, hp, hp', hm, hm', -, -, -, -, -, -, h2, -, -, hw, -⟩ := exCipher
  refine ⟨ct, pt, pt', h2, fun e => ?_, (C84_dot_scalar (fun c hc => ?_) (fun c hc p hp => ?_) fun p hp => ?_).1⟩
  · subst e
    have := hp.coeffs.symm.trans hp'.coeffs
    rw [hm, hm'] at this
    simp at this
  · obtain rfl : c = ct := by simpa using hc
    exact ⟨luckyBuild, exBuilder, luckyBuild_ok, by rw [hw.par_eq]; exact h⟩
  · obtain rfl : c = ct := by simpa using hc
    exact (hw.valid p hp).1.columns
  · rcases List.mem_pair.1 hp with rfl | rfl
    · exact Plaintext.Holds.valid (by assumption) |>.columns
    · exact Plaintext.Holds.valid (by assumption) |>.columns
/-- `C84_dot_usable`: the dot product of two ciphertexts with two plaintexts is computed. -/
example : ∃ (ct ct' : Ciphertext) (pt pt' : Plaintext) (r : Ciphertext), pt ≠ pt' ∧ (Memory.dotProductScalar [ct, ct'] [pt', pt]).run = .returned (.ok r) := by
  obtain ⟨par, sk, s, pt, pt', m, m', ct, ct', v, v', h, hd, ht, hm, hrel, hk, hs, e2, e2', em, em', f1, f1', f2, f2', f3, f3', f4, f4', f5, f6, h0, hvar⟩ := exCipher
  obtain ⟨r, g1, -⟩ := C49_sum luckyBuild_ok h (K := 2) (ct := ![ct, ct']) (pt := ![pt', pt]) (m := ![m, m']) (m' := ![m', m]) (v := ![v, v']) (L := 2) (i := 0) (s := s) (by omega)
    (by intro k; match k with | 0 => exact f2 | 1 => exact f2') (by intro k; match k with | 0 => exact e2' | 1 => exact e2) (by intro k; match k with | 0 => exact f4 | 1 => exact f4')
  refine ⟨ct, ct', pt, pt', r, fun e => ?_, Memory.dotProductScalar_gives _ _ _ (by have := congrArg ExceptT.run g1; simp at this; exact this)⟩
  subst e
  have := e2.coeffs.symm.trans e2'.coeffs
  rw [em, em'] at this
  simp at this

/-- `C84_scale_polynomials`: switching down by hand, in both representations. -/
example : ∃ c c' F s, MadeContext exBuild c ∧ MadeContext exBuild c' ∧ ScalingFactor.new 1 193 = some F ∧ Scaler.new c c' F = some (.ok s) ∧
    ∀ r, ∃ p x : Poly r, Made exBuild p ∧ Memory.polyScale r s p.vt (matrix p) = .returned (matrix x) := by
  obtain ⟨c, hc⟩ := exContext
  obtain ⟨t, -, h2⟩ := (C22_level exBuild_ok hc 1).1 (by simp)
  obtain ⟨F, s, h3, h4, -⟩ := C57_scale exBuild_ok hc h2 (by simp) (num := 1) (den := 193) (by norm_num) (by
    unfold Spec.scalerRoom
    refine (Nat.add_le_add (List.sum_le_card_nsmul _ 193 ?_) (show _ ≤ 290 by split <;> simp)).trans ?_
    · intro x hx
      obtain ⟨y, hy, rfl⟩ := List.mem_map.1 hx
      have := (List.of_mem_zip hy).1
      simp at this
      split <;> omega
    · have : (([97, 193] : List Nat).zip c.rns.garner).length ≤ 2 := by simp
      simp only [List.length_map, smul_eq_mul]
      omega)
  refine ⟨c, t, F, s, .new hc, .new h2, h3, h4, fun r => ?_⟩
  have hp : Made exBuild (Poly.zero r c).allowVt := .allowVt (.zero (.new hc))
  obtain ⟨x, -, -, -, -, e⟩ := C84_scale_polynomials exBuild_ok (.new hc) (.new h2) h4 hp rfl
  exact ⟨_, x, hp, e⟩
/-- `C84_fma`. -/
example (out x y : List Nat) (h : x.length = 3 ∧ y.length = 4 ∧ out.length = 4) : Memory.fmaUnchecked out x y = .undefined := (C84_fma out x y).1.2 (by omega)

end Fhe.Props
