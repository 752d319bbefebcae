import Verif.Spec.HashOrder
import Verif.Props.Identify
import Verif.Props.Sizes
import Verif.Props.BfvSer
/-!
# Property C94: nothing depends on the order of hash tables, except the bytes of an evaluation key

An evaluation key keeps its Galois keys and the exponents of its rotations in hash tables, which the standard library iterates in an order that
changes from run to run.  Whatever that order, the key answers every call alike, equals the same keys, and is read back from its bytes as an
equal key.  Its bytes have the same length in every order, but two different orders always give different bytes: serialization of an evaluation
key with two Galois keys or more is not reproducible.
-/
namespace Fhe.Props
open Nega Poly ParamsBuilder Wire

variable {b : Build} {par : Par} {st : ParamsBuilder} {g : Prg}

/-- Entries under distinct keys are found whatever their order. -/
theorem lookup_perm {α : Type} {m m' : List (Nat × α)} (hp : m'.Perm m) (hn : (m.map Prod.fst).Nodup) (x : Nat) : m'.lookup x = m.lookup x := by
  have hn' : (m'.map Prod.fst).Nodup := (hp.map Prod.fst).nodup_iff.2 hn
  cases e : m.lookup x with
  | some v => exact lookup_of_mem (x := (x, v)) hn' (hp.mem_iff.2 (mem_of_lookup e))
  | none =>
    cases e' : m'.lookup x with
    | none => rfl
    | some v =>
      rw [lookup_of_mem (x := (x, v)) hn (hp.mem_iff.1 (mem_of_lookup e'))] at e
      cases e

theorem rot_nodup (hb : b.OK) (h : build b st = Res.ok par.toBfvParameters) {k : EvaluationKey} (hk : k.WellFormed b g par) : (k.rot.map Prod.fst).Nodup := by
  obtain ⟨n, hw, -⟩ := build_inv hb h
  have := hk.rot
  rw [EvaluationKey.constructRot_eq hw, Option.some_inj] at this
  rw [← this, List.map_map]
  exact List.Nodup.map (fun x y e => by simpa using e) List.nodup_range

theorem innerLoop_congr {k k' : EvaluationKey} (hg : k'.getKey = k.getKey) (hr : ∀ x, k'.rot.lookup x = k.rot.lookup x) : ∀ is out tmp, k'.innerLoop is out tmp = k.innerLoop is out tmp
  | [], _, _ => rfl
  | i :: is, out, tmp => by
    unfold EvaluationKey.innerLoop
    rw [hr i, hg]
    cases k.rot.lookup i with
    | none => rfl
    | some exponent => simp only [innerLoop_congr hg hr is]

theorem expandLoop_congr {k k' : EvaluationKey} (hg : k'.getKey = k.getKey) (hp : k'.par = k.par) (hm : k'.monomials = k.monomials) {size : Nat} :
    ∀ left l out sub, k'.expandLoop size left l out sub = k.expandLoop size left l out sub
  | 0, _, _, _ => rfl
  | left + 1, l, out, sub => by
    unfold EvaluationKey.expandLoop
    rw [hm, hg, hp]
    cases k.monomials[l]? with
    | none => rfl
    | some m => simp only [expandLoop_congr hg hp hm left]

/-- C94: an evaluation key answers every call alike, with the same value, the same error or the same panic, whatever the order of its hash tables. -/
theorem C94_operations (hb : b.OK) (h : build b st = Res.ok par.toBfvParameters) {k k' : EvaluationKey} (hk : k.WellFormed b g par) (hs : k.SameTables k') :
    k'.supportsInnerSum = k.supportsInnerSum ∧ k'.supportsRowRotation = k.supportsRowRotation ∧ (∀ i, k'.supportsColumnRotationBy i = k.supportsColumnRotationBy i) ∧
      (∀ level, k'.supportsExpansion level = k.supportsExpansion level) ∧ (∀ ct, k'.computesInnerSum ct = k.computesInnerSum ct) ∧ (∀ ct, k'.rotatesRows ct = k.rotatesRows ct) ∧
      (∀ ct i, k'.rotatesColumnsBy ct i = k.rotatesColumnsBy ct i) ∧ ∀ ct size, k'.expands ct size = k.expands ct size := by
  have hgk := lookup_perm hs.gk hk.nodup
  have hrot := lookup_perm hs.rot (rot_nodup hb h hk)
  have hget : k'.getKey = k.getKey := funext fun x => by unfold EvaluationKey.getKey; rw [hgk x]
  have hval : k'.validateCiphertext = k.validateCiphertext := funext fun ct => by unfold EvaluationKey.validateCiphertext; rw [hs.par, hs.ciphertextLevel]
  have h1 : k'.supportsInnerSum = k.supportsInnerSum := by unfold EvaluationKey.supportsInnerSum; simp only [hgk, hrot, hs.par]
  have h2 : k'.supportsRowRotation = k.supportsRowRotation := by unfold EvaluationKey.supportsRowRotation; rw [hgk, hs.par]
  have h3 : ∀ i, k'.supportsColumnRotationBy i = k.supportsColumnRotationBy i := fun i => by unfold EvaluationKey.supportsColumnRotationBy; simp only [hgk, hrot]
  have h4 : ∀ level, k'.supportsExpansion level = k.supportsExpansion level := fun level => by unfold EvaluationKey.supportsExpansion; simp only [hgk, hs.par, hs.keyLevel]
  refine ⟨h1, h2, h3, h4, fun ct => ?_, fun ct => ?_, fun ct i => ?_, fun ct size => ?_⟩
  · unfold EvaluationKey.computesInnerSum
    simp only [hval, h1, innerLoop_congr hget hrot, hget, hs.par]
  · unfold EvaluationKey.rotatesRows
    simp only [hval, h2, hget, hs.par]
  · unfold EvaluationKey.rotatesColumnsBy
    simp only [hval, h3, hget, hs.par, hrot]
  · unfold EvaluationKey.expands
    simp only [hval, h4, expandLoop_congr hget hs.par hs.monomials, hs.par]

/-- C94: whatever the order of its hash tables, an evaluation key equals the same keys, on either side of `==`. -/
theorem C94_equal (hb : b.OK) (h : build b st = Res.ok par.toBfvParameters) {k k' : EvaluationKey} (hk : k.WellFormed b g par) (hs : k.SameTables k') (x : EvaluationKey) :
    k'.beq x = k.beq x ∧ x.beq k' = x.beq k := by
  have hgk := lookup_perm hs.gk hk.nodup
  have hrot := lookup_perm hs.rot (rot_nodup hb h hk)
  have hfst : ∀ {α : Type} (eq : α → α → Bool) {m m' y : List (Nat × α)}, m'.Perm m → mapBeq eq m' y = mapBeq eq m y := fun {α} eq {m m' y} hp => by
    unfold mapBeq
    rw [hp.length_eq, hp.all_eq]
  have hsnd : ∀ {α : Type} (eq : α → α → Bool) {m m' y : List (Nat × α)}, m'.length = m.length → (∀ x, m'.lookup x = m.lookup x) → mapBeq eq y m' = mapBeq eq y m := fun {α} eq {m m' y} hl hp => by
    unfold mapBeq
    simp only [hl, hp]
  constructor
  · unfold EvaluationKey.beq
    rw [hs.par, hs.ciphertextLevel, hs.keyLevel, hs.monomials, hfst _ hs.gk, hfst _ hs.rot]
  · unfold EvaluationKey.beq
    rw [hs.par, hs.ciphertextLevel, hs.keyLevel, hs.monomials, hsnd _ hs.gk.length_eq hgk, hsnd _ hs.rot.length_eq hrot]

/-- A computation that succeeds on every entry of a list succeeds on the list in every order. -/
theorem mapM_perm {α β : Type} {f : α → Res β} {xs ys : List α} {l : List β} (hp : ys.Perm xs) (h : xs.mapM f = Res.ok l) : ∃ l', ys.mapM f = Res.ok l' ∧ l'.Perm l := by
  have hall : ∀ {xs : List α} {l : List β}, xs.mapM f = Res.ok l → ∀ x ∈ xs, ∃ y, f x = Res.ok y := by
    intro xs
    induction xs with
    | nil => exact fun _ x hx => by cases hx
    | cons x xs ih =>
      intro l e y hy
      rw [List.mapM_cons] at e
      obtain ⟨v, e1, e2⟩ := Res.bind_eq_ok.1 e
      obtain ⟨vs, e3, -⟩ := Res.bind_eq_ok.1 e2
      rcases List.mem_cons.1 hy with rfl | hy
      · exact ⟨v, e1⟩
      · exact ih e3 y hy
  cases xs with
  | nil => rw [hp.eq_nil]; exact ⟨l, h, .refl _⟩
  | cons x0 xs0 =>
    obtain ⟨y0, -⟩ := hall h x0 (by simp)
    have hch : ∀ x, ∃ y, x ∈ x0 :: xs0 → f x = Res.ok y := fun x => by
      by_cases hx : x ∈ x0 :: xs0
      · obtain ⟨y, hy⟩ := hall h x hx
        exact ⟨y, fun _ => hy⟩
      · exact ⟨y0, fun e => absurd e hx⟩
    choose F hF using hch
    have hmap : ∀ zs : List α, (∀ z ∈ zs, z ∈ x0 :: xs0) → zs.mapM f = Res.ok (zs.map F) := by
      intro zs
      induction zs with
      | nil => exact fun _ => rfl
      | cons z zs ih =>
        intro hz
        rw [List.mapM_cons, hF z (hz z (by simp)), Res.ok_bind, ih fun y hy => hz y (List.mem_cons_of_mem _ hy), Res.ok_bind, Res.pure_eq, List.map_cons]
    rw [hmap _ fun z hz => hz, Res.ok_inj] at h
    rw [← h]
    exact ⟨_, hmap ys fun z hz => hp.mem_iff.1 hz, hp.map F⟩

/-- C94: in whatever order the set of exponents is iterated, the builder makes the same key, with its hash tables in another order. -/
theorem C94_build {bd : EvaluationKeyBuilder} {seeds : Nat → Seed} {rngs : Nat → Nat → Nat → Nat} {k : EvaluationKey} {set order : List Nat} (hi : bd.indices = Res.ok set) (ho : order.Perm set)
    (hk : bd.build b g seeds rngs = Res.ok k) : ∃ k', EvaluationKeyBuilder.buildIn order b g bd seeds rngs = Res.ok k' ∧ k.SameTables k' := by
  unfold EvaluationKeyBuilder.build at hk
  rw [hi, Res.ok_bind] at hk
  obtain ⟨ctx, e1, hk⟩ := Res.bind_eq_ok.1 hk
  obtain ⟨ms, e2, hk⟩ := Res.bind_eq_ok.1 hk
  obtain ⟨gk, e3, hk⟩ := Res.bind_eq_ok.1 hk
  rw [Res.pure_eq, Res.ok_inj] at hk
  obtain ⟨gk', f1, f2⟩ := mapM_perm ho e3
  refine ⟨{ k with gk := gk' }, ?_, ⟨rfl, rfl, rfl, ?_, .refl _, rfl⟩⟩
  · unfold EvaluationKeyBuilder.buildIn
    rw [e1, Res.ok_bind, e2, Res.ok_bind, f1, Res.ok_bind, Res.pure_eq, ← hk]
  · rw [← hk]; exact f2

/-- What a computation on the entries of a list does to a part of them it does to the list of these parts. -/
theorem mapM_map {α β γ : Type} {f : α → Option β} {p : β → γ} {q : α → γ} : ∀ {xs : List α} {ys : List β}, xs.mapM f = some ys → (∀ x ∈ xs, ∀ y, f x = some y → p y = q x) → ys.map p = xs.map q
  | [], ys, h, _ => by
    rw [List.mapM_nil, Option.pure_def, Option.some_inj] at h
    rw [← h]; rfl
  | x :: xs, ys, h, hf => by
    rw [List.mapM_cons] at h
    obtain ⟨v, e1, e2⟩ := Option.bind_eq_some_iff.1 h
    obtain ⟨vs, e3, e4⟩ := Option.bind_eq_some_iff.1 e2
    rw [Option.pure_def, Option.some_inj] at e4
    rw [← e4, List.map_cons, List.map_cons, hf x (by simp) v e1, mapM_map e3 fun y hy => hf y (List.mem_cons_of_mem _ hy)]

/-- C94: whatever the order of its hash tables, an evaluation key is written as the same number of bytes, and read from them as an equal key.  The
bytes themselves are the same exactly if the order of the Galois keys is. -/
theorem C94_bytes (hb : b.OK) (h : build b st = Res.ok par.toBfvParameters) (hm : par.moduli.length ≤ 1024) {k k' : EvaluationKey} (hk : k.WellFormed b g par) (hs : k.SameTables k') :
    ∃ bytes bytes' r, k.toBytes = some bytes ∧ k'.toBytes = some bytes' ∧ bytes'.length = bytes.length ∧ EvaluationKey.fromBytes b g bytes' par = Res.ok r ∧ k.beq r = true ∧
      (bytes' = bytes ↔ k'.gk = k.gk) := by
  obtain ⟨n, hw, -⟩ := build_inv hb h
  have h32 : par.moduli.length ≤ 2 ^ 32 := by omega
  have hgk := lookup_perm hs.gk hk.nodup
  -- the other key with the first table of rotations
  have hk' : ({ k' with rot := k.rot } : EvaluationKey).WellFormed b g par :=
    ⟨hs.par.trans hk.par_eq, by rw [hs.ciphertextLevel]; exact hk.lt, by rw [hs.keyLevel]; exact hk.key, (hs.gk.map Prod.fst).nodup_iff.2 hk.nodup, fun x gk hx => by
      rw [hs.ciphertextLevel, hs.keyLevel]
      exact hk.gk x gk (by rw [← hgk x]; exact hx), hk.rot, by rw [hs.ciphertextLevel, hs.monomials]; exact hk.monomials⟩
  obtain ⟨bytes, e1, e2⟩ := C79_evaluation hb h h32 hk
  obtain ⟨bytes', e1', e2'⟩ := C79_evaluation hb h h32 hk'
  obtain ⟨bytes'', r, f1, -, f2, f3, f4, f5, f6, f7, f8, f9, -⟩ := C62_evaluation hb h hm hk'
  rw [e1', Option.some_inj] at f1
  subst f1
  refine ⟨bytes, bytes', r, e1, e1', ?_, f2, ?_, ?_⟩
  · rw [e2, e2']
    unfold Sizes.evaluationKey
    simp only [hs.ciphertextLevel, hs.keyLevel]
    rw [((hs.gk.map _).map _).sum_eq]
  · refine evaluation_beq hb h hk f9 (by rw [f4]; exact hs.ciphertextLevel.symm) (by rw [f5]; exact hs.keyLevel.symm) fun x => ?_
    rw [← hgk x]
    rcases f8 x with ⟨g1, g2⟩ | ⟨gk, gk', g1, g2, g3, g4⟩
    · rw [g1, show k'.gk.lookup x = none from g2]; exact .none
    · rw [g2, show k'.gk.lookup x = some gk from g1]
      refine .some (C75_equivalence.2.2.2.1.symm ?_)
      unfold GaloisKey.beq
      simp [g3, g4]
  · refine ⟨fun e => ?_, fun e => ?_⟩
    · obtain ⟨msg, m1, m2, -⟩ := evaluation_codec hb h hm hk
      obtain ⟨msg', m1', m2', -⟩ := evaluation_codec hb h hm hk'
      have d1 : bytes = Wire.encode (EvaluationKey.toFields msg) := by
        unfold EvaluationKey.toBytes at e1
        rw [m1] at e1
        exact (Option.some_inj.1 e1).symm
      have d2 : bytes' = Wire.encode (EvaluationKey.toFields msg') := by
        unfold EvaluationKey.toBytes at e1'
        rw [m1'] at e1'
        exact (Option.some_inj.1 e1').symm
      rw [← d1] at m2
      rw [← d2, e, m2, Option.some_inj] at m2'
      have hfst : ∀ {k : EvaluationKey} {msg}, k.WellFormed b g par → k.toMsg = some msg → msg.gk.map Prod.fst = k.gk.map Prod.fst := by
        intro k msg hk e
        unfold EvaluationKey.toMsg at e
        obtain ⟨ms, m1, m2⟩ := Option.bind_eq_some_iff.1 e
        rw [Option.pure_def, Option.some_inj] at m2
        rw [← m2]
        refine mapM_map m1 fun x hx y hy => ?_
        obtain ⟨c1, c2, -⟩ := hk.gk x.1 x.2 (lookup_of_mem hk.nodup hx)
        unfold GaloisKey.toMsg at hy
        obtain ⟨z, -, z2⟩ := Option.bind_eq_some_iff.1 hy
        rw [Option.pure_def, Option.some_inj] at z2
        have hd := hw.degree
        have := c1.range.2
        have hle : (2 : Nat) ^ n ≤ 2 ^ 16 := Nat.pow_le_pow_right (by omega) hw.le_16
        rw [← z2, c2]
        exact Nat.mod_eq_of_lt (by rw [← c2]; omega)
      have hl : k'.gk.map Prod.fst = k.gk.map Prod.fst := by
        rw [← hfst hk m1, ← hfst hk' m1', m2']
      refine List.ext_getElem hs.gk.length_eq fun i h1 h2 => ?_
      have hx : (k'.gk[i]).1 = (k.gk[i]).1 := by
        have := List.getElem_of_eq hl (i := i) (by simpa using h1)
        simpa using this
      have g1 := lookup_of_mem hk.nodup (hs.gk.mem_iff.1 (List.getElem_mem h1))
      rw [hx, lookup_of_mem hk.nodup (List.getElem_mem h2), Option.some_inj] at g1
      exact Prod.ext hx g1.symm
    · unfold EvaluationKey.toBytes EvaluationKey.toMsg at e1 e1'
      simp only [e, hs.ciphertextLevel, hs.keyLevel] at e1'
      rw [e1, Option.some_inj] at e1'
      exact e1'.symm

/-- C94: the predefined parameters and their order do not depend on the order of the hash table they are made from. -/
theorem C94_defaults {table : List (Nat × List Nat)} (ht : table.Perm defaultTable) (bits : Nat) : defaultParametersIn table b bits = defaultParameters128 b bits := by
  have hsort : (table.mergeSort fun x y => decide (x.1 ≤ y.1)) = defaultTable := by
    refine List.Perm.eq_of_pairwise (le := fun x y => x.1 ≤ y.1) (fun x y hx hy h1 h2 => ?_) ?_ (by unfold defaultTable; decide) ((List.mergeSort_perm _ _).trans ht)
    · have hx := ((List.mergeSort_perm _ _).trans ht).mem_iff.1 hx
      have hn : (defaultTable.map Prod.fst).Nodup := by unfold defaultTable; decide
      exact List.inj_on_of_nodup_map hn hx hy (le_antisymm h1 h2)
    · have := List.pairwise_mergeSort (le := fun x y : Nat × List Nat => decide (x.1 ≤ y.1)) (fun a b c h1 h2 => by simp only [decide_eq_true_eq] at *; omega)
        (fun a b => by simp only [Bool.or_eq_true, decide_eq_true_eq]; omega) table
      exact this.imp fun h => by simpa using h
  unfold defaultParametersIn defaultParameters128
  rw [hsort]

example : defaultTable.reverse.Perm defaultTable ∧ defaultTable.reverse ≠ defaultTable := ⟨List.reverse_perm _, by unfold defaultTable; decide⟩

/-- The theorems apply: a key for row rotations and rotations of columns by 1 holds two Galois keys, whose two orders are written as different
bytes of the same length, and either is read as a key equal to the first. -/
example : ∃ (par : Par) (k k' : EvaluationKey) (bytes bytes' : List Nat) (r : EvaluationKey), build luckyBuild exBuilder = Res.ok par.toBfvParameters ∧ k.WellFormed luckyBuild exPrg par ∧
    k.SameTables k' ∧ k.supportsRowRotation = true ∧ k.supportsColumnRotationBy 1 = true ∧ k.toBytes = some bytes ∧ k'.toBytes = some bytes' ∧ bytes' ≠ bytes ∧ bytes'.length = bytes.length ∧
    EvaluationKey.fromBytes luckyBuild exPrg bytes' par = Res.ok r ∧ k.beq r = true := by
  obtain ⟨par, sk, s, pt, pt', m, m', ct, ct', v, v', h, hd, ht, hm, hrel, hk, -⟩ := exCipher
  have hb := luckyBuild_ok
  obtain ⟨n, hw, -⟩ := build_inv hb h
  have h64 : par.moduli.length ≤ 64 := by rw [hm]; decide
  obtain ⟨bd, bd', k, c1, c2, c3, c4⟩ := C55_evaluation_generated (i := 0) (j := 0) hb h h64 hk exPrg_ok (by rw [hm]; decide) (by omega) [.rows, .columns 1] (seeds := fun _ => List.replicate 32 3)
    (fun _ => rfl) (rngs := fun _ _ => exRng) (fun _ _ => exRng_ok)
  obtain ⟨bd1, bd1', k1, d1, d2, d3, -, d4, -, d5, -, d6, -⟩ := C50_build (i := 0) (j := 0) hb h h64 hk exPrg_ok (by rw [hm]; decide) (by omega) [.rows, .columns 1] (fun _ => List.replicate 32 3)
    (rngs := fun _ _ => exRng) (fun _ _ => exRng_ok)
  rw [c1, Res.ok_inj] at d1
  subst d1
  rw [c2, Option.some_inj] at d2
  subst d2
  rw [c3, Res.ok_inj] at d3
  subst d3
  have hs : k.SameTables { k with gk := k.gk.reverse } := ⟨rfl, rfl, rfl, k.gk.reverse_perm, .refl _, rfl⟩
  obtain ⟨bytes, bytes', r, e1, e2, e3, e4, e5, e6⟩ := C94_bytes hb h (by rw [hm]; decide) c4 hs
  have hr : k.supportsRowRotation = true := d5.2 (.inl (by simp))
  have hc : k.supportsColumnRotationBy 1 = true := d6 1 (by simp) (by omega) (by rw [hd]; decide)
  refine ⟨par, k, _, bytes, bytes', r, h, c4, hs, hr, hc, e1, e2, fun e => ?_, e3, e4, e5⟩
  -- the two exponents differ, so the list is not its own reverse
  have hrev : k.gk.reverse = k.gk := e6.1 e
  have hreq := fun x => (d4 x).2
  obtain ⟨v1, g1⟩ := Option.isSome_iff_exists.1 (hreq (2 * par.degree - 1) (by unfold Requested; simp))
  obtain ⟨v2, g2⟩ := Option.isSome_iff_exists.1 (hreq (3 ^ 1 % (2 * par.degree)) (by unfold Requested; simp [hd]))
  rw [hd] at g1 g2
  obtain ⟨i, hi, i1⟩ := List.getElem_of_mem (mem_of_lookup g1)
  obtain ⟨j, hj, j1⟩ := List.getElem_of_mem (mem_of_lookup g2)
  have hnd : k.gk.Nodup := List.Nodup.of_map _ c4.nodup
  have hone : k.gk.length = 1 := by
    have := List.getElem_of_eq hrev (i := 0) (by simp; omega)
    rw [List.getElem_reverse, hnd.getElem_inj_iff] at this
    omega
  have hij : i = j := by omega
  subst hij
  rw [i1] at j1
  simp at j1

end Fhe.Props
